import Verif.Proofs.Header
import Verif.Spec.Example
/-!
# C01 – C07: the header format
-/
namespace Volaris.Props
open Spec

/-- **C01.** Serializing a V5 header succeeds, and reading the bytes back from any position of any file, with any data
after them, gives the same header (the reader fills the unused salt field with zeros), leaves the position exactly
behind the header and changes nothing else.  Under an arbitrary I/O schedule a successful read gives the same. -/
theorem C01_header_roundtrip_v5 (hd : Header) (ok : OkV5 hd) :
    ∃ bytes, hd.serialize = .ok bytes ∧
      ∀ (w : World) (h : Nat) (tail : Bytes), StandsAt w h bytes tail →
        (w.sched = [] → ∃ aad w',
          deserialize h w = (.ok ({ hd with salt := some (List.replicate 16 0) }, aad), w') ∧
          (w'.fd h).pos = (w.fd h).pos + bytes.length ∧ OnlyMoved h w w') ∧
        (∀ hd' aad w', deserialize h w = (.ok (hd', aad), w') →
          hd' = { hd with salt := some (List.replicate 16 0) } ∧
          (w'.fd h).pos = (w.fd h).pos + bytes.length) := by
  obtain ⟨hv, hn, ks, hk, hl, hs⟩ := ok
  rcases hd with ⟨t, nonce, salt, kso⟩
  simp only at hv hn hk hs
  subst hk
  refine ⟨bytesV5 t nonce ks, serialize_v5 hv rfl hl, ?_⟩
  intro w h tail hst
  have hlen := bytesV5_length hn hl hs
  have hi := bytesV5_isHeader hv hn hl hs tail
  rw [← show w.rest h = bytesV5 t nonce ks ++ tail from hst] at hi
  constructor
  · intro hsn
    refine ⟨_, _, deserialize_isHeader hsn hi, ?_, OnlyMoved.of_setPos rfl⟩
    simp [hv, headerSize, hlen]
  · intro hd' aad w' he
    rcases deserialize_cases h w with ⟨hd2, aad2, w2, he2, hi2, hc⟩ | ⟨e, w2, p, he2, _⟩
    · rw [he] at he2
      simp only [Prod.mk.injEq, Res.ok.injEq] at he2
      obtain ⟨⟨rfl, rfl⟩, rfl⟩ := he2
      obtain ⟨rfl, _⟩ := isHeader_unique hi2 hi
      refine ⟨rfl, ?_⟩
      rw [World.fd_of_core hc]
      simp [hv, headerSize, hlen]
    · rw [he] at he2; simp at he2

example : OkV5 Example.headerV5 := Example.headerV5_ok
example : StandsAt ((Example.world1 ([5, 6] ++ [1, 2, 3] ++ [4])).setPos 0 2) 0 [1, 2, 3] [4] := rfl

/-- **C02.** V4: serializing succeeds and reading back gives the same type, nonce, keyslot contents and salt (the hash
of the only keyslot is not stored; V4 implies BLAKE3-Balloon 4). -/
theorem C02_header_roundtrip_v4 (hd : Header) (ok : OkV4 hd) :
    ∃ bytes k, hd.serialize = .ok bytes ∧ hd.keyslots = some [k] ∧
      ∀ (w : World) (h : Nat) (tail : Bytes), StandsAt w h bytes tail → w.sched = [] →
        ∃ aad w', deserialize h w =
          (.ok ({ hd with salt := some k.salt
                          keyslots := some [{ k with hashAlgorithm := .blake3Balloon 4 }] }, aad), w') ∧
          (w'.fd h).pos = (w.fd h).pos + bytes.length ∧ OnlyMoved h w w' := by
  obtain ⟨hv, hn, k, hk, hs, hsalt⟩ := ok
  rcases hd with ⟨t, nonce, salt, kso⟩
  simp only at hv hn hk hs hsalt
  subst hk
  have hgs : salt.getD k.salt = k.salt := by rcases hsalt with rfl | rfl <;> rfl
  refine ⟨bytesV4 t nonce k.salt k, k, ?_, rfl, ?_⟩
  · have := serialize_v4 (h := { headerType := t, nonce, salt, keyslots := some [k] }) hv rfl
    simpa [hgs] using this
  intro w h tail hst hsn
  have hlen := bytesV4_length (t := t) hn hs.salt hs.key hs.nonce
  have hi := bytesV4_isHeader hv hn hs.salt hs.key hs.nonce tail
  rw [← show w.rest h = bytesV4 t nonce k.salt k ++ tail from hst] at hi
  refine ⟨_, _, deserialize_isHeader hsn hi, ?_, OnlyMoved.of_setPos rfl⟩
  simp [hv, headerSize, hlen]

example : OkV4 Example.headerV4 := Example.headerV4_ok

/-- **C02.** V3: serializing succeeds and reading back gives the same type, nonce and salt. -/
theorem C02_header_roundtrip_v3 (hd : Header) (ok : OkV3 hd) :
    ∃ bytes, hd.serialize = .ok bytes ∧
      ∀ (w : World) (h : Nat) (tail : Bytes), StandsAt w h bytes tail → w.sched = [] →
        ∃ aad w', deserialize h w = (.ok ({ hd with keyslots := none }, aad), w') ∧
          (w'.fd h).pos = (w.fd h).pos + bytes.length ∧ OnlyMoved h w w' := by
  obtain ⟨hv, hn, salt, hsalt, hs⟩ := ok
  rcases hd with ⟨t, nonce, salt', kso⟩
  simp only at hv hn hsalt hs
  subst hsalt
  refine ⟨bytesV3 t nonce salt, serialize_v3 hv rfl, ?_⟩
  intro w h tail hst hsn
  have hlen := bytesV3_length (t := t) hn hs
  have hi := bytesV3_isHeader hv hn hs tail
  rw [← show w.rest h = bytesV3 t nonce salt ++ tail from hst] at hi
  refine ⟨_, _, deserialize_isHeader hsn hi, ?_, OnlyMoved.of_setPos rfl⟩
  simp [hv, headerSize, hlen]

example : OkV3 Example.headerV3 := Example.headerV3_ok

/-- **C02.** V1 and V2 headers are never serialized: always an error (not a panic). -/
theorem C02_old_not_serializable (hd : Header)
    (hv : hd.headerType.version = .v1 ∨ hd.headerType.version = .v2) :
    hd.serialize = .err .deprecated ∧ hd.createAad = .err .deprecated ∧
    ∀ (w : World) (h : Nat), hd.write h w = (.err .deprecated, w) := by
  refine ⟨?_, ?_, ?_⟩
  · rcases hv with hv | hv <;> simp [Header.serialize, hv]
  · rcases hv with hv | hv <;> simp [Header.createAad, hv]
  · intro w h
    rcases hv with hv | hv <;> simp [Header.write, Header.serialize, hv, Prog.bind_run]

example : ({ Example.headerV3 with
    headerType := { version := .v1, algorithm := .aes256Gcm, mode := .streamMode } } : Header).headerType.version
      = .v1 := rfl

/-- **C02.** V1 and V2 headers can be read: the fields are where the format puts them, whatever the unused
bytes contain. -/
theorem C02_old_readable (a : Algorithm) (m : Mode) (salt nonce unused pad tail : Bytes)
    (hs : salt.length = 16) (hn : nonce.length = nonceLength a m) (hu : unused.length = 16)
    (hp : pad.length = 26 - nonceLength a m) (w : World) (h : Nat) (hsn : w.sched = []) :
    (StandsAt w h (versionCode .v1 ++ algorithmCode a ++ modeCode m ++ salt ++ unused ++ nonce ++ pad) tail →
      ∃ w', deserialize h w =
        (.ok ({ headerType := { version := .v1, algorithm := a, mode := m }, nonce, salt := some salt,
                keyslots := none }, []), w') ∧ (w'.fd h).pos = (w.fd h).pos + 64 ∧ OnlyMoved h w w') ∧
    (StandsAt w h (versionCode .v2 ++ algorithmCode a ++ modeCode m ++ salt ++ nonce ++ pad ++ unused) tail →
      ∃ w', deserialize h w =
        (.ok ({ headerType := { version := .v2, algorithm := a, mode := m }, nonce, salt := some salt,
                keyslots := none }, []), w') ∧ (w'.fd h).pos = (w.fd h).pos + 64 ∧ OnlyMoved h w w') := by
  have h24 := nonceLength_le a m
  have htag : ∀ v, versionCode v ++ algorithmCode a ++ modeCode m =
      ({ version := v, algorithm := a, mode := m } : HeaderType).tag := by
    intro v; cases v <;> cases a <;> cases m <;> rfl
  constructor
  · intro hst
    rw [htag] at hst
    have hp1 := parseHeader_v13 (t := { version := .v1, algorithm := a, mode := m }) (z := unused) (pad := pad)
      (.inl rfl) hn hs hu hp
    have hlen : (({ version := .v1, algorithm := a, mode := m } : HeaderType).tag ++ salt ++ unused ++ nonce
      ++ pad).length = 64 := by simp [hs, hn, hu, hp]; omega
    have hi := isHeader_append (isHeader_of_parse hp1
      (by rw [List.append_assoc, List.append_assoc, List.append_assoc, (parseHeader_tag _ _).1]
          exact parseVersion_serialize _) (by rw [hlen]; rfl)).2 (by rw [hlen]; rfl) tail
    rw [← show w.rest h = _ from hst] at hi
    exact ⟨_, deserialize_isHeader hsn hi, by simp [headerSize], OnlyMoved.of_setPos rfl⟩
  · intro hst
    rw [htag] at hst
    have hp1 := parseHeader_v2 (t := { version := .v2, algorithm := a, mode := m }) (z := unused) (pad := pad)
      rfl hn hs hu hp
    have hlen : (({ version := .v2, algorithm := a, mode := m } : HeaderType).tag ++ salt ++ nonce ++ pad
      ++ unused).length = 64 := by simp [hs, hn, hu, hp]; omega
    have hi := isHeader_append (isHeader_of_parse hp1
      (by rw [List.append_assoc, List.append_assoc, List.append_assoc, (parseHeader_tag _ _).1]
          exact parseVersion_serialize _) (by rw [hlen]; rfl)).2 (by rw [hlen]; rfl) tail
    rw [← show w.rest h = _ from hst] at hi
    exact ⟨_, deserialize_isHeader hsn hi, by simp [headerSize], OnlyMoved.of_setPos rfl⟩

example : StandsAt (Example.world1 (versionCode .v1 ++ algorithmCode .aes256Gcm ++ modeCode .streamMode
    ++ List.replicate 16 1 ++ List.replicate 16 2 ++ List.replicate 8 3 ++ List.replicate 18 4 ++ [9])) 0
    (versionCode .v1 ++ algorithmCode .aes256Gcm ++ modeCode .streamMode
    ++ List.replicate 16 1 ++ List.replicate 16 2 ++ List.replicate 8 3 ++ List.replicate 18 4) [9] := rfl

/-- **C03.** What is written has exactly `get_size()` bytes, the size the format prescribes. -/
theorem C03_size_written (hd : Header) (ok : Writable hd) :
    ∃ bytes, hd.serialize = .ok bytes ∧ bytes.length = hd.getSize ∧
      hd.getSize = headerSize hd.headerType.version := by
  refine ⟨(hd.serialize.bind Res.ok : Res HdrErr Bytes) |> fun r => match r with | .ok b => b | _ => [], ?_⟩
  rcases ok with ⟨hv, hn, salt, hsalt, hs⟩ | ⟨hv, hn, k, hk, hs, hsalt⟩ | ⟨hv, hn, ks, hk, hl, hs⟩
  · rw [serialize_v3 hv hsalt]
    exact ⟨rfl, by simp [Res.bind, bytesV3_length hn hs, Header.getSize, hv, HeaderVersion.size],
      by simp [Header.getSize, size_eq]⟩
  · rw [serialize_v4 hv hk]
    have hgs : (hd.salt.getD k.salt).length = 16 := by
      rcases hsalt with h | h <;> simp [h, hs.salt]
    exact ⟨rfl, by simp [Res.bind, bytesV4_length hn hgs hs.key hs.nonce, Header.getSize, hv,
      HeaderVersion.size], by simp [Header.getSize, size_eq]⟩
  · rw [serialize_v5 hv hk hl]
    exact ⟨rfl, by simp [Res.bind, bytesV5_length hn hl hs, Header.getSize, hv, HeaderVersion.size],
      by simp [Header.getSize, size_eq]⟩

example : Writable Example.headerV5 := .inr (.inr Example.headerV5_ok)

/-- **C03.** What is read advances the reader by exactly `get_size()` of the header that was read, on every
source and under every schedule. -/
theorem C03_size_read (w w' : World) (h : Nat) (hd : Header) (aad : Bytes)
    (he : deserialize h w = (.ok (hd, aad), w')) :
    (w'.fd h).pos = (w.fd h).pos + hd.getSize ∧ hd.getSize = headerSize hd.headerType.version := by
  rcases deserialize_cases h w with ⟨hd2, aad2, w2, he2, hi2, hc⟩ | ⟨e, w2, p, he2, _⟩
  · rw [he] at he2
    simp only [Prod.mk.injEq, Res.ok.injEq] at he2
    obtain ⟨⟨rfl, rfl⟩, rfl⟩ := he2
    rw [World.fd_of_core hc]
    simp [Header.getSize, size_eq]
  · rw [he] at he2; simp at he2

example : ∃ hd aad w', deserialize 0 (Example.world1
    (bytesV5 Example.headerV5.headerType Example.headerV5.nonce [Example.slotA, Example.slotB] ++ [1])) =
      (.ok (hd, aad), w') := by
  have hi := bytesV5_isHeader (t := Example.headerV5.headerType) (nonce := Example.headerV5.nonce)
    (ks := [Example.slotA, Example.slotB]) rfl rfl (by decide)
    (by intro k hk; simp only [List.mem_cons, List.not_mem_nil, or_false] at hk
        rcases hk with rfl | rfl
        · exact Example.slotA_ok
        · exact Example.slotB_ok) [1]
  exact ⟨_, _, _, deserialize_isHeader (w := Example.world1 _) (h := 0) rfl (by simpa [World.rest, World.data, Example.world1, Example.world] using hi)⟩

/-- **C04.** The associated data computed while encrypting is the one obtained by reading the written header. -/
theorem C04_aad_agrees (hd : Header) (ok : Writable hd) :
    ∃ bytes aad, hd.serialize = .ok bytes ∧ hd.createAad = .ok aad ∧
      ∀ (w : World) (h : Nat) (tail : Bytes), StandsAt w h bytes tail →
        (w.sched = [] → ∃ hd' w', deserialize h w = (.ok (hd', aad), w')) ∧
        (∀ hd' aad' w', deserialize h w = (.ok (hd', aad'), w') → aad' = aad) := by
  have key : ∃ bytes aad hd', hd.serialize = .ok bytes ∧ hd.createAad = .ok aad ∧
      ∀ tail, IsHeader (bytes ++ tail) hd' aad := by
    rcases ok with ⟨hv, hn, salt, hsalt, hs⟩ | ⟨hv, hn, k, hk, hs, hsalt⟩ | ⟨hv, hn, ks, hk, hl, hs⟩
    · refine ⟨_, _, _, serialize_v3 hv hsalt, ?_, fun tail => bytesV3_isHeader hv hn hs tail⟩
      have := serialize_v3 hv hsalt
      rw [Header.serialize, hv] at this
      rw [Header.createAad, hv]
      exact this
    · have hgs : (hd.salt.getD k.salt).length = 16 := by
        rcases hsalt with h | h <;> simp [h, hs.salt]
      refine ⟨_, _, _, serialize_v4 hv hk, ?_, fun tail => bytesV4_isHeader hv hn hgs hs.key hs.nonce tail⟩
      simp [Header.createAad, hv, hk, Header.padding, Header.padding2, getNonceLen_eq]
    · refine ⟨_, _, _, serialize_v5 hv hk hl, ?_, fun tail => bytesV5_isHeader hv hn hl hs tail⟩
      simp [Header.createAad, hv, Header.padding, getNonceLen_eq]
  obtain ⟨bytes, aad, hd2, h1, h2, h3⟩ := key
  refine ⟨bytes, aad, h1, h2, ?_⟩
  intro w h tail hst
  have hi := h3 tail
  rw [← show w.rest h = _ from hst] at hi
  constructor
  · intro hsn; exact ⟨_, _, deserialize_isHeader hsn hi⟩
  · intro hd' aad' w' he
    rcases deserialize_cases h w with ⟨hd3, aad3, w3, he3, hi3, hc⟩ | ⟨e, w3, p, he3, _⟩
    · rw [he] at he3
      simp only [Prod.mk.injEq, Res.ok.injEq] at he3
      obtain ⟨⟨rfl, rfl⟩, rfl⟩ := he3
      exact (isHeader_unique hi3 hi).2
    · rw [he] at he3; simp at he3

example : Writable Example.headerV4 := .inr (.inl Example.headerV4_ok)

/-- **C05.** V5: the associated data does not depend on the keyslots (nor on the salt field); it always exists.
On the reading side: two headers whose first 32 bytes agree have the same associated data. -/
theorem C05_aad_ignores_keyslots_v5 (hd : Header) (hv : hd.headerType.version = .v5)
    (ks : Option (List Keyslot)) (salt : Option Bytes) :
    (∃ aad, hd.createAad = .ok aad) ∧
    ({ hd with keyslots := ks, salt := salt } : Header).createAad = hd.createAad ∧
    ∀ (bs bs' : Bytes) (hd' : Header) (aad aad' : Bytes), IsHeader bs hd aad → IsHeader bs' hd' aad' →
      bs.take 32 = bs'.take 32 → aad = aad' := by
  refine ⟨⟨hd.headerType.tag ++ hd.nonce ++ hd.padding, by simp [Header.createAad, hv]⟩,
    by simp [Header.createAad, hv, Header.padding], ?_⟩
  intro bs bs' hd' aad aad' hi hi' he
  have hv1 := isHeader_version hi
  have hv2 := isHeader_version hi'
  have : bs.take 2 = bs'.take 2 := by
    have := congrArg (List.take 2) he
    simpa [List.take_take] using this
  rw [this, hv2, hv] at hv1
  have hv' := Option.some.inj hv1
  rw [hi.aad, hi'.aad, hv, hv']
  simpa [slice] using he

example : Example.headerV5.headerType.version = .v5 ∧
    ∃ bs hd aad, IsHeader bs hd aad ∧ hd.headerType.version = .v5 :=
  ⟨rfl, _, _, _, bytesV5_isHeader (t := Example.headerV5.headerType) (nonce := Example.headerV5.nonce)
    (ks := []) rfl rfl (by decide) (by simp) [], rfl⟩

/-- **C05.** V4: the associated data does not depend on the encrypted master key nor its nonce. -/
theorem C05_aad_ignores_master_key_v4 (hd : Header) (hv : hd.headerType.version = .v4) (k k' : Keyslot)
    (hk : hd.keyslots = some [k]) (hs : k'.salt = k.salt) :
    (∃ aad, hd.createAad = .ok aad) ∧
    ({ hd with keyslots := some [k'] } : Header).createAad = hd.createAad := by
  simp [Header.createAad, hv, hk, hs, Header.padding, Header.padding2]

example : Example.headerV4.headerType.version = .v4 ∧ Example.headerV4.keyslots = some [Example.slotA] ∧
    ({ Example.slotA with encryptedKey := List.replicate 48 0 } : Keyslot).salt = Example.slotA.salt :=
  ⟨rfl, rfl, rfl⟩

/-- **C06.** Reading a header from arbitrary bytes, at any position, under any I/O schedule: never panics or hangs, changes
nothing but the position of the handle; on success it advanced by exactly the header size of the version, and the header
describes the bytes that were there, with correctly sized fields. -/
theorem C06_deserialize_safe (w : World) (h : Nat) :
    (∀ a, (deserialize h w).1 ≠ .abort a) ∧
    OnlyMoved h w (deserialize h w).2 ∧
    ∀ hd aad, (deserialize h w).1 = .ok (hd, aad) →
      ((deserialize h w).2.fd h).pos = (w.fd h).pos + headerSize hd.headerType.version ∧
      IsHeader ((w.file (w.fd h).ino).drop (w.fd h).pos) hd aad ∧
      hd.nonce.length = nonceLength hd.headerType.algorithm hd.headerType.mode ∧
      ∀ ks, hd.keyslots = some ks → ks.length ≤ 4 ∧ ∀ k ∈ ks, SlotOk hd.headerType.algorithm k := by
  rcases deserialize_cases h w with ⟨hd, aad, w', he, hi, hc⟩ | ⟨e, w', p, he, hc⟩
  · rw [he]
    refine ⟨by simp, OnlyMoved.of_setPos hc, ?_⟩
    intro hd' aad' hok
    simp only [Res.ok.injEq, Prod.mk.injEq] at hok
    obtain ⟨rfl, rfl⟩ := hok
    exact ⟨by simp [World.fd_of_core hc], hi, isHeader_sized hi⟩
  · rw [he]
    exact ⟨by simp, OnlyMoved.of_setPos hc, by simp⟩

example : (deserialize 0 ({ Example.world1 [0xDE, 5, 1] with sched := [.intr, .short 1, .full, .fail] })).1 =
    .err (.io .other) := by decide

/-- **C07.** Without I/O faults, reading succeeds exactly when the bytes are a header according to the format,
and gives exactly what the format says. -/
theorem C07_accepts_iff (w : World) (h : Nat) (hs : w.sched = []) (hd : Header) (aad : Bytes) :
    (deserialize h w).1 = .ok (hd, aad) ↔
      IsHeader ((w.file (w.fd h).ino).drop (w.fd h).pos) hd aad := by
  constructor
  · exact fun he => ((C06_deserialize_safe w h).2.2 hd aad he).2.1
  · intro hi; rw [deserialize_isHeader hs hi]

/-- **C07.** The failing cases: too few bytes are an I/O error, an unknown version is reported as such. -/
theorem C07_rejects (w : World) (h : Nat) (hs : w.sched = []) (bs : Bytes)
    (hbs : (w.file (w.fd h).ino).drop (w.fd h).pos = bs) :
    (bs.length < 2 → (deserialize h w).1 = .err (.io .unexpectedEof)) ∧
    (2 ≤ bs.length → (∀ v, bs.take 2 ≠ versionCode v) → (deserialize h w).1 = .err .version) ∧
    (∀ v, bs.take 2 = versionCode v → bs.length < headerSize v →
      (deserialize h w).1 = .err (.io .unexpectedEof)) := by
  have hr : w.rest h = bs := hbs
  subst hr
  refine ⟨?_, ?_, ?_⟩
  · intro hl
    obtain ⟨w', e⟩ := deserialize_nil_short hs hl
    rw [e]
  · intro hl hv
    rw [deserialize_nil_version hs hl]
    cases hp : parseVersion ((w.rest h).take 2) with
    | none => rfl
    | some v => exact absurd ((parseVersion_iff _ _).1 hp) (hv v)
  · intro v hv hl
    have h2 : 2 ≤ (w.rest h).length := by
      have := congrArg List.length hv
      simp at this; omega
    obtain ⟨w', e⟩ := deserialize_nil_eof hs h2 ((parseVersion_iff _ _).2 hv) (by rw [size_eq]; exact hl)
    rw [e]

/-- Not every byte string is a header, and one with an unsupported keyslot identifier is not. -/
example : ¬ ∃ hd aad, IsHeader (versionCode .v5 ++ algorithmCode .aes256Gcm ++ modeCode .streamMode
    ++ List.replicate 26 0 ++ [0xDF, 0x00] ++ List.replicate 382 0) hd aad := by
  rintro ⟨hd, aad, hi⟩
  have := (C07_accepts_iff (Example.world1 (versionCode .v5 ++ algorithmCode .aes256Gcm ++ modeCode .streamMode
    ++ List.replicate 26 0 ++ [0xDF, 0x00] ++ List.replicate 382 0)) 0 rfl hd aad).2 hi
  revert this
  have : (deserialize 0 (Example.world1 (versionCode .v5 ++ algorithmCode .aes256Gcm ++ modeCode .streamMode
    ++ List.replicate 26 0 ++ [0xDF, 0x00] ++ List.replicate 382 0))).1 = .err .keyslotHash := by decide +kernel
  rw [this]; simp

end Volaris.Props
