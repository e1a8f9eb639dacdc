import Verif.Proofs.Decrypt
import Verif.Model.Tools.Encrypt
namespace Volaris
open Spec

@[simp] theorem tape_length (w : World) (i n : Nat) : (tape w i n).length = n := by simp [tape]

theorem tape_range (w : World) (i n : Nat) : (List.range n).map (fun j => w.rng (j + i)) = tape w i n := by
  simp [tape, Nat.add_comm]

/-- `w` with the random tape advanced by `n` bytes. -/
def World.draw (w : World) (n : Nat) : World := { w with rng := fun i => w.rng (i + n) }

theorem World.draw_draw (w : World) (m n : Nat) : (w.draw m).draw n = w.draw (m + n) := by
  simp only [World.draw, Nat.add_assoc, Nat.add_comm n m]

theorem tape_draw (w : World) (m i n : Nat) : tape (w.draw m) i n = tape w (m + i) n := by
  simp only [tape, World.draw]
  apply List.map_congr_left
  intro j _
  congr 1; omega

theorem genBytes_draw {ε : Type} (n : Nat) (w : World) :
    (genBytes n : Prog ε Bytes) w = (.ok (tape w 0 n), w.draw n) := by
  rw [genBytes_run]; simp [tape, World.draw]

@[simp] theorem World.draw_file (w : World) (n : Nat) : (w.draw n).file = w.file := rfl
@[simp] theorem World.draw_fd (w : World) (n : Nat) : (w.draw n).fd = w.fd := rfl
@[simp] theorem World.draw_sched (w : World) (n : Nat) : (w.draw n).sched = w.sched := rfl
@[simp] theorem World.draw_dir (w : World) (n : Nat) : (w.draw n).dir = w.dir := rfl
@[simp] theorem World.draw_log (w : World) (n : Nat) : (w.draw n).log = w.log := rfl

/-! ### Preparing the header -/

/-- What `prepare` makes of the random tape. -/
def freshSlot (req : Encrypt.Request) (w : World) (ek : Bytes) : Keyslot where
  hashAlgorithm := req.hashingAlgorithm
  encryptedKey := ek
  nonce := tape w 48 (nonceLength req.headerType.algorithm .memoryMode)
  salt := tape w 0 16

def freshHeader (req : Encrypt.Request) (w : World) (ek : Bytes) : Header where
  headerType := req.headerType
  nonce := tape w (48 + nonceLength req.headerType.algorithm .memoryMode)
    (nonceLength req.headerType.algorithm req.headerType.mode)
  salt := none
  keyslots := some [freshSlot req w ek]

theorem prepare_eq (C : Crypto) (hC : C.Lawful) (req : Encrypt.Request) (w : World) :
    (∃ hk ek, HashesTo C req.hashingAlgorithm req.rawKey (tape w 0 16) hk ∧
      C.enc req.headerType.algorithm hk (tape w 48 (nonceLength req.headerType.algorithm .memoryMode)) []
        (tape w 16 32) = some ek ∧ req.headerType.mode = .streamMode ∧ ek.length = 48 ∧
      Encrypt.prepare C req w = (.ok (freshHeader req w ek,
        { algorithm := req.headerType.algorithm, key := tape w 16 32, pre := (freshHeader req w ek).nonce, position := 0 }),
        w.draw (48 + nonceLength req.headerType.algorithm .memoryMode +
          nonceLength req.headerType.algorithm req.headerType.mode))) ∨
    (∃ e n, Encrypt.prepare C req w = (.err e, w.draw n) ∧
      ¬ (req.headerType.mode = .streamMode ∧ ∃ hk ek, HashesTo C req.hashingAlgorithm req.rawKey (tape w 0 16) hk ∧
        C.enc req.headerType.algorithm hk (tape w 48 (nonceLength req.headerType.algorithm .memoryMode)) []
        (tape w 16 32) = some ek)) := by
  unfold Encrypt.prepare
  rw [Prog.bind_ok (show (genSalt : Prog Encrypt.Error Bytes) w = _ from genBytes_draw _ w)]
  cases hh : req.hashingAlgorithm.hash C req.rawKey (tape w 0 SALT_LEN) with
  | abort a => exact absurd hh (hash_returns C _ _ _ a)
  | err e =>
    right
    rw [Prog.bind_run]
    simp only [Prog.lift_run, Res.mapErr_err]
    refine ⟨_, _, rfl, ?_⟩
    rintro ⟨_, hk, ek, h, _⟩
    rw [hash_ok.2 (show HashesTo C req.hashingAlgorithm req.rawKey (tape w 0 SALT_LEN) hk from h)] at hh
    simp at hh
  | ok hk =>
    have hto := hash_ok.1 hh
    have hl := hto.len hC
    rw [Prog.bind_run]
    simp only [Prog.lift_run, Res.mapErr_ok]
    rw [Prog.bind_run]
    simp only [Cipher.initialize, hl, if_true, Prog.lift_run, Res.mapErr_ok]
    rw [Prog.bind_ok (show (genMasterKey : Prog Encrypt.Error Bytes) _ = _ from genBytes_draw _ _)]
    rw [Prog.bind_ok (show (genNonce _ _ : Prog Encrypt.Error Bytes) _ = _ from genBytes_draw _ _)]
    rw [Prog.bind_run]
    simp only [World.draw_draw, tape_draw, Prog.lift_run, Cipher.encrypt, tape_length, ne_eq, not_true, if_false,
      getNonceLen_eq]
    have e1 : SALT_LEN + MASTER_KEY_LEN + 0 = 48 := rfl
    have e2 : SALT_LEN + 0 = 16 := rfl
    have e3 : MASTER_KEY_LEN = 32 := rfl
    rw [e1, e2, e3]
    cases hec : C.enc req.headerType.algorithm hk
        (tape w 48 (nonceLength req.headerType.algorithm .memoryMode)) [] (tape w 16 32) with
    | none =>
      right
      refine ⟨_, _, rfl, ?_⟩
      rintro ⟨_, hk', ek, h, h2⟩
      have := hto.unique h
      subst this
      rw [hec] at h2; simp at h2
    | some ek =>
      have hel : ek.length = 48 := by rw [hC.enc_len _ _ _ _ _ _ hec]; simp
      simp only [Res.ofOption_some, Res.mapErr_ok]
      rw [Prog.bind_ok (show (genNonce _ _ : Prog Encrypt.Error Bytes) _ = _ from genBytes_draw _ _)]
      rw [Prog.bind_run]
      simp only [World.draw_draw, tape_draw, Prog.lift_run, getNonceLen_eq, encInitialize, tape_length]
      have e4 : SALT_LEN + 32 + nonceLength req.headerType.algorithm .memoryMode + 0
        = 48 + nonceLength req.headerType.algorithm .memoryMode := rfl
      rw [e4]
      cases hm : req.headerType.mode with
      | memoryMode =>
        right
        rw [if_pos (by cases req.headerType.algorithm <;> simp [nonceLength])]
        exact ⟨_, _, rfl, by simp⟩
      | streamMode =>
        left
        rw [if_neg (by cases req.headerType.algorithm <;> simp [nonceLength])]
        refine ⟨hk, ek, hto, hec, rfl, hel, ?_⟩
        simp only [if_true, Res.mapErr_ok, Prog.pure_run]
        rw [vecToArr_id (n := ENCRYPTED_MASTER_KEY_LEN) hel]
        simp only [freshHeader, freshSlot, hm]
        rfl

theorem freshSlot_ok {C : Crypto} {req : Encrypt.Request} {w : World} {hk ek : Bytes}
    (hto : HashesTo C req.hashingAlgorithm req.rawKey (tape w 0 16) hk) (hel : ek.length = 48) :
    SlotOk req.headerType.algorithm (freshSlot req w ek) where
  key := hel
  nonce := by simp [freshSlot]
  salt := by simp [freshSlot]
  hash := by obtain ⟨f, hf, _⟩ := hto; exact kdfParams_mem.2 ⟨f, hf⟩

theorem freshSlot_opens {C : Crypto} (hC : C.Lawful) {req : Encrypt.Request} {w : World} {hk ek : Bytes}
    (hto : HashesTo C req.hashingAlgorithm req.rawKey (tape w 0 16) hk)
    (he : C.enc req.headerType.algorithm hk (tape w 48 (nonceLength req.headerType.algorithm .memoryMode)) []
        (tape w 16 32) = some ek) :
    Opens C req.headerType.algorithm req.rawKey (freshSlot req w ek) (tape w 16 32) :=
  ⟨hk, hto, hC.dec_enc _ _ _ _ _ _ he⟩

/-- The bytes of the header that encryption writes, its associated data, and how the header reads back. -/
theorem freshHeader_bytes {C : Crypto} {req : Encrypt.Request} {w : World} {hk ek : Bytes}
    (hto : HashesTo C req.hashingAlgorithm req.rawKey (tape w 0 16) hk) (hel : ek.length = 48)
    (hv : req.headerType.version = .v4 ∨ req.headerType.version = .v5) :
    ∃ hb aad, (freshHeader req w ek).serialize = .ok hb ∧ (freshHeader req w ek).createAad = .ok aad ∧
      hb.length = headerSize req.headerType.version ∧
      ∀ tail, IsHeader (hb ++ tail)
        { headerType := req.headerType
          nonce := (freshHeader req w ek).nonce
          salt := some (if req.headerType.version = .v4 then tape w 0 16 else zeros 16)
          keyslots := some [if req.headerType.version = .v4 then
            { freshSlot req w ek with hashAlgorithm := .blake3Balloon 4 } else freshSlot req w ek] } aad := by
  have hok := freshSlot_ok (req := req) (w := w) hto hel
  have hn : (freshHeader req w ek).nonce.length = nonceLength req.headerType.algorithm req.headerType.mode := by
    simp [freshHeader]
  rcases hv with hv | hv
  · refine ⟨bytesV4 req.headerType (freshHeader req w ek).nonce (tape w 0 16) (freshSlot req w ek),
      req.headerType.tag ++ tape w 0 16 ++ (freshHeader req w ek).nonce
        ++ zeros (26 - nonceLength req.headerType.algorithm req.headerType.mode)
        ++ zeros (32 - nonceLength req.headerType.algorithm .memoryMode),
      serialize_v4 (h := freshHeader req w ek) hv rfl, ?_, ?_, ?_⟩
    · simp [Header.createAad, freshHeader, freshSlot, hv, Header.padding, Header.padding2, getNonceLen_eq]
    · rw [hv]; exact bytesV4_length hn (by simp) hok.key hok.nonce
    · intro tail
      rw [if_pos hv, if_pos hv]
      exact bytesV4_isHeader (t := req.headerType) (salt := tape w 0 16) hv hn (by simp) hok.key hok.nonce tail
  · refine ⟨bytesV5 req.headerType (freshHeader req w ek).nonce [freshSlot req w ek],
      req.headerType.tag ++ (freshHeader req w ek).nonce
        ++ zeros (26 - nonceLength req.headerType.algorithm req.headerType.mode),
      serialize_v5 (h := freshHeader req w ek) hv rfl (by simp), ?_, ?_, ?_⟩
    · simp [Header.createAad, freshHeader, hv, Header.padding, getNonceLen_eq]
    · rw [hv]; exact bytesV5_length hn (by simp) (by simpa using hok)
    · intro tail
      rw [if_neg (by rw [hv]; decide), if_neg (by rw [hv]; decide)]
      exact bytesV5_isHeader (t := req.headerType) hv hn (by simp) (by simpa using hok) tail

/-- Only versions 4 and 5 have a header that can be written. -/
theorem freshHeader_serialize {req : Encrypt.Request} {w : World} {ek hb : Bytes}
    (h : (freshHeader req w ek).serialize = .ok hb) : req.headerType.version = .v4 ∨ req.headerType.version = .v5 := by
  cases hv : req.headerType.version with
  | v4 => exact .inl rfl
  | v5 => exact .inr rfl
  | _ => simp [Header.serialize, freshHeader, hv, Header.serializeV3] at h

/-! ### The body -/

theorem World.data_setPos (w : World) (h p i : Nat) : (w.setPos h p).data i = w.data i := by
  simp [World.data]

theorem World.rest_setPos_zero (w : World) (h : Nat) : (w.setPos h 0).rest h = w.data h := by
  simp [World.rest, World.data]

theorem World.setPos_zero_adv (w : World) (h m : Nat) : (w.setPos h 0).adv h m = w.setPos h m := by
  simp [World.adv]

/-- encrypt.rs:139-149 under every schedule. -/
theorem encTail_ok {C : Crypto} {hd : Header} {s : Stream} {rh wh : Nat} (hne : rh ≠ wh) (hs0 : s.position = 0)
    {w w' : World} (hino : (w.fd rh).ino ≠ (w.fd wh).ino)
    (hok : (do
      let aad ← Prog.lift (hd.createAad.mapErr fun _ => Encrypt.Error.createAad)
      (rewind rh).mapErr fun _ => .resetCursorPosition
      (encryptFile C s rh wh aad).mapErr fun _ => .encryptFile : Prog Encrypt.Error Unit) w = (.ok (), w')) :
    ∃ aad m c, hd.createAad = .ok aad ∧ m ≤ (w.data rh).length ∧ (NoShort w.sched → m = (w.data rh).length) ∧
      Sealed C s.algorithm s.key s.pre aad 0 ((w.data rh).take m) c ∧
      w'.core = ((w.setPos rh m).put wh c).core := by
  obtain ⟨aad, w1, h1, hok⟩ := Prog.bind_eq_ok hok
  simp only [Prog.lift_run, Prod.mk.injEq] at h1
  obtain ⟨h1, rfl⟩ := h1
  have ha := Res.mapErr_eq_ok.1 h1
  obtain ⟨_, w2, h2, hok⟩ := Prog.bind_eq_ok hok
  have h2 := Prog.mapErr_eq_ok h2
  have hns : NoShort w.sched → NoShort w2.sched := fun h => h.run (.rewind _) h2
  rcases rewind_spec rh w with ⟨w2', e2, hc2⟩ | ⟨e, w2', e2, _⟩
  · rw [h2] at e2; cases e2
    have h3 := Prog.mapErr_eq_ok hok
    have hr2 : w2.rest rh = w.data rh := by rw [World.rest_of_core hc2, World.rest_setPos_zero]
    have hino2 : (w2.fd rh).ino ≠ (w2.fd wh).ino := by rw [World.fd_of_core hc2]; simpa using hino
    rcases encryptFile_spec C hne aad s hs0 w2 hino2 with ⟨m, c, w3, he, hm, hn, hseal, hc⟩ | ⟨e, m, out, w3, he, _⟩
    · rw [h3] at he; cases he
      rw [hr2] at hm hn hseal
      refine ⟨aad, m, c, ha, hm, fun h => hn (hns h), hseal, ?_⟩
      rw [hc]
      apply World.put_core_congr
      rw [World.adv_core_congr _ _ hc2, World.setPos_zero_adv]
    · rw [h3] at he; simp at he
  · rw [h2] at e2; simp at e2

theorem encTail_nil {C : Crypto} {hd : Header} {s : Stream} {rh wh : Nat} (hne : rh ≠ wh) (hs0 : s.position = 0)
    {w : World} (hsn : w.sched = []) (hino : (w.fd rh).ino ≠ (w.fd wh).ino) {aad c : Bytes}
    (ha : hd.createAad = .ok aad) (hseal : Sealed C s.algorithm s.key s.pre aad 0 (w.data rh) c) :
    ∃ w', (do
      let aad ← Prog.lift (hd.createAad.mapErr fun _ => Encrypt.Error.createAad)
      (rewind rh).mapErr fun _ => .resetCursorPosition
      (encryptFile C s rh wh aad).mapErr fun _ => .encryptFile : Prog Encrypt.Error Unit) w = (.ok (), w') ∧ w'.sched = [] := by
  rw [Prog.bind_ok (show Prog.lift _ w = (.ok aad, w) by rw [ha]; rfl),
    Prog.bind_ok (Prog.mapErr_ok (rewind_nil hsn rh))]
  obtain ⟨w', h, _, hs⟩ := encryptFile_nil C hne aad hs0 (w := w.setPos rh 0) (c := c)
    (by rw [World.rest_setPos_zero]; exact hseal) (by simpa using hino) (by simpa using hsn)
  exact ⟨w', Prog.mapErr_ok h, hs⟩

theorem World.put_setPos_comm (w : World) {rh wh : Nat} (hne : rh ≠ wh) (m : Nat) (bs : Bytes) :
    (w.put wh bs).setPos rh m = (w.setPos rh m).put wh bs := by
  simp only [World.put, World.setPos, if_neg hne, if_neg (Ne.symm hne)]
  congr 1
  funext i
  by_cases hi : i = rh
  · subst hi; simp [hne]
  · by_cases hi' : i = wh
    · subst hi'; simp [hi]
    · simp [hi, hi']

theorem World.draw_core_congr {w w' : World} (n : Nat) (h : w.core = w'.core) : (w.draw n).core = (w'.draw n).core := by
  have : ∀ w : World, (w.draw n).core = w.core.draw n := fun _ => rfl
  rw [this, this, h]

/-! ### The whole of `execute` -/

/-- What a successful `execute` has done up to the choice of destination. -/
structure Encrypted (C : Crypto) (req : Encrypt.Request) (w : World) (full : Prop) (hb aad p c : Bytes) (k : Nat) : Prop where
  mode : req.headerType.mode = .streamMode
  version : req.headerType.version = .v4 ∨ req.headerType.version = .v5
  prefixed : p <+: w.data req.reader
  whole : full → p = w.data req.reader ∧ hb.length ≤ k
  slot : ∃ hk ek, HashesTo C req.hashingAlgorithm req.rawKey (tape w 0 16) hk ∧
    C.enc req.headerType.algorithm hk (tape w 48 (nonceLength req.headerType.algorithm .memoryMode)) []
        (tape w 16 32) = some ek ∧ ek.length = 48 ∧ (freshHeader req w ek).serialize = .ok hb ∧
    (freshHeader req w ek).createAad = .ok aad ∧
    Sealed C req.headerType.algorithm (tape w 16 32) (freshHeader req w ek).nonce aad 0 p c

/-- The part of the random tape consumed. -/
def drawn (req : Encrypt.Request) : Nat :=
  48 + nonceLength req.headerType.algorithm .memoryMode + nonceLength req.headerType.algorithm req.headerType.mode

theorem encrypt_embedded_ok {C : Crypto} (hC : C.Lawful) (req : Encrypt.Request) (hh : req.headerWriter = none)
    (hne : req.reader ≠ req.writer) {w w' : World} (hino : (w.fd req.reader).ino ≠ (w.fd req.writer).ino)
    (hok : Encrypt.execute C req w = (.ok (), w')) :
    ∃ hb aad p c k, Encrypted C req w (NoShort w.sched) hb aad p c k ∧
      w'.core = ((((w.draw (drawn req)).setPos req.writer 0).setPos req.reader p.length).put req.writer
        (hb.take k ++ c)).core := by
  unfold Encrypt.execute at hok
  rcases prepare_eq C hC req w with ⟨hk, ek, hto, hec, hm, hel, hp⟩ | ⟨e, n, hp, _⟩
  · rw [Prog.bind_ok hp] at hok
    dsimp only at hok
    obtain ⟨_, w2, h2, hok⟩ := Prog.bind_eq_ok hok
    have h2 := Prog.mapErr_eq_ok h2
    have hns2 : NoShort w.sched → NoShort w2.sched := fun h => NoShort.run (.rewind _) (w := w.draw _) h h2
    obtain ⟨_, w3, h3, hok⟩ := Prog.bind_eq_ok hok
    unfold Encrypt.writeHeader at h3
    rw [hh] at h3
    dsimp only at h3
    obtain ⟨hb, w4, h4, h3⟩ := Prog.bind_eq_ok h3
    simp only [Prog.lift_run, Prod.mk.injEq] at h4
    obtain ⟨h4, rfl⟩ := h4
    have hser := Res.mapErr_eq_ok.1 h4
    obtain ⟨n, w5, h5, h3⟩ := Prog.bind_eq_ok h3
    have h5 := Prog.mapErr_eq_ok h5
    simp only [Prog.pure_run, Prod.mk.injEq, true_and] at h3
    subst h3
    rcases rewind_spec req.writer (w.draw (drawn req)) with ⟨w2', e2, hc2⟩ | ⟨e, w2', e2, _⟩
    · rw [show rewind req.writer (w.draw (drawn req)) = _ from h2] at e2; cases e2
      have hns5 : NoShort w.sched → NoShort w5.sched := fun h => (hns2 h).run (.write _ _) h5
      obtain ⟨k, hc5, hfull⟩ : ∃ k, w5.core = (w2.put req.writer (hb.take k)).core ∧
          (NoShort w.sched → hb.length ≤ k) := by
        by_cases hns : NoShort w.sched
        · exact ⟨hb.length, by rw [List.take_length]; exact write_noShort (hns2 hns) h5, fun _ => Nat.le_refl _⟩
        · rcases write_spec req.writer hb w2 with ⟨k, w5', e5, hc5⟩ | ⟨e, w5', e5, _⟩
          · rw [h5] at e5; cases e5
            exact ⟨k, hc5, fun h => absurd h hns⟩
          · rw [h5] at e5; simp at e5
      have hc5' : w5.core = (((w.draw (drawn req)).setPos req.writer 0).put req.writer (hb.take k)).core := by
        rw [hc5, World.put_core_congr _ _ hc2]
      have hino5 : (w5.fd req.reader).ino ≠ (w5.fd req.writer).ino := by
        rw [World.fd_of_core hc5']; simpa using hino
      have hd5 : w5.data req.reader = w.data req.reader := by
        rw [World.data_of_core hc5']
        simp only [World.data, World.put_ino, World.setPos_ino, World.draw_fd]
        rw [World.put_file_ne]
        · rfl
        · simpa using hino
      obtain ⟨aad, m, c, ha, hm', hn, hseal, hc⟩ := encTail_ok hne rfl hino5 hok
      rw [hd5] at hm' hn hseal
      have hlen : ((w.data req.reader).take m).length = m := by simp; omega
      refine ⟨hb, aad, (w.data req.reader).take m, c, k, ⟨hm, freshHeader_serialize hser, List.take_prefix _ _, ?_, hk, ek, hto, hec, hel,
        hser, ha, hseal⟩, ?_⟩
      · intro h; exact ⟨by rw [hn (hns5 h), List.take_length], hfull h⟩
      · rw [hlen, hc]
        rw [World.put_core_congr _ _ (World.setPos_core_congr _ _ hc5'), ← World.put_put_core]
        apply World.put_core_congr
        rw [World.put_setPos_comm _ hne]
    · rw [show rewind req.writer (w.draw (drawn req)) = _ from h2] at e2; simp at e2
  · rw [Prog.bind_err hp] at hok
    simp at hok

theorem encrypt_detached_ok {C : Crypto} (hC : C.Lawful) (req : Encrypt.Request) {hw : Nat}
    (hh : req.headerWriter = some hw) (hne : req.reader ≠ req.writer)
    {w w' : World} (hino : (w.fd req.reader).ino ≠ (w.fd req.writer).ino)
    (hinoh : (w.fd req.reader).ino ≠ (w.fd hw).ino)
    (hok : Encrypt.execute C req w = (.ok (), w')) :
    ∃ hb aad p c k, Encrypted C req w (NoShort w.sched) hb aad p c k ∧
      w'.core = ((((((w.draw (drawn req)).setPos req.writer 0).setPos hw 0).put hw (hb.take k)).setPos
        req.reader p.length).put req.writer c).core := by
  unfold Encrypt.execute at hok
  rcases prepare_eq C hC req w with ⟨hk, ek, hto, hec, hm, hel, hp⟩ | ⟨e, n, hp, _⟩
  · rw [Prog.bind_ok hp] at hok
    dsimp only at hok
    obtain ⟨_, w2, h2, hok⟩ := Prog.bind_eq_ok hok
    have h2 := Prog.mapErr_eq_ok h2
    have hns2 : NoShort w.sched → NoShort w2.sched := fun h => NoShort.run (.rewind _) (w := w.draw _) h h2
    obtain ⟨_, w3, h3, hok⟩ := Prog.bind_eq_ok hok
    unfold Encrypt.writeHeader at h3
    rw [hh] at h3
    dsimp only at h3
    obtain ⟨_, w3', h3', h3⟩ := Prog.bind_eq_ok h3
    have h3' := Prog.mapErr_eq_ok h3'
    have hns3 : NoShort w.sched → NoShort w3'.sched := fun h => (hns2 h).run (.rewind _) h3'
    obtain ⟨hb, w4, h4, h3⟩ := Prog.bind_eq_ok h3
    simp only [Prog.lift_run, Prod.mk.injEq] at h4
    obtain ⟨h4, rfl⟩ := h4
    have hser := Res.mapErr_eq_ok.1 h4
    obtain ⟨n, w5, h5, h3⟩ := Prog.bind_eq_ok h3
    have h5 := Prog.mapErr_eq_ok h5
    simp only [Prog.pure_run, Prod.mk.injEq, true_and] at h3
    subst h3
    rcases rewind_spec req.writer (w.draw (drawn req)) with ⟨w2', e2, hc2⟩ | ⟨e, w2', e2, _⟩
    · rw [show rewind req.writer (w.draw (drawn req)) = _ from h2] at e2; cases e2
      rcases rewind_spec hw w2 with ⟨w3'', e3, hc3⟩ | ⟨e, w3'', e3, _⟩
      · rw [h3'] at e3; cases e3
        have hns5 : NoShort w.sched → NoShort w5.sched := fun h => (hns3 h).run (.write _ _) h5
        obtain ⟨k, hc5, hfull⟩ : ∃ k, w5.core = (w3'.put hw (hb.take k)).core ∧
            (NoShort w.sched → hb.length ≤ k) := by
          by_cases hns : NoShort w.sched
          · exact ⟨hb.length, by rw [List.take_length]; exact write_noShort (hns3 hns) h5, fun _ => Nat.le_refl _⟩
          · rcases write_spec hw hb w3' with ⟨k, w5', e5, hc5⟩ | ⟨e, w5', e5, _⟩
            · rw [h5] at e5; cases e5
              exact ⟨k, hc5, fun h => absurd h hns⟩
            · rw [h5] at e5; simp at e5
        have hc5' : w5.core = ((((w.draw (drawn req)).setPos req.writer 0).setPos hw 0).put hw (hb.take k)).core := by
          rw [hc5, World.put_core_congr _ _ hc3, World.put_core_congr _ _ (World.setPos_core_congr _ _ hc2)]
        have hino5 : (w5.fd req.reader).ino ≠ (w5.fd req.writer).ino := by
          rw [World.fd_of_core hc5']; simpa using hino
        have hd5 : w5.data req.reader = w.data req.reader := by
          rw [World.data_of_core hc5']
          simp only [World.data, World.put_ino, World.setPos_ino, World.draw_fd]
          rw [World.put_file_ne]
          · rfl
          · simpa using hinoh
        obtain ⟨aad, m, c, ha, hm', hn, hseal, hc⟩ := encTail_ok hne rfl hino5 hok
        rw [hd5] at hm' hn hseal
        have hlen : ((w.data req.reader).take m).length = m := by simp; omega
        refine ⟨hb, aad, (w.data req.reader).take m, c, k, ⟨hm, freshHeader_serialize hser, List.take_prefix _ _, ?_, hk, ek,
          hto, hec, hel, hser, ha, hseal⟩, ?_⟩
        · intro h; exact ⟨by rw [hn (hns5 h), List.take_length], hfull h⟩
        · rw [hlen, hc]
          rw [World.put_core_congr _ _ (World.setPos_core_congr _ _ hc5')]
      · rw [h3'] at e3; simp at e3
    · rw [show rewind req.writer (w.draw (drawn req)) = _ from h2] at e2; simp at e2
  · rw [Prog.bind_err hp] at hok
    simp at hok

/-- The primitives working, the header of a fresh file can be made and the body sealed. -/
theorem fresh_exists {C : Crypto} (hC : C.Lawful) (req : Encrypt.Request) (w : World)
    (hp : PrimitivesWork C req.headerType.algorithm req.hashingAlgorithm req.rawKey) :
    ∃ hk ek, HashesTo C req.hashingAlgorithm req.rawKey (tape w 0 16) hk ∧
      C.enc req.headerType.algorithm hk (tape w 48 (nonceLength req.headerType.algorithm .memoryMode)) []
        (tape w 16 32) = some ek := by
  obtain ⟨f, hf, hall⟩ := hp.hash
  obtain ⟨hk, hk'⟩ := Option.isSome_iff_exists.1 (hall (tape w 0 16))
  have hto : HashesTo C req.hashingAlgorithm req.rawKey (tape w 0 16) hk := ⟨f, hf, hk'⟩
  obtain ⟨ek, he⟩ := Option.isSome_iff_exists.1 (hp.enc hk
    (tape w 48 (nonceLength req.headerType.algorithm .memoryMode)) [] (tape w 16 32) (hto.len hC) (by simp)
    (by simp [blockLen]))
  exact ⟨hk, ek, hto, he⟩

theorem encrypt_nil {C : Crypto} (hC : C.Lawful) (req : Encrypt.Request) (hne : req.reader ≠ req.writer)
    {w : World} (hsn : w.sched = []) (hino : (w.fd req.reader).ino ≠ (w.fd req.writer).ino)
    (hinoh : ∀ hw, req.headerWriter = some hw → (w.fd req.reader).ino ≠ (w.fd hw).ino)
    (hv : req.headerType.version = .v4 ∨ req.headerType.version = .v5) (hm : req.headerType.mode = .streamMode)
    (hp : PrimitivesWork C req.headerType.algorithm req.hashingAlgorithm req.rawKey)
    (hlim : (w.data req.reader).length / blockLen ≤ C.ctrMax) :
    ∃ w', Encrypt.execute C req w = (.ok (), w') ∧ w'.sched = [] := by
  unfold Encrypt.execute
  rcases prepare_eq C hC req w with ⟨hk, ek, hto, hec, _, hel, hpr⟩ | ⟨e, n, hpr, hno⟩
  · rw [Prog.bind_ok hpr]
    obtain ⟨hb, aad, hser, ha, _⟩ := freshHeader_bytes hto hel hv
    dsimp only
    rw [Prog.bind_ok (Prog.mapErr_ok (rewind_nil (w := w.draw _) hsn req.writer))]
    have hpre : (freshHeader req w ek).nonce.length + 4 = nonceLength req.headerType.algorithm .memoryMode := by
      simp only [freshHeader, tape_length, hm]
      cases req.headerType.algorithm <;> rfl
    obtain ⟨c, hc⟩ := Sealed.exists (C := C) (a := req.headerType.algorithm) (key := tape w 16 32)
      (pre := (freshHeader req w ek).nonce) (aad := aad)
      (fun n m hn hm' => hp.enc _ n aad m (by simp) (by rw [hn, hpre]) hm') _ 0 (w.data req.reader) rfl (by omega)
    cases hh : req.headerWriter with
    | none =>
      unfold Encrypt.writeHeader
      simp only [hh, hser, Res.mapErr_ok]
      rw [Prog.bind_ok (a := ()) (w' := ((w.draw (48 + nonceLength req.headerType.algorithm Mode.memoryMode +
        nonceLength req.headerType.algorithm req.headerType.mode)).setPos req.writer 0).put req.writer hb)]
      · refine encTail_nil hne rfl (by simpa using hsn) (by simpa using hino) ha ?_ (c := c)
        have : World.data ((((w.draw (48 + nonceLength req.headerType.algorithm Mode.memoryMode +
            nonceLength req.headerType.algorithm req.headerType.mode)).setPos req.writer 0).put req.writer hb))
            req.reader = w.data req.reader := by
          simp only [World.data, World.put_ino, World.setPos_ino, World.draw_fd]
          rw [World.put_file_ne]
          · rfl
          · simpa using hino
        rw [this]; exact hc
      · rw [Prog.bind_ok (show Prog.lift _ _ = (.ok hb, _) from rfl),
          Prog.bind_ok (Prog.mapErr_ok (write_nil (by simpa using hsn) _ _))]
        rfl
    | some hw =>
      unfold Encrypt.writeHeader
      simp only [hh, hser, Res.mapErr_ok]
      rw [Prog.bind_ok (a := ()) (w' := (((w.draw (48 + nonceLength req.headerType.algorithm Mode.memoryMode +
        nonceLength req.headerType.algorithm req.headerType.mode)).setPos req.writer 0).setPos hw 0).put hw hb)]
      · refine encTail_nil hne rfl (by simpa using hsn) (by simpa using hino) ha ?_ (c := c)
        have : World.data (((((w.draw (48 + nonceLength req.headerType.algorithm Mode.memoryMode +
            nonceLength req.headerType.algorithm req.headerType.mode)).setPos req.writer 0).setPos hw 0).put hw hb))
            req.reader = w.data req.reader := by
          simp only [World.data, World.put_ino, World.setPos_ino, World.draw_fd]
          rw [World.put_file_ne]
          · rfl
          · simpa using hinoh hw hh
        rw [this]; exact hc
      · rw [Prog.bind_ok (Prog.mapErr_ok (rewind_nil (by simpa using hsn) _)),
          Prog.bind_ok (show Prog.lift _ _ = (.ok hb, _) from rfl),
          Prog.bind_ok (Prog.mapErr_ok (write_nil (by simpa using hsn) _ _))]
        rfl
  · exact absurd ⟨hm, fresh_exists hC req w hp⟩ hno

/-- What the file (header followed by body) of a successful encryption means to a reader. -/
theorem Encrypted.fileOf {C : Crypto} (hC : C.Lawful) {req : Encrypt.Request} {w : World} {full : Prop}
    {hb aad p c : Bytes} {k : Nat} (h : Encrypted C req w full hb aad p c k)
    (hv : req.headerType.version = .v5 ∨ req.hashingAlgorithm = .blake3Balloon 4) :
    hb.length = headerSize req.headerType.version ∧
    ∃ hd mk, hd.headerType = req.headerType ∧ (∀ tail, IsHeader (hb ++ tail) hd aad) ∧ Recovers C req.rawKey hd mk ∧
      BodyOf C hd mk aad p c := by
  obtain ⟨hk, ek, hto, hec, hel, hser, ha, hseal⟩ := h.slot
  obtain ⟨hb', aad', hser', ha', hlen, hi⟩ := freshHeader_bytes (w := w) hto hel h.version
  rw [hser] at hser'; cases hser'
  rw [ha] at ha'; cases ha'
  have hop := freshSlot_opens hC hto hec
  refine ⟨hlen, _, tape w 16 32, rfl, hi, ?_, ?_⟩
  · rcases h.version with h4 | h5
    · have hh : req.hashingAlgorithm = .blake3Balloon 4 := by
        rcases hv with hv | hv
        · rw [h4] at hv; simp at hv
        · exact hv
      simp only [Recovers, h4]
      refine ⟨_, [], rfl, ?_⟩
      rw [if_pos trivial]
      have : ({ freshSlot req w ek with hashAlgorithm := .blake3Balloon 4 } : Keyslot) = freshSlot req w ek := by
        rw [← hh]; rfl
      rw [this]; exact hop
    · simp only [Recovers, h5]
      refine ⟨[], _, [], rfl, ?_, by simp⟩
      simpa using hop
  · rw [bodyOf_stream (by exact h.mode)]
    exact hseal

/-! ### Frame -/

def Encrypt.Request.writers (req : Encrypt.Request) : List Nat :=
  match req.headerWriter with
  | none => [req.writer]
  | some hw => [hw, req.writer]

theorem prepare_within (C : Crypto) (req : Encrypt.Request) (R W : List Nat) : Within R W (Encrypt.prepare C req) := by
  unfold Encrypt.prepare
  refine .bind (.genBytes _) fun _ => .bind (.lift _) fun _ => .bind (.lift _) fun _ => .bind (.genBytes _) fun _ =>
    .bind (.genBytes _) fun _ => .bind (.lift _) fun _ => .bind (.genBytes _) fun _ => .bind (.lift _) fun _ => .pure _

theorem encrypt_within (C : Crypto) (req : Encrypt.Request) :
    Within [req.reader] req.writers (Encrypt.execute C req) := by
  have hwr : req.writer ∈ req.writers := by unfold Encrypt.Request.writers; split <;> simp
  unfold Encrypt.execute
  refine .bind (prepare_within _ _ _ _) fun ⟨hd, s⟩ => .bind (.mapErr _ (.rewind (.inr hwr))) fun _ => .bind ?_ fun _ =>
    .bind (.lift _) fun _ => .bind (.mapErr _ (.rewind (.inl (by simp)))) fun _ =>
      .mapErr _ (.encryptFile _ _ _ (.inl (by simp)) hwr)
  unfold Encrypt.writeHeader
  split
  · exact .bind (.lift _) fun _ => .bind (.mapErr _ (.write _ hwr)) fun _ => .pure _
  · next hw hh =>
    have hhw : hw ∈ req.writers := by simp [Encrypt.Request.writers, hh]
    exact .bind (.mapErr _ (.rewind (.inr hhw))) fun _ => .bind (.lift _) fun _ =>
      .bind (.mapErr _ (.write _ hhw)) fun _ => .pure _

end Volaris
