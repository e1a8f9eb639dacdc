import Verif.Proofs.Basic
import Verif.Spec.Header
namespace Volaris
open Spec

theorem getNonceLen_eq (a : Algorithm) (m : Mode) : getNonceLen a m = nonceLength a m := by
  cases a <;> cases m <;> rfl

theorem size_eq (v : HeaderVersion) : v.size = headerSize v := by cases v <;> rfl

theorem nonceLength_le (a : Algorithm) (m : Mode) : nonceLength a m ≤ 24 := by
  cases a <;> cases m <;> decide

theorem nonceLength_pos (a : Algorithm) (m : Mode) : 8 ≤ nonceLength a m := by
  cases a <;> cases m <;> decide

@[simp] theorem zeros_length (n : Nat) : (zeros n).length = n := by simp [zeros]

theorem zeros_add (m n : Nat) : zeros m ++ zeros n = zeros (m + n) := by
  simp [zeros, List.replicate_append_replicate]

theorem zeros_take (m n : Nat) : (zeros m).take n = zeros (min n m) := by simp [zeros]
theorem zeros_drop (m n : Nat) : (zeros m).drop n = zeros (m - n) := by simp [zeros]

@[simp] theorem tag_length (t : HeaderType) : t.tag.length = 6 := by
  rcases t with ⟨v, a, m⟩
  cases v <;> cases a <;> cases m <;> rfl

theorem Keyslot.serialize_length (k : Keyslot) : k.serialize.length = 2 := by
  unfold Keyslot.serialize
  repeat' split
  all_goals rfl

theorem slotOk_parse {a : Algorithm} {k : Keyslot} (h : SlotOk a k) :
    parseKeyslotId k.serialize = some k.hashAlgorithm ∧ k.serialize.take 1 = [0xDF] := by
  have := h.hash
  rcases k with ⟨ha, _, _, _⟩
  simp only [supportedHashes, List.mem_cons, List.not_mem_nil, or_false] at this
  rcases this with rfl | rfl | rfl | rfl | rfl <;> exact ⟨rfl, rfl⟩

theorem slot_bytes_length {a : Algorithm} {k : Keyslot} (h : SlotOk a k) :
    (k.bytes (nonceLength a .memoryMode)).length = 96 := by
  have := nonceLength_le a .memoryMode
  simp only [Keyslot.bytes, List.length_append, Keyslot.serialize_length, h.key, h.nonce, h.salt,
    zeros_length]
  omega

theorem slots_bytes_length {a : Algorithm} {ks : List Keyslot} (h : ∀ k ∈ ks, SlotOk a k) :
    (ks.flatMap (Keyslot.bytes (nonceLength a .memoryMode))).length = 96 * ks.length := by
  induction ks with
  | nil => rfl
  | cons k ks ih =>
    simp only [List.flatMap_cons, List.length_append, List.length_cons]
    rw [slot_bytes_length (h k (by simp)), ih (fun x hx => h x (by simp [hx]))]
    omega

theorem flatten_zeros (n m : Nat) : (List.replicate n (zeros m)).flatten = zeros (n * m) := by
  induction n with
  | zero => simp [zeros]
  | succ n ih => rw [List.replicate_succ, List.flatten_cons, ih, zeros_add]; congr 1; rw [Nat.succ_mul]; omega

/-! ### Parsing -/

theorem rd_append {n : Nat} {a b : Bytes} (h : a.length = n) : rd n (a ++ b) = .ok (a, b) := by
  subst h; simp [rd]

theorem rd_exact {n : Nat} {a : Bytes} (h : a.length = n) : rd n a = .ok (a, []) := by
  subst h; simp [rd]

theorem rd_ok {n : Nat} {bs : Bytes} (h : n ≤ bs.length) : rd n bs = .ok (bs.take n, bs.drop n) := by
  simp [rd, h]

theorem parseKeyslots_cons {a : Algorithm} {k : Keyslot} (h : SlotOk a k) (n : Nat) (rest : Bytes) :
    parseKeyslots (nonceLength a .memoryMode) (n + 1) (k.bytes (nonceLength a .memoryMode) ++ rest) =
      (do let r ← parseKeyslots (nonceLength a .memoryMode) n rest; pure (k :: r)) := by
  obtain ⟨h1, h2⟩ := slotOk_parse h
  have hl := nonceLength_le a .memoryMode
  simp only [parseKeyslots, Keyslot.bytes, List.append_assoc]
  rw [rd_append k.serialize_length]
  simp only [Res.bind_ok, h2, ne_eq, not_true_eq_false, if_false]
  rw [rd_append h.key]
  simp only [Res.bind_ok]
  rw [rd_append h.nonce]
  simp only [Res.bind_ok]
  rw [rd_append (zeros_length _)]
  simp only [Res.bind_ok]
  rw [rd_append (by simpa [SALT_LEN] using h.salt)]
  simp only [Res.bind_ok]
  rw [rd_append (zeros_length _)]
  simp [h1]

theorem parseKeyslots_zeros (knl n m : Nat) (h : 2 * n ≤ m) : parseKeyslots knl n (zeros m) = .ok [] := by
  induction n generalizing m with
  | zero => rfl
  | succ n ih =>
    simp only [parseKeyslots]
    rw [rd_ok (by simp; omega), zeros_take, zeros_drop]
    have : (zeros (min 2 m)).take 1 ≠ [0xDF] := by
      rw [zeros_take]
      rw [show min 1 (min 2 m) = 1 by omega]
      decide
    simp only [Res.bind_ok, ne_eq, this, not_false_eq_true, if_true]
    exact ih (m - 2) (by omega)

theorem parseKeyslots_list {a : Algorithm} {ks : List Keyslot} (h : ∀ k ∈ ks, SlotOk a k) (n m : Nat)
    (hn : ks.length ≤ n) (hm : 2 * (n - ks.length) ≤ m) :
    parseKeyslots (nonceLength a .memoryMode) n
      (ks.flatMap (Keyslot.bytes (nonceLength a .memoryMode)) ++ zeros m) = .ok ks := by
  induction ks generalizing n with
  | nil => simpa using parseKeyslots_zeros _ n m (by simpa using hm)
  | cons k ks ih =>
    cases n with
    | zero => simp at hn
    | succ n =>
      simp only [List.flatMap_cons, List.append_assoc]
      rw [parseKeyslots_cons (h k (by simp)),
        ih (fun x hx => h x (by simp [hx])) n (by simpa using hn) (by simp at hm; omega)]
      rfl

theorem parseVersion_serialize (v : HeaderVersion) : parseVersion (serializeVersion v) = some v := by
  cases v <;> decide
theorem parseAlgorithm_serialize (a : Algorithm) : parseAlgorithm (serializeAlgorithm a) = some a := by
  cases a <;> decide
theorem parseMode_serialize (m : Mode) : parseMode (serializeMode m) = some m := by
  cases m <;> decide

@[simp] theorem serializeVersion_length (v : HeaderVersion) : (serializeVersion v).length = 2 := by
  cases v <;> rfl
@[simp] theorem serializeAlgorithm_length (a : Algorithm) : (serializeAlgorithm a).length = 2 := by
  cases a <;> rfl
@[simp] theorem serializeMode_length (a : Mode) : (serializeMode a).length = 2 := by
  cases a <;> rfl

/-- The generic start of every header: tag, then version-specific bytes. -/
theorem parseHeader_tag (t : HeaderType) (rest : Bytes) :
    (t.tag ++ rest).take 2 = serializeVersion t.version ∧
    (t.tag ++ rest).drop 2 = serializeAlgorithm t.algorithm ++ (serializeMode t.mode ++ rest) := by
  rcases t with ⟨v, a, m⟩
  cases v <;> cases a <;> cases m <;> exact ⟨rfl, rfl⟩

/-! ### The three serializable layouts -/

/-- The bytes of a V5 header with keyslots `ks`. -/
def bytesV5 (t : HeaderType) (nonce : Bytes) (ks : List Keyslot) : Bytes :=
  t.tag ++ nonce ++ zeros (26 - nonceLength t.algorithm t.mode)
    ++ ks.flatMap (Keyslot.bytes (nonceLength t.algorithm .memoryMode)) ++ zeros ((4 - ks.length) * 96)

theorem serialize_v5 {h : Header} {ks : List Keyslot} (hv : h.headerType.version = .v5)
    (hk : h.keyslots = some ks) (hl : ks.length ≤ 4) :
    h.serialize = .ok (bytesV5 h.headerType h.nonce ks) := by
  simp only [Header.serialize, hv, Header.serializeV5, hk]
  rw [if_neg (by omega), flatten_zeros]
  simp [bytesV5, Header.staticV5, Header.padding, getNonceLen_eq]

theorem bytesV5_length {t : HeaderType} {nonce : Bytes} {ks : List Keyslot}
    (hn : nonce.length = nonceLength t.algorithm t.mode) (hl : ks.length ≤ 4)
    (hs : ∀ k ∈ ks, SlotOk t.algorithm k) : (bytesV5 t nonce ks).length = 416 := by
  have := nonceLength_le t.algorithm t.mode
  simp only [bytesV5, List.length_append, tag_length, hn, zeros_length, slots_bytes_length hs]
  omega

theorem parseHeader_v5 {t : HeaderType} {nonce : Bytes} {ks : List Keyslot} (hv : t.version = .v5)
    (hn : nonce.length = nonceLength t.algorithm t.mode) (hl : ks.length ≤ 4)
    (hs : ∀ k ∈ ks, SlotOk t.algorithm k) :
    parseHeader .v5 (bytesV5 t nonce ks) =
      .ok ({ headerType := t, nonce, salt := some (zeros 16), keyslots := some ks },
        t.tag ++ nonce ++ zeros (26 - nonceLength t.algorithm t.mode)) := by
  have h24 := nonceLength_le t.algorithm t.mode
  have haad : aadOfBytes t (bytesV5 t nonce ks) =
      t.tag ++ nonce ++ zeros (26 - nonceLength t.algorithm t.mode) := by
    simp only [aadOfBytes, hv, bytesV5, List.append_assoc]
    rw [← List.append_assoc, ← List.append_assoc]
    rw [List.take_append_of_le_length (by simp [hn]; omega), List.take_of_length_le (by simp [hn]; omega)]
    simp
  have ht : ({ version := .v5, algorithm := t.algorithm, mode := t.mode } : HeaderType) = t := by
    rw [← hv]
  unfold parseHeader
  have hb : bytesV5 t nonce ks = t.tag ++ (nonce ++ (zeros (26 - nonceLength t.algorithm t.mode)
    ++ (ks.flatMap (Keyslot.bytes (nonceLength t.algorithm .memoryMode)) ++ zeros ((4 - ks.length) * 96)))) := by
    simp [bytesV5]
  simp only [getNonceLen_eq]
  rw [← haad, hb, (parseHeader_tag t _).2, rd_append (by simp)]
  simp only [Res.bind_ok, parseAlgorithm_serialize, Res.ofOption_some]
  rw [rd_append (by simp)]
  simp only [Res.bind_ok, parseMode_serialize, Res.ofOption_some]
  rw [rd_append hn]
  simp only [Res.bind_ok]
  rw [rd_append (by simp)]
  simp only [Res.bind_ok]
  rw [parseKeyslots_list hs 4 _ hl (by omega)]
  simp [ht]

/-- The bytes of a V4 header. -/
def bytesV4 (t : HeaderType) (nonce salt : Bytes) (k : Keyslot) : Bytes :=
  t.tag ++ salt ++ nonce ++ zeros (26 - nonceLength t.algorithm t.mode)
    ++ k.encryptedKey ++ k.nonce ++ zeros (32 - nonceLength t.algorithm .memoryMode)

theorem serialize_v4 {h : Header} {k : Keyslot} {ks : List Keyslot} (hv : h.headerType.version = .v4)
    (hk : h.keyslots = some (k :: ks)) :
    h.serialize = .ok (bytesV4 h.headerType h.nonce (h.salt.getD k.salt) k) := by
  simp [Header.serialize, hv, Header.serializeV4, hk, bytesV4, Header.padding, Header.padding2,
    getNonceLen_eq]

theorem bytesV4_length {t : HeaderType} {nonce salt : Bytes} {k : Keyslot}
    (hn : nonce.length = nonceLength t.algorithm t.mode) (hsalt : salt.length = 16)
    (hk : k.encryptedKey.length = 48) (hkn : k.nonce.length = nonceLength t.algorithm .memoryMode) :
    (bytesV4 t nonce salt k).length = 128 := by
  have := nonceLength_le t.algorithm t.mode
  have := nonceLength_le t.algorithm .memoryMode
  simp only [bytesV4, List.length_append, tag_length, hn, zeros_length, hsalt, hk, hkn]
  omega

theorem parseHeader_v4 {t : HeaderType} {nonce salt : Bytes} {k : Keyslot} (hv : t.version = .v4)
    (hn : nonce.length = nonceLength t.algorithm t.mode) (hsalt : salt.length = 16)
    (hk : k.encryptedKey.length = 48) (hkn : k.nonce.length = nonceLength t.algorithm .memoryMode) :
    parseHeader .v4 (bytesV4 t nonce salt k) =
      .ok ({ headerType := t, nonce, salt := some salt,
             keyslots := some [{ k with hashAlgorithm := .blake3Balloon 4, salt := salt }] },
        t.tag ++ salt ++ nonce ++ zeros (26 - nonceLength t.algorithm t.mode)
          ++ zeros (32 - nonceLength t.algorithm .memoryMode)) := by
  have h24 := nonceLength_le t.algorithm t.mode
  have h24' := nonceLength_le t.algorithm .memoryMode
  have haad : aadOfBytes t (bytesV4 t nonce salt k) =
      t.tag ++ salt ++ nonce ++ zeros (26 - nonceLength t.algorithm t.mode)
          ++ zeros (32 - nonceLength t.algorithm .memoryMode) := by
    simp only [aadOfBytes, hv, getNonceLen_eq]
    have e1 : bytesV4 t nonce salt k =
      (t.tag ++ salt ++ nonce ++ zeros (26 - nonceLength t.algorithm t.mode)) ++
        (k.encryptedKey ++ k.nonce ++ zeros (32 - nonceLength t.algorithm .memoryMode)) := by
      simp [bytesV4]
    have e2 : bytesV4 t nonce salt k =
      (t.tag ++ salt ++ nonce ++ zeros (26 - nonceLength t.algorithm t.mode) ++ k.encryptedKey ++ k.nonce)
        ++ zeros (32 - nonceLength t.algorithm .memoryMode) := by simp [bytesV4]
    congr 1
    · rw [e1, List.take_append_of_le_length (by simp [hn, hsalt]; omega),
        List.take_of_length_le (by simp [hn, hsalt]; omega)]
    · rw [e2, List.drop_left' (by simp [hn, hsalt, hk, hkn]; omega)]
  have ht : ({ version := .v4, algorithm := t.algorithm, mode := t.mode } : HeaderType) = t := by
    rw [← hv]
  unfold parseHeader
  have hb : bytesV4 t nonce salt k = t.tag ++ (salt ++ (nonce ++ (zeros (26 - nonceLength t.algorithm t.mode)
    ++ (k.encryptedKey ++ (k.nonce ++ zeros (32 - nonceLength t.algorithm .memoryMode)))))) := by
    simp [bytesV4]
  simp only [getNonceLen_eq]
  rw [← haad, hb, (parseHeader_tag t _).2, rd_append (by simp)]
  simp only [Res.bind_ok, parseAlgorithm_serialize, Res.ofOption_some]
  rw [rd_append (by simp)]
  simp only [Res.bind_ok, parseMode_serialize, Res.ofOption_some]
  rw [rd_append hsalt]
  simp only [Res.bind_ok]
  rw [rd_append hn]
  simp only [Res.bind_ok]
  rw [rd_append (by simp)]
  simp only [Res.bind_ok]
  rw [rd_append hk]
  simp only [Res.bind_ok]
  rw [rd_append hkn]
  simp only [Res.bind_ok]
  rw [rd_exact (by simp)]
  simp [ht]

/-- The bytes of a V3 header. -/
def bytesV3 (t : HeaderType) (nonce salt : Bytes) : Bytes :=
  t.tag ++ salt ++ zeros 16 ++ nonce ++ zeros (26 - nonceLength t.algorithm t.mode)

theorem serialize_v3 {h : Header} {salt : Bytes} (hv : h.headerType.version = .v3)
    (hk : h.salt = some salt) :
    h.serialize = .ok (bytesV3 h.headerType h.nonce salt) := by
  simp [Header.serialize, hv, Header.serializeV3, hk, bytesV3, Header.padding, getNonceLen_eq]

theorem bytesV3_length {t : HeaderType} {nonce salt : Bytes}
    (hn : nonce.length = nonceLength t.algorithm t.mode) (hsalt : salt.length = 16) :
    (bytesV3 t nonce salt).length = 64 := by
  have := nonceLength_le t.algorithm t.mode
  simp only [bytesV3, List.length_append, tag_length, hn, zeros_length, hsalt]
  omega

/-- V1 and V3 share their layout; `z` is the unused block (zero in what the program writes). -/
theorem parseHeader_v13 {t : HeaderType} {nonce salt z pad : Bytes} (hv : t.version = .v1 ∨ t.version = .v3)
    (hn : nonce.length = nonceLength t.algorithm t.mode) (hsalt : salt.length = 16) (hz : z.length = 16)
    (hp : pad.length = 26 - nonceLength t.algorithm t.mode) :
    parseHeader t.version (t.tag ++ salt ++ z ++ nonce ++ pad) =
      .ok ({ headerType := t, nonce, salt := some salt, keyslots := none },
        aadOfBytes t (t.tag ++ salt ++ z ++ nonce ++ pad)) := by
  unfold parseHeader
  have hb : t.tag ++ salt ++ z ++ nonce ++ pad = t.tag ++ (salt ++ (z ++ (nonce ++ pad))) := by simp
  simp only [getNonceLen_eq]
  rw [hb, (parseHeader_tag t _).2]
  rw [rd_append (by simp)]
  simp only [Res.bind_ok, parseAlgorithm_serialize, Res.ofOption_some]
  rw [rd_append (by simp)]
  simp only [Res.bind_ok, parseMode_serialize, Res.ofOption_some]
  rcases t with ⟨v, a, m⟩
  simp only at hv hn hp
  rcases hv with rfl | rfl
  all_goals
    dsimp only
    rw [rd_append hsalt]
    simp only [Res.bind_ok]
    rw [rd_append hz]
    simp only [Res.bind_ok]
    rw [rd_append hn]
    simp only [Res.bind_ok]
    rw [rd_exact hp]
    simp

theorem parseHeader_v2 {t : HeaderType} {nonce salt z pad : Bytes} (hv : t.version = .v2)
    (hn : nonce.length = nonceLength t.algorithm t.mode) (hsalt : salt.length = 16) (hz : z.length = 16)
    (hp : pad.length = 26 - nonceLength t.algorithm t.mode) :
    parseHeader .v2 (t.tag ++ salt ++ nonce ++ pad ++ z) =
      .ok ({ headerType := t, nonce, salt := some salt, keyslots := none }, []) := by
  unfold parseHeader
  have hb : t.tag ++ salt ++ nonce ++ pad ++ z = t.tag ++ (salt ++ (nonce ++ (pad ++ z))) := by simp
  simp only [getNonceLen_eq]
  rw [hb, (parseHeader_tag t _).2]
  rw [rd_append (by simp)]
  simp only [Res.bind_ok, parseAlgorithm_serialize, Res.ofOption_some]
  rw [rd_append (by simp)]
  simp only [Res.bind_ok, parseMode_serialize, Res.ofOption_some]
  rcases t with ⟨v, a, m⟩
  simp only at hv hn hp
  subst hv
  dsimp only
  rw [rd_append hsalt]
  simp only [Res.bind_ok]
  rw [rd_append hn]
  simp only [Res.bind_ok]
  rw [rd_append hp]
  simp only [Res.bind_ok]
  rw [rd_exact hz]
  simp [aadOfBytes]

/-! ### Deserialization from a handle -/

theorem readExact_spec (h n : Nat) (w : World) :
    (∃ w', n ≤ (w.rest h).length ∧ readExact h n w = (.ok ((w.rest h).take n), w') ∧
      w'.core = (w.adv h n).core) ∨
    (∃ e w' k, readExact h n w = (.err e, w') ∧ w'.core = (w.adv h k).core) := by
  rcases readUpTo_spec h n w with ⟨s', e⟩ | ⟨k, s', _, e⟩
  · simp only [readExact, Prog.bind_ok e]
    by_cases hn : n ≤ (w.rest h).length
    · left
      refine ⟨{ w.adv h n with sched := s' }, hn, ?_, rfl⟩
      simp [Nat.min_eq_left hn]
    · right
      rw [if_neg (by rw [List.length_take]; omega)]
      exact ⟨.unexpectedEof, _, ((w.rest h).take n).length, rfl, rfl⟩
  · right
    simp only [readExact, Prog.bind_err e]
    exact ⟨.other, { w.adv h k with sched := s' }, k, rfl, rfl⟩

/-- What `deserialize` does under any schedule. -/
theorem deserialize_spec (h : Nat) (w : World) :
    (∃ e w' p, deserialize h w = (.err (.io e), w') ∧ w'.core = (w.setPos h p).core) ∨
    (∃ w', deserialize h w = (.err .version, w') ∧ 2 ≤ (w.rest h).length ∧
      parseVersion ((w.rest h).take 2) = none ∧ w'.core = w.core) ∨
    (∃ v w', parseVersion ((w.rest h).take 2) = some v ∧ v.size ≤ (w.rest h).length ∧
      deserialize h w = (parseHeader v ((w.rest h).take v.size), w') ∧
      w'.core = (w.adv h v.size).core) := by
  unfold deserialize
  rcases readExact_spec h 2 w with ⟨w1, hl, e1, hc1⟩ | ⟨e, w1, k, e1, hc1⟩
  rotate_left
  · left
    rw [Prog.bind_err (Prog.mapErr_err e1)]
    exact ⟨_, _, _, rfl, hc1⟩
  rw [Prog.bind_ok (Prog.mapErr_ok e1)]
  have hback : ∀ w2 : World, w2.core = (w1.setPos h (((w1.fd h).pos : Int) + (-2)).toNat).core →
      w2.core = w.core := by
    intro w2 h2
    rw [h2]
    have hf := World.fd_of_core hc1
    rw [World.setPos_core_congr _ _ hc1, hf]
    simp only [World.adv, World.setPos_setPos, World.setPos_fd_same]
    rw [show ((((w.fd h).pos + 2 : Nat) : Int) + (-2)).toNat = (w.fd h).pos by omega,
      World.setPos_self]
  rcases seekCur_spec h (-2) w1 with ⟨w2, e2, hp, hc2⟩ | ⟨e, w2, e2, hc2⟩
  rotate_left
  · left
    rw [Prog.bind_err (Prog.mapErr_err e2)]
    exact ⟨_, _, _, rfl, by rw [hc2, hc1]; rfl⟩
  rw [Prog.bind_ok (Prog.mapErr_ok e2)]
  have hc : w2.core = w.core := hback w2 hc2
  have hr : w2.rest h = w.rest h := World.rest_of_core hc h
  cases hv : parseVersion ((w.rest h).take 2) with
  | none =>
    right; left
    exact ⟨_, rfl, hl, rfl, hc⟩
  | some v =>
    rcases readExact_spec h v.size w2 with ⟨w3, hl3, e3, hc3⟩ | ⟨e, w3, k, e3, hc3⟩
    · right; right
      rw [hr] at hl3 e3
      refine ⟨v, w3, rfl, hl3, ?_, ?_⟩
      · simp only
        rw [Prog.bind_ok (Prog.mapErr_ok e3)]; rfl
      · rw [hc3]; exact World.adv_core_congr _ _ hc
    · left
      refine ⟨e, w3, (w2.fd h).pos + k, ?_, ?_⟩
      · simp only
        rw [Prog.bind_err (Prog.mapErr_err e3)]
      · rw [hc3]; exact World.setPos_core_congr _ _ hc

theorem seekCur_back_nil {w : World} (hs : w.sched = []) (h n : Nat) :
    seekCur h (-(n : Int)) (w.adv h n) = (.ok (), w) := by
  rw [seekCur_nil (by simpa using hs)]
  simp only [World.adv_fd_same]
  rw [if_neg (by omega), show ((((w.fd h).pos + n : Nat) : Int) + (-(n : Int))).toNat = (w.fd h).pos by omega]
  simp only [World.adv, World.setPos_setPos, World.setPos_self]

/-- `deserialize` without faults. -/
theorem deserialize_nil {h : Nat} {w : World} (hs : w.sched = []) {v : HeaderVersion}
    (hv : parseVersion ((w.rest h).take 2) = some v) (hl : v.size ≤ (w.rest h).length) :
    deserialize h w = (parseHeader v ((w.rest h).take v.size), w.adv h v.size) := by
  have hl2 : 2 ≤ (w.rest h).length := by cases v <;> simp [HeaderVersion.size] at hl <;> omega
  unfold deserialize
  have e1 := readExact_nil hs h 2
  rw [if_pos hl2] at e1
  rw [Prog.bind_ok (Prog.mapErr_ok e1)]
  have e2 : seekCur h (-2) (w.adv h ((w.rest h).take 2).length) = (.ok (), w) := by
    rw [List.length_take, Nat.min_eq_left hl2]
    exact seekCur_back_nil hs h 2
  rw [Prog.bind_ok (Prog.mapErr_ok e2)]
  simp only [hv]
  have e3 := readExact_nil hs h v.size
  rw [if_pos hl] at e3
  rw [Prog.bind_ok (Prog.mapErr_ok e3)]
  simp [Nat.min_eq_left hl]

theorem deserialize_nil_short {h : Nat} {w : World} (hs : w.sched = []) (hl : (w.rest h).length < 2) :
    ∃ w', deserialize h w = (.err (.io .unexpectedEof), w') := by
  unfold deserialize
  have e1 := readExact_nil hs h 2
  rw [if_neg (by omega)] at e1
  rw [Prog.bind_err (Prog.mapErr_err e1)]
  exact ⟨_, rfl⟩

theorem deserialize_nil_version {h : Nat} {w : World} (hs : w.sched = []) (hl2 : 2 ≤ (w.rest h).length)
    (hv : parseVersion ((w.rest h).take 2) = none) :
    deserialize h w = (.err .version, w) := by
  unfold deserialize
  have e1 := readExact_nil hs h 2
  rw [if_pos hl2] at e1
  rw [Prog.bind_ok (Prog.mapErr_ok e1)]
  have e2 : seekCur h (-2) (w.adv h ((w.rest h).take 2).length) = (.ok (), w) := by
    rw [List.length_take, Nat.min_eq_left hl2]
    exact seekCur_back_nil hs h 2
  rw [Prog.bind_ok (Prog.mapErr_ok e2)]
  simp only [hv]
  rfl

theorem deserialize_nil_eof {h : Nat} {w : World} (hs : w.sched = []) {v : HeaderVersion}
    (hl2 : 2 ≤ (w.rest h).length)
    (hv : parseVersion ((w.rest h).take 2) = some v) (hl : (w.rest h).length < v.size) :
    ∃ w', deserialize h w = (.err (.io .unexpectedEof), w') := by
  unfold deserialize
  have e1 := readExact_nil hs h 2
  rw [if_pos hl2] at e1
  rw [Prog.bind_ok (Prog.mapErr_ok e1)]
  have e2 : seekCur h (-2) (w.adv h ((w.rest h).take 2).length) = (.ok (), w) := by
    rw [List.length_take, Nat.min_eq_left hl2]
    exact seekCur_back_nil hs h 2
  rw [Prog.bind_ok (Prog.mapErr_ok e2)]
  simp only [hv]
  have e3 := readExact_nil hs h v.size
  rw [if_neg (by omega)] at e3
  rw [Prog.bind_err (Prog.mapErr_err e3)]
  exact ⟨_, rfl⟩

theorem OnlyMoved.of_setPos {h p : Nat} {w w' : World} (e : w'.core = (w.setPos h p).core) :
    OnlyMoved h w w' := by
  have hf := World.fd_of_core e
  refine ⟨by rw [World.file_of_core e]; rfl, by rw [World.dir_of_core e]; rfl, ?_, ?_⟩
  · intro i hi; rw [hf, World.setPos_fd_ne _ _ hi]
  · rw [hf]; simp

theorem OnlyMoved.of_core {h : Nat} {w w' : World} (e : w'.core = w.core) : OnlyMoved h w w' :=
  ⟨World.file_of_core e, World.dir_of_core e, fun _ _ => by rw [World.fd_of_core e],
    by rw [World.fd_of_core e]⟩

/-! ### The format as a relation -/

theorem parseKeyslotId_iff (b1 : UInt8) (alg : HashingAlgorithm) :
    parseKeyslotId [0xDF, b1] = some alg ↔ (b1, alg) ∈ hashCodes := by
  simp only [parseKeyslotId, hashCodes, List.cons.injEq, true_and, and_true, List.mem_cons,
    Prod.mk.injEq, List.not_mem_nil, or_false]
  constructor
  · intro h
    repeat' split at h
    all_goals simp_all
  · rintro (⟨rfl, rfl⟩ | ⟨rfl, rfl⟩ | ⟨rfl, rfl⟩ | ⟨rfl, rfl⟩ | ⟨rfl, rfl⟩) <;> decide

theorem rd_bind_ok {β : Type} {n : Nat} {bs : Bytes} {f : Bytes × Bytes → Res HdrErr β} {b : β} :
    (rd n bs >>= f) = .ok b ↔ n ≤ bs.length ∧ f (bs.take n, bs.drop n) = .ok b := by
  unfold rd
  split
  · next h => simp [h]
  · next h => simp [h]

theorem ofOption_bind_ok {α β : Type} {e : HdrErr} {o : Option α} {f : α → Res HdrErr β} {b : β} :
    (Res.ofOption e o >>= f) = .ok b ↔ ∃ a, o = some a ∧ f a = .ok b := by
  cases o <;> simp

theorem parseKeyslots_bind_ok {β : Type} {k n : Nat} {bs : Bytes} {f : List Keyslot → Res HdrErr β} {b : β} :
    (parseKeyslots k n bs >>= f) = .ok b ↔ ∃ a, parseKeyslots k n bs = .ok a ∧ f a = .ok b :=
  Res.bind_eq_ok

theorem parseKeyslots_iff (a : Algorithm) (n : Nat) : ∀ (bs : Bytes) (ks : List Keyslot),
    parseKeyslots (nonceLength a .memoryMode) n bs = .ok ks ↔ SlotScan a n bs ks := by
  have h24 := nonceLength_le a .memoryMode
  induction n with
  | zero =>
    intro bs ks
    simp only [parseKeyslots, Res.ok.injEq]
    constructor
    · rintro rfl; exact .done bs
    · intro h; cases h; rfl
  | succ n ih =>
    intro bs ks
    simp only [parseKeyslots]
    rw [rd_bind_ok]
    match bs with
    | [] => simp only [List.length_nil]; exact ⟨fun h => absurd h.1 (by omega), fun h => by cases h⟩
    | [_] =>
      simp only [List.length_singleton]; exact ⟨fun h => absurd h.1 (by omega), fun h => by cases h⟩
    | b0 :: b1 :: rest =>
      simp only [List.take_succ_cons, List.take_zero, List.drop_succ_cons, List.drop_zero,
        List.length_cons]
      by_cases hb : b0 = 0xDF
      · subst hb
        simp only [ne_eq, not_true_eq_false, if_false, rd_bind_ok, List.length_drop, List.drop_drop,
          ofOption_bind_ok, parseKeyslots_bind_ok, parseKeyslotId_iff, Res.pure_eq, Res.ok.injEq]
        constructor
        · rintro ⟨_, h1, h2, h3, h4, h5, alg, hm, ks', hks, rfl⟩
          simp only [SALT_LEN] at *
          have e : 48 + (nonceLength a .memoryMode + (24 - nonceLength a .memoryMode + (16 + 6))) = 94 := by
            omega
          have e2 : 48 + nonceLength a .memoryMode + (24 - nonceLength a .memoryMode) = 72 := by omega
          have := SlotScan.slot (n := n) (rest := rest) (ks := ks') hm (by omega)
            ((ih _ _).1 (by rw [← hks]; congr 2; omega))
          rw [e2]
          exact this
        · intro h
          cases h with
          | empty hb => exact absurd rfl hb
          | slot hc hl hs =>
            simp only [SALT_LEN]
            refine ⟨by omega, by omega, by omega, by omega, by omega, by omega, _, hc, _,
              (by rw [(ih _ _).2 (by rw [show 48 + nonceLength a .memoryMode +
                (24 - nonceLength a .memoryMode) + 16 + 6 = 94 by omega]; exact hs)]), ?_⟩
            have e2 : 48 + nonceLength a .memoryMode + (24 - nonceLength a .memoryMode) = 72 := by omega
            rw [e2]
            rfl
      · have : [b0] ≠ [0xDF] := by simpa using hb
        simp only [ne_eq, this, not_false_eq_true, if_true]
        constructor
        · rintro ⟨_, h⟩; exact .empty hb ((ih _ _).1 h)
        · intro h
          cases h with
          | empty _ hs => exact ⟨by omega, (ih _ _).2 hs⟩
          | slot => exact absurd rfl hb

theorem slotScan_sized {a : Algorithm} {n : Nat} {bs : Bytes} {ks : List Keyslot} (h : SlotScan a n bs ks) :
    ks.length ≤ n ∧ ∀ k ∈ ks, SlotOk a k := by
  have h24 := nonceLength_le a .memoryMode
  induction h with
  | done => simp
  | empty _ _ ih => exact ⟨by omega, ih.2⟩
  | @slot n b1 alg rest ks hc hl hs ih =>
    refine ⟨by simpa using ih.1, ?_⟩
    intro k hk
    rcases List.mem_cons.1 hk with rfl | hk
    · refine ⟨?_, ?_, ?_, ?_⟩
      · simp [slice]; omega
      · simp [slice]; omega
      · simp [slice]; omega
      · simp only [hashCodes, List.mem_cons, Prod.mk.injEq, List.not_mem_nil, or_false] at hc
        simp only [supportedHashes, List.mem_cons, List.not_mem_nil, or_false]
        rcases hc with ⟨-, h⟩ | ⟨-, h⟩ | ⟨-, h⟩ | ⟨-, h⟩ | ⟨-, h⟩ <;> simp [h]
    · exact ih.2 k hk

theorem parseVersion_iff (b : Bytes) (v : HeaderVersion) : parseVersion b = some v ↔ b = versionCode v := by
  unfold parseVersion
  constructor
  · intro h; repeat' split at h
    all_goals first | (injection h with h; subst h; assumption) | contradiction
  · rintro rfl; cases v <;> decide

theorem parseAlgorithm_iff (b : Bytes) (v : Algorithm) : parseAlgorithm b = some v ↔ b = algorithmCode v := by
  unfold parseAlgorithm
  constructor
  · intro h; repeat' split at h
    all_goals first | (injection h with h; subst h; assumption) | contradiction
  · rintro rfl; cases v <;> decide

theorem parseMode_iff (b : Bytes) (v : Mode) : parseMode b = some v ↔ b = modeCode v := by
  unfold parseMode
  constructor
  · intro h; repeat' split at h
    all_goals first | (injection h with h; subst h; assumption) | contradiction
  · rintro rfl; cases v <;> decide

theorem slice_take (bs : Bytes) (m i n : Nat) (h : i + n ≤ m) : slice (bs.take m) i n = slice bs i n := by
  simp only [slice, List.drop_take, List.take_take]
  congr 1; omega

theorem slice_length (bs : Bytes) (i n : Nat) (h : i + n ≤ bs.length) : (slice bs i n).length = n := by
  simp [slice]; omega

@[simp] theorem versionCode_length (v : HeaderVersion) : (versionCode v).length = 2 := by cases v <;> rfl
@[simp] theorem algorithmCode_length (v : Algorithm) : (algorithmCode v).length = 2 := by cases v <;> rfl
@[simp] theorem modeCode_length (v : Mode) : (modeCode v).length = 2 := by cases v <;> rfl

theorem slice_split (bs : Bytes) (i m n : Nat) : slice bs i (m + n) = slice bs i m ++ slice bs (i + m) n := by
  simp only [slice, List.take_add, List.drop_drop]

theorem tag_iff (bs : Bytes) (v : HeaderVersion) (a : Algorithm) (m : Mode) (hl : 6 ≤ bs.length) :
    slice bs 0 6 = versionCode v ++ algorithmCode a ++ modeCode m ↔
      slice bs 0 2 = versionCode v ∧ slice bs 2 2 = algorithmCode a ∧ slice bs 4 2 = modeCode m := by
  have e : slice bs 0 6 = slice bs 0 2 ++ slice bs 2 2 ++ slice bs 4 2 := by
    rw [show (6 : Nat) = 2 + (2 + 2) from rfl, slice_split, slice_split]; simp
  rw [e]
  constructor
  · intro h
    have h1 := List.append_inj h (by simp only [List.length_append]; rw [slice_length, slice_length] <;> simp <;> omega)
    have h2 := List.append_inj h1.1 (by rw [slice_length] <;> simp; omega)
    exact ⟨h2.1, h2.2, h1.2⟩
  · rintro ⟨h1, h2, h3⟩; rw [h1, h2, h3]

/-- The parser and the format relation agree. -/
theorem parseHeader_iff (bs : Bytes) (v : HeaderVersion) (h : Header) (aad : Bytes)
    (hv : parseVersion (bs.take 2) = some v) (hl : v.size ≤ bs.length) :
    parseHeader v (bs.take v.size) = .ok (h, aad) ↔
      (h.headerType.version = v ∧ IsHeader bs h aad) := by
  have hs := size_eq v
  rw [hs] at hl ⊢
  have h64 : 64 ≤ headerSize v := by cases v <;> decide
  rw [parseVersion_iff] at hv
  have hfl : (bs.take (headerSize v)).length = headerSize v := by simp; omega
  unfold parseHeader
  simp only [rd_bind_ok, ofOption_bind_ok, getNonceLen_eq, parseAlgorithm_iff,
    parseMode_iff, List.drop_drop, List.length_drop, hfl]
  have e2 : List.take 2 (List.drop 2 (bs.take (headerSize v))) = slice bs 2 2 := slice_take _ _ _ _ (by omega)
  have e4 : List.take 2 (List.drop (2 + 2) (bs.take (headerSize v))) = slice bs 4 2 :=
    slice_take _ _ _ _ (by omega)
  rw [e2, e4]
  constructor
  · rintro ⟨_, a, ha, _, m, hm, hh⟩
    have h24 := nonceLength_le a m
    have h24' := nonceLength_le a .memoryMode
    cases v
    all_goals
      simp only [rd_bind_ok, parseKeyslots_bind_ok, Res.pure_eq, Res.ok.injEq, Prod.mk.injEq, List.length_drop, hfl,
        List.drop_drop, parseKeyslots_iff] at hh
    · obtain ⟨_, _, _, _, rfl, rfl⟩ := hh
      refine ⟨rfl, hl, (tag_iff _ _ _ _ (by omega)).2 ⟨hv, ha, hm⟩, ⟨?_, rfl, ?_⟩, rfl⟩
      · exact congrArg some (slice_take _ _ _ _ (by decide))
      · exact slice_take _ _ _ _ (by show _ ≤ 64; omega)
    · obtain ⟨_, _, _, _, rfl, rfl⟩ := hh
      refine ⟨rfl, hl, (tag_iff _ _ _ _ (by omega)).2 ⟨hv, ha, hm⟩, ⟨?_, rfl, ?_⟩, rfl⟩
      · exact congrArg some (slice_take _ _ _ _ (by decide))
      · exact slice_take _ _ _ _ (by show _ ≤ 64; omega)
    · obtain ⟨_, _, _, _, rfl, rfl⟩ := hh
      refine ⟨rfl, hl, (tag_iff _ _ _ _ (by omega)).2 ⟨hv, ha, hm⟩, ⟨?_, rfl, ?_⟩, ?_⟩
      · exact congrArg some (slice_take _ _ _ _ (by decide))
      · exact slice_take _ _ _ _ (by show _ ≤ 64; omega)
      · simp [aadOfBytes, slice, headerSize]
    · obtain ⟨_, _, _, _, _, _, rfl, rfl⟩ := hh
      have e48 : 2 + 2 + 2 + 16 + nonceLength a m + (26 - nonceLength a m) = 48 := by omega
      simp only [e48]
      refine ⟨trivial, hl, (tag_iff _ _ _ _ (by omega)).2 ⟨hv, ha, hm⟩, ⟨?_, ?_, ?_⟩, ?_⟩
      · exact congrArg some (slice_take _ _ _ _ (by decide))
      · have q1 : List.take 48 (List.drop 48 (bs.take (headerSize .v4))) = slice bs 48 48 :=
          slice_take _ _ _ _ (by decide)
        have q2 : List.take (nonceLength a .memoryMode) (List.drop (48 + 48) (bs.take (headerSize .v4)))
            = slice bs 96 (nonceLength a .memoryMode) := slice_take _ _ _ _ (by show _ ≤ 128; omega)
        have q3 : List.take 16 (List.drop (2 + 2 + 2) (bs.take (headerSize .v4))) = slice bs 6 16 :=
          slice_take _ _ _ _ (by decide)
        rw [q1, q2, q3]
      · exact slice_take _ _ _ _ (by show _ ≤ 128; omega)
      · simp only [aadOfBytes, getNonceLen_eq]
        congr 1
        · rw [List.take_take]; rfl
        · rw [List.drop_take]; simp only [slice, headerSize]; congr 1; omega
    · obtain ⟨_, _, ks, hk, rfl, rfl⟩ := hh
      have e32 : 2 + 2 + 2 + nonceLength a m + (26 - nonceLength a m) = 32 := by omega
      refine ⟨rfl, hl, (tag_iff _ _ _ _ (by omega)).2 ⟨hv, ha, hm⟩, ⟨rfl, ⟨ks, rfl, ?_⟩, ?_⟩, ?_⟩
      · rw [e32, List.drop_take] at hk; exact hk
      · exact slice_take _ _ _ _ (by show _ ≤ 416; omega)
      · simp only [aadOfBytes, List.take_take]; rfl
  · rintro ⟨rfl, hh⟩
    obtain ⟨_, ha, hm⟩ := (tag_iff _ _ _ _ (by omega)).1 hh.tag
    refine ⟨by omega, _, ha, by omega, _, hm, ?_⟩
    have hf := hh.fields
    have haad := hh.aad
    rcases h with ⟨⟨v, a, m⟩, nonce, salt, ks⟩
    have h24 := nonceLength_le a m
    have h24' := nonceLength_le a .memoryMode
    simp only at hf haad hfl ⊢
    have hszs : headerSize .v1 = 64 ∧ headerSize .v2 = 64 ∧ headerSize .v3 = 64 ∧ headerSize .v4 = 128 ∧
      headerSize .v5 = 416 := ⟨rfl, rfl, rfl, rfl, rfl⟩
    cases v
    all_goals
      simp only [rd_bind_ok, parseKeyslots_bind_ok, Res.pure_eq, Res.ok.injEq, Prod.mk.injEq, List.length_drop, hfl,
        List.drop_drop, parseKeyslots_iff, Header.mk.injEq, true_and]
      simp only at hf haad
    · obtain ⟨rfl, rfl, rfl⟩ := hf
      refine ⟨by omega, by omega, by omega, by omega, ⟨?_, ?_, rfl⟩, haad.symm⟩
      · exact slice_take _ _ _ _ (by show _ ≤ 64; omega)
      · exact congrArg some (slice_take _ _ _ _ (by decide))
    · obtain ⟨rfl, rfl, rfl⟩ := hf
      refine ⟨by omega, by omega, by omega, by omega, ⟨?_, ?_, rfl⟩, haad.symm⟩
      · exact slice_take _ _ _ _ (by show _ ≤ 64; omega)
      · exact congrArg some (slice_take _ _ _ _ (by decide))
    · obtain ⟨rfl, rfl, rfl⟩ := hf
      refine ⟨by omega, by omega, by omega, by omega, ⟨?_, ?_, rfl⟩, ?_⟩
      · exact slice_take _ _ _ _ (by show _ ≤ 64; omega)
      · exact congrArg some (slice_take _ _ _ _ (by decide))
      · rw [haad]; simp [aadOfBytes, slice, headerSize]
    · obtain ⟨rfl, rfl, rfl⟩ := hf
      have e48 : 2 + 2 + 2 + 16 + nonceLength a m + (26 - nonceLength a m) = 48 := by omega
      simp only [e48]
      refine ⟨by omega, by omega, by omega, by omega, by omega, by omega, ⟨?_, ?_, ?_⟩, ?_⟩
      · exact slice_take _ _ _ _ (by show _ ≤ 128; omega)
      · exact congrArg some (slice_take _ _ _ _ (by decide))
      · have q1 : List.take 48 (List.drop 48 (bs.take (headerSize .v4))) = slice bs 48 48 :=
          slice_take _ _ _ _ (by decide)
        have q2 : List.take (nonceLength a .memoryMode) (List.drop (48 + 48) (bs.take (headerSize .v4)))
            = slice bs 96 (nonceLength a .memoryMode) := slice_take _ _ _ _ (by show _ ≤ 128; omega)
        have q3 : List.take 16 (List.drop (2 + 2 + 2) (bs.take (headerSize .v4))) = slice bs 6 16 :=
          slice_take _ _ _ _ (by decide)
        rw [q1, q2, q3]
      · rw [haad]
        simp only [aadOfBytes, getNonceLen_eq]
        congr 1
        · rw [List.take_take]; rfl
        · rw [List.drop_take]; simp only [slice, headerSize]; congr 1; omega
    · obtain ⟨rfl, ⟨ks', rfl, hk⟩, rfl⟩ := hf
      have e32 : 2 + 2 + 2 + nonceLength a m + (26 - nonceLength a m) = 32 := by omega
      refine ⟨by omega, by omega, ks', ?_, ⟨?_, rfl, rfl⟩, ?_⟩
      · rw [e32, List.drop_take]; exact hk
      · exact slice_take _ _ _ _ (by show _ ≤ 416; omega)
      · rw [haad]; simp only [aadOfBytes, List.take_take]; rfl

theorem isHeader_version {bs : Bytes} {h : Header} {aad : Bytes} (hh : IsHeader bs h aad) :
    parseVersion (bs.take 2) = some h.headerType.version := by
  have : 64 ≤ bs.length := by
    have := hh.size
    have : 64 ≤ headerSize h.headerType.version := by cases h.headerType.version <;> decide
    omega
  rw [parseVersion_iff]
  exact ((tag_iff _ _ _ _ (by omega)).1 hh.tag).1

theorem parseHeader_no_abort (v : HeaderVersion) (full : Bytes) (a : Abort) : parseHeader v full ≠ .abort a := by
  have hrd : ∀ {β : Type} (n : Nat) (bs : Bytes) (f : Bytes × Bytes → Res HdrErr β),
      (∀ x, f x ≠ .abort a) → (rd n bs >>= f) ≠ .abort a := by
    intro β n bs f hf
    unfold rd; split <;> simp [hf]
  have hopt : ∀ {α β : Type} (e : HdrErr) (o : Option α) (f : α → Res HdrErr β),
      (∀ x, f x ≠ .abort a) → (Res.ofOption e o >>= f) ≠ .abort a := by
    intro α β e o f hf
    cases o <;> simp [hf]
  have hks : ∀ knl n bs, parseKeyslots knl n bs ≠ .abort a := by
    intro knl n
    induction n with
    | zero => intro bs; simp [parseKeyslots]
    | succ n ih =>
      intro bs
      simp only [parseKeyslots]
      apply hrd; rintro ⟨i, bs⟩
      dsimp only
      split
      · exact ih _
      · refine hrd _ _ _ fun _ => hrd _ _ _ fun _ => hrd _ _ _ fun _ => hrd _ _ _ fun _ => hrd _ _ _ fun _ =>
          hopt _ _ _ fun _ => ?_
        generalize hg : parseKeyslots knl n _ = r
        cases r with
        | ok _ => simp
        | err _ => simp
        | abort b => intro hb; simp at hb; subst hb; exact ih _ hg
  unfold parseHeader
  refine hrd _ _ _ fun _ => hopt _ _ _ fun _ => hrd _ _ _ fun _ => hopt _ _ _ fun _ => ?_
  cases v
  · refine hrd _ _ _ fun _ => hrd _ _ _ fun _ => hrd _ _ _ fun _ => hrd _ _ _ fun _ => by simp
  · refine hrd _ _ _ fun _ => hrd _ _ _ fun _ => hrd _ _ _ fun _ => hrd _ _ _ fun _ => by simp
  · refine hrd _ _ _ fun _ => hrd _ _ _ fun _ => hrd _ _ _ fun _ => hrd _ _ _ fun _ => by simp
  · refine hrd _ _ _ fun _ => hrd _ _ _ fun _ => hrd _ _ _ fun _ => hrd _ _ _ fun _ =>
      hrd _ _ _ fun _ => hrd _ _ _ fun _ => by simp
  · refine hrd _ _ _ fun _ => hrd _ _ _ fun _ => ?_
    dsimp only
    generalize hg : parseKeyslots _ 4 _ = r
    cases r with
    | ok _ => simp
    | err _ => simp
    | abort b => intro hb; simp at hb; subst hb; exact hks _ _ _ hg

/-- Everything `deserialize` can do, against the format relation. -/
theorem deserialize_cases (h : Nat) (w : World) :
    (∃ hd aad w', deserialize h w = (.ok (hd, aad), w') ∧ IsHeader (w.rest h) hd aad ∧
      w'.core = (w.adv h (headerSize hd.headerType.version)).core) ∨
    (∃ e w' p, deserialize h w = (.err e, w') ∧ w'.core = (w.setPos h p).core) := by
  rcases deserialize_spec h w with ⟨e, w', p, he, hc⟩ | ⟨w', he, _, _, hc⟩ | ⟨v, w', hv, hl, he, hc⟩
  · exact .inr ⟨_, w', p, he, hc⟩
  · exact .inr ⟨_, w', (w.fd h).pos, he, by rw [World.setPos_self]; exact hc⟩
  · cases hp : parseHeader v ((w.rest h).take v.size) with
    | abort a => exact absurd hp (parseHeader_no_abort _ _ _)
    | err e => exact .inr ⟨e, w', _, by rw [he, hp], hc⟩
    | ok r =>
      obtain ⟨hd, aad⟩ := r
      obtain ⟨hvv, hi⟩ := (parseHeader_iff _ _ _ _ hv hl).1 hp
      exact .inl ⟨hd, aad, w', by rw [he, hp], hi, by rw [hc, hvv, size_eq]⟩

/-- `deserialize` without faults on a header. -/
theorem deserialize_isHeader {h : Nat} {w : World} (hs : w.sched = []) {hd : Header} {aad : Bytes}
    (hi : IsHeader (w.rest h) hd aad) :
    deserialize h w = (.ok (hd, aad), w.adv h (headerSize hd.headerType.version)) := by
  have hv := isHeader_version hi
  have hl := hi.size
  rw [← size_eq] at hl
  rw [deserialize_nil hs hv hl, (parseHeader_iff _ _ _ _ hv hl).2 ⟨rfl, hi⟩, size_eq]

theorem isHeader_unique {bs : Bytes} {h h' : Header} {aad aad' : Bytes} (hi : IsHeader bs h aad)
    (hi' : IsHeader bs h' aad') : h = h' ∧ aad = aad' := by
  have hv := isHeader_version hi
  have hv' := isHeader_version hi'
  have hvv : h'.headerType.version = h.headerType.version := by rw [hv] at hv'; exact (Option.some.inj hv').symm
  have hl := hi.size
  rw [← size_eq] at hl
  have e := (parseHeader_iff _ _ _ _ hv hl).2 ⟨rfl, hi⟩
  have e' := (parseHeader_iff _ _ _ _ hv hl).2 ⟨hvv, hi'⟩
  rw [e] at e'
  simpa using e'

theorem isHeader_append {bs : Bytes} {h : Header} {aad : Bytes} (hi : IsHeader bs h aad)
    (hl : bs.length = headerSize h.headerType.version) (tail : Bytes) : IsHeader (bs ++ tail) h aad := by
  have hv := isHeader_version hi
  have hl' : h.headerType.version.size ≤ bs.length := by rw [size_eq]; omega
  have e := (parseHeader_iff _ _ _ _ hv hl').2 ⟨rfl, hi⟩
  have h64 : 64 ≤ headerSize h.headerType.version := by cases h.headerType.version <;> decide
  have := (parseHeader_iff (bs ++ tail) _ h aad
    (by rw [List.take_append_of_le_length (by omega)]; exact hv) (by simp; omega)).1
    (by rw [size_eq, List.take_append_of_le_length (by omega), ← size_eq]; exact e)
  exact this.2

theorem isHeader_of_parse {bs : Bytes} {v : HeaderVersion} {h : Header} {aad : Bytes}
    (hp : parseHeader v bs = .ok (h, aad)) (hv : parseVersion (bs.take 2) = some v) (hl : bs.length = v.size) :
    h.headerType.version = v ∧ IsHeader bs h aad :=
  (parseHeader_iff bs v h aad hv (by omega)).1 (by rw [← hl, List.take_length]; exact hp)

theorem isHeader_sized {bs : Bytes} {h : Header} {aad : Bytes} (hi : IsHeader bs h aad) :
    h.nonce.length = nonceLength h.headerType.algorithm h.headerType.mode ∧
    (∀ ks, h.keyslots = some ks → ks.length ≤ 4 ∧ ∀ k ∈ ks, SlotOk h.headerType.algorithm k) := by
  have hl := hi.size
  have hf := hi.fields
  rcases h with ⟨⟨v, a, m⟩, nonce, salt, ks⟩
  have h24 := nonceLength_le a m
  have h24' := nonceLength_le a .memoryMode
  cases v <;> simp only [headerSize] at hf hl ⊢
  · obtain ⟨_, rfl, rfl⟩ := hf
    exact ⟨slice_length _ _ _ (by omega), by simp⟩
  · obtain ⟨_, rfl, rfl⟩ := hf
    exact ⟨slice_length _ _ _ (by omega), by simp⟩
  · obtain ⟨_, rfl, rfl⟩ := hf
    exact ⟨slice_length _ _ _ (by omega), by simp⟩
  · obtain ⟨_, rfl, rfl⟩ := hf
    refine ⟨slice_length _ _ _ (by omega), ?_⟩
    rintro ks' hks
    cases hks
    refine ⟨by simp, ?_⟩
    intro k hk
    rw [List.mem_singleton.1 hk]
    exact ⟨slice_length _ _ _ (by omega), slice_length _ _ _ (by omega), slice_length _ _ _ (by omega),
      by simp [supportedHashes]⟩
  · obtain ⟨_, ⟨ks', rfl, hk⟩, rfl⟩ := hf
    refine ⟨slice_length _ _ _ (by omega), ?_⟩
    rintro ks' hks
    cases hks
    exact slotScan_sized hk

theorem bytesV5_isHeader {t : HeaderType} {nonce : Bytes} {ks : List Keyslot} (hv : t.version = .v5)
    (hn : nonce.length = nonceLength t.algorithm t.mode) (hl : ks.length ≤ 4)
    (hs : ∀ k ∈ ks, SlotOk t.algorithm k) (tail : Bytes) :
    IsHeader (bytesV5 t nonce ks ++ tail)
      { headerType := t, nonce, salt := some (zeros 16), keyslots := some ks }
      (t.tag ++ nonce ++ zeros (26 - nonceLength t.algorithm t.mode)) := by
  have hlen := bytesV5_length hn hl hs
  have hp := parseHeader_v5 hv hn hl hs
  refine isHeader_append (isHeader_of_parse hp ?_ (by rw [hlen]; rfl)).2 (by rw [hlen]; simp [hv, headerSize]) tail
  rw [show bytesV5 t nonce ks = t.tag ++ (nonce ++ (zeros (26 - nonceLength t.algorithm t.mode)
    ++ (ks.flatMap (Keyslot.bytes (nonceLength t.algorithm .memoryMode)) ++ zeros ((4 - ks.length) * 96)))) by
    simp [bytesV5], (parseHeader_tag t _).1, hv]
  exact parseVersion_serialize _

theorem bytesV4_isHeader {t : HeaderType} {nonce salt : Bytes} {k : Keyslot} (hv : t.version = .v4)
    (hn : nonce.length = nonceLength t.algorithm t.mode) (hsalt : salt.length = 16)
    (hk : k.encryptedKey.length = 48) (hkn : k.nonce.length = nonceLength t.algorithm .memoryMode)
    (tail : Bytes) :
    IsHeader (bytesV4 t nonce salt k ++ tail)
      { headerType := t, nonce, salt := some salt,
        keyslots := some [{ k with hashAlgorithm := .blake3Balloon 4, salt := salt }] }
      (t.tag ++ salt ++ nonce ++ zeros (26 - nonceLength t.algorithm t.mode)
          ++ zeros (32 - nonceLength t.algorithm .memoryMode)) := by
  have hlen := bytesV4_length hn hsalt hk hkn
  have hp := parseHeader_v4 hv hn hsalt hk hkn
  refine isHeader_append (isHeader_of_parse hp ?_ (by rw [hlen]; rfl)).2 (by rw [hlen]; simp [hv, headerSize]) tail
  rw [show bytesV4 t nonce salt k = t.tag ++ (salt ++ (nonce ++ (zeros (26 - nonceLength t.algorithm t.mode)
    ++ (k.encryptedKey ++ (k.nonce ++ zeros (32 - nonceLength t.algorithm .memoryMode)))))) by
    simp [bytesV4], (parseHeader_tag t _).1, hv]
  exact parseVersion_serialize _

theorem bytesV3_isHeader {t : HeaderType} {nonce salt : Bytes} (hv : t.version = .v3)
    (hn : nonce.length = nonceLength t.algorithm t.mode) (hsalt : salt.length = 16) (tail : Bytes) :
    IsHeader (bytesV3 t nonce salt ++ tail)
      { headerType := t, nonce, salt := some salt, keyslots := none } (bytesV3 t nonce salt) := by
  have hlen := bytesV3_length hn hsalt
  have hp := parseHeader_v13 (t := t) (z := zeros 16)
    (pad := zeros (26 - nonceLength t.algorithm t.mode)) (.inr hv) hn hsalt (by simp) (by simp)
  rw [hv, show aadOfBytes t (t.tag ++ salt ++ zeros 16 ++ nonce ++ zeros (26 - nonceLength t.algorithm t.mode)) =
    bytesV3 t nonce salt by simp [aadOfBytes, hv, bytesV3]] at hp
  refine isHeader_append (isHeader_of_parse (bs := bytesV3 t nonce salt) hp ?_ (by rw [hlen]; rfl)).2
    (by rw [hlen]; simp [hv, headerSize]) tail
  rw [show bytesV3 t nonce salt = t.tag ++ (salt ++ (zeros 16 ++ (nonce ++
    zeros (26 - nonceLength t.algorithm t.mode)))) by simp [bytesV3], (parseHeader_tag t _).1, hv]
  exact parseVersion_serialize _

end Volaris
