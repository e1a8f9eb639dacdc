import Verif.Spec.Torn
import Verif.Proofs.KeyFiles
namespace Volaris
open Spec KeyOps

theorem torn_append {a a' b b' : Bytes} (h : a.length = a'.length) (x : Nat) :
    torn (a' ++ b') (a ++ b) x = torn a' a x ++ torn b' b (x - a.length) := by
  simp only [torn, List.take_append, List.drop_append, h]
  by_cases hx : x ≤ a'.length
  · rw [show x - a'.length = 0 by omega]; simp
  · rw [List.drop_eq_nil_of_le (as := a) (by omega)]; simp

theorem torn_self (a : Bytes) (x : Nat) : torn a a x = a := by simp [torn]
theorem torn_zero (a b : Bytes) : torn a b 0 = b := by simp [torn]
theorem torn_all {a b : Bytes} {x : Nat} (h : a.length = b.length) (hx : a.length ≤ x) : torn a b x = a := by
  simp [torn, List.take_of_length_le hx, List.drop_eq_nil_of_le (h ▸ hx)]
theorem torn_length {a b : Bytes} (h : a.length = b.length) (x : Nat) : (torn a b x).length = a.length := by
  simp [torn]; omega

/-! ### Scanning -/

theorem slot_bytes_cons {a : Algorithm} {k : Keyslot} (h : SlotOk a k) :
    ∃ c, (c, k.hashAlgorithm) ∈ hashCodes ∧ k.bytes (nonceLength a .memoryMode) = 0xDF :: c ::
      (k.encryptedKey ++ k.nonce ++ zeros (24 - nonceLength a .memoryMode) ++ k.salt ++ zeros 6) := by
  have := h.hash
  rcases k with ⟨ha, ek, n, s⟩
  simp only [supportedHashes, List.mem_cons, List.not_mem_nil, or_false] at this
  rcases this with rfl | rfl | rfl | rfl | rfl <;>
    exact ⟨_, by simp [hashCodes]; rfl, by simp [Keyslot.bytes, Keyslot.serialize]⟩

theorem scan_slot {a : Algorithm} {k : Keyslot} (h : SlotOk a k) {n : Nat} {rest : Bytes} {ks : List Keyslot} (hs : SlotScan a n rest ks) :
    SlotScan a (n + 1) (k.bytes (nonceLength a .memoryMode) ++ rest) (k :: ks) := by
  obtain ⟨c, hc, e⟩ := slot_bytes_cons h
  have h24 := nonceLength_le a .memoryMode
  have hlen : (k.encryptedKey ++ k.nonce ++ zeros (24 - nonceLength a .memoryMode) ++ k.salt ++ zeros 6).length = 94 := by
    simp [h.key, h.nonce, h.salt]; omega
  rw [e]
  have key := SlotScan.slot (a := a) (rest := k.encryptedKey ++ k.nonce ++ zeros (24 - nonceLength a .memoryMode) ++ k.salt ++ zeros 6 ++ rest)
    hc (by rw [List.length_append, hlen]; omega) (by rw [List.drop_left' hlen]; exact hs)
  have e1 : slice (k.encryptedKey ++ k.nonce ++ zeros (24 - nonceLength a .memoryMode) ++ k.salt ++ zeros 6 ++ rest) 0 48 = k.encryptedKey := by
    simp only [slice, List.drop_zero, List.append_assoc]; exact List.take_left' h.key
  have e2 : slice (k.encryptedKey ++ k.nonce ++ zeros (24 - nonceLength a .memoryMode) ++ k.salt ++ zeros 6 ++ rest) 48
      (nonceLength a .memoryMode) = k.nonce := by
    simp only [slice, List.append_assoc]; rw [List.drop_left' h.key]; exact List.take_left' h.nonce
  have e3 : slice (k.encryptedKey ++ k.nonce ++ zeros (24 - nonceLength a .memoryMode) ++ k.salt ++ zeros 6 ++ rest) 72 16 = k.salt := by
    simp only [slice]
    rw [List.append_assoc (bs := zeros 6), List.append_assoc (bs := k.salt),
      List.drop_left' (by simp [h.key, h.nonce]; omega)]
    exact List.take_left' h.salt
  rw [e1, e2, e3] at key
  exact key

theorem scan_slots {a : Algorithm} {ks : List Keyslot} (h : ∀ k ∈ ks, SlotOk a k) {n : Nat} {rest : Bytes} {ks' : List Keyslot}
    (hs : SlotScan a n rest ks') :
    SlotScan a (ks.length + n) (ks.flatMap (Keyslot.bytes (nonceLength a .memoryMode)) ++ rest) (ks ++ ks') := by
  induction ks with
  | nil => simpa using hs
  | cons k ks ih =>
    have := scan_slot (h k (by simp)) (ih (fun x hx => h x (by simp [hx])))
    simp only [List.length_cons, List.flatMap_cons, List.append_assoc, List.cons_append]
    rw [show ks.length + 1 + n = ks.length + n + 1 by omega]
    exact this

theorem scan_none {a : Algorithm} (n : Nat) : ∀ (bs : Bytes), 2 * n ≤ bs.length → (∀ i < n, bs[2 * i]? ≠ some 0xDF) → SlotScan a n bs [] := by
  induction n with
  | zero => intro bs _ _; exact .done bs
  | succ n ih =>
    intro bs hl hb
    match bs, hl with
    | b0 :: b1 :: rest, hl =>
      refine .empty ?_ (ih rest (by simp at hl; omega) ?_)
      · have := hb 0 (by omega); simpa using this
      · intro i hi
        have := hb (i + 1) (by omega)
        rwa [show 2 * (i + 1) = 2 * i + 1 + 1 by omega, List.getElem?_cons_succ, List.getElem?_cons_succ] at this

theorem scan_zeros {a : Algorithm} (n m : Nat) (h : 2 * n ≤ m) : SlotScan a n (zeros m) [] := by
  apply scan_none n _ (by simpa using h)
  intro i hi
  rw [zeros, List.getElem?_replicate]
  split <;> simp

/-- A block with a valid identifier reads as some slot. -/
theorem scan_block {a : Algorithm} {c : UInt8} {alg : HashingAlgorithm} (hc : (c, alg) ∈ hashCodes) {r : Bytes} (hr : r.length = 94)
    {n : Nat} {rest : Bytes} {ks : List Keyslot} (hs : SlotScan a n rest ks) :
    ∃ x, SlotScan a (n + 1) (0xDF :: c :: r ++ rest) (x :: ks) := by
  have := SlotScan.slot (a := a) (rest := r ++ rest) hc (by simp; omega) (by rw [List.drop_left' hr]; exact hs)
  exact ⟨_, this⟩

/-- One slot half-written over another. -/
theorem scan_mix {a : Algorithm} {k k' : Keyslot} (h : SlotOk a k) (h' : SlotOk a k') (y : Nat) {n : Nat} {rest : Bytes} {ks : List Keyslot}
    (hs : SlotScan a n rest ks) :
    ∃ x, SlotScan a (n + 1) (torn (k'.bytes (nonceLength a .memoryMode)) (k.bytes (nonceLength a .memoryMode)) y ++ rest) (x :: ks) := by
  obtain ⟨c, hc, e⟩ := slot_bytes_cons h
  obtain ⟨c', hc', e'⟩ := slot_bytes_cons h'
  have hl := slot_bytes_length h
  have hl' := slot_bytes_length h'
  rw [e] at hl; rw [e'] at hl'
  simp only [List.length_cons] at hl hl'
  rw [e, e']
  match y with
  | 0 => rw [torn_zero]; exact scan_block hc (by omega) hs
  | 1 =>
    simp only [torn, List.take_succ_cons, List.take_zero, List.drop_succ_cons, List.drop_zero, List.cons_append, List.nil_append]
    exact scan_block hc (by omega) hs
  | y + 2 =>
    simp only [torn, List.take_succ_cons, List.drop_succ_cons, List.cons_append]
    refine scan_block hc' ?_ hs
    rw [List.length_append, List.length_take, List.length_drop]; omega

/-- One slot half-written over an empty place, at least two bytes. -/
theorem scan_fresh {a : Algorithm} {k : Keyslot} (h : SlotOk a k) (y : Nat) (hy : 2 ≤ y) {n : Nat} {rest : Bytes} {ks : List Keyslot}
    (hs : SlotScan a n rest ks) :
    ∃ x, SlotScan a (n + 1) (torn (k.bytes (nonceLength a .memoryMode)) (zeros 96) y ++ rest) (x :: ks) := by
  obtain ⟨c, hc, e⟩ := slot_bytes_cons h
  have hl := slot_bytes_length h
  rw [e] at hl
  simp only [List.length_cons] at hl
  rw [e]
  obtain ⟨y, rfl⟩ : ∃ z, y = z + 2 := ⟨y - 2, by omega⟩
  simp only [torn, List.take_succ_cons, List.cons_append]
  refine scan_block hc ?_ hs
  rw [List.length_append, List.length_take, List.length_drop, zeros_length]; omega

/-- A slot half-erased. -/
theorem scan_erased {a : Algorithm} {k : Keyslot} (h : SlotOk a k) (y r m : Nat) (hr : r ≤ 3) (hm : 2 * r ≤ m)
    (hb : ∀ i, 1 ≤ i → i ≤ r → k.encryptedKey[2 * i - 2]? ≠ some 0xDF) :
    ∃ ks' x, SlotScan a (r + 1) (torn (zeros 96) (k.bytes (nonceLength a .memoryMode)) y ++ zeros m) ks' ∧ ∀ k' ∈ ks', k' = x := by
  have hl := slot_bytes_length h
  by_cases hy : y = 0
  · subst hy
    rw [torn_zero]
    exact ⟨[k], k, scan_slot h (scan_zeros r m hm), by simp⟩
  · refine ⟨[], k, scan_none _ _ ?_ ?_, by simp⟩
    · rw [List.length_append, torn_length (by rw [hl, zeros_length])]; simp; omega
    · intro i hi
      rw [List.getElem?_append_left (by rw [torn_length (by rw [hl, zeros_length]), zeros_length]; omega)]
      by_cases hiy : 2 * i < y
      · have e : (torn (zeros 96) (k.bytes (nonceLength a .memoryMode)) y)[2 * i]? = some 0 := by
          rw [torn, List.getElem?_append_left (by simp; omega), zeros_take, zeros, List.getElem?_replicate, if_pos (by omega)]
        rw [e]; simp
      · rw [torn, List.getElem?_append_right (by simp; omega), List.getElem?_drop]
        rw [show y + (2 * i - ((zeros 96).take y).length) = 2 * i by simp; omega]
        obtain ⟨c, hc, e⟩ := slot_bytes_cons h
        obtain ⟨i, rfl⟩ : ∃ z, i = z + 1 := ⟨i - 1, by omega⟩
        rw [e, show 2 * (i + 1) = 2 * i + 1 + 1 by omega, List.getElem?_cons_succ, List.getElem?_cons_succ]
        rw [List.append_assoc, List.append_assoc, List.append_assoc, List.getElem?_append_left (by rw [h.key]; omega)]
        have := hb (i + 1) (by omega) (by omega)
        rwa [show 2 * (i + 1) - 2 = 2 * i by omega] at this

/-- The slots behind a deleted one move forward by one place, interrupted anywhere. -/
theorem scan_shift {a : Algorithm} (after : List Keyslot) : ∀ (k0 : Keyslot), SlotOk a k0 → (∀ k ∈ after, SlotOk a k) →
    ∀ (x r m : Nat), r ≤ 3 → 2 * r ≤ m →
    (∀ i, 1 ≤ i → i ≤ r → ((k0 :: after).getLast (by simp)).encryptedKey[2 * i - 2]? ≠ some 0xDF) →
    ∃ ks' y, SlotScan a (after.length + (r + 1))
      (torn (after.flatMap (Keyslot.bytes (nonceLength a .memoryMode)) ++ zeros 96)
        (k0.bytes (nonceLength a .memoryMode) ++ after.flatMap (Keyslot.bytes (nonceLength a .memoryMode))) x ++ zeros m) ks' ∧
      (∀ k ∈ after, k ∈ ks') ∧ ∀ k ∈ ks', k ∈ after ∨ k = y := by
  induction after with
  | nil =>
    intro k0 h0 _ x r m hr hm hb
    obtain ⟨ks', y, h1, h2⟩ := scan_erased h0 x r m hr hm (by simpa using hb)
    refine ⟨ks', y, ?_, by simp, fun k hk => .inr (h2 k hk)⟩
    simpa using h1
  | cons a1 as ih =>
    intro k0 h0 hall x r m hr hm hb
    have h1 := hall a1 (by simp)
    have has : ∀ k ∈ as, SlotOk a k := fun k hk => hall k (by simp [hk])
    simp only [List.flatMap_cons, List.append_assoc]
    rw [torn_append (by rw [slot_bytes_length h0, slot_bytes_length h1]), slot_bytes_length h0, List.append_assoc]
    by_cases hx : 96 ≤ x
    · obtain ⟨ks', y, s1, s2, s3⟩ := ih a1 h1 has (x - 96) r m hr hm (by
        intro i hi hir; have := hb i hi hir; rwa [List.getLast_cons (by simp)] at this)
      rw [torn_all (by rw [slot_bytes_length h0, slot_bytes_length h1]) (by rw [slot_bytes_length h1]; exact hx)]
      refine ⟨a1 :: ks', y, ?_, ?_, ?_⟩
      · rw [show (a1 :: as).length + (r + 1) = as.length + (r + 1) + 1 by simp; omega]
        exact scan_slot h1 s1
      · intro k hk
        rcases List.mem_cons.1 hk with rfl | hk
        · simp
        · exact List.mem_cons_of_mem _ (s2 k hk)
      · intro k hk
        rcases List.mem_cons.1 hk with rfl | hk
        · exact .inl (by simp)
        · rcases s3 k hk with h | h
          · exact .inl (by simp [h])
          · exact .inr h
    · rw [show x - 96 = 0 by omega, torn_zero]
      have s := scan_slots hall (scan_zeros (a := a) r m hm)
      rw [List.append_nil, List.flatMap_cons] at s
      obtain ⟨y, hy⟩ := scan_mix h0 h1 x s
      refine ⟨y :: a1 :: as, y, ?_, fun k hk => List.mem_cons_of_mem _ hk, ?_⟩
      · rw [show (a1 :: as).length + (r + 1) = (a1 :: as).length + r + 1 by omega]
        exact hy
      · intro k hk
        rcases List.mem_cons.1 hk with rfl | hk
        · exact .inr rfl
        · exact .inl hk

/-! ### Headers from scans -/

/-- The first 32 bytes. -/
def staticV5 (t : HeaderType) (nonce : Bytes) : Bytes := t.tag ++ nonce ++ zeros (26 - nonceLength t.algorithm t.mode)

theorem staticV5_length {t : HeaderType} {nonce : Bytes} (hn : nonce.length = nonceLength t.algorithm t.mode) : (staticV5 t nonce).length = 32 := by
  have := nonceLength_le t.algorithm t.mode
  simp [staticV5, hn]; omega

theorem bytesV5_static (t : HeaderType) (nonce : Bytes) (ks : List Keyslot) :
    bytesV5 t nonce ks = staticV5 t nonce ++ (ks.flatMap (Keyslot.bytes (nonceLength t.algorithm .memoryMode)) ++ zeros ((4 - ks.length) * 96)) := by
  simp [bytesV5, staticV5]

theorem slice_of_eq {l a b c : Bytes} {i n : Nat} (e : l = a ++ (b ++ c)) (ha : a.length = i) (hb : b.length = n) : slice l i n = b := by
  rw [e, slice, List.drop_left' ha, List.take_left' hb]

theorem scanned_keyFile {t : HeaderType} {nonce area body : Bytes} {ks : List Keyslot} (hv : t.version = .v5)
    (hn : nonce.length = nonceLength t.algorithm t.mode) (hl : area.length = 384) (hs : SlotScan t.algorithm 4 area ks) :
    KeyFile (staticV5 t nonce ++ (area ++ body)) { headerType := t, nonce, salt := some (zeros 16), keyslots := some ks } ks (staticV5 t nonce) := by
  have h24 := nonceLength_le t.algorithm t.mode
  have h32 := staticV5_length hn
  have htag : t.tag = versionCode t.version ++ algorithmCode t.algorithm ++ modeCode t.mode := by
    rcases t with ⟨v, a, m⟩
    cases v <;> cases a <;> cases m <;> rfl
  have s0 : slice (staticV5 t nonce ++ (area ++ body)) 0 6 = t.tag :=
    slice_of_eq (a := []) (c := nonce ++ zeros (26 - nonceLength t.algorithm t.mode) ++ (area ++ body)) (by simp [staticV5]) rfl (tag_length t)
  have s1 : slice (staticV5 t nonce ++ (area ++ body)) 6 (nonceLength t.algorithm t.mode) = nonce :=
    slice_of_eq (a := t.tag) (c := zeros (26 - nonceLength t.algorithm t.mode) ++ (area ++ body)) (by simp [staticV5]) (tag_length t) hn
  have s2 : slice (staticV5 t nonce ++ (area ++ body)) 32 384 = area := slice_of_eq rfl h32 hl
  have s3 : slice (staticV5 t nonce ++ (area ++ body)) 0 32 = staticV5 t nonce :=
    slice_of_eq (a := []) (c := area ++ body) (by simp) rfl h32
  have s4 : slice (staticV5 t nonce ++ (area ++ body)) (6 + nonceLength t.algorithm t.mode) (26 - nonceLength t.algorithm t.mode) =
      zeros (26 - nonceLength t.algorithm t.mode) :=
    slice_of_eq (a := t.tag ++ nonce) (c := area ++ body) (by simp [staticV5]) (by simp [hn]) (by simp)
  refine ⟨⟨?_, ?_, ?_, ?_⟩, hv, rfl, ?_⟩
  · simp only [hv, headerSize, List.length_append, h32, hl]; omega
  · rw [s0, htag]
  · simp only [hv]
    exact ⟨rfl, ⟨ks, rfl, by rw [s2]; exact hs⟩, s1.symm⟩
  · simp only [hv]; exact s3.symm
  · intro b hb
    replace hb : b ∈ slice (staticV5 t nonce ++ (area ++ body)) (6 + nonceLength t.algorithm t.mode) (26 - nonceLength t.algorithm t.mode) := hb
    rw [s4] at hb
    exact (List.mem_replicate.1 hb).2

/-- The header a torn area cannot be. -/
theorem scan_required {t : HeaderType} {nonce area body : Bytes} (hv : t.version = .v5)
    (hn : nonce.length = nonceLength t.algorithm t.mode) (hl : area.length = 384) {hd : Header} {aad : Bytes}
    (hi : IsHeader (staticV5 t nonce ++ (area ++ body)) hd aad) : ∃ ks, SlotScan t.algorithm 4 area ks := by
  have h32 := staticV5_length hn
  have htag : t.tag = versionCode t.version ++ algorithmCode t.algorithm ++ modeCode t.mode := by
    rcases t with ⟨v, a, m⟩
    cases v <;> cases a <;> cases m <;> rfl
  have s0 : slice (staticV5 t nonce ++ (area ++ body)) 0 6 = t.tag :=
    slice_of_eq (a := []) (c := nonce ++ zeros (26 - nonceLength t.algorithm t.mode) ++ (area ++ body)) (by simp [staticV5]) rfl (tag_length t)
  have s2 : slice (staticV5 t nonce ++ (area ++ body)) 32 384 = area := slice_of_eq rfl h32 hl
  have ht := hi.tag
  rw [s0, htag] at ht
  have hvv : hd.headerType.version = t.version ∧ hd.headerType.algorithm = t.algorithm := by
    rw [List.append_assoc, List.append_assoc] at ht
    obtain ⟨h1, h2⟩ := List.append_inj ht (by simp)
    obtain ⟨h3, _⟩ := List.append_inj h2 (by simp)
    refine ⟨?_, ?_⟩
    · revert h1; cases t.version <;> cases hd.headerType.version <;> decide
    · revert h3; cases t.algorithm <;> cases hd.headerType.algorithm <;> decide
  have hf := hi.fields
  rw [hvv.1, hv] at hf
  simp only at hf
  obtain ⟨_, ⟨ks, _, hs⟩, _⟩ := hf
  rw [s2, hvv.2] at hs
  exact ⟨ks, hs⟩

theorem scan_slots_inv {a : Algorithm} {ks : List Keyslot} (h : ∀ k ∈ ks, SlotOk a k) {n : Nat} {rest : Bytes} {ks' : List Keyslot}
    (hs : SlotScan a (ks.length + n) (ks.flatMap (Keyslot.bytes (nonceLength a .memoryMode)) ++ rest) ks') :
    ∃ ks'', SlotScan a n rest ks'' := by
  induction ks generalizing ks' with
  | nil => exact ⟨ks', by simpa using hs⟩
  | cons k ks ih =>
    obtain ⟨c, hc, e⟩ := slot_bytes_cons (h k (by simp))
    have hl := slot_bytes_length (h k (by simp))
    rw [e] at hl
    simp only [List.length_cons] at hl
    rw [show (k :: ks).length + n = ks.length + n + 1 by simp; omega, List.flatMap_cons, e] at hs
    simp only [List.cons_append, List.append_assoc] at hs
    rw [← List.append_assoc, ← List.append_assoc, ← List.append_assoc, ← List.append_assoc] at hs
    cases hs with
    | empty hb _ => exact absurd rfl hb
    | slot _ _ hs =>
      rw [List.drop_left' (by simp only [List.append_assoc] at hl ⊢; omega)] at hs
      exact ih (fun x hx => h x (by simp [hx])) hs

theorem layoutV5_eq {t : HeaderType} {nonce : Bytes} {ks : List Keyslot} (hs : ∀ k ∈ ks, SlotOk t.algorithm k) :
    layoutV5 t nonce ks = bytesV5 t nonce ks := by
  have htag : t.tag = versionCode t.version ++ algorithmCode t.algorithm ++ modeCode t.mode := by
    rcases t with ⟨v, a, m⟩
    cases v <;> cases a <;> cases m <;> rfl
  have e : ks.flatMap (slotLayout t.algorithm) = ks.flatMap (Keyslot.bytes (nonceLength t.algorithm .memoryMode)) := by
    induction ks with
    | nil => rfl
    | cons k ks ih =>
      rw [List.flatMap_cons, List.flatMap_cons, ih (fun x hx => hs x (by simp [hx]))]
      congr 1
      have := (hs k (by simp)).hash
      rcases k with ⟨ha, ek, n, s⟩
      simp only [supportedHashes, List.mem_cons, List.not_mem_nil, or_false] at this
      rcases this with rfl | rfl | rfl | rfl | rfl <;> rfl
  rw [layoutV5, bytesV5, e, htag]
  rfl

theorem slots_length {a : Algorithm} {ks : List Keyslot} (h : ∀ k ∈ ks, SlotOk a k) (h4 : ks.length ≤ 4) :
    (ks.flatMap (Keyslot.bytes (nonceLength a .memoryMode)) ++ zeros ((4 - ks.length) * 96)).length = 384 := by
  rw [List.length_append, slots_bytes_length h, zeros_length]; omega

/-- A torn header, by its slot area. -/
theorem torn_bytesV5 {t : HeaderType} {nonce body : Bytes} {ks ks' : List Keyslot} (hn : nonce.length = nonceLength t.algorithm t.mode)
    (h : ∀ k ∈ ks, SlotOk t.algorithm k) (h' : ∀ k ∈ ks', SlotOk t.algorithm k) (h4 : ks.length ≤ 4) (h4' : ks'.length ≤ 4) {j : Nat} (hj : j ≤ 416) :
    torn (bytesV5 t nonce ks') (bytesV5 t nonce ks ++ body) j = staticV5 t nonce ++
      (torn (ks'.flatMap (Keyslot.bytes (nonceLength t.algorithm .memoryMode)) ++ zeros ((4 - ks'.length) * 96))
        (ks.flatMap (Keyslot.bytes (nonceLength t.algorithm .memoryMode)) ++ zeros ((4 - ks.length) * 96)) (j - 32) ++ body) := by
  have h32 := staticV5_length hn
  rw [bytesV5_static, bytesV5_static, List.append_assoc, torn_append rfl, torn_self, h32]
  congr 1
  have := torn_append (a := ks.flatMap (Keyslot.bytes (nonceLength t.algorithm .memoryMode)) ++ zeros ((4 - ks.length) * 96))
    (a' := ks'.flatMap (Keyslot.bytes (nonceLength t.algorithm .memoryMode)) ++ zeros ((4 - ks'.length) * 96)) (b := body) (b' := [])
    (by rw [slots_length h h4, slots_length h' h4']) (j - 32)
  rw [List.append_nil] at this
  rw [this, slots_length h h4, show j - 32 - 384 = 0 by omega, torn_zero]

end Volaris
