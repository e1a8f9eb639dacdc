import Verif.Proofs.Torn
import Verif.Props.Keys
/-!
# Key operations interrupted in the middle of the header write

The header is rewritten in place with one `write`.  A crash, or a short write (which the code reports as success), leaves the first `j` bytes of the
new header followed by the rest of the old one.
-/
namespace Volaris.Props
open Spec KeyOps

theorem written_bytes {content : Bytes} {hd : Header} {ks : List Keyslot} {aad body : Bytes} (hf : WrittenV5 content hd ks aad body) :
    content = bytesV5 hd.headerType hd.nonce ks ++ body := by
  rw [← layoutV5_eq ((isHeader_sized hf.file.header).2 ks hf.file.slots).2]; exact hf.layout

/-- **C28.** `change`, interrupted after any number of bytes: the header stays readable and all the other keyslots are in it. -/
theorem C28_change (content : Bytes) (hd : Header) (before after : List Keyslot) (k0 k : Keyslot) (aad body : Bytes)
    (hf : WrittenV5 content hd (before ++ k0 :: after) aad body) (hk : SlotOk hd.headerType.algorithm k) (j : Nat) (hj : j ≤ 416) :
    Survives hd aad (before ++ after) (torn (layoutV5 hd.headerType hd.nonce (before ++ k :: after)) content j) := by
  have hsz := isHeader_sized hf.file.header
  have hks := hsz.2 _ hf.file.slots
  have hb : ∀ x ∈ before, SlotOk hd.headerType.algorithm x := fun x hx => hks.2 x (by simp [hx])
  have ha : ∀ x ∈ after, SlotOk hd.headerType.algorithm x := fun x hx => hks.2 x (by simp [hx])
  have h0 : SlotOk hd.headerType.algorithm k0 := hks.2 k0 (by simp)
  have hall : ∀ x ∈ before ++ k :: after, SlotOk hd.headerType.algorithm x := by
    intro x hx
    rw [List.mem_append, List.mem_cons] at hx
    rcases hx with hx | rfl | hx
    · exact hb x hx
    · exact hk
    · exact ha x hx
  have hlen := hks.1
  have hlen' : (before ++ k :: after).length ≤ 4 := by simpa using hlen
  rw [layoutV5_eq hall, written_bytes hf, torn_bytesV5 hsz.1 hks.2 hall hlen hlen' hj]
  have haad := hf.file.aad_eq
  change aad = staticV5 hd.headerType hd.nonce at haad
  have hz : (4 - (before ++ k :: after).length) * 96 = (4 - (before ++ k0 :: after).length) * 96 := by simp
  rw [hz]
  have earea : torn ((before ++ k :: after).flatMap (Keyslot.bytes (nonceLength hd.headerType.algorithm .memoryMode)) ++ zeros ((4 - (before ++ k0 :: after).length) * 96))
      ((before ++ k0 :: after).flatMap (Keyslot.bytes (nonceLength hd.headerType.algorithm .memoryMode)) ++ zeros ((4 - (before ++ k0 :: after).length) * 96)) (j - 32) =
      before.flatMap (Keyslot.bytes (nonceLength hd.headerType.algorithm .memoryMode)) ++
        (torn (k.bytes (nonceLength hd.headerType.algorithm .memoryMode)) (k0.bytes (nonceLength hd.headerType.algorithm .memoryMode)) (j - 32 - 96 * before.length) ++
        (after.flatMap (Keyslot.bytes (nonceLength hd.headerType.algorithm .memoryMode)) ++ zeros ((4 - (before ++ k0 :: after).length) * 96))) := by
    simp only [List.flatMap_append, List.flatMap_cons, List.append_assoc]
    rw [torn_append rfl, torn_self, torn_append (by rw [slot_bytes_length h0, slot_bytes_length hk]), torn_self, slots_bytes_length hb]
  have hl : ((before ++ k :: after).flatMap (Keyslot.bytes (nonceLength hd.headerType.algorithm .memoryMode)) ++
      zeros ((4 - (before ++ k0 :: after).length) * 96)).length = 384 := by rw [← hz]; exact slots_length hall hlen'
  have hl0 := slots_length hks.2 hlen
  have htl : (torn ((before ++ k :: after).flatMap (Keyslot.bytes (nonceLength hd.headerType.algorithm .memoryMode)) ++ zeros ((4 - (before ++ k0 :: after).length) * 96))
      ((before ++ k0 :: after).flatMap (Keyslot.bytes (nonceLength hd.headerType.algorithm .memoryMode)) ++ zeros ((4 - (before ++ k0 :: after).length) * 96)) (j - 32)).length = 384 := by
    rw [torn_length (by rw [hl, hl0]), hl]
  have s1 := scan_slots ha (scan_zeros (a := hd.headerType.algorithm) (4 - (before ++ k0 :: after).length) ((4 - (before ++ k0 :: after).length) * 96) (by omega))
  obtain ⟨x, s2⟩ := scan_mix h0 hk (j - 32 - 96 * before.length) s1
  have s3 := scan_slots hb s2
  rw [← earea] at s3
  rw [show before.length + (after.length + (4 - (before ++ k0 :: after).length) + 1) = 4 by
    rw [List.length_append, List.length_cons] at hlen ⊢; omega, List.append_nil] at s3
  have := scanned_keyFile (body := body) hf.file.v5 hsz.1 htl s3
  rw [← haad] at this
  rw [← haad]
  refine ⟨_, _, this, rfl, rfl, ?_, x, ?_⟩
  · intro y hy
    rcases List.mem_append.1 hy with h | h <;> simp [h]
  · intro y hy
    rw [List.mem_append, List.mem_cons] at hy
    rcases hy with h | h | h
    · exact .inl (by simp [h])
    · exact .inr h
    · exact .inl (by simp [h])

/-- **C28.** `add`, interrupted after `j` bytes: unless exactly one byte of the new keyslot was written, the header stays readable and all the old
keyslots are in it. -/
theorem C28_add_partial (content : Bytes) (hd : Header) (ks : List Keyslot) (k : Keyslot) (aad body : Bytes)
    (hf : WrittenV5 content hd ks aad body) (h4 : ks.length < 4) (hk : SlotOk hd.headerType.algorithm k) (j : Nat) (hj : j ≤ 416)
    (hne : j ≠ 32 + 96 * ks.length + 1) :
    Survives hd aad ks (torn (layoutV5 hd.headerType hd.nonce (ks ++ [k])) content j) := by
  have hsz := isHeader_sized hf.file.header
  have hks := hsz.2 _ hf.file.slots
  have hall : ∀ x ∈ ks ++ [k], SlotOk hd.headerType.algorithm x := by
    intro x hx
    rcases List.mem_append.1 hx with hx | hx
    · exact hks.2 x hx
    · rw [List.mem_singleton.1 hx]; exact hk
  have hlen' : (ks ++ [k]).length ≤ 4 := by simp; omega
  rw [layoutV5_eq hall, written_bytes hf, torn_bytesV5 hsz.1 hks.2 hall hks.1 hlen' hj]
  have haad := hf.file.aad_eq
  change aad = staticV5 hd.headerType hd.nonce at haad
  have earea : torn ((ks ++ [k]).flatMap (Keyslot.bytes (nonceLength hd.headerType.algorithm .memoryMode)) ++ zeros ((4 - (ks ++ [k]).length) * 96))
      (ks.flatMap (Keyslot.bytes (nonceLength hd.headerType.algorithm .memoryMode)) ++ zeros ((4 - ks.length) * 96)) (j - 32) =
      ks.flatMap (Keyslot.bytes (nonceLength hd.headerType.algorithm .memoryMode)) ++
        (torn (k.bytes (nonceLength hd.headerType.algorithm .memoryMode)) (zeros 96) (j - 32 - 96 * ks.length) ++
        zeros ((3 - ks.length) * 96)) := by
    rw [show zeros ((4 - ks.length) * 96) = zeros 96 ++ zeros ((3 - ks.length) * 96) by rw [zeros_add]; congr 1; omega]
    rw [show (4 - (ks ++ [k]).length) * 96 = (3 - ks.length) * 96 by simp]
    simp only [List.flatMap_append, List.flatMap_cons, List.flatMap_nil, List.append_assoc, List.nil_append]
    rw [torn_append rfl, torn_self, torn_append (by rw [zeros_length, slot_bytes_length hk]), torn_self, slots_bytes_length hks.2]
  have hl0 := slots_length hks.2 hks.1
  have hl := slots_length hall hlen'
  have htl : (torn ((ks ++ [k]).flatMap (Keyslot.bytes (nonceLength hd.headerType.algorithm .memoryMode)) ++ zeros ((4 - (ks ++ [k]).length) * 96))
      (ks.flatMap (Keyslot.bytes (nonceLength hd.headerType.algorithm .memoryMode)) ++ zeros ((4 - ks.length) * 96)) (j - 32)).length = 384 := by
    rw [torn_length (by rw [hl, hl0]), hl]
  have hscan : ∃ ks', SlotScan hd.headerType.algorithm (3 - ks.length + 1)
      (torn (k.bytes (nonceLength hd.headerType.algorithm .memoryMode)) (zeros 96) (j - 32 - 96 * ks.length) ++ zeros ((3 - ks.length) * 96)) ks' ∧
      ∃ x, ∀ y ∈ ks', y = x := by
    by_cases hy : j - 32 - 96 * ks.length = 0
    · rw [hy, torn_zero, zeros_add]
      exact ⟨[], scan_zeros _ _ (by omega), k, by simp⟩
    · obtain ⟨x, hx⟩ := scan_fresh hk (j - 32 - 96 * ks.length) (by omega)
        (scan_zeros (a := hd.headerType.algorithm) (3 - ks.length) ((3 - ks.length) * 96) (by omega))
      exact ⟨[x], hx, x, by simp⟩
  obtain ⟨ks', hs, x, hx⟩ := hscan
  have s3 := scan_slots hks.2 hs
  rw [← earea, show ks.length + (3 - ks.length + 1) = 4 by omega] at s3
  have := scanned_keyFile (body := body) hf.file.v5 hsz.1 htl s3
  rw [← haad] at this
  rw [← haad]
  refine ⟨_, _, this, rfl, rfl, fun y hy => by simp [hy], x, ?_⟩
  intro y hy
  rcases List.mem_append.1 hy with h | h
  · exact .inl h
  · exact .inr (hx y h)

/-- **C28.** The exception is real: with exactly one byte of the new keyslot written, no password opens the file any more. -/
theorem C28_add_one_byte (C : Crypto) (hC : C.Lawful) (content : Bytes) (hd : Header) (ks : List Keyslot) (k : Keyslot) (aad body : Bytes)
    (hf : WrittenV5 content hd ks aad body) (h4 : ks.length < 4) (hk : SlotOk hd.headerType.algorithm k) :
    ∀ pw, Refuses C pw (torn (layoutV5 hd.headerType hd.nonce (ks ++ [k])) content (32 + 96 * ks.length + 1)) := by
  intro pw
  apply refuses_of hC
  intro hd' aad' mk n c q hi _ _ _
  have hsz := isHeader_sized hf.file.header
  have hks := hsz.2 _ hf.file.slots
  have hall : ∀ x ∈ ks ++ [k], SlotOk hd.headerType.algorithm x := by
    intro x hx
    rcases List.mem_append.1 hx with hx | hx
    · exact hks.2 x hx
    · rw [List.mem_singleton.1 hx]; exact hk
  have hlen' : (ks ++ [k]).length ≤ 4 := by simp; omega
  rw [layoutV5_eq hall, written_bytes hf, torn_bytesV5 hsz.1 hks.2 hall hks.1 hlen' (by omega)] at hi
  have hl0 := slots_length hks.2 hks.1
  have hl := slots_length hall hlen'
  obtain ⟨ks', hs⟩ := scan_required hf.file.v5 hsz.1 (by rw [torn_length (by rw [hl, hl0]), hl]) hi
  rw [show zeros ((4 - ks.length) * 96) = zeros 96 ++ zeros ((3 - ks.length) * 96) by rw [zeros_add]; congr 1; omega,
    show (4 - (ks ++ [k]).length) * 96 = (3 - ks.length) * 96 by simp] at hs
  simp only [List.flatMap_append, List.flatMap_cons, List.flatMap_nil, List.append_assoc, List.nil_append] at hs
  rw [torn_append rfl, torn_self, torn_append (by rw [zeros_length, slot_bytes_length hk]), torn_self, slots_bytes_length hks.2,
    show 32 + 96 * ks.length + 1 - 32 - 96 * ks.length = 1 by omega] at hs
  rw [show (4 : Nat) = ks.length + (3 - ks.length + 1) by omega] at hs
  obtain ⟨ks'', hs⟩ := scan_slots_inv hks.2 hs
  obtain ⟨c', _, e⟩ := slot_bytes_cons hk
  rw [e, show zeros 96 = 0 :: 0 :: zeros 94 from rfl] at hs
  simp only [torn, List.take_succ_cons, List.take_zero, List.drop_succ_cons, List.drop_zero, List.cons_append, List.nil_append] at hs
  cases hs with
  | empty hb _ => exact absurd rfl hb
  | slot hc _ _ => simp [hashCodes] at hc

/-- **C28.** `delete`, interrupted after any number of bytes: the header stays readable and all the other keyslots are in it, if the encrypted key
in the last keyslot has no byte 0xDF at the even positions where the reader, which skips two bytes for every empty slot, could look for
a keyslot. -/
theorem C28_delete_partial (content : Bytes) (hd : Header) (before after : List Keyslot) (k0 : Keyslot) (aad body : Bytes)
    (hf : WrittenV5 content hd (before ++ k0 :: after) aad body) (j : Nat) (hj : j ≤ 416)
    (hdf : ∀ i, 1 ≤ i → i ≤ 4 - (before ++ k0 :: after).length →
      ((k0 :: after).getLast (by simp)).encryptedKey[2 * i - 2]? ≠ some 0xDF) :
    Survives hd aad (before ++ after) (torn (layoutV5 hd.headerType hd.nonce (before ++ after)) content j) := by
  have hsz := isHeader_sized hf.file.header
  have hks := hsz.2 _ hf.file.slots
  have hb : ∀ x ∈ before, SlotOk hd.headerType.algorithm x := fun x hx => hks.2 x (by simp [hx])
  have ha : ∀ x ∈ after, SlotOk hd.headerType.algorithm x := fun x hx => hks.2 x (by simp [hx])
  have h0 : SlotOk hd.headerType.algorithm k0 := hks.2 k0 (by simp)
  have hall : ∀ x ∈ before ++ after, SlotOk hd.headerType.algorithm x := by
    intro x hx
    rcases List.mem_append.1 hx with hx | hx
    · exact hb x hx
    · exact ha x hx
  have hlen := hks.1
  have hlen' : (before ++ after).length ≤ 4 := by simp at hlen ⊢; omega
  rw [layoutV5_eq hall, written_bytes hf, torn_bytesV5 hsz.1 hks.2 hall hlen hlen' hj]
  have haad := hf.file.aad_eq
  change aad = staticV5 hd.headerType hd.nonce at haad
  have earea : torn ((before ++ after).flatMap (Keyslot.bytes (nonceLength hd.headerType.algorithm .memoryMode)) ++ zeros ((4 - (before ++ after).length) * 96))
      ((before ++ k0 :: after).flatMap (Keyslot.bytes (nonceLength hd.headerType.algorithm .memoryMode)) ++ zeros ((4 - (before ++ k0 :: after).length) * 96)) (j - 32) =
      before.flatMap (Keyslot.bytes (nonceLength hd.headerType.algorithm .memoryMode)) ++
        (torn (after.flatMap (Keyslot.bytes (nonceLength hd.headerType.algorithm .memoryMode)) ++ zeros 96)
          (k0.bytes (nonceLength hd.headerType.algorithm .memoryMode) ++ after.flatMap (Keyslot.bytes (nonceLength hd.headerType.algorithm .memoryMode)))
          (j - 32 - 96 * before.length) ++ zeros ((4 - (before ++ k0 :: after).length) * 96)) := by
    rw [show zeros ((4 - (before ++ after).length) * 96) = zeros 96 ++ zeros ((4 - (before ++ k0 :: after).length) * 96) by
      rw [zeros_add]; congr 1; simp at hlen ⊢; omega]
    simp only [List.flatMap_append, List.flatMap_cons, List.append_assoc]
    rw [torn_append rfl, torn_self, slots_bytes_length hb, ← List.append_assoc, ← List.append_assoc, torn_append, torn_self]
    rw [List.length_append, List.length_append, slots_bytes_length ha, slot_bytes_length h0, zeros_length]; omega
  have hl := slots_length hall hlen'
  have hl0 := slots_length hks.2 hlen
  have htl : (torn ((before ++ after).flatMap (Keyslot.bytes (nonceLength hd.headerType.algorithm .memoryMode)) ++ zeros ((4 - (before ++ after).length) * 96))
      ((before ++ k0 :: after).flatMap (Keyslot.bytes (nonceLength hd.headerType.algorithm .memoryMode)) ++ zeros ((4 - (before ++ k0 :: after).length) * 96)) (j - 32)).length = 384 := by
    rw [torn_length (by rw [hl, hl0]), hl]
  obtain ⟨ks', x, s1, s2, s3⟩ := scan_shift after k0 h0 ha (j - 32 - 96 * before.length) (4 - (before ++ k0 :: after).length)
    ((4 - (before ++ k0 :: after).length) * 96) (by simp; omega) (by omega) hdf
  have s4 := scan_slots hb s1
  rw [← earea, show before.length + (after.length + (4 - (before ++ k0 :: after).length + 1)) = 4 by
    rw [List.length_append, List.length_cons] at hlen ⊢; omega] at s4
  have := scanned_keyFile (body := body) hf.file.v5 hsz.1 htl s4
  rw [← haad] at this
  rw [← haad]
  refine ⟨_, _, this, rfl, rfl, ?_, x, ?_⟩
  · intro y hy
    rcases List.mem_append.1 hy with h | h
    · simp [h]
    · simp [s2 y h]
  · intro y hy
    rcases List.mem_append.1 hy with h | h
    · exact .inl (by simp [h])
    · rcases s3 y h with h | h
      · exact .inl (by simp [h])
      · exact .inr h

/-- **C28.** The condition for `delete` is not idle: if the encrypted key in the last keyslot starts with 0xDF and a byte that is no hash code, and
fewer than four slots are in use, then a write that stops one or two bytes into the erased slot leaves a file that no password opens. -/
theorem C28_delete_unlucky (C : Crypto) (hC : C.Lawful) (content : Bytes) (hd : Header) (before after : List Keyslot) (k0 : Keyslot) (aad body : Bytes)
    (hf : WrittenV5 content hd (before ++ k0 :: after) aad body) (h4 : (before ++ k0 :: after).length < 4) (b : UInt8) (rest : Bytes)
    (hlast : ((k0 :: after).getLast (by simp)).encryptedKey = 0xDF :: b :: rest) (hbad : ∀ alg, (b, alg) ∉ hashCodes)
    (y : Nat) (hy : y = 1 ∨ y = 2) :
    ∀ pw, Refuses C pw (torn (layoutV5 hd.headerType hd.nonce (before ++ after)) content (32 + 96 * (before ++ after).length + y)) := by
  intro pw
  apply refuses_of hC
  intro hd' aad' mk n c q hi _ _ _
  have hsz := isHeader_sized hf.file.header
  have hks := hsz.2 _ hf.file.slots
  have hall : ∀ x ∈ before ++ after, SlotOk hd.headerType.algorithm x := by
    intro x hx
    rcases List.mem_append.1 hx with hx | hx <;> exact hks.2 x (by simp [hx])
  have hlast_ok : SlotOk hd.headerType.algorithm ((k0 :: after).getLast (by simp)) :=
    hks.2 _ (List.mem_append_right _ (List.getLast_mem _))
  have hlen := hks.1
  have hlen' : (before ++ after).length ≤ 4 := by simp at hlen ⊢; omega
  have hn1 : (before ++ k0 :: after).length = (before ++ after).length + 1 := by simp; omega
  rw [layoutV5_eq hall, written_bytes hf, torn_bytesV5 hsz.1 hks.2 hall hlen hlen' (by omega)] at hi
  have hl0 := slots_length hks.2 hlen
  have hl := slots_length hall hlen'
  obtain ⟨ks', hs⟩ := scan_required hf.file.v5 hsz.1 (by rw [torn_length (by rw [hl, hl0]), hl]) hi
  -- the old area: some slots, then the last one
  obtain ⟨front, hfront⟩ : ∃ front, before ++ k0 :: after = front ++ [(k0 :: after).getLast (by simp)] :=
    ⟨before ++ (k0 :: after).dropLast, by rw [List.append_assoc, List.dropLast_concat_getLast]⟩
  have hfl : front.length = (before ++ after).length := by
    have := congrArg List.length hfront
    simp only [List.length_append, List.length_cons, List.length_nil] at this ⊢; omega
  have hfok : ∀ x ∈ front, SlotOk hd.headerType.algorithm x := fun x hx => hks.2 x (by rw [hfront]; simp [hx])
  rw [hn1] at hs
  rw [hfront] at hs
  rw [show zeros ((4 - (before ++ after).length) * 96) = zeros 96 ++ zeros ((4 - ((before ++ after).length + 1)) * 96) by
    rw [zeros_add]; congr 1; omega] at hs
  rw [List.flatMap_append (xs := front)] at hs
  simp only [List.flatMap_cons, List.flatMap_nil, List.append_nil] at hs
  rw [List.append_assoc, torn_append (by rw [slots_bytes_length hfok, slots_bytes_length hall, hfl]), slots_bytes_length hfok,
    torn_append (by rw [zeros_length, slot_bytes_length hlast_ok]), torn_self, hfl,
    show 32 + 96 * (before ++ after).length + y - 32 - 96 * (before ++ after).length = y by omega,
    torn_all (by rw [slots_bytes_length hfok, slots_bytes_length hall, hfl]) (by rw [slots_bytes_length hall]; omega)] at hs
  obtain ⟨m, hm⟩ : ∃ m, 4 = (before ++ after).length + (m + 1 + 1) := ⟨4 - (before ++ after).length - 2, by omega⟩
  rw [hm] at hs
  obtain ⟨ks'', hs⟩ := scan_slots_inv hall hs
  obtain ⟨c', _, e⟩ := slot_bytes_cons hlast_ok
  rw [e, hlast, show zeros 96 = 0 :: 0 :: zeros 94 from rfl] at hs
  rcases hy with rfl | rfl <;>
  · simp only [torn, List.take_succ_cons, List.take_zero, List.drop_succ_cons, List.drop_zero, List.cons_append, List.nil_append] at hs
    cases hs with
    | empty _ hs =>
      cases hs with
      | empty hb _ => exact absurd rfl hb
      | slot hc _ _ => exact hbad _ hc

/-- **C28.** What surviving means for the user: a password that opens one of the kept keyslots still decrypts the file (unless it opens a keyslot
of the torn header to another key). -/
theorem C28_surviving_keys (C : Crypto) (hC : C.Lawful) (hd : Header) (aad body mk p content' pw : Bytes) (kept : List Keyslot)
    (hs : Survives hd aad kept content') (hbody : content'.drop 416 = body) (hb : BodyOf C hd mk aad p body)
    (hopen : ∃ k ∈ kept, ∃ m, Opens C hd.headerType.algorithm pw k m)
    (honly : ∀ hd' ks', KeyFile content' hd' ks' aad → OnlyOpens C hd.headerType.algorithm pw ks' mk) :
    DecryptsTo C pw content' p := by
  obtain ⟨hd', ks', hf, ht, hn, hkept, _⟩ := hs
  obtain ⟨k, hk, m, ho⟩ := hopen
  refine hf.decrypts hC ⟨k, hkept k hk, m, by rw [ht]; exact ho⟩ (by rw [ht]; exact honly hd' ks' hf) ?_
  rw [hbody]
  exact (bodyOf_congr ht hn).2 hb

/-- **C28.** These torn headers are what the operations produce: for every schedule, if an operation reports success, the content is the new header
torn at some `j`, after the old content. -/
theorem C28_runs (C : Crypto) (hC : C.Lawful) (req : NewKeyRequest) (h : Nat) (pw : Bytes) (w w' : World) (hd : Header) (ks : List Keyslot)
    (aad body : Bytes) :
    (WrittenV5 (w.rest req.handle) hd ks aad body → add C req w = (.ok (), w') →
      ∃ k j, SlotOk hd.headerType.algorithm k ∧ j ≤ 416 ∧ ks.length < 4 ∧
        HeaderReplaced req.handle w w' (torn (layoutV5 hd.headerType hd.nonce (ks ++ [k])) (w.rest req.handle) j)) ∧
    (WrittenV5 (w.rest req.handle) hd ks aad body → change C req w = (.ok (), w') →
      ∃ before k0 after k j, ks = before ++ k0 :: after ∧ SlotOk hd.headerType.algorithm k ∧ j ≤ 416 ∧
        HeaderReplaced req.handle w w' (torn (layoutV5 hd.headerType hd.nonce (before ++ k :: after)) (w.rest req.handle) j)) ∧
    (WrittenV5 (w.rest h) hd ks aad body → delete C h pw w = (.ok (), w') →
      ∃ before k0 after j, ks = before ++ k0 :: after ∧ j ≤ 416 ∧
        HeaderReplaced h w w' (torn (layoutV5 hd.headerType hd.nonce (before ++ after)) (w.rest h) j)) := by
  refine ⟨?_, ?_, ?_⟩
  · intro hf hok
    have hks := (isHeader_sized hf.file.header).2 ks hf.file.slots
    obtain ⟨b, k0, af, mk, k, j, hsp, ho, hb, hmk, h4, hsl, hkok, hj, _, hrep⟩ := add_effect hC hf.file hok
    refine ⟨k, j, hkok, hj, h4, ?_⟩
    rw [layoutV5_eq (by
      intro x hx
      rcases List.mem_append.1 hx with hx | hx
      · exact hks.2 x hx
      · rw [List.mem_singleton.1 hx]; exact hkok)]
    exact hrep
  · intro hf hok
    have hks := (isHeader_sized hf.file.header).2 ks hf.file.slots
    obtain ⟨b, k0, af, mk, k, j, hsp, ho, hb, hmk, hsl, hkok, hj, _, hrep⟩ := change_effect hC hf.file hok
    refine ⟨b, k0, af, k, j, hsp, hkok, hj, ?_⟩
    rw [layoutV5_eq (by
      intro x hx
      rw [List.mem_append, List.mem_cons] at hx
      rcases hx with hx | rfl | hx
      · exact hks.2 x (by rw [hsp]; simp [hx])
      · exact hkok
      · exact hks.2 x (by rw [hsp]; simp [hx]))]
    exact hrep
  · intro hf hok
    have hks := (isHeader_sized hf.file.header).2 ks hf.file.slots
    obtain ⟨b, k0, af, mk, j, hsp, ho, hb, hmk, hj, _, hrep⟩ := delete_effect hC hf.file hok
    refine ⟨b, k0, af, j, hsp, hj, ?_⟩
    rw [layoutV5_eq (by
      intro x hx
      rcases List.mem_append.1 hx with hx | hx <;> exact hks.2 x (by rw [hsp]; simp [hx]))]
    exact hrep

/-- **C56.** A change of password, however much of the new header gets written (any schedule): the file still has a readable header with every other keyslot in it, and every password of these still
decrypts the file.  If the operation reports an error, nothing has changed. -/
theorem C56_interrupted_change (C : Crypto) (hC : C.Lawful) (req : NewKeyRequest) (w w' : World) (r : Res KeyOps.Error Unit) (hd : Header) (ks : List Keyslot) (aad body mk p : Bytes)
    (hf : WrittenV5 (w.rest req.handle) hd ks aad body) (hb : BodyOf C hd mk aad p body) (hrun : change C req w = (r, w')) :
    (r ≠ .ok () → w'.file = w.file ∧ w'.dir = w.dir) ∧
    (r = .ok () → ∃ before k0 after content', ks = before ++ k0 :: after ∧ (∃ m, Opens C hd.headerType.algorithm req.rawKeyOld k0 m) ∧ HeaderReplaced req.handle w w' content' ∧
      Survives hd aad (before ++ after) content' ∧
      ∀ pw, (∃ k ∈ before ++ after, ∃ m, Opens C hd.headerType.algorithm pw k m) →
        (∀ hd' ks', KeyFile content' hd' ks' aad → OnlyOpens C hd.headerType.algorithm pw ks' mk) → DecryptsTo C pw content' p) := by
  refine ⟨fun hr => ?_, fun hr => ?_⟩
  · rcases change_safe hC req w with ⟨_, v, he⟩ | ⟨e, v, he, h1, h2⟩
    · rw [hrun] at he; cases he; exact absurd rfl hr
    · rw [hrun] at he; cases he; exact ⟨h1, h2⟩
  · subst hr
    have hks := (isHeader_sized hf.file.header).2 ks hf.file.slots
    obtain ⟨b, k0, af, m, k, j, hsp, ho, hb', hmk, hsl, hkok, hj, _, hrep⟩ := change_effect hC hf.file hrun
    rw [← layoutV5_eq (by
      intro x hx
      rw [List.mem_append, List.mem_cons] at hx
      rcases hx with hx | rfl | hx
      · exact hks.2 x (by rw [hsp]; simp [hx])
      · exact hkok
      · exact hks.2 x (by rw [hsp]; simp [hx]))] at hrep
    have hs : Survives hd aad (b ++ af) (torn (layoutV5 hd.headerType hd.nonce (b ++ k :: af)) (w.rest req.handle) j) :=
      C28_change _ hd b af k0 k aad body (by rw [← hsp]; exact hf) hkok j hj
    refine ⟨b, k0, af, _, hsp, ⟨m, ho⟩, hrep, hs, fun pw hopen honly => ?_⟩
    refine C28_surviving_keys C hC hd aad body mk p _ pw _ hs ?_ hb hopen honly
    have hlen : (layoutV5 hd.headerType hd.nonce ks).length = 416 := by
      rw [layoutV5_eq hks.2]
      exact bytesV5_length (isHeader_sized hf.file.header).1 hks.1 hks.2
    rw [hrep.body, hf.layout, List.drop_append_of_le_length (by omega), ← hlen, List.drop_length, List.nil_append]

/-- The example file is one the program writes, its keyslot has no 0xDF in the critical places, and a short write does tear the header. -/
example : WrittenV5 exFile exHeader [ex19Slot] (ex19Aad (List.replicate 8 1)) ex19Body ∧
    (∀ i, 1 ≤ i → i ≤ 4 - [ex19Slot].length → ex19Slot.encryptedKey[2 * i - 2]? ≠ some 0xDF) ∧
    (add Example.toy exAdd { Example.world1 exFile with sched := [.full, .full, .full, .full, .short 129] }).1 = .ok () ∧
    ((add Example.toy exAdd { Example.world1 exFile with sched := [.full, .full, .full, .full, .short 129] }).2.data 0).take 130 =
      exFile.take 128 ++ [0xDF, 0] := by
  refine ⟨⟨exFile_key, by decide +kernel⟩, ?_, by decide +kernel, by decide +kernel⟩
  intro i h1 h2
  have : i = 1 ∨ i = 2 ∨ i = 3 := by simp at h2; omega
  rcases this with rfl | rfl | rfl <;> decide +kernel

/-- The hypotheses of `C56_interrupted_change`, with only 100 bytes of the new header written. -/
example : BodyOf Example.toy exHeader (List.replicate 32 5) (ex19Aad (List.replicate 8 1)) [1, 2, 3] ex19Body ∧
    (change Example.toy exAdd { Example.world1 exFile with sched := [.full, .full, .full, .full, .short 100] }).1 = .ok () := by
  refine ⟨⟨by decide, .last (by decide) ?_⟩, by decide +kernel⟩
  decide +kernel

/-- A file whose encrypted key starts with 0xDF, 0x00. -/
def exUnluckySlot : Keyslot := { ex19Slot with encryptedKey := 0xDF :: 0 :: List.replicate 46 7 }

example : WrittenV5 (layoutV5 exV5 (List.replicate 8 1) [exUnluckySlot] ++ ex19Body) { exHeader with keyslots := some [exUnluckySlot] } [exUnluckySlot]
      (ex19Aad (List.replicate 8 1)) ex19Body ∧ ∀ alg, ((0 : UInt8), alg) ∉ hashCodes := by
  have hok : ∀ k ∈ [exUnluckySlot], SlotOk exV5.algorithm k := by
    intro k hk
    rw [List.mem_singleton.1 hk]
    exact ⟨by decide, rfl, rfl, by decide⟩
  refine ⟨⟨⟨?_, rfl, rfl, by decide +kernel⟩, rfl⟩, by intro alg h; simp [hashCodes] at h⟩
  rw [layoutV5_eq hok]
  exact bytesV5_isHeader (t := exV5) rfl rfl (by decide) hok _

end Volaris.Props
