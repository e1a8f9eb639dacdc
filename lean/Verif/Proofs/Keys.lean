import Verif.Proofs.Frame
import Verif.Spec.Files
import Verif.Model.Crypto
namespace Volaris
open Spec

/-! ### Password hashes -/

theorem hash_eq (C : Crypto) (h : HashingAlgorithm) (pw salt : Bytes) :
    h.hash C pw salt = match kdfParams h with
      | some f => Res.ofOption .hashing (C.kdf f pw salt)
      | none => .err .unsupported := by
  unfold HashingAlgorithm.hash
  cases h with
  | argon2id i =>
    by_cases h1 : i = 1
    · subst h1; rfl
    · by_cases h2 : i = 2
      · subst h2; rfl
      · by_cases h3 : i = 3
        · subst h3; rfl
        · simp only [h1, h2, h3, if_false]
          unfold kdfParams
          split <;> simp_all
  | blake3Balloon i =>
    by_cases h1 : i = 4
    · subst h1; rfl
    · by_cases h2 : i = 5
      · subst h2; rfl
      · simp only [h1, h2, if_false]
        unfold kdfParams
        split <;> simp_all

theorem hash_ok {C : Crypto} {h : HashingAlgorithm} {pw salt hk : Bytes} :
    h.hash C pw salt = .ok hk ↔ HashesTo C h pw salt hk := by
  rw [hash_eq, HashesTo]
  cases kdfParams h with
  | none => simp
  | some f => simp [Res.ofOption_eq_ok]

theorem hash_returns (C : Crypto) (h : HashingAlgorithm) (pw salt : Bytes) : (h.hash C pw salt).Returns := by
  rw [hash_eq]
  cases kdfParams h with
  | none => exact .err _
  | some f => exact .ofOption _ _

theorem Spec.HashesTo.len {C : Crypto} (hC : C.Lawful) {h : HashingAlgorithm} {pw salt hk : Bytes}
    (hh : HashesTo C h pw salt hk) : hk.length = 32 := by
  obtain ⟨f, _, hf⟩ := hh
  exact hC.kdf_len _ _ _ _ hf

theorem Spec.HashesTo.unique {C : Crypto} {h : HashingAlgorithm} {pw salt hk hk' : Bytes}
    (h1 : HashesTo C h pw salt hk) (h2 : HashesTo C h pw salt hk') : hk = hk' := by
  obtain ⟨f, hf, h1⟩ := h1
  obtain ⟨f', hf', h2⟩ := h2
  rw [hf] at hf'; cases hf'
  rw [h1] at h2; exact Option.some.inj h2

theorem kdfParams_mem {h : HashingAlgorithm} : h ∈ supportedHashes ↔ ∃ f, kdfParams h = some f := by
  constructor
  · intro hm
    simp only [supportedHashes, List.mem_cons, List.not_mem_nil, or_false] at hm
    rcases hm with rfl | rfl | rfl | rfl | rfl <;> exact ⟨_, rfl⟩
  · rintro ⟨f, hf⟩
    unfold kdfParams at hf
    split at hf <;> simp [supportedHashes] at hf ⊢

/-! ### Opening keyslots -/

theorem vecToArr_id {n : Nat} {v : Bytes} (h : v.length = n) : vecToArr n v = v := by
  subst h; simp [vecToArr, zeros]

theorem Spec.Opens.unique {C : Crypto} {a : Algorithm} {pw : Bytes} {k : Keyslot} {mk mk' : Bytes}
    (h1 : Opens C a pw k mk) (h2 : Opens C a pw k mk') : mk = mk' := by
  obtain ⟨hk, h1, d1⟩ := h1
  obtain ⟨hk', h2, d2⟩ := h2
  rw [h1.unique h2] at d1
  rw [d1] at d2; exact Option.some.inj d2

theorem Spec.Opens.len {C : Crypto} (hC : C.Lawful) {a : Algorithm} {pw : Bytes} {k : Keyslot} {mk : Bytes}
    (hk : SlotOk a k) (h : Opens C a pw k mk) : mk.length = 32 := by
  obtain ⟨_, _, d⟩ := h
  have := hC.enc_len _ _ _ _ _ _ (hC.enc_dec _ _ _ _ _ _ d)
  rw [hk.key] at this; omega

/-- The outcome of trying one keyslot. -/
theorem openKeyslot_cases {C : Crypto} (hC : C.Lawful) {a : Algorithm} (pw : Bytes) {k : Keyslot} (hk : SlotOk a k) :
    (∃ mk, openKeyslot C pw a k = .ok mk ∧ Opens C a pw k mk) ∨
    (∃ e, openKeyslot C pw a k = .err e ∧ ∀ mk, ¬ Opens C a pw k mk) := by
  unfold openKeyslot
  cases hh : k.hashAlgorithm.hash C pw k.salt with
  | abort x => exact absurd hh (hash_returns C _ _ _ x)
  | err e =>
    right
    refine ⟨e, rfl, ?_⟩
    rintro mk ⟨hk', h1, _⟩
    rw [hash_ok.2 h1] at hh; simp at hh
  | ok hk' =>
    have hto := hash_ok.1 hh
    have hl := hto.len hC
    simp only [Res.bind_ok, Cipher.initialize, hl, if_true, Res.mapErr_ok, Cipher.decrypt,
      hk.nonce, getNonceLen_eq, ne_eq, not_true, if_false]
    cases hd : C.dec a hk' k.nonce [] k.encryptedKey with
    | none =>
      right
      refine ⟨_, rfl, ?_⟩
      rintro mk ⟨hk2, h1, d⟩
      rw [hto.unique h1, d] at hd; simp at hd
    | some mk =>
      left
      have ho : Opens C a pw k mk := ⟨hk', hto, hd⟩
      refine ⟨mk, ?_, ho⟩
      simp only [Res.ofOption_some, Res.mapErr_ok, Res.bind_ok, Res.pure_eq]
      rw [vecToArr_id (n := MASTER_KEY_LEN) (ho.len hC hk)]

theorem firstOpening_cases {C : Crypto} (hC : C.Lawful) {a : Algorithm} (pw : Bytes) {ks : List Keyslot}
    (hk : ∀ k ∈ ks, SlotOk a k) :
    (∃ mk before k after, firstOpening C pw a ks = .ok mk ∧ ks = before ++ k :: after ∧ Opens C a pw k mk ∧
      ∀ k' ∈ before, ∀ m, ¬ Opens C a pw k' m) ∨
    (∃ e, firstOpening C pw a ks = .err e ∧ ∀ k ∈ ks, ∀ m, ¬ Opens C a pw k m) := by
  induction ks with
  | nil => right; exact ⟨_, rfl, by simp⟩
  | cons k ks ih =>
    rcases openKeyslot_cases hC pw (hk k (by simp)) with ⟨mk, h1, h2⟩ | ⟨e, h1, h2⟩
    · left
      exact ⟨mk, [], k, ks, by simp [firstOpening, h1], rfl, h2, by simp⟩
    · rcases ih (fun k hk' => hk k (by simp [hk'])) with ⟨mk, b, k', af, h3, rfl, h5, h6⟩ | ⟨e', h3, h4⟩
      · left
        refine ⟨mk, k :: b, k', af, by simp [firstOpening, h1, h3], rfl, h5, ?_⟩
        intro x hx
        rcases List.mem_cons.1 hx with rfl | hx
        · exact h2
        · exact h6 x hx
      · right
        refine ⟨e', by simp [firstOpening, h1, h3], ?_⟩
        intro x hx
        rcases List.mem_cons.1 hx with rfl | hx
        · exact h2
        · exact h4 x hx

/-- Splitting a list at its first element with a property is unique. -/
theorem first_split_unique {α : Type} {P : α → Prop} {b b' a a' : List α} {x x' : α}
    (h : b ++ x :: a = b' ++ x' :: a') (hx : P x) (hx' : P x') (hb : ∀ y ∈ b, ¬ P y) (hb' : ∀ y ∈ b', ¬ P y) :
    b = b' ∧ x = x' ∧ a = a' := by
  induction b generalizing b' with
  | nil =>
    cases b' with
    | nil => simpa using h
    | cons y b' =>
      simp at h; exact absurd (h.1 ▸ hx) (hb' y (by simp))
  | cons y b ih =>
    cases b' with
    | nil => simp at h; exact absurd (h.1 ▸ hx') (hb y (by simp))
    | cons y' b' =>
      simp only [List.cons_append, List.cons.injEq] at h
      obtain ⟨rfl, h⟩ := h
      obtain ⟨rfl, h2, h3⟩ := ih h (fun z hz => hb z (by simp [hz])) (fun z hz => hb' z (by simp [hz]))
      exact ⟨rfl, h2, h3⟩

theorem Spec.Recovers.unique {C : Crypto} {pw : Bytes} {h : Header} {mk mk' : Bytes} (h1 : Recovers C pw h mk)
    (h2 : Recovers C pw h mk') : mk = mk' := by
  unfold Recovers at h1 h2
  revert h1 h2
  cases h.headerType.version <;> intro h1 h2 <;> simp only at h1 h2
  case v4 =>
    obtain ⟨k, ks, e, o⟩ := h1
    obtain ⟨k', ks', e', o'⟩ := h2
    rw [e] at e'; simp at e'; obtain ⟨rfl, rfl⟩ := e'
    exact o.unique o'
  case v5 =>
    obtain ⟨b, k, af, e, o, n⟩ := h1
    obtain ⟨b', k', af', e', o', n'⟩ := h2
    rw [e] at e'
    obtain ⟨_, rfl, _⟩ := first_split_unique (P := fun k => ∃ m, Opens C h.headerType.algorithm pw k m)
      (Option.some.inj e') ⟨_, o⟩ ⟨_, o'⟩ (by rintro y hy ⟨m, hm⟩; exact n y hy m hm)
      (by rintro y hy ⟨m, hm⟩; exact n' y hy m hm)
    exact o.unique o'
  all_goals
    obtain ⟨s, e, o⟩ := h1
    obtain ⟨s', e', o'⟩ := h2
    rw [e] at e'; cases e'
    rw [o] at o'; exact Option.some.inj o'

/-- The outcome of recovering the data key from a header that was read from bytes. -/
theorem decryptMasterKey_cases {C : Crypto} (hC : C.Lawful) (pw : Bytes) {bs : Bytes} {h : Header} {aad : Bytes}
    (hi : IsHeader bs h aad) :
    (∃ mk, decryptMasterKey C pw h = .ok mk ∧ Recovers C pw h mk ∧ mk.length = 32) ∨
    (∃ e, decryptMasterKey C pw h = .err e ∧ ∀ mk, ¬ Recovers C pw h mk) := by
  have hsz := (isHeader_sized hi).2
  have hf := hi.fields
  unfold decryptMasterKey Recovers
  rcases h with ⟨⟨v, a, m⟩, nonce, salt, ks⟩
  cases v <;> simp only at hf hsz ⊢
  case v4 =>
    obtain ⟨_, rfl, _⟩ := hf
    obtain ⟨_, hs⟩ := hsz _ rfl
    have hs := hs _ (List.mem_singleton.2 rfl)
    rcases openKeyslot_cases hC pw hs with ⟨mk, h1, h2⟩ | ⟨e, h1, h2⟩
    · exact .inl ⟨mk, h1, ⟨_, _, rfl, h2⟩, h2.len hC hs⟩
    · refine .inr ⟨e, h1, ?_⟩
      rintro mk ⟨k, ks, e, o⟩
      simp at e
      obtain ⟨rfl, _⟩ := e
      exact h2 _ o
  case v5 =>
    obtain ⟨_, ⟨ks', rfl, _⟩, _⟩ := hf
    obtain ⟨_, hs⟩ := hsz _ rfl
    rcases firstOpening_cases hC pw hs with ⟨mk, b, k, af, h1, h2, h3, h4⟩ | ⟨e, h1, h2⟩
    · subst h2
      exact .inl ⟨mk, h1, ⟨b, k, af, rfl, h3, h4⟩, h3.len hC (hs k (by simp))⟩
    · refine .inr ⟨e, h1, ?_⟩
      rintro mk ⟨b, k, af, e, o, _⟩
      cases e
      exact h2 k (by simp) _ o
  all_goals
    obtain ⟨rfl, _, _⟩ := hf
    simp only [argon2idHash]
    cases hk : C.kdf _ pw (slice bs 6 16) with
    | none =>
      refine .inr ⟨_, rfl, ?_⟩
      rintro mk ⟨s, e, o⟩
      cases e
      rw [hk] at o; simp at o
    | some mk => exact .inl ⟨mk, rfl, ⟨_, rfl, hk⟩, hC.kdf_len _ _ _ _ hk⟩

end Volaris
