import Verif.Model.Utils
import Verif.Spec.Utils
import Verif.Proofs.Basic
/-!
# Lemmas about passphrases and hexadecimal output
-/
namespace Volaris.Passphrase
open Spec

/-- The world after `n` numbers have been supplied. -/
def after (w : World) (n : Nat) : World := { w with rng := fun i => w.rng (i + 8 * n) }

theorem genRange_run {ε : Type} (n : Nat) (w : World) : (genRangeIncl n : Prog ε Nat) w = (.ok (supplied w 0 % (n + 1)), after w 1) := by
  rfl

theorem supplied_after (w : World) (k i : Nat) : supplied (after w k) i = supplied w (k + i) := by
  simp only [supplied, after]
  congr 1
  funext j acc
  rw [show 8 * i + j + 8 * k = 8 * (k + i) + j by omega]

theorem after_after (w : World) (a b : Nat) : after (after w a) b = after w (a + b) := by
  simp only [after]
  congr 1
  funext i
  congr 1
  omega

theorem dashed_append (a : List (List Char)) (w : List Char) (h : a ≠ []) : dashed (a ++ [w]) = dashed a ++ '-' :: w := by
  induction a with
  | nil => exact absurd rfl h
  | cons x xs ih =>
    cases xs with
    | nil => rfl
    | cons y ys =>
      have := ih (by simp)
      rw [List.cons_append, List.cons_append]
      show x ++ '-' :: dashed ((y :: ys) ++ [w]) = _
      rw [this]
      show _ = (x ++ '-' :: dashed (y :: ys)) ++ '-' :: w
      simp

theorem dashed_cons (x : List Char) (xs : List (List Char)) : dashed (x :: xs) = x ++ (if xs = [] then [] else '-' :: dashed xs) := by
  cases xs <;> simp [dashed]

theorem loop_ok {ε : Type} (words : List (List Char)) (n : Nat) : ∀ (acc : List Char) (w : World) (chosen : List (List Char)), chosen.length = n →
    (∀ i, i < n → chosen[i]? = words[supplied w i % (words.length + 1)]?) →
    (passphraseLoop words n acc : Prog ε (List Char)) w = (.ok (acc ++ dashed chosen), after w n) := by
  induction n with
  | zero =>
    intro acc w chosen hl _
    rw [List.length_eq_zero_iff.1 hl]
    show (Res.ok acc, w) = _
    rw [show dashed [] = [] from rfl, List.append_nil]
    rfl
  | succ n ih =>
    intro acc w chosen hl h
    cases chosen with
    | nil => simp at hl
    | cons c cs =>
      unfold passphraseLoop
      rw [Prog.bind_ok (genRange_run _ w)]
      have h0 := h 0 (by omega)
      rw [List.getElem?_cons_zero] at h0
      rw [← h0]
      simp only
      rw [ih _ (after w 1) cs (by simpa using hl) (fun i hi => by
        have := h (i + 1) (by omega)
        rw [List.getElem?_cons_succ] at this
        rw [supplied_after, this, Nat.add_comm]), after_after, dashed_cons]
      have : (n = 0) ↔ cs = [] := by
        simp only [List.length_cons, Nat.add_right_cancel_iff] at hl
        rw [← hl, List.length_eq_zero_iff]
      rw [Nat.add_comm 1 n]
      by_cases hc : cs = []
      · rw [if_pos (this.2 hc), if_pos hc, hc]; simp [dashed]
      · rw [if_neg (fun h => hc (this.1 h)), if_neg hc]; simp

theorem loop_panic {ε : Type} (words : List (List Char)) (n : Nat) : ∀ (acc : List Char) (w : World),
    (∃ i, i < n ∧ supplied w i % (words.length + 1) = words.length) → ((passphraseLoop words n acc : Prog ε (List Char)) w).1 = .abort .panic := by
  induction n with
  | zero => rintro acc w ⟨i, hi, -⟩; omega
  | succ n ih =>
    rintro acc w ⟨i, hi, hs⟩
    unfold passphraseLoop
    rw [Prog.bind_ok (genRange_run _ w)]
    by_cases h0 : supplied w 0 % (words.length + 1) = words.length
    · rw [h0, List.getElem?_eq_none (Nat.le_refl _)]; rfl
    · cases hg : words[supplied w 0 % (words.length + 1)]? with
      | none =>
        have := List.getElem?_eq_none_iff.1 hg
        have := Nat.mod_lt (supplied w 0) (show 0 < words.length + 1 by omega)
        omega
      | some word =>
        simp only
        cases i with
        | zero => exact absurd hs h0
        | succ i => exact ih _ _ ⟨i, by omega, by rw [supplied_after, Nat.add_comm]; exact hs⟩

theorem hexDigit_idx : ∀ n, n < 16 → hexDigits.idxOf? (hexDigit n) = some n := by decide

theorem byte_idx (b : UInt8) : UInt8.ofNat (16 * (b.toNat / 16) + b.toNat % 16) = b := by
  rw [Nat.div_add_mod]; simp

end Volaris.Passphrase
