import Verif.Spec.Example
import Verif.Proofs.Utils
/-!
# Properties of generated passphrases and of hexadecimal output
-/
namespace Volaris.Props
open Spec Passphrase

/-! ### C51 -/

/-- **C51, the part that holds.**  If none of the numbers supplied is (modulo one more than the length of the word list) the length of the word list,
the passphrase consists of the chosen words, as many as asked for, joined by single dashes. -/
theorem C51_passphrase_partial {ε : Type} (words : List (List Char)) (n : Int) (w : World)
    (h : ∀ i : Nat, (i : Int) < n → supplied w i % (words.length + 1) ≠ words.length) :
    ∃ chosen w', (generatePassphrase words n : Prog ε (List Char)) w = (.ok (dashed chosen), w') ∧ chosen.length = n.toNat ∧
      ∀ i, i < chosen.length → chosen[i]? = words[supplied w i % (words.length + 1)]? ∧ chosen[i]?.isSome := by
  have hlt : ∀ i : Nat, (i : Int) < n → supplied w i % (words.length + 1) < words.length := by
    intro i hi
    have := h i hi
    have := Nat.mod_lt (supplied w i) (show 0 < words.length + 1 by omega)
    omega
  let chosen := (List.range n.toNat).map fun i => words.getD (supplied w i % (words.length + 1)) []
  have hc : ∀ i, i < n.toNat → chosen[i]? = words[supplied w i % (words.length + 1)]? := by
    intro i hi
    have hi' := hlt i (by omega)
    simp only [chosen, List.getElem?_map, List.getElem?_range hi, Option.map_some, List.getD_eq_getElem?_getD]
    rw [List.getElem?_eq_getElem hi']; rfl
  have hl : chosen.length = n.toNat := by simp [chosen]
  refine ⟨chosen, _, loop_ok words n.toNat [] w chosen hl hc, hl, fun i hi => ⟨hc i (by omega), ?_⟩⟩
  rw [hc i (by omega), List.getElem?_eq_getElem (hlt i (by omega))]; rfl

/-- **C51 fails.**  If one of the numbers is that one, generating a passphrase panics: so for every word list shorter than 2^64 and every positive number of words there is randomness with
which it panics. -/
theorem C51_panics {ε : Type} (words : List (List Char)) (n : Int) :
    (∀ w, (∃ i : Nat, (i : Int) < n ∧ supplied w i % (words.length + 1) = words.length) →
      ((generatePassphrase words n : Prog ε (List Char)) w).1 = .abort .panic) ∧
    (0 < n → words.length < 2 ^ 64 → ∀ w : World, ∃ rng, ((generatePassphrase words n : Prog ε (List Char)) { w with rng := rng }).1 = .abort .panic) := by
  have h1 : ∀ w, (∃ i : Nat, (i : Int) < n ∧ supplied w i % (words.length + 1) = words.length) →
      ((generatePassphrase words n : Prog ε (List Char)) w).1 = .abort .panic := by
    rintro w ⟨i, hi, hs⟩
    exact loop_panic words n.toNat [] w ⟨i, by omega, hs⟩
  refine ⟨h1, fun hn hlen w => ⟨fun j => UInt8.ofNat (words.length / 256 ^ j), h1 _ ⟨0, hn, ?_⟩⟩⟩
  have hs : supplied { w with rng := fun j => UInt8.ofNat (words.length / 256 ^ j) } 0 = words.length := by
    simp only [supplied, show List.range 8 = [0, 1, 2, 3, 4, 5, 6, 7] from rfl, List.foldr, UInt8.toNat_ofNat']
    omega
  rw [hs]
  exact Nat.mod_eq_of_lt (by omega)

/-- Three words of a list of three. -/
example : ((generatePassphrase [['a'], ['b', 'c'], ['d']] 3 : Prog Unit (List Char))
    { Example.world1 [] with rng := fun i => if i = 8 then 1 else if i = 16 then 6 else 0 }).1 = .ok ['a', '-', 'b', 'c', '-', 'd'] := by decide +kernel
example : ∀ i : Nat, (i : Int) < 3 → supplied { Example.world1 [] with rng := fun i => if i = 8 then 1 else if i = 16 then 6 else 0 } i % 4 ≠ 3 := by
  intro i hi
  have : i = 0 ∨ i = 1 ∨ i = 2 := by omega
  rcases this with rfl | rfl | rfl <;> decide +kernel

/-! ### C52 -/

/-- **C52.** The hexadecimal output has two lower-case digits per byte, and the bytes can be read back from it. -/
theorem C52_hex (bs : Bytes) :
    (hexEncode bs).length = 2 * bs.length ∧ (∀ c ∈ hexEncode bs, c ∈ hexDigits) ∧ fromHex (hexEncode bs) = some bs := by
  induction bs with
  | nil => exact ⟨rfl, by simp [hexEncode], rfl⟩
  | cons b bs ih =>
    obtain ⟨h1, h2, h3⟩ := ih
    have hb : b.toNat / 16 < 16 := by have := b.toNat_lt; omega
    have hm : b.toNat % 16 < 16 := Nat.mod_lt _ (by decide)
    have hmem : ∀ n, n < 16 → hexDigit n ∈ hexDigits := by decide
    refine ⟨by simp only [hexEncode, List.length_cons, h1]; omega, ?_, ?_⟩
    · intro c hc
      simp only [hexEncode, List.mem_cons] at hc
      rcases hc with rfl | rfl | hc
      · exact hmem _ hb
      · exact hmem _ hm
      · exact h2 c hc
    · simp only [hexEncode, fromHex, hexDigit_idx _ hb, hexDigit_idx _ hm, h3, Option.bind_eq_bind, Option.bind_some, byte_idx]

/-- **C52.** Different bytes are displayed differently. -/
theorem C52_hex_injective (a b : Bytes) (h : hexEncode a = hexEncode b) : a = b := by
  have := (C52_hex a).2.2
  rw [h, (C52_hex b).2.2] at this
  exact (Option.some.inj this).symm

example : hexEncode [0, 15, 255, 160] = ['0', '0', '0', 'f', 'f', 'f', 'a', '0'] := by decide

end Volaris.Props
