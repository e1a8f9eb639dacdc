import Verif.Spec.Cli
import Verif.Spec.Crash
import Verif.Model.Cli.Commands
/-!
# Vocabulary for generated passphrases

`World.out` holds what is on the screen, the newest first, each entry with the number of modifying system calls that had been made when it was printed.
-/
namespace Volaris.Spec

/-- The passphrase made of `n` words of the list, chosen by the numbers that the operating system supplies, joined by dashes. -/
def IsPassphrase (words : List (List Char)) (n : Int) (w : World) (p : List Char) : Prop :=
  ∃ chosen, chosen.length = n.toNat ∧ (∀ i, i < chosen.length → chosen[i]? = words[supplied w i % (words.length + 1)]?) ∧ p = dashed chosen

/-- In the run from `w` to `w'` the passphrase was printed, and it was printed before anything was modified. -/
def ShownFirst (w w' : World) (p : List Char) : Prop := ∃ later unread untyped earlier, w'.out = later ++ ⟨w.log.length, unread, untyped, "[-] Your generated passphrase is: ".toList ++ p⟩ :: earlier ++ w.out

/-- The commands that generate a passphrase of `n` words. -/
inductive Generates {σ : Type} (s : Cli.Sys σ) (n : Int) : Prog Cli.Error Unit → Prop
  | encrypt (input output : List Char) (params : Cli.CryptoParams) (a : Algorithm) (h : params.key = .generate n) : Generates s n (Cli.encryptMode s input output params a)
  | pack (inputs : List (List Char)) (output : List Char) (pp : Cli.PackParams) (params : Cli.CryptoParams) (a : Algorithm) (h : params.key = .generate n) : Generates s n (Cli.packMode s inputs output pp params a)
  | keyAdd (input : List Char) (params : Cli.KeyManipulationParams) (h : params.keyNew = .generate n) (ho : ∀ m, params.keyOld ≠ .generate m) : Generates s n (Cli.keyAdd s input params)
  | keyChange (input : List Char) (params : Cli.KeyManipulationParams) (h : params.keyNew = .generate n) (ho : ∀ m, params.keyOld ≠ .generate m) : Generates s n (Cli.keyChange s input params)

end Volaris.Spec
