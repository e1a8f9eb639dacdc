import Verif.Spec.Cli
/-!
# Vocabulary for the prompts of the key commands
-/
namespace Volaris.Spec

/-- In the run from `w` to `w'` the line was printed at a time when nothing had been modified and exactly the passwords `entries` had not been typed. -/
def SaidBefore (line : String) (entries : List Bytes) (w w' : World) : Prop :=
  ∃ unread later earlier, w'.out = later ++ ⟨w.log.length, unread, entries.length, line.toList⟩ :: earlier ++ w.out

/-- The key commands that take a key and a new key. -/
inductive TwoKeys {σ : Type} (s : Cli.Sys σ) (params : Cli.KeyManipulationParams) : Prog Cli.Error Unit → Prop
  | add (input : List Char) : TwoKeys s params (Cli.keyAdd s input params)
  | change (input : List Char) : TwoKeys s params (Cli.keyChange s input params)

/-- The key commands that take one key. -/
inductive OneKey {σ : Type} (s : Cli.Sys σ) (key : Cli.Key) : Prog Cli.Error Unit → Prop
  | delete (input : List Char) : OneKey s key (Cli.keyDelete s input key)
  | verify (input : List Char) : OneKey s key (Cli.keyVerify s input key)

end Volaris.Spec
