import Verif.Spec.Screen
import Verif.Spec.Announced
/-!
# Vocabulary for what the other commands show on the screen
-/
namespace Volaris.Spec

/-- What is said before a key is taken: the line, if the key is to be typed and the command gets that far, and nothing otherwise. -/
def Announces (key : Cli.Key) (line : String) (ok : Bool) (lines : List (List Char)) : Prop :=
  lines = [] ∧ (key = .user → ok = false) ∨ lines = [line.toList] ∧ key = .user

end Volaris.Spec
