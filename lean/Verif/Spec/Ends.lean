import Verif.Spec.Asked
import Verif.Spec.Utils
import Verif.Spec.History
/-!
# Vocabulary for how commands end
-/
namespace Volaris.Spec

/-- In the run from `w` to `w'` the question was printed, the first answer that the user gave from then on is no, and nothing has been read since. -/
def Declined (question : List Char) (default : Bool) (w w' : World) : Prop :=
  ∃ calls lines untyped later earlier, lines <:+ w.stdin ∧ FirstAnswer default lines false w'.stdin ∧ w'.out = later ++ ⟨calls, lines.length, untyped, question⟩ :: earlier ++ w.out

/-- A passphrase of `n` words cannot be made up: one of the first `n` random numbers points behind the end of the word list. -/
def Unlucky (words : List (List Char)) (n : Int) (w : World) : Prop := ∃ i : Nat, (i : Int) < n ∧ supplied w i % (words.length + 1) = words.length

/-- The questions, each with what an empty line means, that a command may ask that writes to the files of these names and may erase directories. -/
def questionsFor (names : List (List Char)) : List (List Char × Bool) := names.map (fun n => (overwriteQuestion n, true)) ++ [(eraseQuestion, false)]

/-- Ways to end that are neither success nor an error that is reported: the user has declined one of the questions, or a passphrase that was to be made up could not be. -/
inductive GivesUp (words : List (List Char)) (key : Option Cli.Key) (questions : List (List Char × Bool)) (w w' : World) : Abort → Prop
  | declined (question : List Char) (default : Bool) (hq : (question, default) ∈ questions) (h : Declined question default w w') : GivesUp words key questions w w' (.exit 0)
  | unlucky (n : Int) (hk : key = some (.generate n)) (h : Unlucky words n w) : GivesUp words key questions w w' .panic

/-- The line begins with the word `unpack` or with its letter. -/
def UnpackLine (argv : List (List Char)) : Prop := argv.head? = some "unpack".toList ∨ ∃ rest, argv.head? = some ('-' :: 'u' :: rest)

/-- A question about a file that the line names, or the one about a directory. -/
inductive AskedBy (argv : List (List Char)) : List Char → Bool → Prop
  | overwrite (name : List Char) (h : Mentions argv name) : AskedBy argv (overwriteQuestion name) true
  | erase : AskedBy argv eraseQuestion false

end Volaris.Spec
