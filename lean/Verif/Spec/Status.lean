import Verif.Spec.Ends
import Verif.Spec.CommandLine
import Verif.Spec.PackCmd
/-!
# Vocabulary for exit statuses
-/
namespace Volaris.Spec

/-- The status that a process leaves behind: zero when `main` returns, 1 when it returns an error, 101 after a panic, and after `exit` the one that was chosen.  (This is what Rust's runtime does with `fn main() -> Result<()>`.) -/
inductive Status {ε α : Type} : Res ε α → Nat → Prop
  | ok (a : α) : Status (.ok a) 0
  | err (e : ε) : Status (.err e) 1
  | panic : Status (.abort .panic) 101
  | exit (n : Nat) : Status (.abort (.exit n)) n

/-- Nobody is there to say no: the line has the option not to ask, or there is nothing to be read from standard input. -/
def Unattended (opts : List (String × List Char)) (w : World) : Prop := (valueOf opts "force").isSome ∨ w.stdin = []

/-- The line does not have that option, and the user has declined one of these questions. -/
def Refused (opts : List (String × List Char)) (questions : List (List Char × Bool)) (w w' : World) : Prop :=
  valueOf opts "force" = none ∧ ∃ question default, (question, default) ∈ questions ∧ Declined question default w w'

/-- The questions about files that exist already. -/
def overwriteQuestions (names : List (List Char)) : List (List Char × Bool) := names.map fun n => (overwriteQuestion n, true)

/-- The file is where it was and has the same content. -/
def Kept (cwd : Path) (input : List Char) (w w' : World) : Prop := ∀ q i, LeadsToFile w (Cli.toPath cwd input) q i → LeadsToFile w' (Cli.toPath cwd input) q i ∧ w'.file i = w.file i

/-- The input was a file; the output, with the header file if there is one, decrypts with what the key source supplied to its content; the input is gone. -/
def EncryptDone {σ : Type} (s : Cli.Sys σ) (input output : List Char) (header : Option (List Char)) (key : Cli.Key) (w w' : World) : Prop :=
  ∃ q i secret, LeadsToFile w (Cli.toPath s.cwd input) q i ∧ SuppliedTo s .validate key w secret ∧ Preserves s.C s.cwd output header secret (w.file i) q i w' ∧ w'.look q = none ∧ w'.file i = []

/-- The input was a file; the output holds what was encrypted in it, for the key that the source supplied; the input is gone. -/
def DecryptDone {σ : Type} (s : Cli.Sys σ) (input output : List Char) (header : Option (List Char)) (key : Cli.Key) (w w' : World) : Prop :=
  ∃ q i secret, LeadsToFile w (Cli.toPath s.cwd input) q i ∧ SuppliedTo s .direct key w secret ∧ Restores s.C s.cwd output header secret (w.file i) q i w w' ∧ w'.look q = none ∧ w'.file i = []

/-- The output, with the header file if there is one, decrypts with what the key source supplied to an archive of everything below the inputs. -/
def ArchiveDone {σ : Type} (s : Cli.Sys σ) (inputs : List (List Char)) (output : List Char) (header : Option (List Char)) (key : Cli.Key) (w w' : World) : Prop :=
  ∃ secret l, SuppliedTo s .validate key w secret ∧ Archives s.cwd inputs w l ∧ Readable s.z l ∧ Keeps s.C s.cwd inputs output header secret (s.z.encode l) w w'

/-- Everything below the inputs is gone, and the files are empty. -/
def SourcesGone (cwd : Path) (inputs : List (List Char)) (w w' : World) : Prop :=
  ∀ x, InSource cwd inputs w x → x ≠ [] → w'.look x = none ∧ ∀ i, w.look x = some (.file i) → w'.file i = []

/-- What was at the path, a file or a directory with everything below it, is gone, and the files are empty. -/
def EraseDone (cwd : Path) (input : List Char) (w w' : World) : Prop :=
  (∃ q i, LeadsToFile w (Cli.toPath cwd input) q i ∧ w'.look q = none ∧ w'.file i = []) ∨
  ∃ T, LeadsToDir w (Cli.toPath cwd input) T ∧ (∀ x, T <+: x → x ≠ [] → w'.look x = none) ∧ ∀ k i, T <+: k → w.look k = some (.file i) → w'.file i = []

end Volaris.Spec
