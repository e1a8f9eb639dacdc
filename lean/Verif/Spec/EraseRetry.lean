import Verif.Model.Cli.Commands
import Verif.Spec.Cli
import Verif.Spec.Crash
/-!
# Vocabulary for an erase command that is killed and started again
-/
namespace Volaris.Spec
open Cli

/-- The erase command was started some number of times on the same path, with any accepted options each time, and was killed every time; `v` is the machine afterwards.  Between the attempts only what is on the disk survives. -/
inductive EraseKilled {σ : Type} (s : Sys σ) (input : List Char) : World → World → Prop
  | never {w v : World} (h : v.disk = w.disk) : EraseKilled s input w v
  | again {w u v : World} (m : Matches) (ha : Accepted eraseArgs m) (hi : Gives m .input input) (h : StoppedAt (Cli.erase s m) w u) (hn : EraseKilled s input u v) : EraseKilled s input w v

/-- What has at most become of the disk if the file `i` at `q` was to be erased: no other name and no other file has changed; the file is as it was or empty; and its name is there, or it is gone and the file is empty. -/
structure FileGoing (q : Path) (i : Nat) (w v : World) : Prop where
  names : ∀ x, x ≠ q → v.look x = w.look x
  files : ∀ j, j ≠ i → v.file j = w.file j
  content : v.file i = w.file i ∨ v.file i = []
  name : v.look q = some (.file i) ∨ v.look q = none ∧ v.file i = []

/-- What has at most become of the disk if the directory at `T` was to be erased: nothing outside has changed and nothing is new; files without a name in the directory are as they were, and every file is as it was or empty;
a file whose name is gone is empty; and once a directory is gone, so are all names of files. -/
structure DirGoing (T : Path) (w v : World) : Prop where
  outside : ∀ x, ¬ T <+: x → v.look x = w.look x
  names : ∀ x, v.look x = w.look x ∨ v.look x = none
  files : ∀ j, (∀ k, T <+: k → w.look k ≠ some (.file j)) → v.file j = w.file j
  contents : ∀ j, v.file j = w.file j ∨ v.file j = []
  emptied : ∀ k i, w.look k = some (.file i) → v.look k = none → v.file i = []
  filesFirst : (∃ d, w.look d = some .dir ∧ v.look d = none) → ∀ k i, T <+: k → w.look k = some (.file i) → v.look k = none

end Volaris.Spec
