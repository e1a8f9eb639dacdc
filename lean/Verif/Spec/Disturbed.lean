import Verif.Spec.Concurrent
import Verif.Spec.Unpack
/-!
# A command while other programs change the disk

Nothing is known of the other programs: before every step of the command the disk can be any disk.
-/
namespace Volaris.Spec
variable {σ : Type}

/-- The steps of a process when it finds these disks, one before each of its steps: the disk before and after each step. -/
def Proc.among : List Disk → Proc → List (Disk × Disk)
  | d :: ds, ⟨self, .step eff k⟩ => (d, (eff (self.on d)).disk) :: Proc.among ds ⟨eff (self.on d), k (self.on d)⟩
  | _, _ => []

/-- The names of what the command line says is to be erased. -/
def Job.erases : Job → List (List Char)
  | .encrypt input _ params _ => if params.erase = .ignoreFile then [] else [input]
  | .decrypt input _ params => if params.erase = .ignoreFile then [] else [input]
  | .erase input _ _ => [input]
  | .pack inputs _ packParams _ _ => if packParams.eraseSource then inputs else []
  | _ => []

/-- The place is one to be written or erased, as the disk is now, or the one of the temporary file, or it is in a directory that is to be erased or filled; or it is one where a directory on the way to that is missing. -/
def Started.Given (c : Started σ) (d : Disk) (q : Path) : Prop :=
  c.Writes d q ∨ (∃ n top, n ∈ c.cmd.erases ∧ (c.self.on d).resolve (Cli.toPath c.s.cwd n) = .ok top ∧ top <+: q) ∨
    ∃ n, n ∈ c.cmd.fills ∧ (onPaper (Cli.toPath c.s.cwd n) <+: q ∨ OnTheWay (Cli.toPath c.s.cwd n) q ∧ lookDisk d q = none)

/-- In this step the file was at such a place, before or after. -/
def Started.Met (c : Started σ) (step : Disk × Disk) (i : Nat) : Prop :=
  ∃ q, c.Given step.1 q ∧ (lookDisk step.1 q = some (.file i) ∨ lookDisk step.2 q = some (.file i))

/-- The disk before and after each step of a machine. -/
def Machine.moves (m : Machine) : List Nat → List (Disk × Disk)
  | [] => []
  | i :: order => (m.disk, (m.step i).disk) :: (m.step i).moves order

end Volaris.Spec
