import Verif.Spec.Crash
/-!
# Losing power

What may be on the disk after the machine has lost power in the middle of a run, or soon after it.  Nothing that has been written is certain to be on the disk before it has been synchronised (`fsync`), and the
program never does that: `flush` on a file does nothing.  We are generous: the disk takes changes of names and lengths in the order in which they were made, as journaling file systems do, and only what was
written into files may still be missing, wholly or in part.
-/
namespace Volaris.Spec

/-- The disk goes from `d` to `d'` when the calls are made one after the other and the power fails at some point: the calls after it are lost, and any of the writes before it may be lost or may have arrived in part. -/
inductive PowerFails : List Ev → Disk → Disk → Prop
  /-- The power fails. -/
  | off {es d} : PowerFails es d d
  /-- The call has reached the disk. -/
  | kept {e es d d'} : PowerFails es (effect e d) d' → PowerFails (e :: es) d d'
  /-- The written bytes have not reached the disk. -/
  | lost {i off bs es d d'} : PowerFails es d d' → PowerFails (.write i off bs :: es) d d'
  /-- Only some of the written bytes have reached the disk. -/
  | part {i off bs es d d'} (k : Nat) : PowerFails es (effect (.write i off (bs.take k)) d) d' → PowerFails (.write i off bs :: es) d d'

/-- The power fails while or after `x` is run in `w`; `v` is any state of the machine afterwards with a disk that may be left. -/
def AfterPowerLoss {ε α : Type} (x : Prog ε α) (w v : World) : Prop := ∃ es, Calls x w es ∧ PowerFails es w.disk v.disk

/-- No file of `v` holds anything but what it held in `w`, and files that were not there in `w` are empty. -/
def NothingNew (w v : World) : Prop := (∀ j, j < w.nextIno → v.file j = w.file j ∨ v.file j = []) ∧ ∀ q j, v.look q = some (.file j) → w.nextIno ≤ j → v.file j = []

end Volaris.Spec
