import Verif.Fs
/-!
# Stopping a program in the middle

What is on the disk when the process is killed at some moment of a run, or when the machine stops and the disk has taken the system calls in the order in which they were made.  The ghost log lists the modifying system calls of the run; at any moment the disk holds the effects of those
made so far, and of a part of the bytes of the write that is under way.  (`Props/Crash.lean` shows that the log is complete: the effects of all the calls together are the disk at the end of the run.)
-/
namespace Volaris

/-- What survives the process. -/
structure Disk where
  file : Nat → Bytes
  nextIno : Nat
  dir : List (Path × Node)

/-- What is on the disk. -/
def World.disk (w : World) : Disk := { file := w.file, nextIno := w.nextIno, dir := w.dir }

namespace Spec

/-- The effect of one modifying system call. -/
def effect : Ev → Disk → Disk
  | .write i off bs, d => { d with file := fun j => if j = i then writeAt (d.file j) off bs else d.file j }
  | .truncate i, d => { d with file := fun j => if j = i then [] else d.file j }
  | .create p, d =>
      { file := fun j => if j = d.nextIno then [] else d.file j, nextIno := d.nextIno + 1, dir := (p, .file d.nextIno) :: d.dir }
  | .mkdir p, d => { d with dir := (p, .dir) :: d.dir }
  | .unlink p, d => { d with dir := d.dir.filter (·.1 ≠ p) }

/-- The effects of calls, made one after the other. -/
def effects : List Ev → Disk → Disk
  | [], d => d
  | e :: es, d => effects es (effect e d)

/-- A write in the middle: some of its bytes, from the front, have arrived. -/
def Torn : Ev → Disk → Disk → Prop
  | .write i off bs, d, d' => ∃ k, d' = effect (.write i off (bs.take k)) d
  | _, _, _ => False

/-- A moment while the calls are made one after the other: before the next one, in the middle of it, or later. -/
def Moment : List Ev → Disk → Disk → Prop
  | [], d, d' => d' = d
  | e :: es, d, d' => d' = d ∨ Torn e d d' ∨ Moment es (effect e d) d'

/-- The modifying calls that `x` makes when it is run in `w`, in the order in which it makes them. -/
def Calls {ε α : Type} (x : Prog ε α) (w : World) (es : List Ev) : Prop := (x w).2.log = es.reverse ++ w.log

/-- `x`, run in `w`, is stopped at some moment; `v` is any state of the machine afterwards with the disk as it was at that moment. -/
def StoppedAt {ε α : Type} (x : Prog ε α) (w v : World) : Prop := ∃ es, Calls x w es ∧ Moment es w.disk v.disk

end Spec
end Volaris
