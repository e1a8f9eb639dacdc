import Verif.Base
/-!
# What a call may touch
-/
namespace Volaris.Spec

/-- `Touches R W w w'`: going from `w` to `w'` at most the positions of the handles in `R` and `W` and the contents of the
files behind the handles in `W` changed (and the schedule, the random tape and the ghost log were consumed).  No other file, handle,
directory entry or pending user input is different. -/
structure Touches (R W : List Nat) (w w' : World) : Prop where
  files : ∀ i, (∀ h ∈ W, (w.fd h).ino ≠ i) → w'.file i = w.file i
  inos : ∀ h, (w'.fd h).ino = (w.fd h).ino
  fds : ∀ h, h ∉ R → h ∉ W → w'.fd h = w.fd h
  dir : w'.dir = w.dir
  nextIno : w'.nextIno = w.nextIno
  nextFd : w'.nextFd = w.nextFd
  stdin : w'.stdin = w.stdin
  tty : w'.tty = w.tty
  env : w'.env = w.env
  out : w'.out = w.out

/-- A program that, under every schedule, only touches the handles `R` (reading) and `W` (writing). -/
def Within {ε α : Type} (R W : List Nat) (x : Prog ε α) : Prop := ∀ w, Touches R W w (x w).2

/-- A program that under every schedule returns `Ok` or `Err`: no panic, no exit, no endless loop. -/
def Returns {ε α : Type} (x : Prog ε α) : Prop := ∀ w a, (x w).1 ≠ .abort a

end Volaris.Spec
