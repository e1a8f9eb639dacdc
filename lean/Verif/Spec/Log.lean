import Verif.Base
/-!
# What a program does to the disk, call by call
-/
namespace Volaris.Spec

/-- Under every schedule, every modifying system call that `x` makes satisfies `P`. -/
def OnlyDoes {ε α : Type} (P : Ev → Prop) (x : Prog ε α) : Prop :=
  ∀ w, ∃ evs, (x w).2.log = evs ++ w.log ∧ ∀ e ∈ evs, P e

end Volaris.Spec
