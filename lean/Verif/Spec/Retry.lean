import Verif.Spec.CmdRoundTrip
import Verif.Spec.Crash
import Verif.Spec.TreeCmd
/-!
# Vocabulary for commands that are killed and started again
-/
namespace Volaris.Spec

/-- The command was started some number of times, with or without the consent to overwrite, and was killed every time; `v` is the machine afterwards.  Between the attempts only what is on the disk survives: what is typed, random numbers,
faults and the environment are new.  No transfer is short. -/
inductive Killed (cmd : Cli.ForceMode → Prog Cli.Error Unit) : World → World → Prop
  | never {w v : World} (h : v.disk = w.disk) : Killed cmd w v
  | again {w u v : World} (force : Cli.ForceMode) (hns : ∀ k, Io.short k ∉ w.sched) (h : StoppedAt (cmd force) w u) (hn : Killed cmd u v) : Killed cmd w v

/-- One of the attempts between `w` and `v` started in `x`, was killed in `u`, and `P` holds for them. -/
def OneOfThem (cmd : Cli.ForceMode → Prog Cli.Error Unit) (w v : World) (P : World → World → Prop) : Prop := ∃ force x u, Killed cmd w x ∧ StoppedAt (cmd force) x u ∧ Killed cmd u v ∧ P x u

/-- For the next attempt no fault will happen and the key source supplies the secret. -/
structure NextTime {σ : Type} (s : Cli.Sys σ) (state : Cli.PasswordState) (key : Cli.Key) (secret : Bytes) (v : World) : Prop where
  faultless : v.sched = []
  nonempty : secret ≠ []
  supplied : Supplies s.words s.cwd state key v secret

/-- What packing takes for granted about the disk: the inputs are directories in the tree, given by relative paths made of names, none of them in another one; the names below are possible names and can be stored, and the blocks counted; the
output can be written; the output and new temporary files are beside the inputs. -/
structure PackGround {σ : Type} (s : Cli.Sys σ) (inputs : List (List Char)) (output : List Char) (w : World) : Prop where
  tree : TreeOk w
  sources : ∀ f ∈ inputs, (∃ ns, Plainly s.cwd f ns) ∧ ∃ T, LeadsToDir w (Cli.toPath s.cwd f) T
  disjoint : inputs.Pairwise fun f g => ∀ ns ms, Plainly s.cwd f ns → Plainly s.cwd g ms → ¬ ns <+: ms ∧ ¬ ms <+: ns
  below : PlainBelow s.cwd inputs w
  outside : Outside s.cwd inputs output none w
  temps : ∀ q, TempPlace s.tmp q → w.look q = none → ¬ InSource s.cwd inputs w q
  target : CanHold w (Cli.toPath s.cwd output)
  storable : ∀ l, Archives s.cwd inputs w l → ∀ e ∈ l, s.z.storable e.name
  size : ∀ l, Archives s.cwd inputs w l → (l.map (·.name)).Nodup → (s.z.encode l).length / 2 ^ 20 ≤ s.C.ctrMax

/-- The next attempt will draw a name for its temporary file that is not taken, nor that of the output. -/
def FreshTemp {σ : Type} (s : Cli.Sys σ) (output : List Char) (key : Cli.Key) (v : World) : Prop :=
  CanCreate v (tempFile s key v) ∧ ∀ q, v.resolve (Cli.toPath s.cwd output) = .ok q → v.resolve (tempFile s key v) ≠ .ok q

end Volaris.Spec
