import Verif.Spec.Session
import Verif.Spec.TreeCmd
/-!
# Vocabulary for packing directories with one line and getting them back with another
-/
namespace Volaris.Spec

/-- Before a `pack` line: no fault will happen; the working directory is there; the inputs are directories, given by relative paths made of names, none of them in another one; the names below are possible names; the name `output` is
free in the working directory; the name drawn for the temporary file is free too and is another one (a key in a file or in the environment takes no random bytes, so it is drawn from the first ones). -/
structure PackDesk {σ : Type} (s : Cli.Sys σ) (inputs : List (List Char)) (output : List Char) (w : World) : Prop where
  faultless : w.sched = []
  tree : TreeOk w
  allocated : Allocated w
  directory : w.look s.cwd = some .dir
  name : Plain output
  sources : ∀ f ∈ inputs, (∃ ns, Plainly s.cwd f ns) ∧ ∃ T, LeadsToDir w (Cli.toPath s.cwd f) T
  disjoint : inputs.Pairwise fun f g => ∀ ns ms, Plainly s.cwd f ns → Plainly s.cwd g ms → ¬ ns <+: ms ∧ ¬ ms <+: ns
  below : PlainBelow s.cwd inputs w
  target : w.look (s.cwd ++ [output]) = none
  temp : CanCreate w (tempFile s .env w) ∧ w.resolve (tempFile s .env w) ≠ .ok (s.cwd ++ [output])

/-- Archives of the inputs are not too much for the zip code and for the counter of blocks. -/
structure Fits {σ : Type} (s : Cli.Sys σ) (inputs : List (List Char)) (w : World) : Prop where
  storable : ∀ l, Archives s.cwd inputs w l → ∀ e ∈ l, s.z.storable e.name
  size : ∀ l, Archives s.cwd inputs w l → (l.map (·.name)).Nodup → (s.z.encode l).length / 2 ^ 20 ≤ s.C.ctrMax

/-- Before a `decrypt` line, on whatever machine and however much later: no fault will happen, the working directory is there, in it the file `input` with the content `c`, whose number is `i`, and the name `back` is free. -/
structure DecryptDesk {σ : Type} (s : Cli.Sys σ) (input back : List Char) (i : Nat) (c : Bytes) (v : World) : Prop where
  faultless : v.sched = []
  allocated : Allocated v
  directory : v.look s.cwd = some .dir
  names : Plain input ∧ Plain back
  source : v.look (s.cwd ++ [input]) = some (.file i)
  content : v.file i = c
  target : v.look (s.cwd ++ [back]) = none

/-- Reading `b` as a zip archive gives exactly what the inputs led to in `w`: its members can all be opened, are undamaged, have different names, and are the directories and the files with their content, under the paths by which they
were reached from the command line. -/
def HoldsTree (z : Zip) (cwd : Path) (inputs : List (List Char)) (w : World) (b : Bytes) : Prop :=
  ∃ l : List ZipEntry, Archives cwd inputs w l ∧ (l.map (·.name)).Nodup ∧ z.decode b = some (l.map fun e => { name := e.name, opens := true, content := e.content, sound := true })

end Volaris.Spec
