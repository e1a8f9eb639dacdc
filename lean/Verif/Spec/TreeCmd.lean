import Verif.Spec.CmdRoundTrip
import Verif.Spec.RoundTrip
import Verif.Spec.PackCmd
/-!
# Vocabulary for packing directories with one command and unpacking them with another
-/
namespace Volaris.Spec

/-- The argument `f` is a relative path that consists of the names `ns` only: no `..`, and it names something. -/
structure Plainly (cwd : Path) (f : List Char) (ns : List Name) : Prop where
  relative : (Cli.toPath cwd f).abs = false
  names : (Cli.toPath cwd f).comps = ns.map .name
  some : ns ≠ []
  plain : ∀ n ∈ ns, Plain n

/-- What the names below the inputs have to be like: possible names of files; and the name of a file does not end with a backslash (see `C42_backslash`). -/
structure PlainBelow (cwd : Path) (inputs : List (List Char)) (w : World) : Prop where
  plain : ∀ f ∈ inputs, ∀ T, LeadsToDir w (Cli.toPath cwd f) T → ∀ ns, w.look (T ++ ns) ≠ none → ∀ n ∈ ns, Plain n
  backslash : ∀ f ∈ inputs, ∀ T, LeadsToDir w (Cli.toPath cwd f) T → ∀ ns n i, w.look (T ++ ns ++ [n]) = some (.file i) → n.getLast? ≠ some '\\'

/-- A file with any name of sixteen characters can be made in the directory for temporary files. -/
def TempReady (tmp : PathBuf) (w : World) : Prop := ∀ name : Name, name.length = 16 → CanCreate w (tmp.push [.name name])

/-- Everything is in place for the pack command (with the header in the file): no fault will happen; the inputs are directories in the tree, given by relative paths made of names, none of them in
another one; the names below are possible names; output and temporary file are beside the inputs and can be written; the user agrees to overwriting the output, if need be; the key source then supplies
`secret`; the primitives work; the names can be stored and the blocks counted. -/
structure PackReady {σ : Type} (s : Cli.Sys σ) (inputs : List (List Char)) (output : List Char) (params : Cli.CryptoParams) (a : Algorithm) (secret : Bytes) (w : World) : Prop where
  faultless : w.sched = []
  tree : TreeOk w
  sources : ∀ f ∈ inputs, (∃ ns, Plainly s.cwd f ns) ∧ ∃ T, LeadsToDir w (Cli.toPath s.cwd f) T
  disjoint : inputs.Pairwise fun f g => ∀ ns ms, Plainly s.cwd f ns → Plainly s.cwd g ms → ¬ ns <+: ms ∧ ¬ ms <+: ns
  below : PlainBelow s.cwd inputs w
  header : params.header = none
  outside : Outside s.cwd inputs output params.header w
  target : CanHold w (Cli.toPath s.cwd output)
  temp : CanCreate w (tempFile s params.key w) ∧ ∀ q, w.resolve (Cli.toPath s.cwd output) = .ok q → w.resolve (tempFile s params.key w) ≠ .ok q
  key : secret ≠ [] ∧ ∃ u, AfterConsent params.force s.cwd output w u ∧ Supplies s.words s.cwd .validate params.key u secret
  primitives : PrimitivesWork s.C a params.hashingAlgorithm secret
  storable : ∀ l, Archives s.cwd inputs w l → ∀ e ∈ l, s.z.storable e.name
  size : ∀ l, Archives s.cwd inputs w l → (l.map (·.name)).Nodup → (s.z.encode l).length / 2 ^ 20 ≤ s.C.ctrMax

/-- Everything is in place for the unpack command, whose input has the content `c`: there is nothing at the output directory yet (or it is empty), and the name drawn for the temporary file is free and elsewhere. -/
structure UnpackReady {σ : Type} (s : Cli.Sys σ) (input output : List Char) (params : Cli.CryptoParams) (secret c : Bytes) (v : World) : Prop where
  faultless : v.sched = []
  tree : TreeOk v
  allocated : Allocated v
  header : params.header = none
  source : ContentAt v (Cli.toPath s.cwd input) c
  key : secret ≠ [] ∧ Supplies s.words s.cwd .direct params.key v secret
  target : FreshTarget v (Cli.toPath s.cwd output)
  temp : CanCreate v (tempFile s params.key v) ∧ ¬ onPaper (Cli.toPath s.cwd output) <+: onPaper (tempFile s params.key v) ∧ ¬ OnTheWay (Cli.toPath s.cwd output) (onPaper (tempFile s params.key v))

/-- Below the directory `T` in `v` there is exactly what was below the inputs in `w`, under the same relative paths: the directories, and the files with their content. -/
structure Returned (cwd : Path) (inputs : List (List Char)) (w : World) (T : Path) (v : World) : Prop where
  root : v.look T = some .dir
  dirs : ∀ f ∈ inputs, ∀ ns D, Plainly cwd f ns → LeadsToDir w (Cli.toPath cwd f) D → ∀ ms, w.look (D ++ ms) = some .dir → v.look (T ++ ns ++ ms) = some .dir
  files : ∀ f ∈ inputs, ∀ ns D, Plainly cwd f ns → LeadsToDir w (Cli.toPath cwd f) D → ∀ ms i, w.look (D ++ ms) = some (.file i) →
    ∃ j, v.look (T ++ ns ++ ms) = some (.file j) ∧ v.file j = w.file i
  only : ∀ x, x ≠ [] → v.look (T ++ x) ≠ none → ∃ f ∈ inputs, ∃ ns D, Plainly cwd f ns ∧ LeadsToDir w (Cli.toPath cwd f) D ∧
    (x <+: ns ∨ ∃ ms, x = ns ++ ms ∧ w.look (D ++ ms) ≠ none)

end Volaris.Spec
