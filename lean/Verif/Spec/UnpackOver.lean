import Verif.Spec.TreeCmd
import Verif.Spec.Crash
/-!
# Vocabulary for unpacking over what is already there
-/
namespace Volaris.Spec

/-- The callback accepts every path made of names below `out`. -/
def AcceptsAll {ε : Type} (out : PathBuf) (f : PathBuf → Prog ε Bool) : Prop := ∀ ns v, ns ≠ [] → (f (out.push (ns.map .name)) v).1 = .ok true

/-- A directory (`.dir`) or a file (`.file i`) in the inputs in `w` that packing stores under the relative path with the names `x`. -/
def PackedAs (cwd : Path) (inputs : List (List Char)) (w : World) (n : Node) (x : List Name) : Prop :=
  ∃ f ∈ inputs, ∃ ns D ms, Plainly cwd f ns ∧ LeadsToDir w (Cli.toPath cwd f) D ∧ w.look (D ++ ms) = some n ∧ x = ns ++ ms

/-- What is at the output directory `out` in `v` does not clash with what was packed in `w`: no file is on the way to it, or where a packed directory or a directory on the way to one comes; no directory is where a packed file comes; no two of the
files that will be overwritten are one and the same file.  The path to it does not lead through places below it (a path like `a/b/..` does). -/
structure Compatible (cwd : Path) (inputs : List (List Char)) (w : World) (out : PathBuf) (v : World) : Prop where
  start : v.look out.start = some .dir
  way : ∀ q i, OnTheWay out q → v.look q ≠ some (.file i)
  inward : ∀ q, OnTheWay out q → ∀ ns, ns ≠ [] → q ≠ onPaper out ++ ns
  dirs : ∀ x, PackedAs cwd inputs w .dir x → ∀ y k, y <+: x → v.look (onPaper out ++ y) ≠ some (.file k)
  files : ∀ x i, PackedAs cwd inputs w (.file i) x → v.look (onPaper out ++ x) ≠ some .dir
  alone : ∀ x i y j, PackedAs cwd inputs w (.file i) x → PackedAs cwd inputs w (.file j) y → x ≠ y → ∀ k, v.look (onPaper out ++ x) = some (.file k) → v.look (onPaper out ++ y) ≠ some (.file k)

/-- Everything is in place for the unpack command, told to overwrite, whose input has the content `c`: what is at the output directory does not clash with what was packed in `w`, and the name drawn for the temporary file is free and elsewhere. -/
structure OverReady {σ : Type} (s : Cli.Sys σ) (cwd : Path) (inputs : List (List Char)) (w : World) (input output : List Char) (params : Cli.CryptoParams) (secret c : Bytes) (v : World) : Prop where
  faultless : v.sched = []
  tree : TreeOk v
  allocated : Allocated v
  header : params.header = none
  forced : params.force = .forced
  source : ContentAt v (Cli.toPath s.cwd input) c
  key : secret ≠ [] ∧ Supplies s.words s.cwd .direct params.key v secret
  target : Compatible cwd inputs w (Cli.toPath s.cwd output) v
  temp : CanCreate v (tempFile s params.key v) ∧ ¬ onPaper (Cli.toPath s.cwd output) <+: onPaper (tempFile s params.key v) ∧ ¬ OnTheWay (Cli.toPath s.cwd output) (onPaper (tempFile s params.key v))

/-- The output directory is there in `v'`, with everything on the way to it, and in it is what was packed in `w`: the directories, and the files with their content.  Everything that was anywhere in `v` is still there; whatever is new is the output directory, on the way to it, or a packed thing or on
the way to one, or has been left behind, which can be at `left` only; and all files have their old content but those that were where a packed file is now. -/
structure Overlaid (left : Path → Prop) (cwd : Path) (inputs : List (List Char)) (w : World) (out : PathBuf) (v v' : World) : Prop where
  root : v'.look (onPaper out) = some .dir
  way : ∀ q, OnTheWay out q → v'.look q = some .dir
  dirs : ∀ x, PackedAs cwd inputs w .dir x → v'.look (onPaper out ++ x) = some .dir
  files : ∀ x i, PackedAs cwd inputs w (.file i) x → ∃ j, v'.look (onPaper out ++ x) = some (.file j) ∧ v'.file j = w.file i
  kept : ∀ q n, v.look q = some n → v'.look q = some n
  new : ∀ q, v'.look q ≠ v.look q → OnTheWay out q ∨ (∃ y x n, q = onPaper out ++ y ∧ PackedAs cwd inputs w n x ∧ y <+: x) ∨ left q
  others : ∀ k, k < v.nextIno → (∀ x i, PackedAs cwd inputs w (.file i) x → v.look (onPaper out ++ x) ≠ some (.file k)) → v'.file k = v.file k

/-- The unpack command was started some number of times, with or without the consent to overwrite and with whatever answers, each time with no other secret than `secret`, and was killed every time; `v` is the machine afterwards.  Between the
attempts only what is on the disk survives: what is typed, random numbers, faults and the environment are new.  No transfer is short. -/
inductive UnpackKilled {σ : Type} (s : Cli.Sys σ) (input output : List Char) (verbose : Bool) (params : Cli.CryptoParams) (secret : Bytes) : World → World → Prop
  | never {w v : World} (h : v.disk = w.disk) : UnpackKilled s input output verbose params secret w v
  | again {w u v : World} (force : Cli.ForceMode) (hns : ∀ k, Io.short k ∉ w.sched) (hsup : ∀ k, Supplies s.words s.cwd .direct params.key w k → k = secret)
      (h : StoppedAt (Cli.unpackMode s input output verbose { params with force }) w u) (hn : UnpackKilled s input output verbose params secret u v) : UnpackKilled s input output verbose params secret w v

/-- The disk is in order for unpacking the file with the content `c`: what is at the output directory does not clash with what was packed in `w`, the archive is not itself one of the files to overwrite, and free places for temporary files are neither
in the output directory nor on the way to it. -/
structure OverGround {σ : Type} (s : Cli.Sys σ) (cwd : Path) (inputs : List (List Char)) (w : World) (input output : List Char) (c : Bytes) (v : World) : Prop where
  tree : TreeOk v
  allocated : Allocated v
  source : ∃ q i, LeadsToFile v (Cli.toPath s.cwd input) q i ∧ v.file i = c ∧ ∀ x k, PackedAs cwd inputs w (.file k) x → v.look (onPaper (Cli.toPath s.cwd output) ++ x) ≠ some (.file i)
  target : Compatible cwd inputs w (Cli.toPath s.cwd output) v
  temps : ∀ q, TempPlace s.tmp q → v.look q = none → ¬ onPaper (Cli.toPath s.cwd output) <+: q ∧ ¬ OnTheWay (Cli.toPath s.cwd output) q

/-- For the next attempt no fault will happen, the key source supplies the secret, and the name drawn for the temporary file is free and elsewhere. -/
structure OverNext {σ : Type} (s : Cli.Sys σ) (output : List Char) (key : Cli.Key) (secret : Bytes) (v : World) : Prop where
  faultless : v.sched = []
  supplied : secret ≠ [] ∧ Supplies s.words s.cwd .direct key v secret
  temp : CanCreate v (tempFile s key v) ∧ ¬ onPaper (Cli.toPath s.cwd output) <+: onPaper (tempFile s key v) ∧ ¬ OnTheWay (Cli.toPath s.cwd output) (onPaper (tempFile s key v))

end Volaris.Spec
