import Verif.Spec.Pack
/-!
# Vocabulary for packing and unpacking a tree
-/
namespace Volaris.Spec

/-- What can be the name of a file. -/
def Plain (n : Name) : Prop := n ≠ [] ∧ '/' ∉ n ∧ '\x00' ∉ n ∧ n ≠ ['.'] ∧ n ≠ ['.', '.']

/-- A path that names something: at least one component, and all names are possible file names. -/
def PlainPath (p : PathBuf) : Prop := p.comps ≠ [] ∧ ∀ n, Comp.name n ∈ p.comps → Plain n

/-- A path that at some point goes above where it starts: some initial part has more `..` than names. -/
def Climbs (p : PathBuf) : Prop := ∃ pre, pre <+: p.comps ∧ pre.length < 2 * pre.count .up

/-- The path of an entry to pack. -/
def pathOf : Storage.Entry → PathBuf
  | .file p _ => p
  | .dir p => p

/-- The entry is packed under the relative path with the names `ns`. -/
def Named (f : Storage.Entry) (ns : List Name) : Prop := (pathOf f).abs = false ∧ (pathOf f).comps = ns.map .name

/-- A set of entries to pack: every entry has a path that names something, no two have the same; a path either is absolute or climbs out, or consists of names only; the parent of a file, if
its path has one, is then among the entries as a directory, and no directory has its path below a file.  Names of files do not end with a backslash; the handles of the files are distinct, open and at the start. -/
structure Packable (w : World) (fs : List Storage.Entry) : Prop where
  plain : ∀ f ∈ fs, PlainPath (pathOf f)
  distinct : (fs.map fun f => ((pathOf f).abs, (pathOf f).comps)).Nodup
  kind : ∀ f ∈ fs, (pathOf f).abs = true ∨ Climbs (pathOf f) ∨ ∃ ns, Named f ns
  parent : ∀ p h, Storage.Entry.file p h ∈ fs → ∀ ns n, Named (.file p h) (ns ++ [n]) → ns ≠ [] → ∃ p', Storage.Entry.dir p' ∈ fs ∧ Named (.dir p') ns
  apart : ∀ p h p', Storage.Entry.file p h ∈ fs → Storage.Entry.dir p' ∈ fs → ∀ ns ms, Named (.file p h) ns → Named (.dir p') ms → ¬ ns <+: ms
  backslash : ∀ p h, Storage.Entry.file p h ∈ fs → ∀ ns n, Named (.file p h) (ns ++ [n]) → n.getLast? ≠ some '\\'
  handles : (fs.filterMap fun | .file _ h => some h | .dir _ => none).Nodup
  opened : ∀ p h, Storage.Entry.file p h ∈ fs → OpenHandle w h ∧ (w.fd h).pos = 0

/-- `Restored fs w T w'`: below the path `T` in `w'` there is exactly what was packed in `w` under a relative path: the directories (and the directories on the way to them), and the files with
their content. -/
structure Restored (fs : List Storage.Entry) (w : World) (T : Path) (w' : World) : Prop where
  dirs : ∀ p ns, Storage.Entry.dir p ∈ fs → Named (.dir p) ns → w'.look (T ++ ns) = some .dir
  files : ∀ p h ns, Storage.Entry.file p h ∈ fs → Named (.file p h) ns → ∃ j, w'.look (T ++ ns) = some (.file j) ∧ w'.file j = w.data h
  only : ∀ ns, ns ≠ [] → w'.look (T ++ ns) ≠ none → ∃ f ∈ fs, ∃ ms, Named f ms ∧ ns <+: ms

/-- What goes into the archive for an entry: its path as text (for a directory with a slash at the end) and the content. -/
def archived (w : World) : Storage.Entry → ZipEntry
  | .dir p => { name := Pack.dirName (ZipName.ofPath p), content := [] }
  | .file p h => { name := ZipName.ofPath p, content := w.rest h }

/-- A place to unpack to: no file is in the way, there is nothing below it (it need not exist itself), and the way to it does not lead through places below it (a path like `a/b/..` does). -/
structure FreshTarget (w : World) (out : PathBuf) : Prop where
  start : w.look out.start = some .dir
  way : ∀ q i, OnTheWay out q → w.look q ≠ some (.file i)
  below : ∀ ns, ns ≠ [] → w.look (onPaper out ++ ns) = none
  inward : ∀ q, OnTheWay out q → ∀ ns, ns ≠ [] → q ≠ onPaper out ++ ns

/-- The callback accepts every path made of names below `out`, at least as long as there is nothing there. -/
def AcceptsNew {ε : Type} (out : PathBuf) (f : PathBuf → Prog ε Bool) : Prop :=
  ∀ ns v, ns ≠ [] → (∀ ms, ms ≠ [] → v.look (onPaper out ++ ms) = none) → (f (out.push (ns.map .name)) v).1 = .ok true

/-- A file can be created at the path. -/
def CanCreate (w : World) (p : PathBuf) : Prop := ∃ q, w.resolve p = .ok q ∧ w.look q = none ∧ w.look q.dropLast = some .dir

end Volaris.Spec
