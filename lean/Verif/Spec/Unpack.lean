import Verif.Spec.Storage
import Verif.Spec.Frame
import Verif.Spec.Files
import Verif.Model.Tools.Unpack
/-!
# Vocabulary for unpacking
-/
namespace Volaris.Spec

/-- A callback that at most talks to the user: it leaves files, directories and handles alone. -/
structure OnlyTalks {ε : Type} (f : PathBuf → Prog ε Bool) : Prop where
  file : ∀ p w, (f p w).2.file = w.file
  dir : ∀ p w, (f p w).2.dir = w.dir
  fd : ∀ p w, (f p w).2.fd = w.fd
  nextIno : ∀ p w, (f p w).2.nextIno = w.nextIno
  nextFd : ∀ p w, (f p w).2.nextFd = w.nextFd
  sched : ∀ p w, (f p w).2.sched <:+ w.sched

/-- `Asked f w l w'`: between `w` and `w'` the callback `f` was called for the paths of `l`, in this order, with the answers in `l`; nobody else took any of the user's input or printed anything,
and nothing that was there had gone. -/
inductive Asked {ε : Type} (f : PathBuf → Prog ε Bool) : World → List (PathBuf × Bool) → World → Prop
  | nil {w w' : World} (h1 : w'.stdin = w.stdin) (h2 : w'.tty = w.tty) (h3 : w'.out = w.out) : Asked f w [] w'
  | ask {w w1 w2 w' : World} {p : PathBuf} {b : Bool} {l : List (PathBuf × Bool)} (h1 : w1.stdin = w.stdin) (h2 : w1.tty = w.tty) (h3 : w1.out = w.out)
      (hk : ∀ q n, w.look q = some n → w1.look q = some n) (hf : f p w1 = (.ok b, w2)) (hl : Asked f w2 l w') : Asked f w ((p, b) :: l) w'

/-- The paths to which the members of an archive are to be extracted: those of the members that can be opened and whose name is enclosed. -/
def memberPaths (out : PathBuf) (ms : List ZipMember) : List PathBuf :=
  ms.filterMap fun m => if m.opens then (ZipName.enclosed m.name).map out.push else none

/-- Where a path leads on paper. -/
def onPaper (p : PathBuf) : Path := lexical p.start p.comps

/-- Where directories may come into being: on the way to the output directory and to the accepted paths. -/
def DirsOf (out : PathBuf) (conv : List (PathBuf × Bool)) (q : Path) : Prop := OnTheWay out q ∨ ∃ p, (p, true) ∈ conv ∧ OnTheWay p q

/-- Where files may be written: at the accepted paths. -/
def FilesOf (conv : List (PathBuf × Bool)) (q : Path) : Prop := ∃ p, (p, true) ∈ conv ∧ q = onPaper p

/-- Where the members of an archive call for directories: on the way to the output directory and to the members that are directories. -/
def DirMember (out : PathBuf) (ms : List ZipMember) (q : Path) : Prop :=
  OnTheWay out q ∨ ∃ m ∈ ms, m.opens = true ∧ ZipName.isDir m.name = true ∧ ∃ cs, ZipName.enclosed m.name = some cs ∧ OnTheWay (out.push cs) q

/-- Where the members of an archive call for files: at the members that are no directories. -/
def FileMember (out : PathBuf) (ms : List ZipMember) (q : Path) : Prop :=
  ∃ m ∈ ms, m.opens = true ∧ ZipName.isDir m.name = false ∧ ∃ cs, ZipName.enclosed m.name = some cs ∧ q = onPaper (out.push cs)

/-- `Extracts D F w w'`: the only changes to the file system are that directories have come into being at paths in `D` where nothing was, that new files have come into being at
paths in `F` where nothing was, and that files which had a name in `F` have other content. -/
structure Extracts (D F : Path → Prop) (w w' : World) : Prop where
  look : ∀ q, w'.look q = w.look q ∨ (w.look q = none ∧ w'.look q = some .dir ∧ D q) ∨
    (w.look q = none ∧ F q ∧ ∃ j, w.nextIno ≤ j ∧ w'.look q = some (.file j))
  files : ∀ j, j < w.nextIno → (∀ q, F q → w.look q ≠ some (.file j)) → w'.file j = w.file j
  nextIno : w.nextIno ≤ w'.nextIno
  nextFd : w.nextFd ≤ w'.nextFd
  inos : ∀ h, h < w.nextFd → (w'.fd h).ino = (w.fd h).ino

/-- The path of the temporary file that a call starting in `w` makes: sixteen random alphanumeric characters in the directory for temporary files. -/
def tempPath (tmp : PathBuf) (w : World) : PathBuf := tmp.push [.name ((tape w 0 16).map Storage.alphanumeric)]

/-- The handle is open, on a file that exists. -/
def OpenHandle (w : World) (h : Nat) : Prop := h < w.nextFd ∧ (w.fd h).ino < w.nextIno

end Volaris.Spec
