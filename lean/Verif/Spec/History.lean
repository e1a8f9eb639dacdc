import Verif.Spec.Crash
import Verif.Spec.PackCmd
import Verif.Model.Cli.Argv
/-!
# Vocabulary for a history of command lines
-/
namespace Volaris.Spec

/-- What is at a path on the disk. -/
def lookDisk (d : Disk) (p : Path) : Option Node := if p = [] then some .dir else (d.dir.find? (·.1 = p)).map (·.2)

/-- The entries of the disk form a tree, and the numbers of its files are in use. -/
structure GoodDisk (d : Disk) : Prop where
  distinct : (d.dir.map (·.1)).Nodup
  parents : ∀ k n, (k, n) ∈ d.dir → k ≠ [] ∧ lookDisk d k.dropLast = some .dir
  allocated : ∀ q i, lookDisk d q = some (.file i) → i < d.nextIno

/-- One invocation of the tool: the machine it runs on (with the working directory, the directory for temporary files and the order in which threads run), the kind of build and the words after the program name. -/
structure Invocation (σ : Type) where
  sys : Cli.Sys σ
  debug : Bool
  argv : List (List Char)

variable {σ : Type}

/-- A text that the line contains as a word after the command, or as the value in a word `--header=…`. -/
inductive Mentions (argv : List (List Char)) : List Char → Prop
  | word {v : List Char} (h : v ∈ argv.tail) : Mentions argv v
  | header {v : List Char} (h : '-' :: '-' :: 'h' :: 'e' :: 'a' :: 'd' :: 'e' :: 'r' :: '=' :: v ∈ argv.tail) : Mentions argv v

/-- The place is one that the line mentions, or below one. -/
def Concerns (l : Invocation σ) (q : Path) : Prop := ∃ v, Mentions l.argv v ∧ onPaper (Cli.toPath l.sys.cwd v) <+: q

/-- What one invocation makes of the disk: the parser refuses the line; or the command ends, in whatever way, after a run with any answers, keys, random numbers and faults; or it is killed at some moment of such a run. -/
inductive Invoked (l : Invocation σ) : Disk → Disk → Prop
  | refused (d : Disk) (h : Cli.main l.sys l.debug l.argv = none) : Invoked l d d
  | ended (w : World) {run : Prog Cli.Error (List String)} (h : Cli.main l.sys l.debug l.argv = some run) : Invoked l w.disk (run w).2.disk
  | killed (w v : World) {run : Prog Cli.Error (List String)} (h : Cli.main l.sys l.debug l.argv = some run) (hv : StoppedAt run w v) : Invoked l w.disk v.disk

/-- One invocation after the other. -/
inductive History : List (Invocation σ) → Disk → Disk → Prop
  | nil (d : Disk) : History [] d d
  | cons {l : Invocation σ} {ls : List (Invocation σ)} {d d' d'' : Disk} (h : Invoked l d d') (hs : History ls d' d'') : History (l :: ls) d d''

end Volaris.Spec
