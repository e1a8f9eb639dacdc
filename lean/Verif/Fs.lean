import Verif.Base
/-!
# Paths and the file system

What `std::path` and `std::fs` provide to the modelled code (no function of /repo).  There are no symbolic links and no permissions.
Every system call takes one element of the schedule; `fail` makes it fail without effect.  Calls that the standard library repeats
when they are interrupted (`open`, `ftruncate`) treat `intr` as a normal call; the others fail.
-/
namespace Volaris

/-- `std::path::Component`, without the root and without `.`, which resolve to nothing. -/
inductive Comp where
  | up
  | name (n : Name)
deriving DecidableEq, Repr

/-- `std::path::PathBuf`, as its components.  `cwd` is the working directory, which the program never changes: a relative path starts there. -/
structure PathBuf where
  abs : Bool
  cwd : Path
  comps : List Comp
deriving DecidableEq, Repr

namespace PathBuf

/-- The directory from which the components are followed. -/
def start (p : PathBuf) : Path := if p.abs then [] else p.cwd

/-- `PathBuf::push` with a relative path. -/
def push (p : PathBuf) (cs : List Comp) : PathBuf := { p with comps := p.comps ++ cs }

end PathBuf

/-- Following components on paper, without looking at the file system. -/
def lexical (cur : Path) : List Comp → Path
  | [] => cur
  | .up :: cs => lexical cur.dropLast cs
  | .name n :: cs => lexical (cur ++ [n]) cs

namespace World

/-- What is at a resolved path. -/
def look (w : World) (p : Path) : Option Node :=
  if p = [] then some .dir else (w.dir.find? (·.1 = p)).map (·.2)

/-- Following components in the file system: everything passed through must be a directory. -/
def walk (w : World) : Path → List Comp → Except IoErr Path
  | cur, [] => .ok cur
  | cur, c :: cs =>
      match w.look cur with
      | some .dir =>
          match c with
          | .up => w.walk cur.dropLast cs
          | .name n => w.walk (cur ++ [n]) cs
      | some (.file _) => .error .other
      | none => .error .notFound

/-- Where a path leads; the last component need not exist. -/
def resolve (w : World) (p : PathBuf) : Except IoErr Path := w.walk p.start p.comps

/-- A new handle for inode `i`. -/
def opened (w : World) (i : Nat) : World :=
  { w with
    fd := fun h => if h = w.nextFd then { ino := i, pos := 0 } else w.fd h
    nextFd := w.nextFd + 1 }

/-- Cut inode `i` to length 0. -/
def truncated (w : World) (i : Nat) : World :=
  { w with file := fun j => if j = i then [] else w.file j, log := .truncate i :: w.log }

/-- A new empty file at `q`. -/
def created (w : World) (q : Path) : World :=
  { w with
    file := fun j => if j = w.nextIno then [] else w.file j
    nextIno := w.nextIno + 1
    dir := (q, .file w.nextIno) :: w.dir
    log := .create q :: w.log }

/-- A new directory at `q`. -/
def madeDir (w : World) (q : Path) : World :=
  { w with dir := (q, .dir) :: w.dir, log := .mkdir q :: w.log }

/-- The entry at `q` removed. -/
def removed (w : World) (q : Path) : World :=
  { w with dir := w.dir.filter (·.1 ≠ q), log := .unlink q :: w.log }

end World

/-- A system call that is repeated when interrupted. -/
def sysRetry : Prog IoErr Unit := fun w =>
  match w.pop with
  | (.fail, w) => (.err .other, w)
  | (_, w) => (.ok (), w)

/-- Any other system call. -/
def sys : Prog IoErr Unit := fun w =>
  match w.pop with
  | (.fail, w) => (.err .other, w)
  | (.intr, w) => (.err .interrupted, w)
  | (_, w) => (.ok (), w)

/-- `open` of an existing file. -/
def openAt (p : PathBuf) : Prog IoErr Nat := fun w =>
  match w.resolve p with
  | .ok q =>
      match w.look q with
      | some (.file i) => (.ok w.nextFd, w.opened i)
      | some .dir => (.err .other, w)
      | none => (.err .notFound, w)
  | .error e => (.err e, w)

/-- `File::open`, and `OpenOptions::new().read(true).write(true).open`. -/
def openFile (p : PathBuf) : Prog IoErr Nat := do
  sysRetry
  openAt p

/-- `open` with `O_TRUNC`. -/
def openTruncAt (p : PathBuf) : Prog IoErr Nat := fun w =>
  match w.resolve p with
  | .ok q =>
      match w.look q with
      | some (.file i) => (.ok w.nextFd, (w.opened i).truncated i)
      | some .dir => (.err .other, w)
      | none => (.err .notFound, w)
  | .error e => (.err e, w)

/-- `File::options().write(true).read(true).truncate(true).open`. -/
def openTrunc (p : PathBuf) : Prog IoErr Nat := do
  sysRetry
  openTruncAt p

/-- `open` with `O_CREAT | O_EXCL`. -/
def openNewAt (p : PathBuf) : Prog IoErr Nat := fun w =>
  match w.resolve p with
  | .ok q =>
      match w.look q with
      | some _ => (.err .alreadyExists, w)
      | none => if w.look q.dropLast = some .dir then (.ok w.nextFd, (w.created q).opened w.nextIno) else (.err .notFound, w)
  | .error e => (.err e, w)

/-- `File::options().create_new(true).read(true).write(true).open`. -/
def openNew (p : PathBuf) : Prog IoErr Nat := do
  sysRetry
  openNewAt p

/-- The effect of `set_len(0)`. -/
def truncAt (h : Nat) : Prog IoErr Unit := fun w => (.ok (), w.truncated (w.fd h).ino)

/-- `File::set_len(0)`. -/
def setLen0 (h : Nat) : Prog IoErr Unit := do
  sysRetry
  truncAt h

/-- The length of the file behind a handle. -/
def lenAt (h : Nat) : Prog IoErr Nat := fun w => (.ok (w.data h).length, w)

/-- `File::metadata().len()`. -/
def fileLen (h : Nat) : Prog IoErr Nat := do
  sys
  lenAt h

/-- The effect of `unlink`. -/
def unlinkAt (p : PathBuf) : Prog IoErr Unit := fun w =>
  match w.resolve p with
  | .ok q =>
      match w.look q with
      | some (.file _) => (.ok (), w.removed q)
      | some .dir => (.err .other, w)
      | none => (.err .notFound, w)
  | .error e => (.err e, w)

/-- `std::fs::remove_file`. -/
def unlink (p : PathBuf) : Prog IoErr Unit := do
  sys
  unlinkAt p

/-- The effect of `mkdir`. -/
def mkdirAt (p : PathBuf) : Prog IoErr Unit := fun w =>
  match w.resolve p with
  | .ok q =>
      match w.look q with
      | some _ => (.err .alreadyExists, w)
      | none => if w.look q.dropLast = some .dir then (.ok (), w.madeDir q) else (.err .notFound, w)
  | .error e => (.err e, w)

/-- `mkdir`. -/
def mkdir (p : PathBuf) : Prog IoErr Unit := do
  sys
  mkdirAt p

/-- Whether a path leads to a directory.  Simplification: the query itself does not fail. -/
def World.isDirAt (w : World) (p : PathBuf) : Bool :=
  match w.resolve p with
  | .ok q => w.look q = some .dir
  | .error _ => false

/-- `Path::is_dir`. -/
def isDir {ε : Type} (p : PathBuf) : Prog ε Bool := fun w => (.ok (w.isDirAt p), w)

/-- Whether a path leads to anything: `std::fs::metadata(p).is_ok()`.  Simplification: the query itself does not fail. -/
def existsAt {ε : Type} (p : PathBuf) : Prog ε Bool := fun w =>
  (.ok (match w.resolve p with | .ok q => (w.look q).isSome | .error _ => false), w)

/-! ## Threads -/

/-- A thread: a sequence of atomic steps on the shared world.  In each step the world changes by `eff`, and how the thread goes on (`k`) depends on the world before the
step. -/
inductive Thr (ε α : Type) where
  | done (r : Res ε α)
  | step (eff : World → World) (k : World → Thr ε α)

namespace Thr
variable {ε ε' α β : Type}

/-- One atomic step. -/
def atom (x : Prog ε α) : Thr ε α := .step (fun w => (x w).2) (fun w => .done (x w).1)

/-- Sequencing with `?`. -/
def bind : Thr ε α → (α → Thr ε β) → Thr ε β
  | .done (.ok a), f => f a
  | .done (.err e), _ => .done (.err e)
  | .done (.abort a), _ => .done (.abort a)
  | .step eff k, f => .step eff fun w => (k w).bind f

instance : Monad (Thr ε) where
  pure a := .done (.ok a)
  bind := bind

def mapErr (f : ε → ε') : Thr ε α → Thr ε' α
  | .done r => .done (r.mapErr f)
  | .step eff k => .step eff fun w => (k w).mapErr f

/-- The thread on its own. -/
def run : Thr ε α → Prog ε α
  | .done r => Prog.lift r
  | .step eff k => fun w => (k w).run (eff w)

end Thr

/-- The operating system runs threads step by step; the list says which thread makes the next step (indices of finished or non-existing threads are skipped). -/
def interleave {ε α : Type} : List Nat → List (Thr ε α) → World → List (Thr ε α) × World
  | [], ts, w => (ts, w)
  | i :: is, ts, w =>
      match ts[i]? with
      | some (.step eff k) => interleave is (ts.set i (k w)) (eff w)
      | _ => interleave is ts w

/-- All threads run to their ends. -/
def finish {ε α : Type} : List (Thr ε α) → World → List (Res ε α) × World
  | [], w => ([], w)
  | t :: ts, w => let (r, w) := t.run w; let (rs, w) := finish ts w; (r :: rs, w)

/-- `handlers.into_iter().try_for_each(|h| h.join().unwrap())` as far as the results are there: the first thread that did not return `Ok` decides; `none` while an earlier
thread is still running.  A panicked thread makes `unwrap` panic. -/
def joined {ε : Type} : List (Thr ε Unit) → Option (Res ε Unit)
  | [] => some (.ok ())
  | .done (.ok ()) :: ts => joined ts
  | .done (.err e) :: _ => some (.err e)
  | .done (.abort a) :: _ => some (.abort a)
  | .step .. :: _ => none

/-- Spawn threads and join them in order.  `order` is what the operating system does up to the moment the joining thread looks; if it cannot return then, all threads go on to their
ends.  If it can (an error in a thread all of whose predecessors have finished) it returns while the other threads are wherever they are. -/
def spawnJoin {ε : Type} (order : List Nat) (ts : List (Thr ε Unit)) : Prog ε Unit := fun w =>
  let (ts, w) := interleave order ts w
  match joined ts with
  | some r => (r, w)
  | none =>
      let (rs, w) := finish ts w
      ((joined (rs.map .done)).getD (.ok ()), w)

end Volaris
