import Verif.Fs
/-!
# crates/volaris-tools/src/storage.rs: `FileStorage`

The `InMemoryStorage` of the unit tests is not modelled.
-/
namespace Volaris.Storage

/-- storage.rs:17-20 `FileMode`. -/
inductive FileMode where
  | read
  | write
deriving DecidableEq, Repr

/-- storage.rs:23-33 `Error`. -/
inductive Error where
  | createDir
  | createFile
  | openFile (m : FileMode)
  | removeFile
  | removeDir
  | dirEntries
  | flushFile
  | fileAccess
  | fileLen
deriving DecidableEq, Repr

/-- storage.rs:411-425 `FileData` and `Entry`; the stream of a file is a handle of the world. -/
inductive Entry where
  | file (path : PathBuf) (h : Nat)
  | dir (path : PathBuf)
deriving DecidableEq, Repr

/-- storage.rs:431-435 `Entry::path`. -/
def Entry.path : Entry → PathBuf
  | .file p _ => p
  | .dir p => p

/-- storage.rs:437-439 `Entry::is_dir`. -/
def Entry.isDir : Entry → Bool
  | .file .. => false
  | .dir _ => true

/-- storage.rs:441-453 `Entry::try_reader` and `Entry::try_writer`. -/
def Entry.stream : Entry → Res Error Nat
  | .file _ h => .ok h
  | .dir _ => .err .fileAccess

/-- storage.rs:85-97 `create_file`. -/
def createFile (p : PathBuf) : Prog Error Entry := do
  let h ← (openNew p).mapErr fun _ => .createFile
  pure (.file p h)

/-- storage.rs:99-110 `read_file`. -/
def readFile (p : PathBuf) : Prog Error Entry := do
  if ← Volaris.isDir p then pure (.dir p)
  else
    let h ← (Volaris.openFile p).mapErr fun _ => .openFile .read
    pure (.file p h)

/-- storage.rs:112-125 `write_file`: opens an existing file and truncates it. -/
def writeFile (p : PathBuf) : Prog Error Entry := do
  let h ← (openTrunc p).mapErr fun _ => .openFile .write
  pure (.file p h)

/-- storage.rs:127-132 `flush_file`. -/
def flushFile (e : Entry) : Prog Error Unit := do
  let h ← Prog.lift e.stream
  (flush h).mapErr fun _ => .flushFile

/-- storage.rs:134-141 `file_len`. -/
def fileLen (e : Entry) : Prog Error Nat := do
  let h ← Prog.lift e.stream
  (Volaris.fileLen h).mapErr fun _ => .fileLen

/-- storage.rs:144-148: empty the file behind the entry. -/
def emptyFile : Entry → Prog Error Unit
  | .file _ h => do
      (setLen0 h).mapErr fun _ => .removeFile
      (flush h).mapErr fun _ => .flushFile
  | .dir _ => pure ()

/-- storage.rs:143-151 `remove_file`. -/
def removeFile (e : Entry) : Prog Error Unit := do
  emptyFile e
  (unlink e.path).mapErr fun _ => .removeFile

/-- Effect of `unlink` on a file and of `rmdir` on a directory, which must be empty. -/
def dropEntry (q : Path) : Prog IoErr Unit := fun w =>
  match w.look q with
  | some (.file _) => (.ok (), w.removed q)
  | some .dir => if w.dir.any (fun e => q.isPrefixOf e.1 && e.1 ≠ q) then (.err .other, w) else (.ok (), w.removed q)
  | none => (.err .notFound, w)

/-- A path put before those that are not deeper. -/
def insertDeep (q : Path) : List Path → List Path
  | [] => [q]
  | p :: ps => if p.length ≤ q.length then q :: p :: ps else p :: insertDeep q ps

/-- The paths, the deepest first. -/
def deepFirst (qs : List Path) : List Path := qs.foldr (fun q ps => if q ∈ ps then ps else insertDeep q ps) []

/-- Part of `std::fs::remove_dir_all`: remove entries one after the other; any of the calls can fail. -/
def removeEntries : List Path → Prog IoErr Unit
  | [] => pure ()
  | q :: qs => do
      sys
      dropEntry q
      removeEntries qs

/-- `std::fs::remove_dir_all`.  Simplification: the tree is listed first, and what is deepest is removed first (the real order is some order in which a directory comes after everything in it). -/
def rmTree (p : PathBuf) : Prog IoErr Unit := fun w =>
  match w.resolve p with
  | .ok q =>
      if w.look q = some .dir then removeEntries (deepFirst ((w.dir.map (·.1)).filter (q.isPrefixOf ·))) w
      else (.err .other, w)
  | .error e => (.err e, w)

/-- storage.rs:153-159 `remove_dir_all`. -/
def removeDirAll (e : Entry) : Prog Error Unit :=
  if !e.isDir then Prog.throw .removeDir
  else (rmTree e.path).mapErr fun _ => .removeDir

/-- The paths that `walkdir::WalkDir` yields for a directory: itself and everything below.  The order is that of `World.dir`. -/
def World.below (w : World) (p : PathBuf) : List PathBuf :=
  match w.resolve p with
  | .ok q => p :: ((w.dir.map (·.1)).filter (fun k => q.isPrefixOf k && k ≠ q)).map
      fun k => p.push ((k.drop q.length).map .name)
  | .error _ => []

/-- storage.rs:166-173: visit the entries; the iterator or opening a file can fail. -/
def readEntries : List PathBuf → Prog Error (List Entry)
  | [] => pure []
  | p :: ps => do
      sys.mapErr fun _ => .dirEntries
      let e ← readFile p
      let es ← readEntries ps
      pure (e :: es)

/-- Visit what is below a directory. -/
def walkDir (p : PathBuf) : Prog Error (List Entry) := fun w => readEntries (World.below w p) w

/-- storage.rs:161-174 `read_dir`. -/
def readDir (e : Entry) : Prog Error (List Entry) :=
  if !e.isDir then Prog.throw .fileAccess
  else walkDir e.path

/-- `rand::distributions::Alphanumeric`.  Simplification: one byte of the random tape per character. -/
def alphanumeric (b : UInt8) : Char :=
  let n := b.toNat % 62
  if n < 26 then Char.ofNat ('A'.toNat + n) else if n < 52 then Char.ofNat ('a'.toNat + (n - 26)) else Char.ofNat ('0'.toNat + (n - 52))

/-- storage.rs:58-64 `create_temp_file`; `tmp` is `std::env::temp_dir()`. -/
def createTempFile (tmp : PathBuf) : Prog Error Entry := do
  let bs ← genBytes 16
  createFile (tmp.push [.name (bs.map alphanumeric)])

/-- `std::fs::create_dir_all` on the components in reverse order: try to make the directory; if something on the way is missing make that first; tolerate that somebody else was
faster. -/
def createDirAllRev (p : PathBuf) : List Comp → Thr IoErr Unit
  | [] => pure ()
  | c :: cs => do
      let path := { p with comps := (c :: cs).reverse }
      let r ← Thr.atom (Prog.attempt (mkdir path))
      match r with
      | .ok () => pure ()
      | .err .notFound => do
          createDirAllRev p cs
          let r ← Thr.atom (Prog.attempt (mkdir path))
          match r with
          | .ok () => pure ()
          | .err e => do
              if ← Thr.atom (Volaris.isDir path) then pure () else .done (.err e)
          | .abort a => .done (.abort a)
      | .err e => do
          if ← Thr.atom (Volaris.isDir path) then pure () else .done (.err e)
      | .abort a => .done (.abort a)

/-- storage.rs:81-83 `create_dir_all`. -/
def createDirAll (p : PathBuf) : Thr Error Unit :=
  (createDirAllRev p p.comps.reverse).mapErr fun _ => .createDir

end Volaris.Storage
