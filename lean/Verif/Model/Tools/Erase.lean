import Verif.Model.Tools.Storage
import Verif.Model.Tools.Overwrite
/-!
# crates/volaris-tools/src/erase.rs and erase_dir.rs
-/
namespace Volaris.Erase

/-- erase.rs:12-16 `Error`. -/
inductive Error where
  | openFile
  | overwrite (e : Overwrite.Error)
  | removeFile
deriving DecidableEq, Repr

/-- overwrite.rs:47-53, as steps of a thread. -/
def writeBlocks (h : Nat) : List Nat → Thr Overwrite.Error Unit
  | [] => pure ()
  | _blockSize :: bs => do
      let blockBuf ← Thr.atom (genBytes 0)
      Thr.atom ((writeAll h blockBuf).mapErr fun _ => .overwriteWithRandomBytes)
      writeBlocks h bs

/-- overwrite.rs:41-56, as steps of a thread. -/
def passes (h cap : Nat) : Nat → Thr Overwrite.Error Unit
  | 0 => pure ()
  | n + 1 => do
      Thr.atom ((rewind h).mapErr fun _ => .resetCursorPosition)
      writeBlocks h (Overwrite.blocks cap)
      Thr.atom ((flush h).mapErr fun _ => .flushFile)
      passes h cap n

/-- overwrite.rs:39-63 `execute`, as steps of a thread.  Simplification: a `write_all` is one step. -/
def overwrite (h cap : Nat) (n : Int) : Thr Overwrite.Error Unit := do
  passes h cap n.toNat
  Thr.atom ((rewind h).mapErr fun _ => .resetCursorPosition)
  Thr.atom ((writeAll h (List.replicate cap 0)).mapErr fun _ => .overwriteWithZeros)
  Thr.atom ((flush h).mapErr fun _ => .flushFile)

/-- storage.rs:143-151 `remove_file`, as steps of a thread. -/
def removeFile (path : PathBuf) (h : Nat) : Thr Storage.Error Unit := do
  Thr.atom ((setLen0 h).mapErr fun _ => .removeFile)
  Thr.atom ((flush h).mapErr fun _ => .flushFile)
  Thr.atom ((unlink path).mapErr fun _ => .removeFile)

/-- erase.rs:35-55 `execute`, as steps of a thread. -/
def thread (path : PathBuf) (n : Int) : Thr Error Unit := do
  let h ← Thr.atom ((openTrunc path).mapErr fun _ => .openFile)
  let cap ← Thr.atom ((Volaris.fileLen h).mapErr fun _ => .openFile)
  (overwrite h cap n).mapErr .overwrite
  (removeFile path h).mapErr fun _ => .removeFile

/-- erase.rs:35-55 `execute`.  The stream of an entry that `write_file` returned is always there. -/
def execute (path : PathBuf) (n : Int) : Prog Error Unit := do
  let file ← (Storage.writeFile path).mapErr fun _ => .openFile
  let bufCapacity ← (Storage.fileLen file).mapErr fun _ => .openFile
  let h ← Prog.lift (match file.stream with | .ok h => .ok h | _ => .abort .panic)
  (Overwrite.execute h bufCapacity n).mapErr .overwrite
  (Storage.removeFile file).mapErr fun _ => .removeFile

end Volaris.Erase

namespace Volaris.EraseDir

/-- erase_dir.rs:11-16 `Error`. -/
inductive Error where
  | invalidFileType
  | eraseFile (e : Erase.Error)
  | readDirEntries
  | removeDir
deriving DecidableEq, Repr

/-- erase_dir.rs:52-70: one thread per file. -/
def threads (files : List Storage.Entry) (n : Int) : List (Thr Error Unit) :=
  (files.filter (!·.isDir)).map fun f => (Erase.thread f.path n).mapErr .eraseFile

/-- erase_dir.rs:39-75 `execute`; `order` is the interleaving of the threads. -/
def execute (order : List Nat) (entry : Storage.Entry) (n : Int) : Prog Error Unit := do
  if !entry.isDir then Prog.throw .invalidFileType
  else
    let files ← (Storage.readDir entry).mapErr fun _ => .readDirEntries
    spawnJoin order (threads files n)
    (Storage.removeDirAll entry).mapErr fun _ => .removeDir

end Volaris.EraseDir
