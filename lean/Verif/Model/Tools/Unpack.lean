import Verif.Model.Zip
import Verif.Model.Tools.Storage
import Verif.Model.Tools.Overwrite
import Verif.Model.Tools.Decrypt
/-!
# crates/volaris-tools/src/unpack.rs
-/
namespace Volaris.Unpack

/-- unpack.rs:15-22 `Error`. -/
inductive Error where
  | writeData
  | openArchive
  | openArchivedFile
  | resetCursorPosition
  | storage (e : Storage.Error)
  | decrypt (e : Decrypt.Error)
deriving DecidableEq, Repr

/-- unpack.rs:42-53 `Request`.  The `on_zip_file` callback may act on the world (the command line tool asks the user); the callbacks that only observe are
left out. -/
structure Request where
  reader : Nat
  headerReader : Option Nat
  rawKey : Bytes
  outputDir : PathBuf
  onZipFile : Option (PathBuf → Prog Error Bool)

/-- `ZipArchive::new` and `archive.len()`, without the system calls. -/
def lenAt (z : Zip) (t : Nat) : Prog Error Nat := fun w =>
  match z.decode (w.data t) with
  | some l => (.ok l.length, w)
  | none => (.err .openArchive, w)

/-- unpack.rs:85, 90: `ZipArchive::new` and `archive.len()`.  Simplification: the reads are one system call. -/
def openArchive (z : Zip) (t : Nat) : Prog Error Nat := do
  sysRetry.mapErr fun _ => .openArchive
  lenAt z t

/-- `archive.by_index(i)`, without the system calls. -/
def memberAt (z : Zip) (t i : Nat) : Prog IoErr ZipMember := fun w =>
  match (z.decode (w.data t)).bind (·[i]?) with
  | some m => if m.opens then (.ok m, w) else (.err .other, w)
  | none => (.err .other, w)

/-- `archive.by_index(i)`: read from the temporary file as it is now.  Simplification: the reads are one system call. -/
def byIndex (z : Zip) (t i : Nat) : Prog IoErr ZipMember := do
  sysRetry
  memberAt z t i

/-- unpack.rs:104-110: ask the callback. -/
def ask (cb : Option (PathBuf → Prog Error Bool)) (p : PathBuf) : Prog Error Bool :=
  match cb with
  | some f => f p
  | none => pure true

/-- One archive member that is to be extracted: path, index, whether it is a directory. -/
abbrev Entity := PathBuf × Nat × Bool

/-- unpack.rs:90-111: choose what to extract among the members with the given indices.  Members that cannot be opened and those whose name is not enclosed are left out. -/
def entities (z : Zip) (t : Nat) (out : PathBuf) (cb : Option (PathBuf → Prog Error Bool)) : List Nat → Prog Error (List Entity)
  | [] => pure []
  | i :: is => do
      let r ← Prog.attempt (byIndex z t i)
      match r with
      | .ok m =>
          match ZipName.enclosed m.name with
          | some cs => do
              let keep ← ask cb (out.push cs)
              let rest ← entities z t out cb is
              pure (if keep then (out.push cs, i, ZipName.isDir m.name) :: rest else rest)
          | none => entities z t out cb is
      | .err _ => entities z t out cb is
      | .abort a => Prog.lift (.abort a)

/-- unpack.rs:120-130: one thread per directory, and one for the output directory. -/
def dirThreads (out : PathBuf) (es : List Entity) : List (Thr Error Unit) :=
  ((es.filter (·.2.2)).map (·.1) ++ [out]).map fun p => (Storage.createDirAll p).mapErr .storage

/-- `Result::or_else(|_| y)`. -/
def orElse {ε α : Type} (x y : Prog ε α) : Prog ε α := fun w =>
  match x w with
  | (.err _, w) => y w
  | r => r

/-- unpack.rs:146-150: `std::io::copy` from a member.  Simplification: opening the stream of the member is one system call, then all its bytes are written. -/
def copy (m : ZipMember) (h : Nat) : Prog Error Unit := do
  sysRetry.mapErr fun _ => .writeData
  (writeAll h m.content).mapErr fun _ => .writeData
  if m.sound then pure () else Prog.throw .writeData

/-- unpack.rs:140-152: extract one file. -/
def extract (z : Zip) (t : Nat) (e : Entity) : Prog Error Unit := do
  let m ← (byIndex z t e.2.1).mapErr fun _ => .openArchivedFile
  let file ← (orElse (Storage.createFile e.1) (Storage.writeFile e.1)).mapErr .storage
  let h ← Prog.lift (file.stream.mapErr .storage)
  copy m h

/-- unpack.rs:137-152: extract the files. -/
def extractAll (z : Zip) (t : Nat) : List Entity → Prog Error Unit
  | [] => pure ()
  | e :: es => do
      extract z t e
      extractAll z t es

/-- unpack.rs:77-153: recover the files from the temporary archive behind handle `t`; `order` is the interleaving of the threads. -/
def recover (z : Zip) (order : List Nat) (t : Nat) (req : Request) : Prog Error Unit := do
  (rewind t).mapErr fun _ => .resetCursorPosition
  let n ← openArchive z t
  let es ← entities z t req.outputDir req.onZipFile (List.range n)
  spawnJoin order (dirThreads req.outputDir es)
  extractAll z t (es.filter (!·.2.2))

/-- `try_writer().expect(…)`. -/
def expectStream (e : Storage.Entry) : Res Error Nat :=
  match e.stream with
  | .ok h => .ok h
  | _ => .abort .panic

/-- unpack.rs:55-168 `execute`; `tmp` is the directory for temporary files. -/
def execute (C : Crypto) (z : Zip) (tmp : PathBuf) (order : List Nat) (req : Request) : Prog Error Unit := do
  let tmpFile ← (Storage.createTempFile tmp).mapErr .storage
  let t ← Prog.lift (expectStream tmpFile)
  (Decrypt.execute C { headerReader := req.headerReader, reader := req.reader, writer := t, rawKey := req.rawKey }).mapErr .decrypt
  let bufCapacity ← (Storage.fileLen tmpFile).mapErr .storage
  recover z order t req
  let _ ← Prog.attempt (Overwrite.execute t bufCapacity 1)
  let _ ← Prog.attempt (Storage.removeFile tmpFile)
  pure ()

end Volaris.Unpack
