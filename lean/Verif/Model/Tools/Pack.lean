import Verif.Model.Zip
import Verif.Model.Tools.Storage
import Verif.Model.Tools.Overwrite
import Verif.Model.Tools.Encrypt
/-!
# crates/volaris-tools/src/pack.rs
-/
namespace Volaris.Pack

/-- pack.rs:19-27 `Error`. -/
inductive Error where
  | createArchive
  | addDirToArchive
  | addFileToArchive
  | finishArchive
  | readData
  | writeData
  | encrypt (e : Encrypt.Error)
deriving DecidableEq, Repr

/-- pack.rs:45-57 `Request`; the compression method is part of the `Zip` parameter. -/
structure Request where
  writer : Nat
  compressFiles : List Storage.Entry
  headerWriter : Option Nat
  rawKey : Bytes
  headerType : HeaderType
  hashingAlgorithm : HashingAlgorithm

/-- pack.rs:90-100: read a file into the archive; `got` is what the archive has of it so far.  On failure that is reported
with the error.  Simplification: each `write_all` into the archive (a buffered writer) makes one system call that may fail.  Fuel: a file has finitely many full blocks; running
out is proved impossible. -/
def readFile (h : Nat) : Nat → Bytes → Prog (Error × Bytes) Bytes
  | fuel, got => do
      let buf ← (read h BLOCK_SIZE).mapErr fun _ => (.readData, got)
      sysRetry.mapErr fun _ => (.writeData, got)
      if buf.length ≠ BLOCK_SIZE then pure (got ++ buf)
      else
        match fuel with
        | 0 => Prog.lift (.abort .outOfFuel)
        | fuel + 1 => readFile h fuel (got ++ buf)

/-- pack.rs:90-100: the loop with enough fuel for the file. -/
def readAll (h : Nat) : Prog (Error × Bytes) Bytes := fun w => readFile h (w.data h).length [] w

/-- The zip crate's `start_file` and `add_directory`: names that are there already or cannot be stored are refused; the call may write. -/
def startEntry (z : Zip) (done : List ZipEntry) (name : List Char) : Prog Unit Unit :=
  if (done.map (·.name)).contains name || !z.storable name then Prog.throw ()
  else sysRetry.mapErr fun _ => ()

/-- The name under which `add_directory` stores a directory. -/
def dirName (name : List Char) : List Char := if name.getLast? = some '/' then name else name ++ ['/']

/-- pack.rs:80-103: add one entry to the archive; `done` is what the archive has.  On failure that is reported with the error. -/
def addEntry (z : Zip) (done : List ZipEntry) (f : Storage.Entry) : Prog (Error × List ZipEntry) (List ZipEntry) :=
  match f with
  | .dir path => do
      let name := dirName (ZipName.ofPath path)
      (startEntry z done name).mapErr fun _ => (.addDirToArchive, done)
      pure (done ++ [{ name := name, content := [] }])
  | .file path h => do
      let name := ZipName.ofPath path
      (startEntry z done name).mapErr fun _ => (.addFileToArchive, done)
      let content ← (readAll h).mapErr fun (e, got) => (e, done ++ [{ name := name, content := got }])
      pure (done ++ [{ name := name, content := content }])

/-- pack.rs:79-104: add all entries. -/
def addAll (z : Zip) : List Storage.Entry → List ZipEntry → Prog (Error × List ZipEntry) (List ZipEntry)
  | [], done => pure done
  | f :: fs, done => do
      let done ← addEntry z done f
      addAll z fs done

/-- pack.rs:79-107: write the archive to the temporary file.  Simplification: the bytes reach the file when the archive is finished; when adding an entry fails,
dropping the `ZipWriter` finishes the archive with what is in it, ignoring errors. -/
def writeArchive (z : Zip) (t : Nat) (files : List Storage.Entry) : Prog Error Unit := do
  let r ← Prog.attempt (addAll z files [])
  match r with
  | .ok l => (writeAll t (z.encode l)).mapErr fun _ => .finishArchive
  | .err (e, l) => do
      let _ ← Prog.attempt (writeAll t (z.encode l))
      Prog.throw e
  | .abort a => Prog.lift (.abort a)

/-- pack.rs:59-134 `execute`; `tmp` is the directory for temporary files. -/
def execute (C : Crypto) (z : Zip) (tmp : PathBuf) (req : Request) : Prog Error Unit := do
  let tmpFile ← (Storage.createTempFile tmp).mapErr fun _ => .createArchive
  let t ← Prog.lift (tmpFile.stream.mapErr fun _ => .createArchive)
  writeArchive z t req.compressFiles
  let bufCapacity ← (Storage.fileLen tmpFile).mapErr fun _ => .finishArchive
  let encryptRes ← Prog.attempt ((Encrypt.execute C
    { reader := t, writer := req.writer, headerWriter := req.headerWriter, rawKey := req.rawKey,
      headerType := req.headerType, hashingAlgorithm := req.hashingAlgorithm }).mapErr Error.encrypt)
  let _ ← Prog.attempt (Overwrite.execute t bufCapacity 2)
  let _ ← Prog.attempt (Storage.removeFile tmpFile)
  Prog.lift encryptRes

end Volaris.Pack
