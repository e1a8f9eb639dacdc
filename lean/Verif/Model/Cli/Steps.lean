import Verif.Model.Cli.Commands
/-!
# The commands as sequences of steps

For several processes that run at the same time the commands are cut into the system calls they make: between any two of them another process can make some of its own.  What is one step here is one
`Thr.atom`.  `Proofs/Steps.lean` shows that running all the steps one after the other is the command itself, so these definitions add no behaviour of their own.

Simplifications: `read_exact`, `read_to_end` and `write_all`, which repeat a system call on one handle, are one step; so is everything that makes no use of the file system (questions, passwords, random bytes), where it
does not matter what other processes do in between; `walkdir` lists what is below a directory in one step; `remove_dir_all` is one step (the real one keeps directories open while it works); so are the reads of the zip crate
when it opens an archive or a member of it.
-/
namespace Volaris.Cli.Steps
variable {σ : Type}

/-- `Result::or_else(|_| y)`, as in `Unpack.orElse`. -/
def orElse {ε α : Type} (x : Prog ε α) (y : Thr ε α) : Thr ε α := do
  match ← Thr.atom (Prog.attempt x) with
  | .ok a => pure a
  | .err _ => y
  | .abort a => .done (.abort a)

/-- storage.rs:99-110 `read_file`. -/
def readFile (p : PathBuf) : Thr Storage.Error Storage.Entry := do
  if ← Thr.atom (Volaris.isDir p) then pure (.dir p)
  else
    let h ← Thr.atom ((Volaris.openFile p).mapErr fun _ => .openFile .read)
    pure (.file p h)

/-- storage.rs:127-132 `flush_file`. -/
def flushFile (e : Storage.Entry) : Thr Storage.Error Unit := do
  let h ← .done e.stream
  Thr.atom ((flush h).mapErr fun _ => .flushFile)

/-- `stor.create_file(p).or_else(|_| stor.write_file(p))`: encrypt.rs:37-39, 48, decrypt.rs:39-41. -/
def openOutput (p : PathBuf) : Thr Error Storage.Entry :=
  (orElse (Storage.createFile p) (Thr.atom (Storage.writeFile p))).mapErr .storage

/-- `stor.read_file(p)?`. -/
def readInput (p : PathBuf) : Thr Error Storage.Entry := (readFile p).mapErr .storage

/-- `entry.try_reader()?` and `entry.try_writer()?`. -/
def streamOf (e : Storage.Entry) : Thr Error Nat := .done (e.stream.mapErr .storage)

/-- prompt.rs:53-61 `overwrite_check`: look, and then ask. -/
def overwriteCheck (cwd : Path) (name : List Char) (force : ForceMode) : Thr Error Bool := do
  if ← Thr.atom (existsAt (toPath cwd name)) then Thr.atom (getAnswer (overwritePrompt name) true force) else pure true

/-- `if !overwrite_check(path, force)? { exit(0) }`. -/
def consent (cwd : Path) (name : List Char) (force : ForceMode) : Thr Error Unit := do
  if ← overwriteCheck cwd name force then pure () else .done (.abort (.exit 0))

/-- encrypt.rs:41-50: the file for the detached header. -/
def openHeader (s : Sys σ) (force : ForceMode) : Option (List Char) → Thr Error (Option Storage.Entry)
  | none => pure none
  | some path => do
      consent s.cwd path force
      let e ← openOutput (toPath s.cwd path)
      pure (some e)

/-- decrypt.rs:33-36: the detached header. -/
def readHeader (s : Sys σ) : Option (List Char) → Thr Error (Option Storage.Entry)
  | none => pure none
  | some path => do
      let e ← readInput (toPath s.cwd path)
      pure (some e)

/-- encrypt.rs:68-70. -/
def flushOpt : Option Storage.Entry → Thr Error Unit
  | none => pure ()
  | some e => (flushFile e).mapErr .storage

/-- global/states.rs:92-100: a key file. -/
def readKeyfile (p : PathBuf) : Thr Error Bytes := do
  let h ← Thr.atom ((Volaris.openFile p).mapErr fun _ => .openKeyfile)
  let secret ← Thr.atom ((readToEnd h).mapErr fun _ => .readData)
  if secret = [] then .done (.err .keyfileEmpty) else pure secret

/-- global/states.rs:83-114: get the secret from its source; only a key file is in the file system. -/
def fetch (words : List (List Char)) (cwd : Path) (state : PasswordState) : Key → Thr Error Bytes
  | .keyfile path => if path = ['-'] then Thr.atom (Cli.fetch words cwd state (.keyfile ['-'])) else readKeyfile (toPath cwd path)
  | .env => Thr.atom (Cli.fetch words cwd state .env)
  | .user => Thr.atom (Cli.fetch words cwd state .user)
  | .generate i => Thr.atom (Cli.fetch words cwd state (.generate i))

/-- global/states.rs:82-121 `Key::get_secret`. -/
def getSecret (words : List (List Char)) (cwd : Path) (key : Key) (state : PasswordState) : Thr Error Bytes := do
  let secret ← fetch words cwd state key
  if secret = [] then .done (.err .keyEmpty) else pure secret

/-- hash.rs:41-51: the read loop. -/
def hashLoop (H : HashCmd.Hasher σ) (h : Nat) : Nat → σ → Thr HashCmd.Error σ
  | fuel, st => do
      let buf ← Thr.atom ((read h BLOCK_SIZE).mapErr fun _ => .readData)
      let st := H.write st buf
      if buf.length ≠ BLOCK_SIZE then pure st
      else
        match fuel with
        | 0 => .done (.abort .outOfFuel)
        | fuel + 1 => hashLoop H h fuel st

/-- hash.rs:33-54 `execute`.  The length of the file before the first `read` bounds the rounds, as in `HashCmd.hashAll`. -/
def hashExecute (H : HashCmd.Hasher σ) (h : Nat) : Thr HashCmd.Error String := do
  Thr.atom ((rewind h).mapErr fun _ => .resetCursorPosition)
  let n ← Thr.atom (fun w => (.ok (w.data h).length, w))
  let st ← hashLoop H h n H.init
  pure (H.finish st)

/-- hashing.rs:10-26 `hash_stream`; returns the digests. -/
def hashStream (s : Sys σ) : List (List Char) → Thr Error (List String)
  | [] => pure []
  | input :: files => do
      let h ← Thr.atom ((Volaris.openFile (toPath s.cwd input)).mapErr fun _ => .openFile)
      let d ← (hashExecute s.H h).mapErr .hash
      Thr.atom (say ("[+] ".toList ++ input ++ ": ".toList ++ d.toList))
      let ds ← hashStream s files
      pure (d :: ds)

/-- encrypt.rs:73-75, decrypt.rs:55-57. -/
def hashIf (s : Sys σ) (mode : HashMode) (file : List Char) : Thr Error Unit :=
  match mode with
  | .calculateHash => do
      let _ ← hashStream s [file]
      pure ()
  | .noHash => pure ()

/-- storage.rs:166-173: visit the entries. -/
def readEntries : List PathBuf → Thr Storage.Error (List Storage.Entry)
  | [] => pure []
  | p :: ps => do
      Thr.atom (sys.mapErr fun _ => .dirEntries)
      let e ← readFile p
      let es ← readEntries ps
      pure (e :: es)

/-- storage.rs:161-174 `read_dir` for a directory.  Simplified: walkdir gets the names of all that is below the directory in one step; the entries are then opened one by one. -/
def walkDir (p : PathBuf) : Thr Storage.Error (List Storage.Entry) := do
  let ps ← Thr.atom (fun w => (.ok (Storage.World.below w p), w))
  readEntries ps

/-- `interleave` as steps: the threads of this process make steps in this order; between any two of them other processes can make theirs. -/
def gather {ε : Type} : List Nat → List (Thr ε Unit) → Thr ε (List (Thr ε Unit))
  | [], ts => pure ts
  | i :: is, ts =>
      match ts[i]? with
      | some (.step eff k) => .step eff fun w => gather is (ts.set i (k w))
      | _ => gather is ts

/-- The result of a thread as a value, whatever it is. -/
def settle {ε ε' α : Type} : Thr ε α → Thr ε' (Res ε α)
  | .done r => .done (.ok r)
  | .step eff k => .step eff fun w => settle (k w)

/-- `finish` as steps. -/
def settleAll {ε : Type} : List (Thr ε Unit) → Thr ε (List (Res ε Unit))
  | [] => pure []
  | t :: ts => do
      let r ← settle t
      let rs ← settleAll ts
      pure (r :: rs)

/-- `spawnJoin` as steps: spawn threads and join them. -/
def joinAll {ε : Type} (order : List Nat) (ts : List (Thr ε Unit)) : Thr ε Unit := do
  let ts ← gather order ts
  match joined ts with
  | some r => .done r
  | none => do
      let rs ← settleAll ts
      .done ((joined (rs.map .done)).getD (.ok ()))

/-- storage.rs:161-174 `read_dir`. -/
def readDir : Storage.Entry → Thr Storage.Error (List Storage.Entry)
  | .dir p => walkDir p
  | .file .. => .done (.err .fileAccess)

/-- erase_dir.rs:39-75 `execute`. -/
def eraseDirExecute (order : List Nat) (entry : Storage.Entry) (n : Int) : Thr EraseDir.Error Unit := do
  if !entry.isDir then .done (.err .invalidFileType)
  else
    let files ← (readDir entry).mapErr fun _ => .readDirEntries
    joinAll order (EraseDir.threads files n)
    Thr.atom ((Storage.removeDirAll entry).mapErr fun _ => .removeDir)

/-- erase.rs:13-47 `secure_erase`. -/
def secureErase (s : Sys σ) (input : List Char) (passes : Int) (force : ForceMode) : Thr Error Unit := do
  let file ← readInput (toPath s.cwd input)
  if file.isDir then
    if ← Thr.atom (getAnswer "This is a directory, would you like to erase all files within it?".toList false force) then
      (eraseDirExecute s.order file passes).mapErr .eraseDir
    else .done (.abort (.exit 0))
  else (Erase.thread (toPath s.cwd input) passes).mapErr .erase

/-- encrypt.rs:77-79 and decrypt.rs:59-61. -/
def eraseIf (s : Sys σ) (mode : EraseMode) (force : ForceMode) (file : List Char) : Thr Error Unit :=
  match mode with
  | .eraseFile passes => secureErase s file passes force
  | .ignoreFile => pure ()

/-- stream.rs:194-230: the loop of `encrypt_file`. -/
def encLoop (C : Crypto) (rh wh : Nat) (aad : Bytes) : Nat → Stream → Thr StreamErr Unit
  | fuel, s => do
      let buf ← Thr.atom ((read rh BLOCK_SIZE).mapErr .io)
      if buf.length = BLOCK_SIZE then do
        let (c, s) ← .done (s.encryptNext C aad buf)
        Thr.atom ((writeAll wh c).mapErr .io)
        match fuel with
        | 0 => .done (.abort .outOfFuel)
        | fuel + 1 => encLoop C rh wh aad fuel s
      else do
        let c ← .done (s.encryptLast C aad buf)
        Thr.atom ((writeAll wh c).mapErr .io)

/-- stream.rs:184-238 `encrypt_file`. -/
def encryptFile (C : Crypto) (s : Stream) (rh wh : Nat) (aad : Bytes) : Thr StreamErr Unit := do
  encLoop C rh wh aad C.ctrMax s
  Thr.atom ((flush wh).mapErr .io)

/-- encrypt.rs:119-137: the header goes to the start of the output or of the header file. -/
def writeHeader (req : Encrypt.Request) (header : Header) : Thr Encrypt.Error Unit :=
  match req.headerWriter with
  | none => do
      let bytes ← .done (header.serialize.mapErr fun _ => .writeHeader)
      let _ ← Thr.atom ((write req.writer bytes).mapErr fun _ => .writeHeader)
      pure ()
  | some hw => do
      Thr.atom ((rewind hw).mapErr fun _ => .resetCursorPosition)
      let bytes ← .done (header.serialize.mapErr fun _ => .writeHeader)
      let _ ← Thr.atom ((write hw bytes).mapErr fun _ => .writeHeader)
      pure ()

/-- encrypt.rs:57-150 `execute`. -/
def encryptExecute (C : Crypto) (req : Encrypt.Request) : Thr Encrypt.Error Unit := do
  let (header, streams) ← Thr.atom (Encrypt.prepare C req)
  Thr.atom ((rewind req.writer).mapErr fun _ => .resetCursorPosition)
  writeHeader req header
  let aad ← .done (header.createAad.mapErr fun _ => .createAad)
  Thr.atom ((rewind req.reader).mapErr fun _ => .resetCursorPosition)
  (encryptFile C streams req.reader req.writer aad).mapErr fun _ => .encryptFile

/-- encrypt.rs:52-71: encrypt and flush. -/
def encryptBody (s : Sys σ) (params : CryptoParams) (algorithm : Algorithm) (input output : Storage.Entry) (header : Option Storage.Entry)
    (rawKey : Bytes) : Thr Error Unit := do
  let reader ← streamOf input
  let writer ← streamOf output
  (encryptExecute s.C
    { reader, writer, headerWriter := optStream header, rawKey, headerType := headerType algorithm,
      hashingAlgorithm := params.hashingAlgorithm }).mapErr .encrypt
  flushOpt header
  (flushFile output).mapErr .storage

/-- subcommands/encrypt.rs:15-82 `stream_mode`. -/
def encryptMode (s : Sys σ) (input output : List Char) (params : CryptoParams) (algorithm : Algorithm) : Thr Error Unit := do
  if input = output then .done (.err .sameName)
  else do
    consent s.cwd output params.force
    let inputFile ← readInput (toPath s.cwd input)
    let rawKey ← getSecret s.words s.cwd params.key .validate
    let outputFile ← openOutput (toPath s.cwd output)
    let headerFile ← openHeader s params.force params.header
    encryptBody s params algorithm inputFile outputFile headerFile rawKey
    hashIf s params.hashMode output
    eraseIf s params.erase params.force input

/-- header.rs:252-486 `Header::deserialize`. -/
def deserialize (h : Nat) : Thr HdrErr (Header × Bytes) := do
  let versionBytes ← Thr.atom ((readExact h 2).mapErr .io)
  Thr.atom ((seekCur h (-2)).mapErr .io)
  match parseVersion versionBytes with
  | none => .done (.err .version)
  | some version => do
      let full ← Thr.atom ((readExact h version.size).mapErr .io)
      .done (parseHeader version full)

/-- stream.rs:362-397: the loop of `decrypt_file`. -/
def decLoop (C : Crypto) (rh wh : Nat) (aad : Bytes) : Nat → Stream → Thr StreamErr Unit
  | fuel, s => do
      let buf ← Thr.atom ((read rh (BLOCK_SIZE + 16)).mapErr .io)
      if buf.length = BLOCK_SIZE + 16 then do
        let (p, s) ← .done (s.decryptNext C aad buf)
        Thr.atom ((writeAll wh p).mapErr .io)
        match fuel with
        | 0 => .done (.abort .outOfFuel)
        | fuel + 1 => decLoop C rh wh aad fuel s
      else do
        let p ← .done (s.decryptLast C aad buf)
        Thr.atom ((writeAll wh p).mapErr .io)

/-- stream.rs:352-405 `decrypt_file`. -/
def decryptFile (C : Crypto) (s : Stream) (rh wh : Nat) (aad : Bytes) : Thr StreamErr Unit := do
  decLoop C rh wh aad C.ctrMax s
  Thr.atom ((flush wh).mapErr .io)

/-- decrypt.rs:61-94: get the header. -/
def getHeader (req : Decrypt.Request) : Thr Decrypt.Error (Header × Bytes) :=
  match req.headerReader with
  | some hr => do
      let (header, aad) ← (deserialize hr).mapErr fun _ => .deserializeHeader
      let got ← Thr.atom ((readUpTo req.reader header.getSize).mapErr fun _ => .readEncryptedData)
      let headerBytes := got ++ zeros (header.getSize - got.length)
      if !(headerBytes.all (· == 0)) then
        Thr.atom ((rewind req.reader).mapErr fun _ => .rewindDataReader)
      pure (header, aad)
  | none => (deserialize req.reader).mapErr fun _ => .deserializeHeader

/-- decrypt.rs:100-147: decrypt the rest of the reader. -/
def decryptRest (C : Crypto) (req : Decrypt.Request) (header : Header) (aad : Bytes) : Thr Decrypt.Error Unit :=
  match header.headerType.mode with
  | .memoryMode => do
      let encryptedData ← Thr.atom ((readToEnd req.reader).mapErr fun _ => .readEncryptedData)
      let masterKey ← .done ((decryptMasterKey C req.rawKey header).mapErr fun _ => .decryptMasterKey)
      let ciphers ← .done ((Cipher.initialize masterKey header.headerType.algorithm).mapErr
        fun _ => .initializeCiphers)
      let decrypted ← .done ((ciphers.decrypt C header.nonce aad encryptedData).mapErr
        fun _ => .decryptData)
      Thr.atom ((writeAll req.writer decrypted).mapErr fun _ => .writeData)
  | .streamMode => do
      let masterKey ← .done ((decryptMasterKey C req.rawKey header).mapErr fun _ => .decryptMasterKey)
      let streams ← .done ((decInitialize masterKey header.nonce header.headerType.algorithm).mapErr
        fun _ => .initializeStreams)
      (decryptFile C streams req.reader req.writer aad).mapErr fun _ => .decryptData

/-- decrypt.rs:56-150 `execute`. -/
def decryptExecute (C : Crypto) (req : Decrypt.Request) : Thr Decrypt.Error Unit := do
  let (header, aad) ← getHeader req
  decryptRest C req header aad

/-- decrypt.rs:43-53: decrypt and flush. -/
def decryptBody (s : Sys σ) (input output : Storage.Entry) (header : Option Storage.Entry) (rawKey : Bytes) : Thr Error Unit := do
  let reader ← streamOf input
  let writer ← streamOf output
  (decryptExecute s.C { headerReader := optStream header, reader, writer, rawKey }).mapErr .decrypt
  (flushFile output).mapErr .storage

/-- subcommands/decrypt.rs:17-64 `stream_mode`. -/
def decryptMode (s : Sys σ) (input output : List Char) (params : CryptoParams) : Thr Error Unit := do
  if input = output then .done (.err .sameName)
  else do
    consent s.cwd output params.force
    let inputFile ← readInput (toPath s.cwd input)
    let headerFile ← readHeader s params.header
    let rawKey ← getSecret s.words s.cwd params.key .direct
    let outputFile ← openOutput (toPath s.cwd output)
    decryptBody s inputFile outputFile headerFile rawKey
    hashIf s params.hashMode input
    eraseIf s params.erase params.force input

/-- A result as a value, as in `Prog.attempt`. -/
def attempt {ε ε' α : Type} : Thr ε α → Thr ε' (Res ε α)
  | .done (.ok a) => .done (.ok (.ok a))
  | .done (.err e) => .done (.ok (.err e))
  | .done (.abort a) => .done (.abort a)
  | .step eff k => .step eff fun w => attempt (k w)

/-- pack.rs:45: `Path::is_file` for any of the paths. -/
def anyFile {ε : Type} : List PathBuf → Thr ε Bool
  | [] => pure false
  | p :: ps => do
      if ← Thr.atom (Cli.anyFile [p]) then pure true else anyFile ps

/-- pack.rs:53-57: open the inputs. -/
def readInputs (s : Sys σ) : List (List Char) → Thr Error (List Storage.Entry)
  | [] => pure []
  | f :: fs => do
      let e ← readInput (toPath s.cwd f)
      let es ← readInputs s fs
      pure (e :: es)

/-- pack.rs:74-87: list the directories. -/
def expand : List Storage.Entry → Thr Error (List Storage.Entry)
  | [] => pure []
  | e :: es => do
      let files ← (match e with
        | .dir p => (walkDir p).mapErr .storage
        | .file p h => pure [.file p h])
      let rest ← expand es
      pure (files ++ rest)

/-- storage.rs:58-64 `create_temp_file`. -/
def createTempFile (tmp : PathBuf) : Thr Storage.Error Storage.Entry := do
  let bs ← Thr.atom (genBytes 16)
  Thr.atom (Storage.createFile (tmp.push [.name (bs.map Storage.alphanumeric)]))

/-- volaris-tools pack.rs:90-100: read a file into the archive. -/
def archiveLoop (h : Nat) : Nat → Bytes → Thr (Pack.Error × Bytes) Bytes
  | fuel, got => do
      let buf ← Thr.atom ((read h BLOCK_SIZE).mapErr fun _ => (.readData, got))
      Thr.atom (sysRetry.mapErr fun _ => (.writeData, got))
      if buf.length ≠ BLOCK_SIZE then pure (got ++ buf)
      else
        match fuel with
        | 0 => .done (.abort .outOfFuel)
        | fuel + 1 => archiveLoop h fuel (got ++ buf)

/-- volaris-tools pack.rs:90-100: the loop.  The length of the file before the first `read` bounds the rounds, as in `Pack.readAll`. -/
def archiveFile (h : Nat) : Thr (Pack.Error × Bytes) Bytes := do
  let n ← Thr.atom (fun w => (.ok (w.data h).length, w))
  archiveLoop h n []

/-- volaris-tools pack.rs:80-103: add one entry to the archive. -/
def addEntry (z : Zip) (done : List ZipEntry) (f : Storage.Entry) : Thr (Pack.Error × List ZipEntry) (List ZipEntry) :=
  match f with
  | .dir path => do
      let name := Pack.dirName (ZipName.ofPath path)
      Thr.atom ((Pack.startEntry z done name).mapErr fun _ => (.addDirToArchive, done))
      pure (done ++ [{ name := name, content := [] }])
  | .file path h => do
      let name := ZipName.ofPath path
      Thr.atom ((Pack.startEntry z done name).mapErr fun _ => (.addFileToArchive, done))
      let content ← (archiveFile h).mapErr fun (e, got) => (e, done ++ [{ name := name, content := got }])
      pure (done ++ [{ name := name, content := content }])

/-- volaris-tools pack.rs:79-104: add all entries. -/
def addAll (z : Zip) : List Storage.Entry → List ZipEntry → Thr (Pack.Error × List ZipEntry) (List ZipEntry)
  | [], done => pure done
  | f :: fs, done => do
      let done ← addEntry z done f
      addAll z fs done

/-- volaris-tools pack.rs:79-107: write the archive to the temporary file. -/
def writeArchive (z : Zip) (t : Nat) (files : List Storage.Entry) : Thr Pack.Error Unit := do
  let r ← attempt (addAll z files [])
  match r with
  | .ok l => Thr.atom ((writeAll t (z.encode l)).mapErr fun _ => .finishArchive)
  | .err (e, l) => do
      let _ ← Thr.atom (Prog.attempt (writeAll t (z.encode l)))
      .done (.err e)
  | .abort a => .done (.abort a)

/-- storage.rs:134-141 `file_len`. -/
def fileLen (e : Storage.Entry) : Thr Storage.Error Nat := do
  let h ← .done e.stream
  Thr.atom ((Volaris.fileLen h).mapErr fun _ => .fileLen)

/-- storage.rs:143-151 `remove_file`. -/
def removeFile : Storage.Entry → Thr Storage.Error Unit
  | .file p h => Erase.removeFile p h
  | .dir p => Thr.atom ((unlink p).mapErr fun _ => .removeFile)

/-- volaris-tools pack.rs:59-134 `execute`. -/
def packExecute (C : Crypto) (z : Zip) (tmp : PathBuf) (req : Pack.Request) : Thr Pack.Error Unit := do
  let tmpFile ← (createTempFile tmp).mapErr fun _ => .createArchive
  let t ← .done (tmpFile.stream.mapErr fun _ => .createArchive)
  writeArchive z t req.compressFiles
  let bufCapacity ← (fileLen tmpFile).mapErr fun _ => .finishArchive
  let encryptRes ← attempt ((encryptExecute C
    { reader := t, writer := req.writer, headerWriter := req.headerWriter, rawKey := req.rawKey,
      headerType := req.headerType, hashingAlgorithm := req.hashingAlgorithm }).mapErr Pack.Error.encrypt)
  let _ ← attempt (Erase.overwrite t bufCapacity 2)
  let _ ← attempt (removeFile tmpFile)
  .done encryptRes

/-- pack.rs:74-116: list, pack, encrypt and flush. -/
def packBody (s : Sys σ) (params : CryptoParams) (algorithm : Algorithm) (inputs : List Storage.Entry) (output : Storage.Entry)
    (header : Option Storage.Entry) (rawKey : Bytes) : Thr Error Unit := do
  let compressFiles ← expand inputs
  let writer ← streamOf output
  (packExecute s.C s.z s.tmp
    { writer, compressFiles, headerWriter := optStream header, rawKey, headerType := headerType algorithm,
      hashingAlgorithm := params.hashingAlgorithm }).mapErr .pack
  flushOpt header
  (flushFile output).mapErr .storage

/-- pack.rs:122-126: erase the inputs. -/
def eraseInputs (s : Sys σ) (force : ForceMode) : List (List Char) → Thr Error Unit
  | [] => pure ()
  | f :: fs => do
      secureErase s f 1 force
      eraseInputs s force fs

/-- subcommands/pack.rs:34-129 `execute`. -/
def packMode (s : Sys σ) (inputs : List (List Char)) (output : List Char) (packParams : PackParams) (params : CryptoParams)
    (algorithm : Algorithm) : Thr Error Unit := do
  if inputs.any (· = output) then .done (.err .sameName)
  else do
    if ← anyFile (inputs.map (toPath s.cwd)) then .done (.err .inputIsFile)
    else do
      consent s.cwd output params.force
      let inputFiles ← readInputs s inputs
      let rawKey ← getSecret s.words s.cwd params.key .validate
      let outputFile ← openOutput (toPath s.cwd output)
      let headerFile ← openHeader s params.force params.header
      packBody s params algorithm inputFiles outputFile headerFile rawKey
      hashIf s params.hashMode output
      if packParams.eraseSource then eraseInputs s params.force inputs else pure ()

/-- subcommands/unpack.rs:46-72: the callback. -/
def onZipFile (force : ForceMode) (verbose : Bool) (p : PathBuf) : Thr Unpack.Error Bool := do
  match fileName p with
  | none => .done (.abort .panic)
  | some name => do
      let answer ← (do if ← Thr.atom (existsAt p) then Thr.atom (expect (getAnswer (overwritePrompt name) true force)) else pure true)
      if answer then do
        if verbose then Thr.atom (say ("[i] Extracting ".toList ++ name)) else pure ()
        pure true
      else do
        Thr.atom (say ("[-] Skipping ".toList ++ name))
        pure false

/-- volaris-tools unpack.rs:90-111: choose what to extract. -/
def entities (z : Zip) (t : Nat) (out : PathBuf) (cb : PathBuf → Thr Unpack.Error Bool) : List Nat → Thr Unpack.Error (List Unpack.Entity)
  | [] => pure []
  | i :: is => do
      let r ← Thr.atom (Prog.attempt (Unpack.byIndex z t i))
      match r with
      | .ok m =>
          match ZipName.enclosed m.name with
          | some cs => do
              let keep ← cb (out.push cs)
              let rest ← entities z t out cb is
              pure (if keep then (out.push cs, i, ZipName.isDir m.name) :: rest else rest)
          | none => entities z t out cb is
      | .err _ => entities z t out cb is
      | .abort a => .done (.abort a)

/-- volaris-tools unpack.rs:146-150: `std::io::copy` from a member. -/
def copyMember (m : ZipMember) (h : Nat) : Thr Unpack.Error Unit := do
  Thr.atom (sysRetry.mapErr fun _ => .writeData)
  Thr.atom ((writeAll h m.content).mapErr fun _ => .writeData)
  if m.sound then pure () else .done (.err .writeData)

/-- volaris-tools unpack.rs:140-152: extract one file. -/
def extract (z : Zip) (t : Nat) (e : Unpack.Entity) : Thr Unpack.Error Unit := do
  let m ← Thr.atom ((Unpack.byIndex z t e.2.1).mapErr fun _ => .openArchivedFile)
  let file ← (orElse (Storage.createFile e.1) (Thr.atom (Storage.writeFile e.1))).mapErr .storage
  let h ← .done (file.stream.mapErr .storage)
  copyMember m h

/-- volaris-tools unpack.rs:137-152: extract the files. -/
def extractAll (z : Zip) (t : Nat) : List Unpack.Entity → Thr Unpack.Error Unit
  | [] => pure ()
  | e :: es => do
      extract z t e
      extractAll z t es

/-- volaris-tools unpack.rs:77-153: recover the files from the temporary archive. -/
def recover (z : Zip) (order : List Nat) (t : Nat) (out : PathBuf) (cb : PathBuf → Thr Unpack.Error Bool) : Thr Unpack.Error Unit := do
  Thr.atom ((rewind t).mapErr fun _ => .resetCursorPosition)
  let n ← Thr.atom (Unpack.openArchive z t)
  let es ← entities z t out cb (List.range n)
  joinAll order (Unpack.dirThreads out es)
  extractAll z t (es.filter (!·.2.2))

/-- volaris-tools unpack.rs:55-168 `execute`. -/
def unpackExecute (C : Crypto) (z : Zip) (tmp : PathBuf) (order : List Nat) (reader : Nat) (headerReader : Option Nat) (rawKey : Bytes) (out : PathBuf) (cb : PathBuf → Thr Unpack.Error Bool) :
    Thr Unpack.Error Unit := do
  let tmpFile ← (createTempFile tmp).mapErr .storage
  let t ← .done (Unpack.expectStream tmpFile)
  (decryptExecute C { headerReader, reader, writer := t, rawKey }).mapErr .decrypt
  let bufCapacity ← (fileLen tmpFile).mapErr .storage
  recover z order t out cb
  let _ ← attempt (Erase.overwrite t bufCapacity 1)
  let _ ← attempt (removeFile tmpFile)
  pure ()

/-- subcommands/unpack.rs:20-81 `unpack`. -/
def unpackMode (s : Sys σ) (input output : List Char) (verbose : Bool) (params : CryptoParams) : Thr Error Unit := do
  let inputFile ← readInput (toPath s.cwd input)
  let headerFile ← readHeader s params.header
  let rawKey ← getSecret s.words s.cwd params.key .direct
  let reader ← streamOf inputFile
  (unpackExecute s.C s.z s.tmp s.order reader (optStream headerFile) rawKey (toPath s.cwd output) (onZipFile params.force verbose)).mapErr .unpack
  hashIf s params.hashMode input

/-- header.rs:715-722 `Header::write`. -/
def headerWrite (hd : Header) (h : Nat) : Thr HdrErr Unit := do
  let bytes ← .done hd.serialize
  let _ ← Thr.atom ((Volaris.write h bytes).mapErr .io)
  pure ()

/-- key/add.rs:30-48, key/change.rs:30-48, key/delete.rs:22-40. -/
def keyLoad (h : Nat) : Thr KeyOps.Error (Header × List Keyslot) := do
  let (header, _) ← (deserialize h).mapErr fun _ => .headerDeserialize
  if header.headerType.version.rank < HeaderVersion.v5.rank then .done (.err .unsupported)
  else do
    Thr.atom ((seekCur h (-(header.getSize : Int))).mapErr fun _ => .seek)
    match header.keyslots with
    | none => .done (.abort .panic)
    | some ks => pure (header, ks)

/-- key/add.rs:85-96, key/change.rs:79-90, key/delete.rs:51-62. -/
def keyStore (h : Nat) (header : Header) (ks : List Keyslot) : Thr KeyOps.Error Unit :=
  (headerWrite { header with keyslots := some ks } h).mapErr fun _ => .headerWrite

/-- key/add.rs:26-99 `execute`. -/
def keyAddExecute (C : Crypto) (req : KeyOps.NewKeyRequest) : Thr KeyOps.Error Unit := do
  let (header, keyslots) ← keyLoad req.handle
  let (masterKey, _) ← .done (KeyOps.decryptV5MasterKeyWithIndex C keyslots req.rawKeyOld header.headerType.algorithm)
  if keyslots.length = 4 then .done (.err .tooManyKeyslots)
  else do
    let salt ← Thr.atom genSalt
    let masterKeyNonce ← Thr.atom (genNonce header.headerType.algorithm .memoryMode)
    let keyNew ← .done ((req.hashAlgorithm.hash C req.rawKeyNew salt).mapErr fun _ => .keyHash)
    let encryptedKey ← .done (KeyOps.encryptMasterKey C masterKey keyNew masterKeyNonce header.headerType.algorithm)
    let keyslot : Keyslot := { encryptedKey, nonce := masterKeyNonce, salt, hashAlgorithm := req.hashAlgorithm }
    keyStore req.handle header (keyslots ++ [keyslot])

/-- key/change.rs:26-93 `execute`. -/
def keyChangeExecute (C : Crypto) (req : KeyOps.NewKeyRequest) : Thr KeyOps.Error Unit := do
  let (header, keyslots) ← keyLoad req.handle
  let (masterKey, index) ← .done (KeyOps.decryptV5MasterKeyWithIndex C keyslots req.rawKeyOld header.headerType.algorithm)
  let salt ← Thr.atom genSalt
  let keyNew ← .done ((req.hashAlgorithm.hash C req.rawKeyNew salt).mapErr fun _ => .keyHash)
  let masterKeyNonce ← Thr.atom (genNonce header.headerType.algorithm .memoryMode)
  let encryptedKey ← .done (KeyOps.encryptMasterKey C masterKey keyNew masterKeyNonce header.headerType.algorithm)
  let keyslot : Keyslot := { encryptedKey, nonce := masterKeyNonce, salt, hashAlgorithm := req.hashAlgorithm }
  if index < keyslots.length then keyStore req.handle header (keyslots.set index keyslot)
  else .done (.abort .panic)

/-- key/delete.rs:18-65 `execute`. -/
def keyDeleteExecute (C : Crypto) (handle : Nat) (rawKeyOld : Bytes) : Thr KeyOps.Error Unit := do
  let (header, keyslots) ← keyLoad handle
  let (_, index) ← .done (KeyOps.decryptV5MasterKeyWithIndex C keyslots rawKeyOld header.headerType.algorithm)
  if index < keyslots.length then keyStore handle header (keyslots.eraseIdx index)
  else .done (.abort .panic)

/-- key/verify.rs:19-43 `execute`. -/
def keyVerifyExecute (C : Crypto) (handle : Nat) (rawKey : Bytes) : Thr KeyOps.Error Unit := do
  let (header, _) ← (deserialize handle).mapErr fun _ => .headerDeserialize
  if header.headerType.version.rank < HeaderVersion.v5.rank then .done (.err .unsupported)
  else
    match header.keyslots with
    | none => .done (.abort .panic)
    | some ks => do
        let _ ← .done (KeyOps.decryptV5MasterKeyWithIndex C ks rawKey header.headerType.algorithm)
        pure ()

/-- subcommands/key.rs:15-34, 59-78, 103-122, 139-157: open the file, check the version of its header and rewind. -/
def openV5 (s : Sys σ) (input : List Char) : Thr Error Nat := do
  let handle ← Thr.atom ((Volaris.openFile (toPath s.cwd input)).mapErr fun _ => .openFile)
  let (header, _) ← (deserialize handle).mapErr .headerParse
  if header.headerType.version.rank < HeaderVersion.v5.rank then .done (.err .notV5)
  else do
    Thr.atom ((rewind handle).mapErr fun _ => .rewind)
    pure handle

/-- subcommands/key.rs:14-56 `add`. -/
def keyAdd (s : Sys σ) (input : List Char) (params : KeyManipulationParams) : Thr Error Unit := do
  let handle ← openV5 s input
  Thr.atom (announce params.keyOld "[i] Please enter your old key below")
  let rawKeyOld ← getSecret s.words s.cwd params.keyOld .direct
  Thr.atom (announce params.keyNew "[i] Please enter your new key below")
  let rawKeyNew ← getSecret s.words s.cwd params.keyNew .validate
  (keyAddExecute s.C { handle, hashAlgorithm := params.hashingAlgorithm, rawKeyOld, rawKeyNew }).mapErr .key

/-- subcommands/key.rs:58-100 `change`. -/
def keyChange (s : Sys σ) (input : List Char) (params : KeyManipulationParams) : Thr Error Unit := do
  let handle ← openV5 s input
  Thr.atom (announce params.keyOld "[i] Please enter your old key below")
  let rawKeyOld ← getSecret s.words s.cwd params.keyOld .direct
  Thr.atom (announce params.keyNew "[i] Please enter your new key below")
  let rawKeyNew ← getSecret s.words s.cwd params.keyNew .validate
  (keyChangeExecute s.C { handle, hashAlgorithm := params.hashingAlgorithm, rawKeyOld, rawKeyNew }).mapErr .key

/-- subcommands/key.rs:102-136 `delete`. -/
def keyDelete (s : Sys σ) (input : List Char) (key : Key) : Thr Error Unit := do
  let handle ← openV5 s input
  Thr.atom (announce key "[i] Please enter your key below")
  let rawKeyOld ← getSecret s.words s.cwd key .direct
  (keyDeleteExecute s.C handle rawKeyOld).mapErr .key

/-- subcommands/key.rs:138-171 `verify`. -/
def keyVerify (s : Sys σ) (input : List Char) (key : Key) : Thr Error Unit := do
  let handle ← openV5 s input
  Thr.atom (announce key "[i] Please enter your key below")
  let rawKey ← getSecret s.words s.cwd key .direct
  (keyVerifyExecute s.C handle rawKey).mapErr .key

/-- header/dump.rs:18-31 `execute`. -/
def dumpExecute (reader writer : Nat) : Thr HeaderOps.Error Unit := do
  let (header, _) ← (deserialize reader).mapErr fun _ => .invalidFile
  (headerWrite header writer).mapErr fun _ => .write

/-- header/restore.rs:18-52 `execute`. -/
def restoreExecute (reader writer : Nat) : Thr HeaderOps.Error Unit := do
  let (header, _) ← (deserialize reader).mapErr fun _ => .invalidFile
  let got ← Thr.atom ((Volaris.read writer header.getSize).mapErr fun _ => .read)
  let headerBytes := got ++ zeros (header.getSize - got.length)
  if !(headerBytes.all (· == 0)) then .done (.err .unsupportedRestore)
  else do
    Thr.atom ((Volaris.rewind writer).mapErr fun _ => .rewind)
    (headerWrite header writer).mapErr fun _ => .write

/-- header/strip.rs:16-42 `execute`. -/
def stripExecute (handle : Nat) : Thr HeaderOps.Error Unit := do
  let (header, _) ← (deserialize handle).mapErr fun _ => .invalidFile
  Thr.atom ((Volaris.rewind handle).mapErr fun _ => .rewind)
  Thr.atom ((writeAll handle (zeros header.getSize)).mapErr fun _ => .write)

/-- subcommands/header.rs:14-62 `details`; returns the lines. -/
def headerDetails (s : Sys σ) (input : List Char) : Thr Error (List String) := do
  let f ← Thr.atom ((Volaris.openFile (toPath s.cwd input)).mapErr fun _ => .openFile)
  let (h, aad) ← (deserialize f).mapErr fun _ => .invalidHeader
  let lines := ["Header version: " ++ showVersion h.headerType.version, "Encryption algorithm: " ++ showAlgorithm h.headerType.algorithm,
      "Encryption mode: " ++ showMode h.headerType.mode, "Encryption nonce: " ++ hexText h.nonce, "AAD: " ++ hexText aad]
  Thr.atom (sayAll lines)
  let rest ← .done (keyLines h)
  Thr.atom (sayAll rest)
  pure (lines ++ rest)

/-- subcommands/header.rs:67-89 `dump`. -/
def headerDump (s : Sys σ) (input output : List Char) (force : ForceMode) : Thr Error Unit := do
  let inputFile ← readInput (toPath s.cwd input)
  consent s.cwd output force
  let outputFile ← openOutput (toPath s.cwd output)
  let reader ← streamOf inputFile
  let writer ← streamOf outputFile
  (dumpExecute reader writer).mapErr .headerOp
  (flushFile outputFile).mapErr .storage

/-- subcommands/header.rs:96-117 `restore`. -/
def headerRestore (s : Sys σ) (input output : List Char) : Thr Error Unit := do
  let inputFile ← readInput (toPath s.cwd input)
  let writer ← Thr.atom ((Volaris.openFile (toPath s.cwd output)).mapErr fun _ => .openFile)
  let reader ← streamOf inputFile
  (restoreExecute reader writer).mapErr .headerOp

/-- subcommands/header.rs:123-139 `strip`. -/
def headerStrip (s : Sys σ) (input : List Char) : Thr Error Unit := do
  let handle ← Thr.atom ((Volaris.openFile (toPath s.cwd input)).mapErr fun _ => .openFile)
  (stripExecute handle).mapErr .headerOp

end Volaris.Cli.Steps
