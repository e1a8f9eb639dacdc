import Verif.Model.Cli.Args
/-!
# crates/volaris-cli/src/subcommands.rs, subcommands/*.rs and main.rs

What the commands print goes to `World.out`; the warnings about unusable numbers in the arguments (global/parameters.rs:50, 100, 104, global/states.rs:145) are left out.
-/
namespace Volaris.Cli

/-- What the commands run with besides their arguments: the cryptographic primitives, the hasher, the archive format, the word list for passphrases, the working directory, the directory for temporary
files, and the order in which the operating system runs the threads of a command. -/
structure Sys (σ : Type) where
  C : Crypto
  H : HashCmd.Hasher σ
  z : Zip
  words : List (List Char)
  cwd : Path
  tmp : PathBuf
  order : List Nat

variable {σ : Type}

/-- `std::process::exit(0)`. -/
def exit0 {α : Type} : Prog Error α := Prog.lift (.abort (.exit 0))

/-- `stor.create_file(p).or_else(|_| stor.write_file(p))`: encrypt.rs:37-39, 48, decrypt.rs:39-41, pack.rs:59-61, 70, header.rs:75-77. -/
def openOutput (p : PathBuf) : Prog Error Storage.Entry :=
  (Unpack.orElse (Storage.createFile p) (Storage.writeFile p)).mapErr .storage

/-- `stor.read_file(p)?`. -/
def readInput (p : PathBuf) : Prog Error Storage.Entry := (Storage.readFile p).mapErr .storage

/-- `entry.try_reader()?` and `entry.try_writer()?`. -/
def streamOf (e : Storage.Entry) : Prog Error Nat := Prog.lift (e.stream.mapErr .storage)

/-- `file.as_ref().and_then(|f| f.try_writer().ok())`. -/
def optStream : Option Storage.Entry → Option Nat
  | some (.file _ h) => some h
  | _ => none

/-- `if !overwrite_check(path, force)? { exit(0) }`. -/
def consent (cwd : Path) (name : List Char) (force : ForceMode) : Prog Error Unit := do
  if ← overwriteCheck cwd name force then pure () else exit0

/-- encrypt.rs:41-50 and pack.rs:63-72: the file for the detached header. -/
def openHeader (s : Sys σ) (force : ForceMode) : Option (List Char) → Prog Error (Option Storage.Entry)
  | none => pure none
  | some path => do
      consent s.cwd path force
      let e ← openOutput (toPath s.cwd path)
      pure (some e)

/-- decrypt.rs:33-36 and unpack.rs:30-33: the detached header. -/
def readHeader (s : Sys σ) : Option (List Char) → Prog Error (Option Storage.Entry)
  | none => pure none
  | some path => do
      let e ← readInput (toPath s.cwd path)
      pure (some e)

/-- encrypt.rs:68-70 and pack.rs:113-115. -/
def flushOpt : Option Storage.Entry → Prog Error Unit
  | none => pure ()
  | some e => (Storage.flushFile e).mapErr .storage

/-- hashing.rs:10-26 `hash_stream`; returns the digests. -/
def hashStream (s : Sys σ) : List (List Char) → Prog Error (List String)
  | [] => pure []
  | input :: files => do
      let h ← (Volaris.openFile (toPath s.cwd input)).mapErr fun _ => .openFile
      let d ← (HashCmd.execute s.H h).mapErr .hash
      say ("[+] ".toList ++ input ++ ": ".toList ++ d.toList)
      let ds ← hashStream s files
      pure (d :: ds)

/-- encrypt.rs:73-75, decrypt.rs:55-57, pack.rs:118-120, unpack.rs:76-78. -/
def hashIf (s : Sys σ) (mode : HashMode) (file : List Char) : Prog Error Unit :=
  match mode with
  | .calculateHash => do
      let _ ← hashStream s [file]
      pure ()
  | .noHash => pure ()

/-- erase.rs:13-47 `secure_erase`. -/
def secureErase (s : Sys σ) (input : List Char) (passes : Int) (force : ForceMode) : Prog Error Unit := do
  let file ← readInput (toPath s.cwd input)
  if file.isDir then
    if ← getAnswer "This is a directory, would you like to erase all files within it?".toList false force then
      (EraseDir.execute s.order file passes).mapErr .eraseDir
    else exit0
  else (Erase.execute (toPath s.cwd input) passes).mapErr .erase

/-- encrypt.rs:77-79 and decrypt.rs:59-61. -/
def eraseIf (s : Sys σ) (mode : EraseMode) (force : ForceMode) (file : List Char) : Prog Error Unit :=
  match mode with
  | .eraseFile passes => secureErase s file passes force
  | .ignoreFile => pure ()

/-- encrypt.rs:58-62 and pack.rs:103-107: the header type. -/
def headerType (algorithm : Algorithm) : HeaderType :=
  { version := HEADER_VERSION, mode := .streamMode, algorithm }

/-- encrypt.rs:52-71: encrypt and flush. -/
def encryptBody (s : Sys σ) (params : CryptoParams) (algorithm : Algorithm) (input output : Storage.Entry) (header : Option Storage.Entry)
    (rawKey : Bytes) : Prog Error Unit := do
  let reader ← streamOf input
  let writer ← streamOf output
  (Encrypt.execute s.C
    { reader, writer, headerWriter := optStream header, rawKey, headerType := headerType algorithm,
      hashingAlgorithm := params.hashingAlgorithm }).mapErr .encrypt
  flushOpt header
  (Storage.flushFile output).mapErr .storage

/-- subcommands/encrypt.rs:15-82 `stream_mode`. -/
def encryptMode (s : Sys σ) (input output : List Char) (params : CryptoParams) (algorithm : Algorithm) : Prog Error Unit := do
  if input = output then Prog.throw .sameName
  else do
    consent s.cwd output params.force
    let inputFile ← readInput (toPath s.cwd input)
    let rawKey ← getSecret s.words s.cwd params.key .validate
    let outputFile ← openOutput (toPath s.cwd output)
    let headerFile ← openHeader s params.force params.header
    encryptBody s params algorithm inputFile outputFile headerFile rawKey
    hashIf s params.hashMode output
    eraseIf s params.erase params.force input

/-- decrypt.rs:43-53: decrypt and flush. -/
def decryptBody (s : Sys σ) (input output : Storage.Entry) (header : Option Storage.Entry) (rawKey : Bytes) : Prog Error Unit := do
  let reader ← streamOf input
  let writer ← streamOf output
  (Decrypt.execute s.C { headerReader := optStream header, reader, writer, rawKey }).mapErr .decrypt
  (Storage.flushFile output).mapErr .storage

/-- subcommands/decrypt.rs:17-64 `stream_mode`. -/
def decryptMode (s : Sys σ) (input output : List Char) (params : CryptoParams) : Prog Error Unit := do
  if input = output then Prog.throw .sameName
  else do
    consent s.cwd output params.force
    let inputFile ← readInput (toPath s.cwd input)
    let headerFile ← readHeader s params.header
    let rawKey ← getSecret s.words s.cwd params.key .direct
    let outputFile ← openOutput (toPath s.cwd output)
    decryptBody s inputFile outputFile headerFile rawKey
    hashIf s params.hashMode input
    eraseIf s params.erase params.force input

/-- `Path::is_file` for any of the paths (pack.rs:45). -/
def anyFile {ε : Type} (ps : List PathBuf) : Prog ε Bool := fun w =>
  (.ok (ps.any fun p => match w.resolve p with
    | .ok q => match w.look q with
        | some (.file _) => true
        | _ => false
    | .error _ => false), w)

/-- pack.rs:53-57: open the inputs. -/
def readInputs (s : Sys σ) : List (List Char) → Prog Error (List Storage.Entry)
  | [] => pure []
  | f :: fs => do
      let e ← readInput (toPath s.cwd f)
      let es ← readInputs s fs
      pure (e :: es)

/-- pack.rs:74-87: list the directories. -/
def expand : List Storage.Entry → Prog Error (List Storage.Entry)
  | [] => pure []
  | e :: es => do
      let files ← (match e with
        | .dir p => (Storage.readDir (.dir p)).mapErr .storage
        | .file p h => pure [.file p h])
      let rest ← expand es
      pure (files ++ rest)

/-- pack.rs:122-126: erase the inputs. -/
def eraseInputs (s : Sys σ) (force : ForceMode) : List (List Char) → Prog Error Unit
  | [] => pure ()
  | f :: fs => do
      secureErase s f 1 force
      eraseInputs s force fs

/-- pack.rs:74-116: list, pack, encrypt and flush. -/
def packBody (s : Sys σ) (params : CryptoParams) (algorithm : Algorithm) (inputs : List Storage.Entry) (output : Storage.Entry)
    (header : Option Storage.Entry) (rawKey : Bytes) : Prog Error Unit := do
  let compressFiles ← expand inputs
  let writer ← streamOf output
  (Pack.execute s.C s.z s.tmp
    { writer, compressFiles, headerWriter := optStream header, rawKey, headerType := headerType algorithm,
      hashingAlgorithm := params.hashingAlgorithm }).mapErr .pack
  flushOpt header
  (Storage.flushFile output).mapErr .storage

/-- subcommands/pack.rs:34-129 `execute`. -/
def packMode (s : Sys σ) (inputs : List (List Char)) (output : List Char) (packParams : PackParams) (params : CryptoParams)
    (algorithm : Algorithm) : Prog Error Unit := do
  if inputs.any (· = output) then Prog.throw .sameName
  else do
    if ← anyFile (inputs.map (toPath s.cwd)) then Prog.throw .inputIsFile
    else do
      consent s.cwd output params.force
      let inputFiles ← readInputs s inputs
      let rawKey ← getSecret s.words s.cwd params.key .validate
      let outputFile ← openOutput (toPath s.cwd output)
      let headerFile ← openHeader s params.force params.header
      packBody s params algorithm inputFiles outputFile headerFile rawKey
      hashIf s params.hashMode output
      if packParams.eraseSource then eraseInputs s params.force inputs else pure ()

/-- `Result::expect`. -/
def expect {ε ε' α : Type} (x : Prog ε α) : Prog ε' α := fun w =>
  match x w with
  | (.ok a, w') => (.ok a, w')
  | (.err _, w') => (.abort .panic, w')
  | (.abort a, w') => (.abort a, w')

/-- `Path::file_name`. -/
def fileName (p : PathBuf) : Option Name :=
  match p.comps.getLast? with
  | some (.name n) => some n
  | _ => none

/-- unpack.rs:46-72: the callback. -/
def onZipFile (force : ForceMode) (verbose : Bool) (p : PathBuf) : Prog Unpack.Error Bool := do
  match fileName p with
  | none => Prog.panic
  | some name => do
      let answer ← (do if ← existsAt p then expect (getAnswer (overwritePrompt name) true force) else pure true)
      if answer then do
        if verbose then say ("[i] Extracting ".toList ++ name) else pure ()
        pure true
      else do
        say ("[-] Skipping ".toList ++ name)
        pure false

/-- subcommands/unpack.rs:20-81 `unpack`. -/
def unpackMode (s : Sys σ) (input output : List Char) (verbose : Bool) (params : CryptoParams) : Prog Error Unit := do
  let inputFile ← readInput (toPath s.cwd input)
  let headerFile ← readHeader s params.header
  let rawKey ← getSecret s.words s.cwd params.key .direct
  let reader ← streamOf inputFile
  (Unpack.execute s.C s.z s.tmp s.order
    { reader, headerReader := optStream headerFile, rawKey, outputDir := toPath s.cwd output,
      onZipFile := some (onZipFile params.force verbose) }).mapErr .unpack
  hashIf s params.hashMode input

/-- primitives.rs:35-43 `Display for Algorithm`. -/
def showAlgorithm : Algorithm → String
  | .aes256Gcm => "AES-256-GCM"
  | .xChaCha20Poly1305 => "XChaCha20-Poly1305"
  | .deoxysII256 => "Deoxys-II-256"

/-- primitives.rs:52-59 `Display for Mode`. -/
def showMode : Mode → String
  | .memoryMode => "Memory Mode"
  | .streamMode => "Stream Mode"

/-- header.rs:60-70 `Display for HeaderVersion`. -/
def showVersion : HeaderVersion → String
  | .v1 => "V1" | .v2 => "V2" | .v3 => "V3" | .v4 => "V4" | .v5 => "V5"

/-- A number of hexadecimal digits. -/
def hexText (bs : Bytes) : String := String.ofList (hexEncode bs) ++ " (hex)"

/-- subcommands/header.rs:48-57: what is printed about the keyslots from number `i` on. -/
def slotLines : Nat → List Keyslot → List String
  | _, [] => []
  | i, k :: ks =>
      ["Keyslot " ++ toString i ++ ":", "  Hashing Algorithm: " ++ k.hashAlgorithm.display, "  Salt: " ++ hexText k.salt,
       "  Master Key: " ++ String.ofList (hexEncode k.encryptedKey) ++ " (hex, encrypted)", "  Master Key Nonce: " ++ hexText k.nonce]
        ++ slotLines (i + 1) ks

/-- subcommands/header.rs:34-59: what is printed about the keys; `unwrap` of a missing value panics. -/
def keyLines (h : Header) : Res Error (List String) :=
  let old (v : Int) : Res Error (List String) :=
    match h.salt with
    | some salt => .ok ["Salt: " ++ hexText salt, "Hashing Algorithm: " ++ (HashingAlgorithm.argon2id v).display]
    | none => .abort .panic
  match h.headerType.version with
  | .v1 => old 1
  | .v2 => old 2
  | .v3 => old 3
  | .v4 | .v5 =>
      match h.keyslots with
      | some ks => .ok (slotLines 0 ks)
      | none => .abort .panic

/-- Print lines (`println!`). -/
def sayAll : List String → Prog Error Unit
  | [] => pure ()
  | l :: ls => do
      say l.toList
      sayAll ls

/-- subcommands/header.rs:14-62 `details`; returns the lines. -/
def headerDetails (s : Sys σ) (input : List Char) : Prog Error (List String) := do
  let f ← (Volaris.openFile (toPath s.cwd input)).mapErr fun _ => .openFile
  let (h, aad) ← (deserialize f).mapErr fun _ => .invalidHeader
  let lines := ["Header version: " ++ showVersion h.headerType.version, "Encryption algorithm: " ++ showAlgorithm h.headerType.algorithm,
      "Encryption mode: " ++ showMode h.headerType.mode, "Encryption nonce: " ++ hexText h.nonce, "AAD: " ++ hexText aad]
  sayAll lines
  let rest ← Prog.lift (keyLines h)
  sayAll rest
  pure (lines ++ rest)

/-- subcommands/header.rs:67-89 `dump`. -/
def headerDump (s : Sys σ) (input output : List Char) (force : ForceMode) : Prog Error Unit := do
  let inputFile ← readInput (toPath s.cwd input)
  consent s.cwd output force
  let outputFile ← openOutput (toPath s.cwd output)
  let reader ← streamOf inputFile
  let writer ← streamOf outputFile
  (HeaderOps.dump reader writer).mapErr .headerOp
  (Storage.flushFile outputFile).mapErr .storage

/-- subcommands/header.rs:96-117 `restore`. -/
def headerRestore (s : Sys σ) (input output : List Char) : Prog Error Unit := do
  let inputFile ← readInput (toPath s.cwd input)
  let writer ← (Volaris.openFile (toPath s.cwd output)).mapErr fun _ => .openFile
  let reader ← streamOf inputFile
  (HeaderOps.restore reader writer).mapErr .headerOp

/-- subcommands/header.rs:123-139 `strip`. -/
def headerStrip (s : Sys σ) (input : List Char) : Prog Error Unit := do
  let handle ← (Volaris.openFile (toPath s.cwd input)).mapErr fun _ => .openFile
  (HeaderOps.strip handle).mapErr .headerOp

/-- subcommands/key.rs:15-34, 59-78, 103-122, 139-157: open the file, check the version of its header and rewind. -/
def openV5 (s : Sys σ) (input : List Char) : Prog Error Nat := do
  let handle ← (Volaris.openFile (toPath s.cwd input)).mapErr fun _ => .openFile
  let (header, _) ← (deserialize handle).mapErr .headerParse
  if header.headerType.version.rank < HeaderVersion.v5.rank then Prog.throw .notV5
  else do
    (rewind handle).mapErr fun _ => .rewind
    pure handle

/-- subcommands/key.rs:36-38, 42-44, 80-82, 86-88, 124-126, 159-161: what is said before a key is typed. -/
def announce (key : Key) (line : String) : Prog Error Unit :=
  if key = .user then say line.toList else pure ()

/-- subcommands/key.rs:14-56 `add`. -/
def keyAdd (s : Sys σ) (input : List Char) (params : KeyManipulationParams) : Prog Error Unit := do
  let handle ← openV5 s input
  announce params.keyOld "[i] Please enter your old key below"
  let rawKeyOld ← getSecret s.words s.cwd params.keyOld .direct
  announce params.keyNew "[i] Please enter your new key below"
  let rawKeyNew ← getSecret s.words s.cwd params.keyNew .validate
  (KeyOps.add s.C { handle, hashAlgorithm := params.hashingAlgorithm, rawKeyOld, rawKeyNew }).mapErr .key

/-- subcommands/key.rs:58-100 `change`. -/
def keyChange (s : Sys σ) (input : List Char) (params : KeyManipulationParams) : Prog Error Unit := do
  let handle ← openV5 s input
  announce params.keyOld "[i] Please enter your old key below"
  let rawKeyOld ← getSecret s.words s.cwd params.keyOld .direct
  announce params.keyNew "[i] Please enter your new key below"
  let rawKeyNew ← getSecret s.words s.cwd params.keyNew .validate
  (KeyOps.change s.C { handle, hashAlgorithm := params.hashingAlgorithm, rawKeyOld, rawKeyNew }).mapErr .key

/-- subcommands/key.rs:102-136 `delete`. -/
def keyDelete (s : Sys σ) (input : List Char) (key : Key) : Prog Error Unit := do
  let handle ← openV5 s input
  announce key "[i] Please enter your key below"
  let rawKeyOld ← getSecret s.words s.cwd key .direct
  (KeyOps.delete s.C handle rawKeyOld).mapErr .key

/-- subcommands/key.rs:138-171 `verify`. -/
def keyVerify (s : Sys σ) (input : List Char) (key : Key) : Prog Error Unit := do
  let handle ← openV5 s input
  announce key "[i] Please enter your key below"
  let rawKey ← getSecret s.words s.cwd key .direct
  (KeyOps.verify s.C handle rawKey).mapErr .key

/-! ## subcommands.rs -/

/-- subcommands.rs:24-35 `encrypt`. -/
def encrypt (s : Sys σ) (m : Matches) : Prog Error Unit := do
  let params ← parameterHandler m
  let algorithm ← algorithm m
  let input ← getParam m .input
  let output ← getParam m .output
  encryptMode s input output params algorithm

/-- subcommands.rs:37-46 `decrypt`. -/
def decrypt (s : Sys σ) (m : Matches) : Prog Error Unit := do
  let params ← parameterHandler m
  let input ← getParam m .input
  let output ← getParam m .output
  decryptMode s input output params

/-- subcommands.rs:48-52 `erase`. -/
def erase (s : Sys σ) (m : Matches) : Prog Error Unit := do
  let (passes, force) ← eraseParams m
  let input ← getParam m .input
  secureErase s input passes force

/-- subcommands.rs:54-65 `pack`. -/
def pack (s : Sys σ) (m : Matches) : Prog Error Unit := do
  let (cryptoParams, packParams) ← packParams m
  let algorithm ← algorithm m
  let input ← getParams m .input
  let output ← getParam m .output
  packMode s input output packParams cryptoParams algorithm

/-- subcommands.rs:67-84 `unpack`; the argument `verbose` (cli.rs:289-294) is not a flag. -/
def unpack (s : Sys σ) (m : Matches) : Prog Error Unit := do
  let params ← parameterHandler m
  let verbose ← getFlagOfValue m .verbose
  let input ← getParam m .input
  let output ← getParam m .output
  unpackMode s input output verbose params

/-- subcommands.rs:86-94 `hash_stream`. -/
def hash (s : Sys σ) (m : Matches) : Prog Error (List String) := do
  let files ← getMany m .input
  hashStream s (files.getD [])

/-- subcommands.rs:96-105 `header_dump`, on the matches of the inner command. -/
def headerDumpCmd (s : Sys σ) (m : Matches) : Prog Error Unit := do
  let force ← forcemode m
  let input ← getParam m .input
  let output ← getParam m .output
  headerDump s input output force

/-- subcommands.rs:107-114 `header_restore`. -/
def headerRestoreCmd (s : Sys σ) (m : Matches) : Prog Error Unit := do
  let input ← getParam m .input
  let output ← getParam m .output
  headerRestore s input output

/-- subcommands.rs:116-120 `header_strip`. -/
def headerStripCmd (s : Sys σ) (m : Matches) : Prog Error Unit := do
  let input ← getParam m .input
  headerStrip s input

/-- subcommands.rs:122-126 `header_details`. -/
def headerDetailsCmd (s : Sys σ) (m : Matches) : Prog Error (List String) := do
  let input ← getParam m .input
  headerDetails s input

/-- subcommands.rs:128-134 `key_change`. -/
def keyChangeCmd (s : Sys σ) (m : Matches) : Prog Error Unit := do
  let params ← keyManipulationParams m
  let input ← getParam m .input
  keyChange s input params

/-- subcommands.rs:136-142 `key_add`. -/
def keyAddCmd (s : Sys σ) (m : Matches) : Prog Error Unit := do
  let params ← keyManipulationParams m
  let input ← getParam m .input
  keyAdd s input params

/-- subcommands.rs:144-149 `key_del`. -/
def keyDelCmd (s : Sys σ) (m : Matches) : Prog Error Unit := do
  let key ← Key.init m {} .keyfile
  let input ← getParam m .input
  keyDelete s input key

/-- subcommands.rs:151-156 `key_verify`. -/
def keyVerifyCmd (s : Sys σ) (m : Matches) : Prog Error Unit := do
  let key ← Key.init m {} .keyfile
  let input ← getParam m .input
  keyVerify s input key

end Volaris.Cli
