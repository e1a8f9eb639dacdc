import Verif.Model.Stream
/-!
# crates/volaris-tools/src/encrypt.rs

`gen_salt`, `gen_nonce`, `gen_master_key` of volaris-tools/src/utils.rs are the ones of `corecrypto`
outside of tests (utils.rs:46-58).
-/
namespace Volaris.Encrypt

/-- encrypt.rs:15-24 `Error`. -/
inductive Error where
  | resetCursorPosition
  | hashKey
  | encryptMasterKey
  | encryptFile
  | writeHeader
  | initializeStreams
  | initializeCiphers
  | createAad
deriving DecidableEq, Repr

/-- encrypt.rs:43-55 `Request`; readers and writers are handles of the world. -/
structure Request where
  reader : Nat
  writer : Nat
  headerWriter : Option Nat
  rawKey : Bytes
  headerType : HeaderType
  hashingAlgorithm : HashingAlgorithm

/-- encrypt.rs:62-112: steps 1 to 5 and the construction of the header. -/
def prepare (C : Crypto) (req : Request) : Prog Error (Header × Stream) := do
  let salt ← genSalt
  let key ← Prog.lift ((req.hashingAlgorithm.hash C req.rawKey salt).mapErr fun _ => .hashKey)
  let cipher ← Prog.lift ((Cipher.initialize key req.headerType.algorithm).mapErr
    fun _ => .initializeCiphers)
  let masterKey ← genMasterKey
  let masterKeyNonce ← genNonce req.headerType.algorithm .memoryMode
  let encryptedKey ← Prog.lift ((cipher.encrypt C masterKeyNonce [] masterKey).mapErr
    fun _ => .encryptMasterKey)
  let keyslot : Keyslot :=
    { encryptedKey := vecToArr ENCRYPTED_MASTER_KEY_LEN encryptedKey
      nonce := masterKeyNonce
      hashAlgorithm := req.hashingAlgorithm
      salt }
  let headerNonce ← genNonce req.headerType.algorithm req.headerType.mode
  let streams ← Prog.lift ((encInitialize masterKey headerNonce req.headerType.algorithm).mapErr
    fun _ => .initializeStreams)
  pure ({ headerType := req.headerType, nonce := headerNonce, salt := none,
          keyslots := some [keyslot] }, streams)

/-- encrypt.rs:119-137: the header goes to the start of the output or of the header file, with one `write` call
whose byte count is discarded. -/
def writeHeader (req : Request) (header : Header) : Prog Error Unit :=
  match req.headerWriter with
  | none => do
      let bytes ← Prog.lift (header.serialize.mapErr fun _ => .writeHeader)
      let _ ← (write req.writer bytes).mapErr fun _ => .writeHeader
      pure ()
  | some hw => do
      (rewind hw).mapErr fun _ => .resetCursorPosition
      let bytes ← Prog.lift (header.serialize.mapErr fun _ => .writeHeader)
      let _ ← (write hw bytes).mapErr fun _ => .writeHeader
      pure ()

/-- encrypt.rs:57-150 `execute`. -/
def execute (C : Crypto) (req : Request) : Prog Error Unit := do
  let (header, streams) ← prepare C req
  (rewind req.writer).mapErr fun _ => .resetCursorPosition
  writeHeader req header
  let aad ← Prog.lift (header.createAad.mapErr fun _ => .createAad)
  (rewind req.reader).mapErr fun _ => .resetCursorPosition
  (encryptFile C streams req.reader req.writer aad).mapErr fun _ => .encryptFile

end Volaris.Encrypt
