import Verif.Model.Stream
/-!
# crates/volaris-tools/src/decrypt.rs
-/
namespace Volaris.Decrypt

/-- decrypt.rs:14-23 `Error`. -/
inductive Error where
  | initializeCiphers
  | initializeStreams
  | deserializeHeader
  | readEncryptedData
  | decryptMasterKey
  | decryptData
  | writeData
  | rewindDataReader
deriving DecidableEq, Repr

/-- decrypt.rs:44-54 `Request`.  The `on_decrypted_header` callback only observes the header type and
is left out. -/
structure Request where
  headerReader : Option Nat
  reader : Nat
  writer : Nat
  rawKey : Bytes

/-- decrypt.rs:61-94: get the header, from the separate header file if there is one.  In that case a
header-sized buffer (initially zero) is read from the content, running into the end of file is tolerated,
and unless the buffer is all zero the content is rewound. -/
def getHeader (req : Request) : Prog Error (Header × Bytes) :=
  match req.headerReader with
  | some hr => do
      let (header, aad) ← (deserialize hr).mapErr fun _ => .deserializeHeader
      let got ← (readUpTo req.reader header.getSize).mapErr fun _ => .readEncryptedData
      let headerBytes := got ++ zeros (header.getSize - got.length)
      if !(headerBytes.all (· == 0)) then
        (rewind req.reader).mapErr fun _ => .rewindDataReader
      pure (header, aad)
  | none => (deserialize req.reader).mapErr fun _ => .deserializeHeader

/-- decrypt.rs:100-147: decrypt the rest of the reader. -/
def body (C : Crypto) (req : Request) (header : Header) (aad : Bytes) : Prog Error Unit :=
  match header.headerType.mode with
  | .memoryMode => do
      let encryptedData ← (readToEnd req.reader).mapErr fun _ => .readEncryptedData
      let masterKey ← Prog.lift ((decryptMasterKey C req.rawKey header).mapErr fun _ => .decryptMasterKey)
      let ciphers ← Prog.lift ((Cipher.initialize masterKey header.headerType.algorithm).mapErr
        fun _ => .initializeCiphers)
      let decrypted ← Prog.lift ((ciphers.decrypt C header.nonce aad encryptedData).mapErr
        fun _ => .decryptData)
      (writeAll req.writer decrypted).mapErr fun _ => .writeData
  | .streamMode => do
      let masterKey ← Prog.lift ((decryptMasterKey C req.rawKey header).mapErr fun _ => .decryptMasterKey)
      let streams ← Prog.lift ((decInitialize masterKey header.nonce header.headerType.algorithm).mapErr
        fun _ => .initializeStreams)
      (decryptFile C streams req.reader req.writer aad).mapErr fun _ => .decryptData

/-- decrypt.rs:56-150 `execute`. -/
def execute (C : Crypto) (req : Request) : Prog Error Unit := do
  let (header, aad) ← getHeader req
  body C req header aad

end Volaris.Decrypt
