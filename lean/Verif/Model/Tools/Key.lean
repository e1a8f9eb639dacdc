import Verif.Model.Stream
/-!
# crates/volaris-tools/src/key.rs and key/{add,change,delete,verify}.rs
-/
namespace Volaris.KeyOps

/-- tools key.rs:15-26 `Error`.  `HeaderSizeParse` cannot occur (64, 128, 416 fit an i64). -/
inductive Error where
  | unsupported
  | incorrectKey
  | masterKeyEncrypt
  | tooManyKeyslots
  | keyHash
  | cipherInit
  | headerDeserialize
  | headerWrite
  | seek
deriving DecidableEq, Repr

/-- tools key.rs:58-80: the search loop; `i` is the index of the head of the list.  Result: the decrypted bytes
and the index of the first keyslot that opens, if any. -/
def searchKeyslots (C : Crypto) (rawKey : Bytes) (algorithm : Algorithm) :
    Nat → List Keyslot → Res Error (Option (Bytes × Nat))
  | _, [] => .ok none
  | i, k :: ks => do
      let key ← (k.hashAlgorithm.hash C rawKey k.salt).mapErr fun _ => .keyHash
      let cipher ← (Cipher.initialize key algorithm).mapErr fun _ => .cipherInit
      match cipher.decrypt C k.nonce [] k.encryptedKey with
      | .ok mk => .ok (some (vecToArr MASTER_KEY_LEN mk, i))
      | .err _ => searchKeyslots C rawKey algorithm (i + 1) ks
      | .abort a => .abort a

/-- tools key.rs:49-89 `decrypt_v5_master_key_with_index`: an all-zero master key counts as "not found". -/
def decryptV5MasterKeyWithIndex (C : Crypto) (keyslots : List Keyslot) (rawKey : Bytes)
    (algorithm : Algorithm) : Res Error (Bytes × Nat) := do
  let found ← searchKeyslots C rawKey algorithm 0 keyslots
  let (masterKey, index) := found.getD (zeros MASTER_KEY_LEN, 0)
  if masterKey = zeros MASTER_KEY_LEN then .err .incorrectKey else .ok (masterKey, index)

/-- tools key.rs:94-109 `encrypt_master_key`. -/
def encryptMasterKey (C : Crypto) (masterKey keyNew nonce : Bytes) (algorithm : Algorithm) :
    Res Error Bytes := do
  let cipher ← (Cipher.initialize keyNew algorithm).mapErr fun _ => .cipherInit
  let c ← (cipher.encrypt C nonce [] masterKey).mapErr fun _ => .masterKeyEncrypt
  pure (vecToArr ENCRYPTED_MASTER_KEY_LEN c)

/-- key/add.rs:30-48, key/change.rs:30-48, key/delete.rs:22-40: read the header, go back to its start, take
its keyslots. -/
def load (h : Nat) : Prog Error (Header × List Keyslot) := do
  let (header, _) ← (deserialize h).mapErr fun _ => .headerDeserialize
  if header.headerType.version.rank < HeaderVersion.v5.rank then Prog.throw .unsupported
  else do
    (seekCur h (-(header.getSize : Int))).mapErr fun _ => .seek
    match header.keyslots with
    | none => Prog.panic
    | some ks => pure (header, ks)

/-- key/add.rs:85-96, key/change.rs:79-90, key/delete.rs:51-62: write the header with new keyslots. -/
def store (h : Nat) (header : Header) (ks : List Keyslot) : Prog Error Unit :=
  (Header.write { header with keyslots := some ks } h).mapErr fun _ => .headerWrite

/-- key/add.rs:16-24 and key/change.rs:16-24 `Request`. -/
structure NewKeyRequest where
  handle : Nat
  rawKeyOld : Bytes
  rawKeyNew : Bytes
  hashAlgorithm : HashingAlgorithm

/-- key/add.rs:26-99 `execute`. -/
def add (C : Crypto) (req : NewKeyRequest) : Prog Error Unit := do
  let (header, keyslots) ← load req.handle
  let (masterKey, _) ← Prog.lift
    (decryptV5MasterKeyWithIndex C keyslots req.rawKeyOld header.headerType.algorithm)
  if keyslots.length = 4 then Prog.throw .tooManyKeyslots
  else do
    let salt ← genSalt
    let masterKeyNonce ← genNonce header.headerType.algorithm .memoryMode
    let keyNew ← Prog.lift ((req.hashAlgorithm.hash C req.rawKeyNew salt).mapErr fun _ => .keyHash)
    let encryptedKey ← Prog.lift
      (encryptMasterKey C masterKey keyNew masterKeyNonce header.headerType.algorithm)
    let keyslot : Keyslot :=
      { encryptedKey, nonce := masterKeyNonce, salt, hashAlgorithm := req.hashAlgorithm }
    store req.handle header (keyslots ++ [keyslot])

/-- key/change.rs:26-93 `execute`; `keyslots[index]` panics out of range. -/
def change (C : Crypto) (req : NewKeyRequest) : Prog Error Unit := do
  let (header, keyslots) ← load req.handle
  let (masterKey, index) ← Prog.lift
    (decryptV5MasterKeyWithIndex C keyslots req.rawKeyOld header.headerType.algorithm)
  let salt ← genSalt
  let keyNew ← Prog.lift ((req.hashAlgorithm.hash C req.rawKeyNew salt).mapErr fun _ => .keyHash)
  let masterKeyNonce ← genNonce header.headerType.algorithm .memoryMode
  let encryptedKey ← Prog.lift
    (encryptMasterKey C masterKey keyNew masterKeyNonce header.headerType.algorithm)
  let keyslot : Keyslot :=
    { encryptedKey, nonce := masterKeyNonce, salt, hashAlgorithm := req.hashAlgorithm }
  if index < keyslots.length then store req.handle header (keyslots.set index keyslot)
  else Prog.panic

/-- key/delete.rs:18-65 `execute`; `Vec::remove` panics out of range. -/
def delete (C : Crypto) (handle : Nat) (rawKeyOld : Bytes) : Prog Error Unit := do
  let (header, keyslots) ← load handle
  let (_, index) ← Prog.lift
    (decryptV5MasterKeyWithIndex C keyslots rawKeyOld header.headerType.algorithm)
  if index < keyslots.length then store handle header (keyslots.eraseIdx index)
  else Prog.panic

/-- key/verify.rs:19-43 `execute`. -/
def verify (C : Crypto) (handle : Nat) (rawKey : Bytes) : Prog Error Unit := do
  let (header, _) ← (deserialize handle).mapErr fun _ => .headerDeserialize
  if header.headerType.version.rank < HeaderVersion.v5.rank then Prog.throw .unsupported
  else
    match header.keyslots with
    | none => Prog.panic
    | some ks => do
        let _ ← Prog.lift (decryptV5MasterKeyWithIndex C ks rawKey header.headerType.algorithm)
        pure ()

end Volaris.KeyOps
