import Verif.Model.Header
/-!
# Ciphers and key derivation

crates/volaris-crypto/src/cipher.rs, key.rs, and `HashingAlgorithm::hash` of header.rs.
The AEADs and password hashes of the external crates are the parameter `Crypto`.
-/
namespace Volaris

/-- A password-hash configuration: which function and its (memory/space, iterations, lanes). -/
inductive Kdf where
  | argon2id (mem iters lanes : Nat)
  | balloon (space time lanes : Nat)
deriving DecidableEq, Repr

/-- The external primitives.  `enc a k n ad p` is AEAD encryption (`None`: the crate reports an error, e.g. too
long a message), `dec` its inverse (`None`: authentication failure), `kdf` the password hashes (`None`: the crate reports an error,
e.g. a too long password), `ctrMax` is `COUNTER_MAX` of `aead::stream::StreamLE31`. -/
structure Crypto where
  enc : Algorithm → (key nonce aad msg : Bytes) → Option Bytes
  dec : Algorithm → (key nonce aad ct : Bytes) → Option Bytes
  kdf : Kdf → (password salt : Bytes) → Option Bytes
  ctrMax : Nat

/-- What is assumed of the primitives (no secrecy or integrity assumption is in here). -/
structure Crypto.Lawful (C : Crypto) : Prop where
  dec_enc : ∀ a k n ad p c, C.enc a k n ad p = some c → C.dec a k n ad c = some p
  enc_dec : ∀ a k n ad p c, C.dec a k n ad c = some p → C.enc a k n ad p = some c
  enc_len : ∀ a k n ad p c, C.enc a k n ad p = some c → c.length = p.length + 16
  kdf_len : ∀ f p s k, C.kdf f p s = some k → k.length = 32
  ctr_lt : C.ctrMax < 2 ^ 31

/-- Failure of an AEAD call (`aead::Error` carries no information). -/
inductive AeadErr where
  | aead
deriving DecidableEq, Repr

/-! ## cipher.rs -/

/-- cipher.rs:32-36 `Ciphers`: an algorithm together with its key. -/
structure Cipher where
  algorithm : Algorithm
  key : Bytes
deriving DecidableEq, Repr

/-- cipher.rs:54-78 `Ciphers::initialize`; `new_from_slice` fails unless the key has 32 bytes. -/
def Cipher.initialize (key : Bytes) (algorithm : Algorithm) : Res AeadErr Cipher :=
  if key.length = 32 then .ok { algorithm, key } else .err .aead

/-- cipher.rs:83-93 `Ciphers::encrypt`; converting a slice of the wrong length into a nonce panics. -/
def Cipher.encrypt (C : Crypto) (c : Cipher) (nonce aad msg : Bytes) : Res AeadErr Bytes :=
  if nonce.length ≠ getNonceLen c.algorithm .memoryMode then .abort .panic
  else Res.ofOption .aead (C.enc c.algorithm c.key nonce aad msg)

/-- cipher.rs:113-123 `Ciphers::decrypt`. -/
def Cipher.decrypt (C : Crypto) (c : Cipher) (nonce aad ct : Bytes) : Res AeadErr Bytes :=
  if nonce.length ≠ getNonceLen c.algorithm .memoryMode then .abort .panic
  else Res.ofOption .aead (C.dec c.algorithm c.key nonce aad ct)

/-! ## key.rs, password hashing -/

/-- Failures of the key functions (`anyhow` messages in the code). -/
inductive KeyErr where
  | unsupported
  | hashing
  | missingSalt
  | noKeyslot
  | noMatch
  | cipher
deriving DecidableEq, Repr

/-- key.rs:41-82 `argon2id_hash`. -/
def argon2idHash (C : Crypto) (rawKey salt : Bytes) (version : HeaderVersion) : Res KeyErr Bytes :=
  match version with
  | .v1 => Res.ofOption .hashing (C.kdf (.argon2id 8192 8 4) rawKey salt)
  | .v2 => Res.ofOption .hashing (C.kdf (.argon2id 262144 8 4) rawKey salt)
  | .v3 => Res.ofOption .hashing (C.kdf (.argon2id 262144 10 4) rawKey salt)
  | .v4 | .v5 => .err .unsupported

/-- key.rs:105-134 `balloon_hash`. -/
def balloonHash (C : Crypto) (rawKey salt : Bytes) (version : HeaderVersion) : Res KeyErr Bytes :=
  match version with
  | .v1 | .v2 | .v3 => .err .unsupported
  | .v4 => Res.ofOption .hashing (C.kdf (.balloon 262144 1 1) rawKey salt)
  | .v5 => Res.ofOption .hashing (C.kdf (.balloon 278528 1 1) rawKey salt)

/-- header.rs:127-149 `HashingAlgorithm::hash`. -/
def HashingAlgorithm.hash (C : Crypto) (a : HashingAlgorithm) (rawKey salt : Bytes) : Res KeyErr Bytes :=
  match a with
  | .argon2id i =>
      if i = 1 then argon2idHash C rawKey salt .v1
      else if i = 2 then argon2idHash C rawKey salt .v2
      else if i = 3 then argon2idHash C rawKey salt .v3
      else .err .unsupported
  | .blake3Balloon i =>
      if i = 4 then balloonHash C rawKey salt .v4
      else if i = 5 then balloonHash C rawKey salt .v5
      else .err .unsupported

/-- key.rs:189-195 `vec_to_arr`: the first `n` bytes, zero padded to `n`. -/
def vecToArr (n : Nat) (v : Bytes) : Bytes := v.take n ++ zeros (n - v.length)

/-- key.rs:172-179: hash the key with the keyslot's salt and open its encrypted master key. -/
def openKeyslot (C : Crypto) (rawKey : Bytes) (algorithm : Algorithm) (k : Keyslot) : Res KeyErr Bytes := do
  let key ← k.hashAlgorithm.hash C rawKey k.salt
  let cipher ← (Cipher.initialize key algorithm).mapErr fun _ => .cipher
  let mk ← (cipher.decrypt C k.nonce [] k.encryptedKey).mapErr fun _ => .cipher
  pure (vecToArr MASTER_KEY_LEN mk)

/-- key.rs:170-181: `find_map` over the keyslots, an error skips to the next one. -/
def firstOpening (C : Crypto) (rawKey : Bytes) (algorithm : Algorithm) : List Keyslot → Res KeyErr Bytes
  | [] => .err .noMatch
  | k :: ks =>
      match openKeyslot C rawKey algorithm k with
      | .ok mk => .ok mk
      | .err _ => firstOpening C rawKey algorithm ks
      | .abort a => .abort a

/-- key.rs:144-184 `decrypt_master_key`. -/
def decryptMasterKey (C : Crypto) (rawKey : Bytes) (h : Header) : Res KeyErr Bytes :=
  match h.headerType.version with
  | .v1 | .v2 | .v3 =>
      match h.salt with
      | none => .err .missingSalt
      | some salt => argon2idHash C rawKey salt h.headerType.version
  | .v4 =>
      match h.keyslots with
      | none => .err .noKeyslot
      | some [] => .err .noMatch
      | some (k :: _) => openKeyslot C rawKey h.headerType.algorithm k
  | .v5 =>
      match h.keyslots with
      | none => .err .noKeyslot
      | some ks => firstOpening C rawKey h.headerType.algorithm ks

end Volaris
