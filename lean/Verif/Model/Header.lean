import Verif.Model.Primitives
/-!
# crates/volaris-crypto/src/header.rs

`[u8; N]` fields are byte lists here; that they have length `N` (which Rust's types guarantee) is the
predicate `Keyslot.Sized` / `Header.Sized` in `Spec/Header.lean`, and the deserializer is proved to
produce only such headers.
-/
namespace Volaris

/-- header.rs:51-58 `HeaderVersion`. -/
inductive HeaderVersion where
  | v1 | v2 | v3 | v4 | v5
deriving DecidableEq, Repr

/-- header.rs:51 derived `PartialOrd`: position in the declaration. -/
def HeaderVersion.rank : HeaderVersion → Nat
  | .v1 => 1 | .v2 => 2 | .v3 => 3 | .v4 => 4 | .v5 => 5

/-- header.rs:47 `HEADER_VERSION`. -/
def HEADER_VERSION : HeaderVersion := .v5

/-- header.rs:78-82 `HeaderType`. -/
structure HeaderType where
  version : HeaderVersion
  algorithm : Algorithm
  mode : Mode
deriving DecidableEq, Repr

/-- header.rs:111-114 `HashingAlgorithm`; the payload is an `i32`. -/
inductive HashingAlgorithm where
  | argon2id (i : Int)
  | blake3Balloon (i : Int)
deriving DecidableEq, Repr

/-- header.rs:105 `ARGON2ID_LATEST`. -/
def ARGON2ID_LATEST : Int := 3
/-- header.rs:106 `BLAKE3BALLOON_LATEST`. -/
def BLAKE3BALLOON_LATEST : Int := 5

/-- header.rs:116-123 `Display for HashingAlgorithm`. -/
def HashingAlgorithm.display : HashingAlgorithm → String
  | .argon2id i => "Argon2id (param v" ++ toString i ++ ")"
  | .blake3Balloon i => "BLAKE3-Balloon (param v" ++ toString i ++ ")"

/-- header.rs:155-160 `Keyslot`. -/
structure Keyslot where
  hashAlgorithm : HashingAlgorithm
  encryptedKey : Bytes
  nonce : Bytes
  salt : Bytes
deriving DecidableEq, Repr

/-- header.rs:98-103 `Header`. -/
structure Header where
  headerType : HeaderType
  nonce : Bytes
  salt : Option Bytes
  keyslots : Option (List Keyslot)
deriving DecidableEq, Repr

/-- Failures of the header functions (`anyhow` messages in the code). -/
inductive HdrErr where
  | io (e : IoErr)
  | version
  | algorithm
  | mode
  | cursorEof
  | keyslotHash
  | deprecated
  | noSalt
deriving DecidableEq, Repr

/-- `vec![0u8; n]`. -/
def zeros (n : Nat) : Bytes := List.replicate n 0

/-- header.rs:165-179 `Keyslot::serialize`. -/
def Keyslot.serialize (k : Keyslot) : Bytes :=
  match k.hashAlgorithm with
  | .argon2id i =>
      if i = 1 then [0xDF, 0xA1] else if i = 2 then [0xDF, 0xA2] else if i = 3 then [0xDF, 0xA3]
      else [0x00, 0x00]
  | .blake3Balloon i =>
      if i = 4 then [0xDF, 0xB4] else if i = 5 then [0xDF, 0xB5] else [0x00, 0x00]

/-- header.rs:200-223 `serialize_version`. -/
def serializeVersion : HeaderVersion → Bytes
  | .v1 => [0xDE, 0x01]
  | .v2 => [0xDE, 0x02]
  | .v3 => [0xDE, 0x03]
  | .v4 => [0xDE, 0x04]
  | .v5 => [0xDE, 0x05]

/-- header.rs:491-506 `serialize_algorithm`. -/
def serializeAlgorithm : Algorithm → Bytes
  | .xChaCha20Poly1305 => [0x0E, 0x01]
  | .aes256Gcm => [0x0E, 0x02]
  | .deoxysII256 => [0x0E, 0x03]

/-- header.rs:511-522 `serialize_mode`. -/
def serializeMode : Mode → Bytes
  | .streamMode => [0x0C, 0x01]
  | .memoryMode => [0x0C, 0x02]

/-- header.rs:186-195 `get_tag`, the three fields one after the other (every use appends them in this order). -/
def HeaderType.tag (t : HeaderType) : Bytes :=
  serializeVersion t.version ++ serializeAlgorithm t.algorithm ++ serializeMode t.mode

/-- header.rs:636-642 `get_size`, and header.rs:270-274 `header_length`. -/
def HeaderVersion.size : HeaderVersion → Nat
  | .v1 | .v2 | .v3 => 64
  | .v4 => 128
  | .v5 => 416

/-- header.rs:636-642 `get_size`. -/
def Header.getSize (h : Header) : Nat := h.headerType.version.size

/-! ## Deserialization -/

/-- `Cursor::read_exact` on the in-memory copy of the header: the bytes read and what is left. -/
def rd (n : Nat) (bs : Bytes) : Res HdrErr (Bytes × Bytes) :=
  if n ≤ bs.length then .ok (bs.take n, bs.drop n) else .err .cursorEof

/-- header.rs:261-268: version bytes. -/
def parseVersion (b : Bytes) : Option HeaderVersion :=
  if b = [0xDE, 0x01] then some .v1
  else if b = [0xDE, 0x02] then some .v2
  else if b = [0xDE, 0x03] then some .v3
  else if b = [0xDE, 0x04] then some .v4
  else if b = [0xDE, 0x05] then some .v5
  else none

/-- header.rs:291-296: algorithm bytes. -/
def parseAlgorithm (b : Bytes) : Option Algorithm :=
  if b = [0x0E, 0x01] then some .xChaCha20Poly1305
  else if b = [0x0E, 0x02] then some .aes256Gcm
  else if b = [0x0E, 0x03] then some .deoxysII256
  else none

/-- header.rs:303-307: mode bytes. -/
def parseMode (b : Bytes) : Option Mode :=
  if b = [0x0C, 0x01] then some .streamMode
  else if b = [0x0C, 0x02] then some .memoryMode
  else none

/-- header.rs:430-437: keyslot identifier. -/
def parseKeyslotId (b : Bytes) : Option HashingAlgorithm :=
  if b = [0xDF, 0xA1] then some (.argon2id 1)
  else if b = [0xDF, 0xA2] then some (.argon2id 2)
  else if b = [0xDF, 0xA3] then some (.argon2id 3)
  else if b = [0xDF, 0xB4] then some (.blake3Balloon 4)
  else if b = [0xDF, 0xB5] then some (.blake3Balloon 5)
  else none

/-- header.rs:395-447: the keyslot loop of V5, `n` iterations left.  An identifier that does not start with
0xDF is skipped by `continue` after only its two bytes have been consumed. -/
def parseKeyslots (knl : Nat) : Nat → Bytes → Res HdrErr (List Keyslot)
  | 0, _ => .ok []
  | n + 1, bs => do
      let (identifier, bs) ← rd 2 bs
      if identifier.take 1 ≠ [0xDF] then parseKeyslots knl n bs
      else do
        let (encryptedKey, bs) ← rd 48 bs
        let (nonce, bs) ← rd knl bs
        let (_, bs) ← rd (24 - knl) bs
        let (salt, bs) ← rd SALT_LEN bs
        let (_, bs) ← rd 6 bs
        let hashAlgorithm ← Res.ofOption .keyslotHash (parseKeyslotId identifier)
        let rest ← parseKeyslots knl n bs
        pure ({ hashAlgorithm, encryptedKey, nonce, salt } :: rest)

/-- header.rs:453-475: the AAD taken from the raw header bytes. -/
def aadOfBytes (t : HeaderType) (full : Bytes) : Bytes :=
  match t.version with
  | .v1 | .v2 => []
  | .v3 => full
  | .v4 => full.take 48 ++ full.drop (96 + getNonceLen t.algorithm .memoryMode)
  | .v5 => full.take 32

/-- header.rs:281-485: everything after the header bytes have been read.  The lengths of the skipped paddings
(`26 - nonce_len`, `24 - nonce_len`, `32 - nonce_len`) cannot underflow as nonces are at most 24 bytes. -/
def parseHeader (version : HeaderVersion) (full : Bytes) : Res HdrErr (Header × Bytes) := do
  let bs := full.drop 2
  let (algorithmBytes, bs) ← rd 2 bs
  let algorithm ← Res.ofOption .algorithm (parseAlgorithm algorithmBytes)
  let (modeBytes, bs) ← rd 2 bs
  let mode ← Res.ofOption .mode (parseMode modeBytes)
  let headerType : HeaderType := { version, algorithm, mode }
  let nl := getNonceLen algorithm mode
  let mnl := getNonceLen algorithm .memoryMode
  match version with
  | .v1 | .v3 => do
      let (salt, bs) ← rd 16 bs
      let (_, bs) ← rd 16 bs
      let (nonce, bs) ← rd nl bs
      let (_, _) ← rd (26 - nl) bs
      pure ({ headerType, nonce, salt := some salt, keyslots := none }, aadOfBytes headerType full)
  | .v2 => do
      let (salt, bs) ← rd 16 bs
      let (nonce, bs) ← rd nl bs
      let (_, bs) ← rd (26 - nl) bs
      let (_, _) ← rd 16 bs
      pure ({ headerType, nonce, salt := some salt, keyslots := none }, aadOfBytes headerType full)
  | .v4 => do
      let (salt, bs) ← rd 16 bs
      let (nonce, bs) ← rd nl bs
      let (_, bs) ← rd (26 - nl) bs
      let (mk, bs) ← rd 48 bs
      let (mkNonce, bs) ← rd mnl bs
      let (_, _) ← rd (32 - mnl) bs
      let keyslot : Keyslot :=
        { hashAlgorithm := .blake3Balloon 4, encryptedKey := mk, nonce := mkNonce, salt }
      pure ({ headerType, nonce, salt := some salt, keyslots := some [keyslot] },
        aadOfBytes headerType full)
  | .v5 => do
      let (nonce, bs) ← rd nl bs
      let (_, bs) ← rd (26 - nl) bs
      let keyslots ← parseKeyslots mnl 4 bs
      pure ({ headerType, nonce, salt := some (zeros 16), keyslots := some keyslots },
        aadOfBytes headerType full)

/-- header.rs:252-486 `Header::deserialize`. -/
def deserialize (h : Nat) : Prog HdrErr (Header × Bytes) := do
  let versionBytes ← (readExact h 2).mapErr .io
  (seekCur h (-2)).mapErr .io
  match parseVersion versionBytes with
  | none => Prog.throw .version
  | some version => do
      let full ← (readExact h version.size).mapErr .io
      Prog.lift (parseHeader version full)

/-! ## Serialization -/

/-- header.rs:529, 546, 570: `vec![0u8; 26 - nonce_len]`. -/
def Header.padding (h : Header) : Bytes :=
  zeros (26 - getNonceLen h.headerType.algorithm h.headerType.mode)

/-- header.rs:548: `vec![0u8; 32 - master_key_nonce_len]`. -/
def Header.padding2 (h : Header) : Bytes :=
  zeros (32 - getNonceLen h.headerType.algorithm .memoryMode)

/-- header.rs:527-539 `serialize_v3`; `self.salt.unwrap()` panics without a salt. -/
def Header.serializeV3 (h : Header) : Res HdrErr Bytes :=
  match h.salt with
  | none => .abort .panic
  | some salt => .ok (h.headerType.tag ++ salt ++ zeros 16 ++ h.nonce ++ h.padding)

/-- header.rs:544-563 `serialize_v4`; panics without keyslots or with an empty list (the argument of
`unwrap_or` is evaluated even when a salt is present). -/
def Header.serializeV4 (h : Header) : Res HdrErr Bytes :=
  match h.keyslots with
  | none => .abort .panic
  | some [] => .abort .panic
  | some (k :: _) =>
      .ok (h.headerType.tag ++ h.salt.getD k.salt ++ h.nonce ++ h.padding
        ++ k.encryptedKey ++ k.nonce ++ h.padding2)

/-- header.rs:584-593: one keyslot of a V5 header. -/
def Keyslot.bytes (knl : Nat) (k : Keyslot) : Bytes :=
  k.serialize ++ k.encryptedKey ++ k.nonce ++ zeros (24 - knl) ++ k.salt ++ zeros 6

/-- header.rs:576-582: the static part of a V5 header. -/
def Header.staticV5 (h : Header) : Bytes := h.headerType.tag ++ h.nonce ++ h.padding

/-- header.rs:568-600 `serialize_v5`; `4 - keyslots.len()` underflows with more than four keyslots. -/
def Header.serializeV5 (h : Header) : Res HdrErr Bytes :=
  match h.keyslots with
  | none => .abort .panic
  | some ks =>
      if 4 < ks.length then .abort .panic
      else .ok (h.staticV5
        ++ ks.flatMap (Keyslot.bytes (getNonceLen h.headerType.algorithm .memoryMode))
        ++ (List.replicate (4 - ks.length) (zeros 96)).flatten)

/-- header.rs:620-633 `Header::serialize`. -/
def Header.serialize (h : Header) : Res HdrErr Bytes :=
  match h.headerType.version with
  | .v1 => .err .deprecated
  | .v2 => .err .deprecated
  | .v3 => h.serializeV3
  | .v4 => h.serializeV4
  | .v5 => h.serializeV5

/-- header.rs:651-703 `Header::create_aad`. -/
def Header.createAad (h : Header) : Res HdrErr Bytes :=
  match h.headerType.version with
  | .v1 => .err .deprecated
  | .v2 => .err .deprecated
  | .v3 => h.serializeV3
  | .v4 =>
      match h.keyslots with
      | none => .err .noSalt
      | some [] => .abort .panic
      | some (k :: _) =>
          .ok (h.headerType.tag ++ h.salt.getD k.salt ++ h.nonce ++ h.padding ++ h.padding2)
  | .v5 => .ok (h.headerType.tag ++ h.nonce ++ h.padding)

/-- header.rs:715-722 `Header::write`: one `write` call whose byte count is discarded. -/
def Header.write (hd : Header) (h : Nat) : Prog HdrErr Unit := do
  let bytes ← Prog.lift hd.serialize
  let _ ← (Volaris.write h bytes).mapErr .io
  pure ()

end Volaris
