import Verif.Model.Header
/-!
# Specification vocabulary for headers

Written without the model's helper functions: tables and predicates an informed reader can check
against the documentation of the file format.
-/
namespace Volaris.Spec

/-- Nonce length in bytes by algorithm and mode. -/
def nonceLength : Algorithm → Mode → Nat
  | .aes256Gcm, .memoryMode => 12
  | .aes256Gcm, .streamMode => 8
  | .xChaCha20Poly1305, .memoryMode => 24
  | .xChaCha20Poly1305, .streamMode => 20
  | .deoxysII256, .memoryMode => 15
  | .deoxysII256, .streamMode => 11

/-- Header size in bytes by version. -/
def headerSize : HeaderVersion → Nat
  | .v1 => 64
  | .v2 => 64
  | .v3 => 64
  | .v4 => 128
  | .v5 => 416

/-- The hashing algorithms that exist. -/
def supportedHashes : List HashingAlgorithm :=
  [.argon2id 1, .argon2id 2, .argon2id 3, .blake3Balloon 4, .blake3Balloon 5]

/-- A keyslot as the Rust types and the program's key generation produce it: 48 bytes of encrypted
key, a full-length nonce, 16 bytes of salt, a supported hash. -/
structure SlotOk (a : Algorithm) (k : Keyslot) : Prop where
  key : k.encryptedKey.length = 48
  nonce : k.nonce.length = nonceLength a .memoryMode
  salt : k.salt.length = 16
  hash : k.hashAlgorithm ∈ supportedHashes

/-- A V5 header ready to be written. -/
structure OkV5 (h : Header) : Prop where
  version : h.headerType.version = .v5
  nonce : h.nonce.length = nonceLength h.headerType.algorithm h.headerType.mode
  slots : ∃ ks, h.keyslots = some ks ∧ ks.length ≤ 4 ∧ ∀ k ∈ ks, SlotOk h.headerType.algorithm k

/-- A V4 header ready to be written: one keyslot, and the salt is the keyslot's salt (kept in the header
field after reading, absent in a freshly created header). -/
structure OkV4 (h : Header) : Prop where
  version : h.headerType.version = .v4
  nonce : h.nonce.length = nonceLength h.headerType.algorithm h.headerType.mode
  slot : ∃ k, h.keyslots = some [k] ∧ SlotOk h.headerType.algorithm k ∧
    (h.salt = none ∨ h.salt = some k.salt)

/-- A V3 header ready to be written. -/
structure OkV3 (h : Header) : Prop where
  version : h.headerType.version = .v3
  nonce : h.nonce.length = nonceLength h.headerType.algorithm h.headerType.mode
  salt : ∃ s, h.salt = some s ∧ s.length = 16

/-- A header the program can write. -/
def Writable (h : Header) : Prop := OkV3 h ∨ OkV4 h ∨ OkV5 h

/-- A reading position: handle `h` of world `w` stands exactly before `bytes`, and `tail` follows. -/
def StandsAt (w : World) (h : Nat) (bytes tail : Bytes) : Prop :=
  (w.file (w.fd h).ino).drop (w.fd h).pos = bytes ++ tail

/-- Worlds that differ at most in the position of handle `h`, the remaining schedule and the ghost log. -/
structure OnlyMoved (h : Nat) (w w' : World) : Prop where
  file : w'.file = w.file
  dir : w'.dir = w.dir
  fds : ∀ i, i ≠ h → w'.fd i = w.fd i
  ino : (w'.fd h).ino = (w.fd h).ino

/-! ### The on-disk format, as tables and offsets -/

/-- Version tags. -/
def versionCode : HeaderVersion → Bytes
  | .v1 => [0xDE, 1]
  | .v2 => [0xDE, 2]
  | .v3 => [0xDE, 3]
  | .v4 => [0xDE, 4]
  | .v5 => [0xDE, 5]

/-- Algorithm tags. -/
def algorithmCode : Algorithm → Bytes
  | .xChaCha20Poly1305 => [0x0E, 1]
  | .aes256Gcm => [0x0E, 2]
  | .deoxysII256 => [0x0E, 3]

/-- Mode tags. -/
def modeCode : Mode → Bytes
  | .streamMode => [0x0C, 1]
  | .memoryMode => [0x0C, 2]

/-- Keyslot identifiers (second byte; the first is 0xDF) of the supported hashes. -/
def hashCodes : List (UInt8 × HashingAlgorithm) :=
  [(0xA1, .argon2id 1), (0xA2, .argon2id 2), (0xA3, .argon2id 3),
   (0xB4, .blake3Balloon 4), (0xB5, .blake3Balloon 5)]

/-- `n` bytes from offset `i`. -/
def slice (bs : Bytes) (i n : Nat) : Bytes := (bs.drop i).take n

/-- `SlotScan a n bs ks`: scanning `bs` for `n` keyslots of algorithm `a` finds `ks`.  A slot is 96 bytes: identifier
0xDF and hash code, 48 bytes of encrypted key, nonce padded to 24 bytes, 16 bytes of salt, 6 of
padding.  Two bytes not starting with 0xDF are an empty slot, of which only those two bytes are consumed. -/
inductive SlotScan (a : Algorithm) : Nat → Bytes → List Keyslot → Prop
  | done (bs : Bytes) : SlotScan a 0 bs []
  | empty {n : Nat} {b0 b1 : UInt8} {rest : Bytes} {ks : List Keyslot} (hb : b0 ≠ 0xDF)
      (hs : SlotScan a n rest ks) : SlotScan a (n + 1) (b0 :: b1 :: rest) ks
  | slot {n : Nat} {b1 : UInt8} {alg : HashingAlgorithm} {rest : Bytes} {ks : List Keyslot}
      (hc : (b1, alg) ∈ hashCodes) (hl : 94 ≤ rest.length) (hs : SlotScan a n (rest.drop 94) ks) :
      SlotScan a (n + 1) (0xDF :: b1 :: rest)
        ({ hashAlgorithm := alg
           encryptedKey := slice rest 0 48
           nonce := slice rest 48 (nonceLength a .memoryMode)
           salt := slice rest 72 16 } :: ks)

/-- `bs` starts with a complete header that reads as `h`, and the associated data authenticated with the
body is `aad`. -/
structure IsHeader (bs : Bytes) (h : Header) (aad : Bytes) : Prop where
  size : headerSize h.headerType.version ≤ bs.length
  tag : slice bs 0 6 = versionCode h.headerType.version ++ algorithmCode h.headerType.algorithm
      ++ modeCode h.headerType.mode
  fields : match h.headerType.version with
    | .v1 | .v3 =>
        h.salt = some (slice bs 6 16) ∧ h.keyslots = none ∧
        h.nonce = slice bs 38 (nonceLength h.headerType.algorithm h.headerType.mode)
    | .v2 =>
        h.salt = some (slice bs 6 16) ∧ h.keyslots = none ∧
        h.nonce = slice bs 22 (nonceLength h.headerType.algorithm h.headerType.mode)
    | .v4 =>
        h.salt = some (slice bs 6 16) ∧
        h.keyslots = some [{ hashAlgorithm := .blake3Balloon 4
                             encryptedKey := slice bs 48 48
                             nonce := slice bs 96 (nonceLength h.headerType.algorithm .memoryMode)
                             salt := slice bs 6 16 }] ∧
        h.nonce = slice bs 22 (nonceLength h.headerType.algorithm h.headerType.mode)
    | .v5 =>
        h.salt = some (List.replicate 16 0) ∧
        (∃ ks, h.keyslots = some ks ∧ SlotScan h.headerType.algorithm 4 (slice bs 32 384) ks) ∧
        h.nonce = slice bs 6 (nonceLength h.headerType.algorithm h.headerType.mode)
  aad : aad = match h.headerType.version with
    | .v1 | .v2 => []
    | .v3 => slice bs 0 64
    | .v4 => slice bs 0 48 ++
        slice bs (96 + nonceLength h.headerType.algorithm .memoryMode)
          (32 - nonceLength h.headerType.algorithm .memoryMode)
    | .v5 => slice bs 0 32

end Volaris.Spec
