import Verif.Spec.KeyFiles
/-!
# Vocabulary for headers that were only partly rewritten
-/
namespace Volaris.Spec

/-- `new` was being written over `old` and the first `j` bytes got there. -/
def torn (new old : Bytes) (j : Nat) : Bytes := new.take j ++ old.drop j

/-- The second identifier byte of a keyslot. -/
def hashCode : HashingAlgorithm → UInt8
  | .argon2id 1 => 0xA1
  | .argon2id 2 => 0xA2
  | .argon2id 3 => 0xA3
  | .blake3Balloon 4 => 0xB4
  | .blake3Balloon 5 => 0xB5
  | _ => 0

/-- The 96 bytes of a keyslot. -/
def slotLayout (a : Algorithm) (k : Keyslot) : Bytes :=
  [0xDF, hashCode k.hashAlgorithm] ++ k.encryptedKey ++ k.nonce ++ List.replicate (24 - nonceLength a .memoryMode) 0 ++ k.salt
    ++ List.replicate 6 0

/-- The 416 bytes of a V5 header: tags, nonce padded to 26 bytes, the keyslots, zeros for the unused ones. -/
def layoutV5 (t : HeaderType) (nonce : Bytes) (ks : List Keyslot) : Bytes :=
  versionCode t.version ++ algorithmCode t.algorithm ++ modeCode t.mode ++ nonce
    ++ List.replicate (26 - nonceLength t.algorithm t.mode) 0
    ++ ks.flatMap (slotLayout t.algorithm) ++ List.replicate ((4 - ks.length) * 96) 0

/-- `content` is a file as the program writes it: the header for `hd` with keyslots `ks`, then the body. -/
structure WrittenV5 (content : Bytes) (hd : Header) (ks : List Keyslot) (aad body : Bytes) : Prop where
  file : KeyFile content hd ks aad
  layout : content = layoutV5 hd.headerType hd.nonce ks ++ body

/-- `content` still has a readable header with the same type, nonce and associated data in which all the keyslots `kept` are present, and
besides them at most one other. -/
def Survives (hd : Header) (aad : Bytes) (kept : List Keyslot) (content : Bytes) : Prop :=
  ∃ hd' ks', KeyFile content hd' ks' aad ∧ hd'.headerType = hd.headerType ∧ hd'.nonce = hd.nonce ∧
    (∀ k ∈ kept, k ∈ ks') ∧ ∃ x, ∀ k ∈ ks', k ∈ kept ∨ k = x

end Volaris.Spec
