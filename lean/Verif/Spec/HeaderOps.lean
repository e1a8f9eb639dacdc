import Verif.Spec.Files
import Verif.Spec.Torn
import Verif.Model.Tools.HeaderOps
/-!
# Vocabulary for header dump, strip and restore
-/
namespace Volaris.Spec

/-- The 64 bytes of a V3 header: tags, salt, 16 unused bytes, nonce padded to 26 bytes. -/
def layoutV3 (a : Algorithm) (m : Mode) (nonce salt : Bytes) : Bytes :=
  versionCode .v3 ++ algorithmCode a ++ modeCode m ++ salt ++ List.replicate 16 0 ++ nonce
    ++ List.replicate (26 - nonceLength a m) 0

/-- The 128 bytes of a V4 header: tags, salt, nonce padded to 26 bytes, encrypted key, its nonce padded to 32 bytes. -/
def layoutV4 (a : Algorithm) (m : Mode) (nonce salt key keyNonce : Bytes) : Bytes :=
  versionCode .v4 ++ algorithmCode a ++ modeCode m ++ salt ++ nonce ++ List.replicate (26 - nonceLength a m) 0
    ++ key ++ keyNonce ++ List.replicate (32 - nonceLength a .memoryMode) 0

/-- `H` is a complete header of version `v` as the program writes it: all fields in full length and zeros everywhere else. -/
inductive WrittenHeader : HeaderVersion → Bytes → Prop
  | v3 (a : Algorithm) (m : Mode) (nonce salt : Bytes) (hn : nonce.length = nonceLength a m) (hs : salt.length = 16) :
      WrittenHeader .v3 (layoutV3 a m nonce salt)
  | v4 (a : Algorithm) (m : Mode) (nonce salt key keyNonce : Bytes) (hn : nonce.length = nonceLength a m)
      (hs : salt.length = 16) (hk : key.length = 48) (hkn : keyNonce.length = nonceLength a .memoryMode) :
      WrittenHeader .v4 (layoutV4 a m nonce salt key keyNonce)
  | v5 (a : Algorithm) (m : Mode) (nonce : Bytes) (ks : List Keyslot) (hn : nonce.length = nonceLength a m)
      (hl : ks.length ≤ 4) (hs : ∀ k ∈ ks, SlotOk a k) :
      WrittenHeader .v5 (layoutV5 { version := .v5, algorithm := a, mode := m } nonce ks)

/-- The bytes in front of a handle start with no header, or with one of the versions that cannot be written. -/
def NoWritableHeader (bs : Bytes) : Prop :=
  ∀ h aad, IsHeader bs h aad → h.headerType.version = .v1 ∨ h.headerType.version = .v2

/-- The bytes in front of a handle start with no header at all. -/
def NoHeader (bs : Bytes) : Prop := ∀ h aad, ¬ IsHeader bs h aad

/-- No file has changed. -/
def SameFiles (w w' : World) : Prop := w'.file = w.file ∧ w'.dir = w.dir

/-- A file is opened anew: the handle stands at the start. -/
def reopen {ε : Type} (h : Nat) : Prog ε Unit := fun w => (.ok (), w.setPos h 0)

/-- Dump the header of `f` to `g`, strip `f`, restore `f` from `g`; every command opens its files anew. -/
def dumpStripRestore (f g : Nat) : Prog HeaderOps.Error Unit := do
  reopen f
  HeaderOps.dump f g
  reopen f
  HeaderOps.strip f
  reopen f
  reopen g
  HeaderOps.restore g f

end Volaris.Spec
