import Verif.Spec.KeyFiles
import Verif.Model.Tools.Encrypt
import Verif.Model.Tools.Decrypt
/-!
# Vocabulary for fresh randomness

The operating system's random source is a tape of bytes (`World.rng`), of which every request takes the next few.  A value is fresh if it is
a part of the tape that nothing before it used.
-/
namespace Volaris.Spec

/-- From `w` to `w'` the next `n` bytes of the random source were used up, and no others. -/
def Used (n : Nat) (w w' : World) : Prop := ∀ i, w'.rng i = w.rng (n + i)

/-- `v` is a state some time after `w`: in between any number of files were encrypted, decrypted and had their keys edited, with any outcome
and under any I/O faults, and anything at all may have happened to files, handles and terminal that does not concern the random source. -/
inductive Later (C : Crypto) : World → World → Prop
  | refl (w : World) : Later C w w
  | other {w v v' : World} : Later C w v → v'.rng = v.rng → Later C w v'
  | encrypt {w v : World} (req : Encrypt.Request) : Later C w v → Later C w (Encrypt.execute C req v).2
  | decrypt {w v : World} (req : Decrypt.Request) : Later C w v → Later C w (Decrypt.execute C req v).2
  | key {w v : World} (h : Nat) (c : KeyCmd) : Later C w v → Later C w (c.onFile C h v).2

/-- The secrets of one encrypted file: `content` starts with a header in which salt, keyslot nonce and body nonce have these values, and (if
the version and hash can be decrypted again) `pw` opens its keyslot to the data key `mk`. -/
structure Minted (C : Crypto) (req : Encrypt.Request) (content salt mk slotNonce bodyNonce : Bytes) : Prop where
  header : ∃ hd aad k, IsHeader content hd aad ∧ hd.headerType = req.headerType ∧ hd.nonce = bodyNonce ∧ hd.keyslots = some [k] ∧
    k.salt = salt ∧ k.nonce = slotNonce ∧
    (req.headerType.version = .v5 ∨ req.hashingAlgorithm = .blake3Balloon 4 →
      Opens C req.headerType.algorithm req.rawKey k mk)

/-- How many random bytes a new file takes: salt, data key, keyslot nonce, body nonce. -/
def fileDraw (t : HeaderType) : Nat := 16 + 32 + nonceLength t.algorithm .memoryMode + nonceLength t.algorithm t.mode

/-- Where the header of an encryption goes. -/
def headerHandle (req : Encrypt.Request) : Nat := req.headerWriter.getD req.writer

/-- The handles of an encryption are different files. -/
structure ApartHandles (req : Encrypt.Request) (w : World) : Prop where
  handles : req.reader ≠ req.writer ∧ ∀ h, req.headerWriter = some h → h ≠ req.writer
  files : (w.fd req.reader).ino ≠ (w.fd req.writer).ino
  header : ∀ h, req.headerWriter = some h → (w.fd req.reader).ino ≠ (w.fd h).ino ∧ (w.fd h).ino ≠ (w.fd req.writer).ino

end Volaris.Spec
