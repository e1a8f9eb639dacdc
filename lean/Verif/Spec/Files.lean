import Verif.Spec.Header
import Verif.Spec.Stream
import Verif.Spec.Frame
/-!
# What an encrypted file means

Which key opens a keyslot, which key a password recovers from a header, and what the body of a file says under that
key.  Written against the primitives and the on-disk format only, without the functions of the model.
-/
namespace Volaris.Spec

/-- The fixed parameters of each supported password hash: argon2id (memory in KiB, passes, lanes), BLAKE3-Balloon
(space, time, parallelism). -/
def kdfParams : HashingAlgorithm → Option Kdf
  | .argon2id 1 => some (.argon2id 8192 8 4)
  | .argon2id 2 => some (.argon2id 262144 8 4)
  | .argon2id 3 => some (.argon2id 262144 10 4)
  | .blake3Balloon 4 => some (.balloon 262144 1 1)
  | .blake3Balloon 5 => some (.balloon 278528 1 1)
  | _ => none

/-- `HashesTo C h pw salt hk`: password hash `h` of `pw` with `salt` is the 32-byte key `hk`. -/
def HashesTo (C : Crypto) (h : HashingAlgorithm) (pw salt hk : Bytes) : Prop :=
  ∃ f, kdfParams h = some f ∧ C.kdf f pw salt = some hk

/-- Password `pw` opens keyslot `k` and gets the key `mk` out of it. -/
def Opens (C : Crypto) (a : Algorithm) (pw : Bytes) (k : Keyslot) (mk : Bytes) : Prop :=
  ∃ hk, HashesTo C k.hashAlgorithm pw k.salt hk ∧ C.dec a hk k.nonce [] k.encryptedKey = some mk

/-- Password `pw` recovers the data key `mk` from header `h`: versions 1 to 3 hash the password with the header's salt,
version 4 opens its keyslot, version 5 the first keyslot that opens. -/
def Recovers (C : Crypto) (pw : Bytes) (h : Header) (mk : Bytes) : Prop :=
  match h.headerType.version with
  | .v1 => ∃ s, h.salt = some s ∧ C.kdf (.argon2id 8192 8 4) pw s = some mk
  | .v2 => ∃ s, h.salt = some s ∧ C.kdf (.argon2id 262144 8 4) pw s = some mk
  | .v3 => ∃ s, h.salt = some s ∧ C.kdf (.argon2id 262144 10 4) pw s = some mk
  | .v4 => ∃ k ks, h.keyslots = some (k :: ks) ∧ Opens C h.headerType.algorithm pw k mk
  | .v5 => ∃ before k after, h.keyslots = some (before ++ k :: after) ∧
      Opens C h.headerType.algorithm pw k mk ∧
      ∀ k' ∈ before, ∀ m, ¬ Opens C h.headerType.algorithm pw k' m

/-- `body` is the encryption of `p` for header `h` under the data key `mk` with associated data `aad`. -/
def BodyOf (C : Crypto) (h : Header) (mk aad p body : Bytes) : Prop :=
  match h.headerType.mode with
  | .memoryMode => C.enc h.headerType.algorithm mk h.nonce aad p = some body
  | .streamMode => p.length / blockLen ≤ C.ctrMax ∧
      EncryptedBlocks C h.headerType.algorithm mk aad (bodyNonces h.nonce (p.length / blockLen)) p body

/-- `content` is an encrypted file that password `pw` opens to plaintext `p`. -/
def FileOf (C : Crypto) (pw content p : Bytes) : Prop :=
  ∃ h aad mk, IsHeader content h aad ∧ Recovers C pw h mk ∧
    BodyOf C h mk aad p (content.drop (headerSize h.headerType.version))

/-- The body part of a file whose header is kept elsewhere: a header-sized run of zeros (a stripped header) at the start
is not part of the body. -/
def detachedBody (size : Nat) (content : Bytes) : Bytes :=
  if ∀ b ∈ content.take size, b = 0 then content.drop size else content

/-- The header file `hdr` and the content `content` together are an encrypted file that `pw` opens to `p`. -/
def DetachedFileOf (C : Crypto) (pw hdr content p : Bytes) : Prop :=
  ∃ h aad mk, IsHeader hdr h aad ∧ Recovers C pw h mk ∧
    BodyOf C h mk aad p (detachedBody (headerSize h.headerType.version) content)

/-- `FirstCall h body n c`: decrypting `body` under header `h`, the first thing presented to the AEAD can be ciphertext `c` with
nonce `n`.  In memory mode this is the whole body; in stream mode a first read of at most one ciphertext block. -/
def FirstCall (h : Header) (body n c : Bytes) : Prop :=
  match h.headerType.mode with
  | .memoryMode => n = h.nonce ∧ c = body
  | .streamMode => c <+: body ∧ c.length ≤ blockLen + tagLen ∧
      n = blockNonce h.nonce 0 (decide (c.length < blockLen + tagLen))

/-- The bytes `bs` (and nothing else) were written through handle `wh`, at the place where it stood. -/
structure Wrote (wh : Nat) (w w' : World) (bs : Bytes) : Prop where
  content : w'.file (w.fd wh).ino = writeAt (w.file (w.fd wh).ino) (w.fd wh).pos bs
  pos : (w'.fd wh).pos = (w.fd wh).pos + bs.length

/-- `n` bytes of the random tape of `w`, starting at offset `i`. -/
def tape (w : World) (i n : Nat) : Bytes := (List.range n).map fun j => w.rng (i + j)

/-- The primitives report no internal error: the password hash of `pw` works for every salt, the AEAD encrypts every
message of at most one block under every key. -/
structure PrimitivesWork (C : Crypto) (a : Algorithm) (h : HashingAlgorithm) (pw : Bytes) : Prop where
  hash : ∃ f, kdfParams h = some f ∧ ∀ salt, (C.kdf f pw salt).isSome
  enc : ∀ key n aad m, key.length = 32 → n.length = nonceLength a .memoryMode → m.length ≤ blockLen →
    (C.enc a key n aad m).isSome

end Volaris.Spec
