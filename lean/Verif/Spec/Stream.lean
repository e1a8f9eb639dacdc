import Verif.Model.Stream
/-!
# Specification of the encrypted body

A body is the concatenation of the AEAD encryptions of the 1 MiB chunks of the plaintext, each under its own
nonce; the last chunk is shorter than 1 MiB (possibly empty).
-/
namespace Volaris.Spec

/-- 1 MiB. -/
def blockLen : Nat := 1048576

/-- Length of the authentication tag. -/
def tagLen : Nat := 16

/-- `EncryptedBlocks C a key aad ns p c`: `c` is the encryption of the chunks of `p` under the nonces `ns`, one per
chunk. -/
inductive EncryptedBlocks (C : Crypto) (a : Algorithm) (key aad : Bytes) :
    List Bytes → Bytes → Bytes → Prop
  | last {n p c : Bytes} (hp : p.length < blockLen) (hc : C.enc a key n aad p = some c) :
      EncryptedBlocks C a key aad [n] p c
  | next {n b p c cs : Bytes} {ns : List Bytes} (hb : b.length = blockLen)
      (hc : C.enc a key n aad b = some c) (ht : EncryptedBlocks C a key aad ns p cs) :
      EncryptedBlocks C a key aad (n :: ns) (b ++ p) (c ++ cs)

/-- The primitives encrypt every message of at most one block (no internal error of the cipher). -/
def EncTotal (C : Crypto) (a : Algorithm) (key aad : Bytes) : Prop :=
  ∀ n m, n.length = (match a with | .aes256Gcm => 12 | .xChaCha20Poly1305 => 24 | .deoxysII256 => 15) →
    m.length ≤ blockLen → (C.enc a key n aad m).isSome

/-- The little-endian block counter with the final-block flag in the top bit, appended to the nonce prefix. -/
def blockNonce (pre : Bytes) (i : Nat) (last : Bool) : Bytes :=
  pre ++ (List.range 4).map fun j => UInt8.ofNat ((i + (if last then 2147483648 else 0)) / 256 ^ j)

/-- Chunk `i` of `p`, and whether it is the last one. -/
def chunk (p : Bytes) (i : Nat) : Bytes := (p.drop (i * blockLen)).take blockLen

/-- The only (block number, final flag, plaintext) triples that exist for plaintext `p`. -/
def GenuineChunk (p : Bytes) (i : Nat) (last : Bool) (q : Bytes) : Prop :=
  q = chunk p i ∧ ((last = false ∧ i < p.length / blockLen) ∨ (last = true ∧ i = p.length / blockLen))

/-- No forgery among the blocks that a reader of body `ct` can present to the decryptor: whatever opens
at position `i` as non-final/final block is a chunk that was really encrypted there for plaintext `p`.  A reader presents a prefix
of what follows the first `i` ciphertext blocks, of at most one ciphertext block; only shorter ones
count as final.  There is no block number above the largest counter. -/
def NoForgery (C : Crypto) (a : Algorithm) (key pre aad : Bytes) (p ct : Bytes) : Prop :=
  ∀ (i : Nat) (c q : Bytes), i ≤ C.ctrMax → c <+: ct.drop (i * (blockLen + tagLen)) → c.length ≤ blockLen + tagLen →
    C.dec a key (blockNonce pre i (decide (c.length < blockLen + tagLen))) aad c = some q →
    GenuineChunk p i (decide (c.length < blockLen + tagLen)) q

/-- The same for a reader that returns full buffers: only the blocks at their natural boundaries. -/
def NoForgeryFull (C : Crypto) (a : Algorithm) (key pre aad : Bytes) (p ct : Bytes) : Prop :=
  ∀ (i : Nat) (c q : Bytes), i ≤ C.ctrMax → c = (ct.drop (i * (blockLen + tagLen))).take (blockLen + tagLen) →
    C.dec a key (blockNonce pre i (decide (c.length < blockLen + tagLen))) aad c = some q →
    GenuineChunk p i (decide (c.length < blockLen + tagLen)) q

/-- Nonce-prefix length by algorithm (the AEAD nonce minus the 4-byte counter). -/
def freshNonceLen : Algorithm → Nat
  | .aes256Gcm => 8
  | .xChaCha20Poly1305 => 20
  | .deoxysII256 => 11

/-- The nonces of a body with `n` full blocks. -/
def bodyNonces (pre : Bytes) (n : Nat) : List Bytes :=
  (List.range n).map (fun i => blockNonce pre i false) ++ [blockNonce pre n true]

/-- `Copied rh wh w w' n bs`: between `w` and `w'`, `n` bytes were consumed through handle `rh`, `bs` was written
through handle `wh`, and nothing else happened to any file, directory or handle. -/
structure Copied (rh wh : Nat) (w w' : World) (n : Nat) (bs : Bytes) : Prop where
  read : w'.fd rh = { w.fd rh with pos := (w.fd rh).pos + n }
  write : w'.fd wh = { w.fd wh with pos := (w.fd wh).pos + bs.length }
  content : w'.file (w.fd wh).ino = writeAt (w.file (w.fd wh).ino) (w.fd wh).pos bs
  files : ∀ i, i ≠ (w.fd wh).ino → w'.file i = w.file i
  fds : ∀ h, h ≠ rh → h ≠ wh → w'.fd h = w.fd h
  dir : w'.dir = w.dir

/-- A freshly created stream: counter at zero, nonce prefix of the length the algorithm needs. -/
structure Fresh (s : Stream) : Prop where
  position : s.position = 0
  pre : s.pre.length = freshNonceLen s.algorithm

end Volaris.Spec
