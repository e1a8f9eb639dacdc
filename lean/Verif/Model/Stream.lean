import Verif.Model.Crypto
/-!
# crates/volaris-crypto/src/stream.rs

`aead::stream::{EncryptorLE31, DecryptorLE31}` (crate aead 0.5.2) are modelled from their source:
the nonce of a block is the prefix followed by the little-endian 32-bit value
`position | last << 31`; `encrypt_next`/`decrypt_next` fail when `position == COUNTER_MAX`, and any
position above `COUNTER_MAX` fails.
-/
namespace Volaris

/-- `u32::to_le_bytes`. -/
def le32 (n : Nat) : Bytes :=
  [UInt8.ofNat n, UInt8.ofNat (n / 2 ^ 8), UInt8.ofNat (n / 2 ^ 16), UInt8.ofNat (n / 2 ^ 24)]

/-- aead `StreamLE31::aead_nonce`.  `position | last << 31` is a sum as positions are below 2^31. -/
def streamNonce (pre : Bytes) (position : Nat) (last : Bool) : Bytes :=
  pre ++ le32 (position + if last then 2 ^ 31 else 0)

/-- stream.rs:46-61 `EncryptionStreams`/`DecryptionStreams`: cipher, nonce prefix, block counter. -/
structure Stream where
  algorithm : Algorithm
  key : Bytes
  pre : Bytes
  position : Nat
deriving DecidableEq, Repr

/-- Failures of the stream functions (`anyhow` messages in the code). -/
inductive StreamErr where
  | nonceLength
  | cipher
  | io (e : IoErr)
  | crypt
deriving DecidableEq, Repr

/-- stream.rs:88-131 `EncryptionStreams::initialize`: 8, 20, 11 bytes of nonce or an error. -/
def encInitialize (key nonce : Bytes) (algorithm : Algorithm) : Res StreamErr Stream :=
  let expected := match algorithm with
    | .aes256Gcm => 8
    | .xChaCha20Poly1305 => 20
    | .deoxysII256 => 11
  if nonce.length ≠ expected then .err .nonceLength
  else if key.length = 32 then .ok { algorithm, key, pre := nonce, position := 0 }
  else .err .cipher

/-- stream.rs:266-297 `DecryptionStreams::initialize`: a nonce of the wrong length panics in `nonce.into()`. -/
def decInitialize (key nonce : Bytes) (algorithm : Algorithm) : Res StreamErr Stream :=
  if key.length ≠ 32 then .err .cipher
  else if nonce.length ≠ getNonceLen algorithm .streamMode then .abort .panic
  else .ok { algorithm, key, pre := nonce, position := 0 }

/-- aead `StreamPrimitive::encrypt` for `StreamLE31`. -/
def Stream.encAt (C : Crypto) (s : Stream) (last : Bool) (aad msg : Bytes) : Res StreamErr Bytes :=
  if C.ctrMax < s.position then .err .crypt
  else Res.ofOption .crypt (C.enc s.algorithm s.key (streamNonce s.pre s.position last) aad msg)

/-- aead `StreamPrimitive::decrypt` for `StreamLE31`. -/
def Stream.decAt (C : Crypto) (s : Stream) (last : Bool) (aad ct : Bytes) : Res StreamErr Bytes :=
  if C.ctrMax < s.position then .err .crypt
  else Res.ofOption .crypt (C.dec s.algorithm s.key (streamNonce s.pre s.position last) aad ct)

/-- stream.rs:136-145 `encrypt_next`; the new stream has its counter advanced. -/
def Stream.encryptNext (C : Crypto) (s : Stream) (aad msg : Bytes) : Res StreamErr (Bytes × Stream) :=
  if s.position = C.ctrMax then .err .crypt
  else do
    let c ← s.encAt C false aad msg
    pure (c, { s with position := s.position + 1 })

/-- stream.rs:150-159 `encrypt_last`. -/
def Stream.encryptLast (C : Crypto) (s : Stream) (aad msg : Bytes) : Res StreamErr Bytes :=
  s.encAt C true aad msg

/-- stream.rs:304-313 `decrypt_next`. -/
def Stream.decryptNext (C : Crypto) (s : Stream) (aad ct : Bytes) : Res StreamErr (Bytes × Stream) :=
  if s.position = C.ctrMax then .err .crypt
  else do
    let p ← s.decAt C false aad ct
    pure (p, { s with position := s.position + 1 })

/-- stream.rs:320-329 `decrypt_last`. -/
def Stream.decryptLast (C : Crypto) (s : Stream) (aad ct : Bytes) : Res StreamErr Bytes :=
  s.decAt C true aad ct

/-- stream.rs:194-230: the loop of `encrypt_file`.  The fuel only makes the recursion structural: the block
counter bounds the number of rounds, and running out of fuel is proved impossible. -/
def encLoop (C : Crypto) (rh wh : Nat) (aad : Bytes) : Nat → Stream → Prog StreamErr Unit
  | fuel, s => do
      let buf ← (read rh BLOCK_SIZE).mapErr .io
      if buf.length = BLOCK_SIZE then do
        let (c, s) ← Prog.lift (s.encryptNext C aad buf)
        (writeAll wh c).mapErr .io
        match fuel with
        | 0 => Prog.lift (.abort .outOfFuel)
        | fuel + 1 => encLoop C rh wh aad fuel s
      else do
        let c ← Prog.lift (s.encryptLast C aad buf)
        (writeAll wh c).mapErr .io

/-- stream.rs:184-238 `encrypt_file`. -/
def encryptFile (C : Crypto) (s : Stream) (rh wh : Nat) (aad : Bytes) : Prog StreamErr Unit := do
  encLoop C rh wh aad C.ctrMax s
  (flush wh).mapErr .io

/-- stream.rs:362-397: the loop of `decrypt_file`, with blocks of `BLOCK_SIZE + 16`. -/
def decLoop (C : Crypto) (rh wh : Nat) (aad : Bytes) : Nat → Stream → Prog StreamErr Unit
  | fuel, s => do
      let buf ← (read rh (BLOCK_SIZE + 16)).mapErr .io
      if buf.length = BLOCK_SIZE + 16 then do
        let (p, s) ← Prog.lift (s.decryptNext C aad buf)
        (writeAll wh p).mapErr .io
        match fuel with
        | 0 => Prog.lift (.abort .outOfFuel)
        | fuel + 1 => decLoop C rh wh aad fuel s
      else do
        let p ← Prog.lift (s.decryptLast C aad buf)
        (writeAll wh p).mapErr .io

/-- stream.rs:352-405 `decrypt_file`. -/
def decryptFile (C : Crypto) (s : Stream) (rh wh : Nat) (aad : Bytes) : Prog StreamErr Unit := do
  decLoop C rh wh aad C.ctrMax s
  (flush wh).mapErr .io

end Volaris
