import Verif.Base
/-!
# crates/volaris-crypto/src/primitives.rs
-/
namespace Volaris

/-- primitives.rs:9 `BLOCK_SIZE`. -/
def BLOCK_SIZE : Nat := 1048576
/-- primitives.rs:12 `SALT_LEN`. -/
def SALT_LEN : Nat := 16
/-- primitives.rs:14 `MASTER_KEY_LEN`. -/
def MASTER_KEY_LEN : Nat := 32
/-- primitives.rs:15 `ENCRYPTED_MASTER_KEY_LEN`. -/
def ENCRYPTED_MASTER_KEY_LEN : Nat := 48

/-- primitives.rs:20-24 `Algorithm`. -/
inductive Algorithm where
  | aes256Gcm
  | xChaCha20Poly1305
  | deoxysII256
deriving DecidableEq, Repr

/-- primitives.rs:29-33 `ALGORITHMS`. -/
def ALGORITHMS : List Algorithm := [.xChaCha20Poly1305, .aes256Gcm, .deoxysII256]

/-- primitives.rs:47-50 `Mode`. -/
inductive Mode where
  | memoryMode
  | streamMode
deriving DecidableEq, Repr

/-- primitives.rs:86-98 `get_nonce_len`.  The subtraction cannot underflow (12, 24, 15 minus 4). -/
def getNonceLen (algorithm : Algorithm) (mode : Mode) : Nat :=
  let nonceLen := match algorithm with
    | .aes256Gcm => 12
    | .xChaCha20Poly1305 => 24
    | .deoxysII256 => 15
  if mode = .streamMode then nonceLen - 4 else nonceLen

/-- primitives.rs:73-78 `gen_nonce`.  The thread RNG is the world's random tape. -/
def genNonce {ε : Type} (algorithm : Algorithm) (mode : Mode) : Prog ε Bytes :=
  genBytes (getNonceLen algorithm mode)

/-- primitives.rs:114-118 `gen_master_key`. -/
def genMasterKey {ε : Type} : Prog ε Bytes := genBytes MASTER_KEY_LEN

/-- primitives.rs:132-136 `gen_salt`. -/
def genSalt {ε : Type} : Prog ε Bytes := genBytes SALT_LEN

end Volaris
