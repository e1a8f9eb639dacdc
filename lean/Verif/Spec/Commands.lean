import Verif.Spec.Cli
import Verif.Spec.Fresh
import Verif.Spec.Tools
/-!
# Vocabulary for the other commands
-/
namespace Volaris.Spec
open Volaris.Cli (Key)

/-- The path leads to a file with the content `c`. -/
def ContentAt (w : World) (p : PathBuf) (c : Bytes) : Prop := ∃ q i, LeadsToFile w p q i ∧ w.file i = c

/-- From `w` to `w'` nothing in the file system changed except, possibly, the content of the file that `p` leads to. -/
structure OnlyEdits (p : PathBuf) (w w' : World) : Prop where
  dir : w'.dir = w.dir
  files : ∀ j, (∀ q, ¬ LeadsToFile w p q j) → w'.file j = w.file j

/-- A file can be written at the path: there is one, or there is nothing in an existing directory. -/
def CanHold (w : World) (p : PathBuf) : Prop :=
  ∃ q, w.resolve p = .ok q ∧ ((∃ i, w.look q = some (.file i)) ∨ w.look q = none ∧ w.look q.dropLast = some .dir)

/-- From `w` to `w'` exactly the lines were printed, in this order, and nothing was modified or read from standard input before the last of them. -/
def Prints (lines : List (List Char)) (w w' : World) : Prop := w'.out = (lines.map fun l => ⟨w.log.length, w.stdin.length, w.tty.length, l⟩).reverse ++ w.out

/-- The line that shows the digest of a file. -/
def digestLine (file : List Char) (digest : String) : List Char := "[+] ".toList ++ file ++ ": ".toList ++ digest.toList

/-! ## Secrets, one after the other -/

/-- In `u` the secret `x` has been taken from its source, and nothing else has happened: what was typed, what standard input held and the random
bytes that were used are gone. -/
structure Taken (key : Key) (x : Bytes) (w u : World) : Prop where
  file : u.file = w.file
  dir : u.dir = w.dir
  env : u.env = w.env
  tty : if key = .user then w.tty = x :: u.tty else u.tty = w.tty
  stdin : if key = .keyfile ['-'] then u.stdin = [] else u.stdin = w.stdin
  rng : match key with
    | .generate _ => ∃ n, Used n w u
    | _ => u.rng = w.rng

/-- The present secret `old` and the new one `new` are what the two sources supply, asked one after the other; the new one has to be confirmed if
it is typed. -/
def SuppliesBoth (words : List (List Char)) (cwd : Path) (keyOld keyNew : Key) (w : World) (old new : Bytes) : Prop :=
  old ≠ [] ∧ new ≠ [] ∧ Supplies words cwd .direct keyOld w old ∧
    ∃ u, Taken keyOld old w u ∧ Supplies words cwd .validate keyNew u new

/-! ## What `header details` shows -/

/-- The two hexadecimal digits of a byte. -/
def hexOf (b : UInt8) : List Char := [("0123456789abcdef".toList)[b.toNat / 16]?.getD '?', ("0123456789abcdef".toList)[b.toNat % 16]?.getD '?']

/-- Bytes as they are shown. -/
def hexString (bs : Bytes) : String := String.ofList (bs.flatMap hexOf)

/-- How a hashing algorithm is called. -/
def hashName : HashingAlgorithm → String
  | .argon2id v => "Argon2id (param v" ++ toString v ++ ")"
  | .blake3Balloon v => "BLAKE3-Balloon (param v" ++ toString v ++ ")"

/-- The hashing algorithm that a version without keyslots implies. -/
def impliedHash : HeaderVersion → Option HashingAlgorithm
  | .v1 => some (.argon2id 1)
  | .v2 => some (.argon2id 2)
  | .v3 => some (.argon2id 3)
  | .v4 | .v5 => none

/-- The five lines about keyslot number `n`. -/
def slotText (n : Nat) (k : Keyslot) : List String :=
  ["Keyslot " ++ toString n ++ ":", "  Hashing Algorithm: " ++ hashName k.hashAlgorithm, "  Salt: " ++ hexString k.salt ++ " (hex)",
   "  Master Key: " ++ hexString k.encryptedKey ++ " (hex, encrypted)", "  Master Key Nonce: " ++ hexString k.nonce ++ " (hex)"]

/-- The lines `ls` describe the header `hd` with the authenticated bytes `aad`: version, algorithm, mode, nonce, authenticated bytes; then, in the
versions without keyslots, salt and implied hashing algorithm, and else one block for every keyslot, in order. -/
def Describes (hd : Header) (aad : Bytes) (ls : List String) : Prop :=
  ∃ version algorithm mode rest,
    ls = ["Header version: " ++ version, "Encryption algorithm: " ++ algorithm, "Encryption mode: " ++ mode,
      "Encryption nonce: " ++ hexString hd.nonce ++ " (hex)", "AAD: " ++ hexString aad ++ " (hex)"] ++ rest ∧
    (hd.headerType.version, version) ∈ [(.v1, "V1"), (.v2, "V2"), (.v3, "V3"), (.v4, "V4"), (.v5, "V5")] ∧
    (hd.headerType.algorithm, algorithm) ∈ [(.aes256Gcm, "AES-256-GCM"), (.xChaCha20Poly1305, "XChaCha20-Poly1305"), (.deoxysII256, "Deoxys-II-256")] ∧
    (hd.headerType.mode, mode) ∈ [(.memoryMode, "Memory Mode"), (.streamMode, "Stream Mode")] ∧
    match impliedHash hd.headerType.version with
    | some h => ∃ salt, hd.salt = some salt ∧ rest = ["Salt: " ++ hexString salt ++ " (hex)", "Hashing Algorithm: " ++ hashName h]
    | none => ∃ ks, hd.keyslots = some ks ∧ rest = (ks.zipIdx.map fun k => slotText k.2 k.1).flatten

end Volaris.Spec
