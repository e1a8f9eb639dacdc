import Verif.Base
/-!
# crates/volaris-crypto/src/key.rs: `generate_passphrase`; crates/volaris-tools/src/utils.rs: `hex_encode`

Strings are lists of characters.
-/
namespace Volaris

/-- Little-endian value of bytes. -/
def leValue : Bytes → Nat
  | [] => 0
  | b :: bs => b.toNat + 256 * leValue bs

/-- `StdRng::from_entropy().gen_range(0..=n)`.  Simplification: eight bytes of the random tape, reduced modulo the size of the range. -/
def genRangeIncl {ε : Type} (n : Nat) : Prog ε Nat := do
  let bs ← genBytes 8
  pure (leValue bs % (n + 1))

/-- key.rs:211-218: the loop; `n` words are still to come.  Indexing outside the list panics. -/
def passphraseLoop {ε : Type} (words : List (List Char)) : Nat → List Char → Prog ε (List Char)
  | 0, passphrase => pure passphrase
  | n + 1, passphrase => do
      let index ← genRangeIncl words.length
      match words[index]? with
      | none => Prog.panic
      | some word =>
          passphraseLoop words n (passphrase ++ word ++ if n = 0 then [] else ['-'])

/-- key.rs:205-221 `generate_passphrase`.  Simplification: the word list (a file of 7771 lines) is a parameter. -/
def generatePassphrase {ε : Type} (words : List (List Char)) (totalWords : Int) : Prog ε (List Char) :=
  passphraseLoop words totalWords.toNat []

/-- One lower-case hexadecimal digit. -/
def hexDigit (n : Nat) : Char :=
  if n < 10 then Char.ofNat ('0'.toNat + n) else Char.ofNat ('a'.toNat + (n - 10))

/-- utils.rs:37-44 `hex_encode`; the format `{byte:02x}` is two digits. -/
def hexEncode : Bytes → List Char
  | [] => []
  | b :: bs => hexDigit (b.toNat / 16) :: hexDigit (b.toNat % 16) :: hexEncode bs

end Volaris
