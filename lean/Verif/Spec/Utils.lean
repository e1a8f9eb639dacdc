import Verif.Base
/-!
# Vocabulary for passphrases and hexadecimal output
-/
namespace Volaris.Spec

/-- The words joined by single dashes. -/
def dashed : List (List Char) → List Char
  | [] => []
  | [w] => w
  | w :: ws => w ++ '-' :: dashed ws

/-- The `i`-th number the operating system supplies: 8 bytes of the random tape, least significant byte first. -/
def supplied (w : World) (i : Nat) : Nat :=
  (List.range 8).foldr (fun j acc => (w.rng (8 * i + j)).toNat + 256 * acc) 0

/-- The hexadecimal digits, in order. -/
def hexDigits : List Char := ['0', '1', '2', '3', '4', '5', '6', '7', '8', '9', 'a', 'b', 'c', 'd', 'e', 'f']

/-- The bytes that a string of hexadecimal digits stands for. -/
def fromHex : List Char → Option Bytes
  | [] => some []
  | [_] => none
  | a :: b :: cs => do
      let x ← hexDigits.idxOf? a
      let y ← hexDigits.idxOf? b
      let bs ← fromHex cs
      some (UInt8.ofNat (16 * x + y) :: bs)

end Volaris.Spec
