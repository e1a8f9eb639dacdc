import Verif.Base
/-!
# crates/volaris-tools/src/overwrite.rs
-/
namespace Volaris.Overwrite

/-- overwrite.rs:10 `BLOCK_SIZE`. -/
def BLOCK : Nat := 512

/-- overwrite.rs:13-18 `Error`. -/
inductive Error where
  | resetCursorPosition
  | overwriteWithRandomBytes
  | overwriteWithZeros
  | flushFile
deriving DecidableEq, Repr

/-- overwrite.rs:44-47: the block sizes of one pass, up to the first zero. -/
def blocks (cap : Nat) : List Nat :=
  (List.replicate (cap / BLOCK) BLOCK ++ [cap % BLOCK]).takeWhile (· > 0)

/-- overwrite.rs:47-53: write the blocks of one pass.  `Vec::with_capacity(block_size)` is a vector of length
0, `fill_bytes` fills its length, i.e. nothing, and the empty vector is written. -/
def writeBlocks (h : Nat) : List Nat → Prog Error Unit
  | [] => pure ()
  | _blockSize :: bs => do
      let blockBuf ← genBytes 0
      (writeAll h blockBuf).mapErr fun _ => .overwriteWithRandomBytes
      writeBlocks h bs

/-- overwrite.rs:41-56: the passes. -/
def passes (h cap : Nat) : Nat → Prog Error Unit
  | 0 => pure ()
  | n + 1 => do
      (rewind h).mapErr fun _ => .resetCursorPosition
      writeBlocks h (blocks cap)
      (flush h).mapErr fun _ => .flushFile
      passes h cap n

/-- overwrite.rs:39-63 `execute`; `0..passes` is empty for negative pass counts. -/
def execute (h cap : Nat) (n : Int) : Prog Error Unit := do
  passes h cap n.toNat
  (rewind h).mapErr fun _ => .resetCursorPosition
  (writeAll h (List.replicate cap 0)).mapErr fun _ => .overwriteWithZeros
  (flush h).mapErr fun _ => .flushFile

end Volaris.Overwrite
