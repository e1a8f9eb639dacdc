import Verif.Model.Primitives
/-!
# crates/volaris-tools/src/hash.rs and hasher.rs
-/
namespace Volaris.HashCmd

/-- hash.rs:13-16 `Error`. -/
inductive Error where
  | resetCursorPosition
  | readData
deriving DecidableEq, Repr

/-- hasher.rs:1-4 trait `Hasher`: an incremental hasher (BLAKE3 in the program, hasher.rs:6-26). -/
structure Hasher (σ : Type) where
  init : σ
  write : σ → Bytes → σ
  finish : σ → String

/-- hash.rs:41-51: the read loop.  Fuel: a file has finitely many full blocks; running out is proved impossible. -/
def loop {σ : Type} (H : Hasher σ) (h : Nat) : Nat → σ → Prog Error σ
  | fuel, st => do
      let buf ← (read h BLOCK_SIZE).mapErr fun _ => .readData
      let st := H.write st buf
      if buf.length ≠ BLOCK_SIZE then pure st
      else
        match fuel with
        | 0 => Prog.lift (.abort .outOfFuel)
        | fuel + 1 => loop H h fuel st

/-- hash.rs:41-51: the loop with enough fuel for the file. -/
def hashAll {σ : Type} (H : Hasher σ) (h : Nat) : Prog Error σ := fun w => loop H h (w.data h).length H.init w

/-- hash.rs:33-54 `execute`. -/
def execute {σ : Type} (H : Hasher σ) (h : Nat) : Prog Error String := do
  (rewind h).mapErr fun _ => .resetCursorPosition
  let st ← hashAll H h
  pure (H.finish st)

end Volaris.HashCmd
