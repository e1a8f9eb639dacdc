import Verif.Model.Header
/-!
# crates/volaris-tools/src/header/{dump,restore,strip}.rs
-/
namespace Volaris.HeaderOps

/-- tools header.rs:8-15 `Error`.  `HeaderSizeParse` cannot occur. -/
inductive Error where
  | unsupportedRestore
  | invalidFile
  | write
  | read
  | rewind
deriving DecidableEq, Repr

/-- header/dump.rs:18-31 `execute`. -/
def dump (reader writer : Nat) : Prog Error Unit := do
  let (header, _) ← (deserialize reader).mapErr fun _ => .invalidFile
  (header.write writer).mapErr fun _ => .write

/-- header/restore.rs:18-52 `execute`.  The check uses one `read` call into a zeroed buffer whose byte count
is discarded. -/
def restore (reader writer : Nat) : Prog Error Unit := do
  let (header, _) ← (deserialize reader).mapErr fun _ => .invalidFile
  let got ← (Volaris.read writer header.getSize).mapErr fun _ => .read
  let headerBytes := got ++ zeros (header.getSize - got.length)
  if !(headerBytes.all (· == 0)) then Prog.throw .unsupportedRestore
  else do
    (Volaris.rewind writer).mapErr fun _ => .rewind
    (header.write writer).mapErr fun _ => .write

/-- header/strip.rs:16-42 `execute`. -/
def strip (handle : Nat) : Prog Error Unit := do
  let (header, _) ← (deserialize handle).mapErr fun _ => .invalidFile
  (Volaris.rewind handle).mapErr fun _ => .rewind
  (writeAll handle (zeros header.getSize)).mapErr fun _ => .write

end Volaris.HeaderOps
