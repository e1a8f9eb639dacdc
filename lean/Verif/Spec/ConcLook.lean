import Verif.Spec.ConcKeys
import Verif.Spec.Behaviour
/-!
# Reading a file while its keys are changed
-/
namespace Volaris.Spec

/-- What only reads an encrypted file: decrypting it, and dumping its header. -/
inductive Look where
  | decrypt (pw : Bytes)
  | dump

/-- The call as one program. -/
def Look.prog (C : Crypto) (reader writer : Nat) : Look → Prog Cli.Error Unit
  | decrypt pw => (Decrypt.execute C { headerReader := none, reader, writer, rawKey := pw }).mapErr .decrypt
  | dump => (HeaderOps.dump reader writer).mapErr .headerOp

/-- The call as a sequence of steps. -/
def Look.steps (C : Crypto) (reader writer : Nat) : Look → Thr Cli.Error Unit
  | decrypt pw => (Cli.Steps.decryptExecute C { headerReader := none, reader, writer, rawKey := pw }).mapErr .decrypt
  | dump => (Cli.Steps.dumpExecute reader writer).mapErr .headerOp

/-- A call that is about to be made: what, the handles, and what is the caller's own. -/
structure LookCall where
  what : Look
  reader : Nat
  writer : Nat
  self : World

/-- The file the call writes to. -/
def LookCall.output (c : LookCall) : Nat := (c.self.fd c.writer).ino

/-- The calls are about to be made, each by a process of its own, on one disk: first the key operations, then those that only read. -/
def startBoth (C : Crypto) (cs : List KeyCall) (ls : List LookCall) (d : Disk) : Machine :=
  ⟨d, (startKeys C cs d).procs ++ ls.map fun c => ⟨c.self, c.what.steps C c.reader c.writer⟩⟩

/-- The call reads file `i` from its start and writes to another one. -/
structure LookCall.Fits (c : LookCall) (i : Nat) : Prop where
  fd : c.self.fd c.reader = ⟨i, 0⟩
  handles : c.reader ≠ c.writer
  files : c.output ≠ i

/-- The disk with another content of file `i`. -/
def withFile (d : Disk) (i : Nat) (b : Bytes) : Disk := { d with file := fun j => if j = i then b else d.file j }

/-- The operation takes this password away from a list. -/
def KeyCmd.takes (pw : Bytes) : KeyCmd → Prop
  | delete old => old = pw
  | change old _ _ => old = pw
  | _ => False

/-- The operation puts this password on a list. -/
def KeyCmd.gives (pw : Bytes) : KeyCmd → Prop
  | add _ new _ => new = pw
  | change _ new _ => new = pw
  | _ => False

end Volaris.Spec
