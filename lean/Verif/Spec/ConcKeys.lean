import Verif.Spec.Concurrent
import Verif.Spec.KeyFiles
/-!
# Key operations on one file at the same time
-/
namespace Volaris.Spec

/-- The steps of a key operation through handle `h`. -/
def KeyCmd.steps (C : Crypto) (h : Nat) : KeyCmd → Thr KeyOps.Error Unit
  | add old new hash => Cli.Steps.keyAddExecute C { handle := h, rawKeyOld := old, rawKeyNew := new, hashAlgorithm := hash }
  | change old new hash => Cli.Steps.keyChangeExecute C { handle := h, rawKeyOld := old, rawKeyNew := new, hashAlgorithm := hash }
  | delete pw => Cli.Steps.keyDeleteExecute C h pw
  | verify pw => Cli.Steps.keyVerifyExecute C h pw

/-- A call of a key operation that is about to be made: the operation, the handle, and what is the caller's own. -/
structure KeyCall where
  cmd : KeyCmd
  handle : Nat
  self : World

/-- The calls are about to be made, each by a process of its own, on one disk. -/
def startKeys (C : Crypto) (cs : List KeyCall) (d : Disk) : Machine := ⟨d, cs.map fun c => ⟨c.self, (c.cmd.steps C c.handle).mapErr .key⟩⟩

/-- Call `j` has returned this. -/
def KeyReturned (m : Machine) (j : Nat) (r : Res Cli.Error Unit) : Prop := ∃ p, m.procs[j]? = some p ∧ p.rest = .done r

/-- The operations with these numbers, in this order. -/
def chosen (cs : List KeyCall) (js : List Nat) : List KeyCmd := js.filterMap fun j => cs[j]?.map KeyCall.cmd

/-- `js` is a selection of the calls that have returned `Ok`, each at most once and in some order, and on the list `l` the operations `js`, one after the other, all succeed. -/
structure Selection (cs : List KeyCall) (l : List Bytes) (m : Machine) (js : List Nat) : Prop where
  once : js.Nodup
  returned : ∀ j ∈ js, KeyReturned m j (.ok ())
  succeed : ∀ r ∈ (onListAll (chosen cs js) l).1, r = .ok ()

/-- Among the passwords `U`, exactly those of the list decrypt `content`, namely to `p`; the others are refused. -/
def OpenedBy (C : Crypto) (U l : List Bytes) (content p : Bytes) : Prop :=
  ∀ pw ∈ U, (pw ∈ l → DecryptsTo C pw content p) ∧ (pw ∉ l → Refuses C pw content)

/-- `content` is a file with a header of this type and nonce whose keyslots belong, in order, to the passwords `l`, all of them among `U`, and with `body` after the header. -/
def KeysAre (C : Crypto) (t : HeaderType) (nonce aad mk body : Bytes) (U l : List Bytes) (content : Bytes) : Prop :=
  (∀ pw ∈ l, pw ∈ U) ∧ content.drop 416 = body ∧ ∃ hd ks, KeyFile content hd ks aad ∧ hd.headerType = t ∧ hd.nonce = nonce ∧ SlotsFor C t.algorithm mk U l ks

/-- An operation that leaves the file alone. -/
def KeyCmd.looksOnly : KeyCmd → Prop
  | verify _ => True
  | _ => False

/-- Every call works on file `i` from its start, there are no short transfers, its passwords are among `U`, and a slot made by it is opened by no other password of `U`. -/
structure KeyCall.Fits (c : KeyCall) (C : Crypto) (a : Algorithm) (mk : Bytes) (U : List Bytes) (i : Nat) : Prop where
  fd : c.self.fd c.handle = ⟨i, 0⟩
  short : ∀ k, Io.short k ∉ c.self.sched
  known : ∀ pw ∈ c.cmd.passwords, pw ∈ U
  apart : ToldApart C a mk U c.self 1

end Volaris.Spec
