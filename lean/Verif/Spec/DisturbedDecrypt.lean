import Verif.Spec.Disturbed
import Verif.Spec.Forgery
/-!
# Decryption while other programs change the disk
-/
namespace Volaris.Spec

/-- What is left of a process that found these disks, one before each of its steps. -/
def Proc.after : List Disk → Proc → Proc
  | d :: ds, ⟨self, .step eff k⟩ => Proc.after ds ⟨eff (self.on d), k (self.on d)⟩
  | _, p => p

/-- In these steps, with those of other programs between them, the bytes `q` are written to file `o` one after the other from position `pos` on, and nothing else is written to any file. -/
inductive Lays (o : Nat) : Nat → Bytes → List (Disk × Disk) → Prop
  | nil {pos : Nat} : Lays o pos [] []
  | idle {pos : Nat} {q : Bytes} {d d' : Disk} {rest : List (Disk × Disk)} : d'.file = d.file → Lays o pos q rest → Lays o pos q ((d, d') :: rest)
  | put {pos : Nat} {b q : Bytes} {d d' : Disk} {rest : List (Disk × Disk)} :
      d'.file o = writeAt (d.file o) pos b → (∀ i, i ≠ o → d'.file i = d.file i) → Lays o (pos + b.length) q rest → Lays o pos (b ++ q) ((d, d') :: rest)

/-- Nothing was forged on these disks for somebody who decrypts with `pw`: whatever bytes in one of their files open under a data key that `pw` recovers from some header, with associated data, were made for one of the files `made`. -/
def NothingForged (C : Crypto) (made : Made → Prop) (pw : Bytes) (ds : List Disk) : Prop :=
  ∀ d ∈ ds, ∀ i c, c <:+: d.file i → ∀ h mk, Recovers C pw h mk → ∀ n aad q, aad ≠ [] → C.dec h.headerType.algorithm mk n aad c = some q →
    ∃ f, made f ∧ BodySealing C f.header f.key f.aad f.plain { algorithm := h.headerType.algorithm, key := mk, nonce := n, aad := aad, ciphertext := c }

/-- No file on these disks starts as one of version 1 or 2, which have no associated data. -/
def NoneOld (ds : List Disk) : Prop := ∀ d ∈ ds, ∀ i, ¬ versionCode .v1 <+: d.file i ∧ ¬ versionCode .v2 <+: d.file i

/-- What the secret can be: the content of some file on one of these disks if it is in a key file; a rest of the lines on standard input; the environment variable; something typed.
(The decrypt command does not generate passphrases; if it did, nothing would be known.) -/
def MaySupply (key : Cli.Key) (self : World) (ds : List Disk) (pw : Bytes) : Prop :=
  match key with
  | .keyfile path => if path = ['-'] then ∃ l, l <:+ self.stdin ∧ pw = Cli.stdinBytes l else ∃ d ∈ ds, ∃ i, pw = d.file i
  | .env => self.env = some pw
  | .user => pw ∈ self.tty
  | .generate _ => True

/-- In a step from `d` to `d'` the name was resolved, and then this file was there. -/
def Leads (self : World) (cwd : Path) (name : List Char) (d d' : Disk) (i : Nat) : Prop := ∃ q, (self.on d).resolve (Cli.toPath cwd name) = .ok q ∧ lookDisk d' q = some (.file i)

/-- The steps of a decryption: first none that writes to a file, though files can be emptied; the last one of these leaves the file `o`, which is the one with the name of the output, empty; then those that write `q` to the output and nothing else; then those of erasing the input.
`q` is a beginning of the plaintext of one of the files `made`.  If something was erased, or the command has succeeded, it is the whole plaintext. -/
def Delivers (made : Made → Prop) (erases succeeded : Prop) (output : Disk → Disk → Nat → Prop) (steps : List (Disk × Disk)) : Prop :=
  ∃ before during afterwards o q, steps = before ++ during ++ afterwards ∧
    (∀ st ∈ before, ∀ i, st.2.file i = st.1.file i ∨ st.2.file i = []) ∧
    (during ++ afterwards ≠ [] → ∃ st, before.getLast? = some st ∧ st.2.file o = [] ∧ output st.1 st.2 o) ∧
    Lays o 0 q during ∧
    (q = [] ∨ ∃ f, made f ∧ q <+: f.plain) ∧
    (afterwards ≠ [] → erases ∧ ∃ f, made f ∧ q = f.plain) ∧
    (succeeded → ∃ f, made f ∧ q = f.plain)

end Volaris.Spec
