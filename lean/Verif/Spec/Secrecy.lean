import Verif.Spec.Cli
import Verif.Model.Cli.Commands
import Verif.Spec.Crash
/-!
# Vocabulary for two machines that differ in a secret

A program keeps something secret if nobody who sees what it does can tell which of two secrets it worked with.  So the statements compare a run with the run on a second machine, which differs from the first one only in the
secret.
-/
namespace Volaris.Spec

/-- How the content of a file on the second machine may differ: not at all, but not in its length, or in every way. -/
inductive Differ where
  | no
  | content
  | anyhow
deriving DecidableEq, Repr

/-- The two contents differ at most like this. -/
def Differ.allows : Differ → Bytes → Bytes → Prop
  | .no, a, b => a = b
  | .content, a, b => a.length = b.length
  | .anyhow, _, _ => True

/-- The second machine: the files have the contents `g`, and the passwords that are in the environment variable or will be typed are changed by `f`.  Everything else is the same. -/
def twin (f : Bytes → Bytes) (g : Nat → Bytes) (w : World) : World := { w with file := g, env := w.env.map f, tty := w.tty.map f }

/-- The second machine, when only the contents of files differ. -/
def withFiles (g : Nat → Bytes) (w : World) : World := { w with file := g }

/-- The contents of the second machine differ only in files that are there, and not in their lengths. -/
structure SameLengths (w : World) (g : Nat → Bytes) : Prop where
  lengths : ∀ j, (g j).length = (w.file j).length
  there : ∀ j, w.nextIno ≤ j → g j = w.file j

/-- The file at the place, if one is there, has the same content on the second machine. -/
def SameAt (w : World) (g : Nat → Bytes) (q : Path) : Prop := ∀ j, w.look q = some (.file j) → g j = w.file j

/-- A cipher whose results show nothing of the message but its length. -/
def LengthOnly (C : Crypto) : Prop := ∀ a key nonce aad msg msg', msg.length = msg'.length → C.enc a key nonce aad msg = C.enc a key nonce aad msg'

/-- A password hash whose results show nothing of the password. -/
def PasswordBlind (C : Crypto) : Prop := ∀ f password password' salt, C.kdf f password salt = C.kdf f password' salt

/-- The password hash does not tell the changed passwords from the original ones. -/
def HidesChange (C : Crypto) (f : Bytes → Bytes) : Prop := ∀ fn password salt, C.kdf fn (f password) salt = C.kdf fn password salt

/-- Passwords are changed into different ones, and empty ones stay empty. -/
structure Renames (f : Bytes → Bytes) : Prop where
  distinct : ∀ k k', f k = f k' → k = k'
  empty : ∀ k, f k = [] ↔ k = []

/-- The key, if it is in a file, is the same on the second machine. -/
def SameKey (w : World) (g : Nat → Bytes) (cwd : Path) (key : Cli.Key) : Prop := ∀ path, key = .keyfile path → path ≠ ['-'] → SameAt w g (onPaper (Cli.toPath cwd path))

/-- Whoever looks at what the program does on the two machines sees the same: the same result, the same modifying system calls with the same bytes in the same order, and the same lines on the screen, each after the same calls. -/
def LooksSame {ε α : Type} (x : Prog ε α) (w v : World) : Prop := (x v).1 = (x w).1 ∧ (∀ es, Calls x v es ↔ Calls x w es) ∧ (x v).2.out = (x w).2.out

/-- The disks hold the same entries, and the same in the files that were the same before. -/
def SameBut (w : World) (g : Nat → Bytes) (d d' : Disk) : Prop := d'.dir = d.dir ∧ d'.nextIno = d.nextIno ∧ ∀ j, g j = w.file j → d'.file j = d.file j

/-- The disks look the same when the program has ended, and whenever it is killed before. -/
def SameDisks {ε α : Type} (x : Prog ε α) (w v : World) (g : Nat → Bytes) : Prop :=
  SameBut w g (x w).2.disk (x v).2.disk ∧ ∀ u, StoppedAt x w u → ∃ u', StoppedAt x v u' ∧ SameBut w g u.disk u'.disk

/-- A command that prints the hash of its output reads the output. -/
def hashed (params : Cli.CryptoParams) (output : List Char) : List (List Char) := if params.hashMode = .calculateHash then [output] else []

/-- The commands that ask for a password, the paths whose files they read and the keys that they use. -/
inductive UsesPassword {σ : Type} (s : Cli.Sys σ) : Prog Cli.Error Unit → List (List Char) → List Cli.Key → Prop
  | encrypt (input output : List Char) (params : Cli.CryptoParams) (a : Algorithm) : UsesPassword s (Cli.encryptMode s input output params a) (input :: hashed params output) [params.key]
  | decrypt (input output : List Char) (params : Cli.CryptoParams) : UsesPassword s (Cli.decryptMode s input output params) (input :: params.header.toList) [params.key]
  | pack (inputs : List (List Char)) (output : List Char) (pp : Cli.PackParams) (params : Cli.CryptoParams) (a : Algorithm) : UsesPassword s (Cli.packMode s inputs output pp params a) (inputs ++ hashed params output) [params.key]
  | keyAdd (input : List Char) (params : Cli.KeyManipulationParams) : UsesPassword s (Cli.keyAdd s input params) [input] [params.keyOld, params.keyNew]
  | keyChange (input : List Char) (params : Cli.KeyManipulationParams) : UsesPassword s (Cli.keyChange s input params) [input] [params.keyOld, params.keyNew]
  | keyDelete (input : List Char) (key : Cli.Key) : UsesPassword s (Cli.keyDelete s input key) [input] [key]
  | keyVerify (input : List Char) (key : Cli.Key) : UsesPassword s (Cli.keyVerify s input key) [input] [key]

/-- A text that the line carries: a word, what comes after `=` in a word `--name=…`, or what comes after the letter in a word `-c…` or `-c=…`; the first word can have the letter of a command before that letter. -/
inductive Carries (argv : List (List Char)) : List Char → Prop
  | word {v : List Char} (h : v ∈ argv.tail) : Carries argv v
  | long {name v : List Char} (h : '-' :: '-' :: (name ++ '=' :: v) ∈ argv.tail) : Carries argv v
  | short {c : Char} {v : List Char} (hv : v ≠ []) (h : '-' :: c :: v ∈ argv.tail) : Carries argv v
  | shortEq {c : Char} {v : List Char} (h : '-' :: c :: '=' :: v ∈ argv.tail) : Carries argv v
  | first {e c : Char} {v : List Char} (hv : v ≠ []) (h : argv.head? = some ('-' :: e :: c :: v)) : Carries argv v
  | firstEq {e c : Char} {v : List Char} (h : argv.head? = some ('-' :: e :: c :: '=' :: v)) : Carries argv v

end Volaris.Spec
