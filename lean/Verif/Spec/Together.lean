import Verif.Spec.DisturbedEncrypt
/-!
# Several commands encrypt and erase one file at the same time
-/
namespace Volaris.Spec
variable {σ : Type}

/-- File `i` is at the place `q`, and its content is `x`. -/
def HasAt (d : Disk) (q : Path) (i : Nat) (x : Bytes) : Prop := lookDisk d q = some (.file i) ∧ d.file i = x

/-- In this step the command's `name` led to the place `p`, and the file `o` was there afterwards. -/
def Started.LedTo (c : Started σ) (name : List Char) (step : Disk × Disk) (p : Path) (o : Nat) : Prop :=
  (c.self.on step.1).resolve (Cli.toPath c.s.cwd name) = .ok p ∧ lookDisk step.2 p = some (.file o)

/-- The command encrypts file `i`, and perhaps erases it, whatever the `moves` of the machine: when there is something with the name of its input, then it is file `i`; the names of its output and header file do not lead there, nor both to the same file, nor to what is erased with the input.  No transfer is cut short. -/
structure Started.Encrypts (c : Started σ) (moves : List (Disk × Disk)) (i : Nat) (input output : List Char) (params : Cli.CryptoParams) (algorithm : Algorithm) : Prop where
  cmd : c.cmd = .encrypt input output params algorithm
  lawful : c.s.C.Lawful
  noShort : ∀ k, Io.short k ∉ c.self.sched
  named : ∀ st ∈ moves, ∀ p n, (c.self.on st.1).resolve (Cli.toPath c.s.cwd input) = .ok p → lookDisk st.1 p = some n → n = .file i
  apart : ∀ name ∈ output :: params.header.toList, ∀ st ∈ moves, ∀ p, ¬ c.LedTo name st p i
  header : ∀ name ∈ params.header.toList, ∀ st ∈ moves, ∀ st' ∈ moves, ∀ p p' o, c.LedTo output st p o → ¬ c.LedTo name st' p' o
  own : params.erase ≠ .ignoreFile → ∀ name ∈ output :: params.header.toList, ∀ st ∈ moves, ∀ p o, c.LedTo name st p o →
    ∀ st' ∈ moves, ∀ top, (c.self.on st'.1).resolve (Cli.toPath c.s.cwd input) = .ok top → ¬ top <+: p ∧ ∀ p', top <+: p' → lookDisk st'.1 p' ≠ some (.file o) ∧ lookDisk st'.2 p' ≠ some (.file o)

/-- The command has nothing to do with file `i` at the place `q`. -/
def Started.Foreign (c : Started σ) (moves : List (Disk × Disk)) (q : Path) (i : Nat) : Prop := ∀ st ∈ moves, ¬ c.Given st.1 q ∧ ¬ c.Met st i

/-- Nobody else has anything to do with the output and the header file of the command, which is the one with the number `k`. -/
def Started.Undisturbed (c : Started σ) (cs : List (Started σ)) (k : Nat) (moves : List (Disk × Disk)) (output : List Char) (header : Option (List Char)) : Prop :=
  ∀ k' c', cs[k']? = some c' → k' ≠ k → ∀ name ∈ output :: header.toList, ∀ st ∈ moves, ∀ p o, c.LedTo name st p o → c'.Foreign moves p o

/-- At the place that its output's name led to is a file which, with that at the place of the header file in front if there is one, opens to `x` with a secret that the command was supplied with. -/
def Started.HasSealed (c : Started σ) (moves : List (Disk × Disk)) (output : List Char) (params : Cli.CryptoParams) (x : Bytes) (d : Disk) : Prop :=
  ∃ st ∈ moves, ∃ p o pw, c.LedTo output st p o ∧ lookDisk d p = some (.file o) ∧ MaySupply params.key c.self (moves.map (·.1)) pw ∧
    match params.header with
    | none => DecryptsTo c.s.C pw (d.file o) x
    | some name => ∃ st' ∈ moves, ∃ p' oh, c.LedTo name st' p' oh ∧ lookDisk d p' = some (.file oh) ∧ DecryptsTo c.s.C pw (d.file oh ++ d.file o) x

end Volaris.Spec
