import Verif.Spec.Together
/-!
# Several commands encrypt or decrypt one file, and erase it, at the same time
-/
namespace Volaris.Spec
variable {σ : Type}

/-- The command decrypts file `i`, and perhaps erases it, whatever the `moves` of the machine: when there is something with the name of its input, then it is file `i`; the name of its output does not lead there, nor to what is erased with the input.
If its header is in another file, then this file does not change.  No transfer is cut short. -/
structure Started.Decrypts (c : Started σ) (moves : List (Disk × Disk)) (i : Nat) (input output : List Char) (params : Cli.CryptoParams) : Prop where
  cmd : c.cmd = .decrypt input output params
  lawful : c.s.C.Lawful
  noShort : ∀ k, Io.short k ∉ c.self.sched
  named : ∀ st ∈ moves, ∀ p n, (c.self.on st.1).resolve (Cli.toPath c.s.cwd input) = .ok p → lookDisk st.1 p = some n → n = .file i
  apart : ∀ st ∈ moves, ∀ p, ¬ c.LedTo output st p i
  own : params.erase ≠ .ignoreFile → ∀ st ∈ moves, ∀ p o, c.LedTo output st p o →
    ∀ st' ∈ moves, ∀ top, (c.self.on st'.1).resolve (Cli.toPath c.s.cwd input) = .ok top → ¬ top <+: p ∧ ∀ p', top <+: p' → lookDisk st'.1 p' ≠ some (.file o) ∧ lookDisk st'.2 p' ≠ some (.file o)
  header : ∀ name ∈ params.header.toList, ∀ st ∈ moves, ∀ p j, (c.self.on st.1).resolve (Cli.toPath c.s.cwd name) = .ok p → lookDisk st.1 p = some (.file j) → ∀ st' ∈ moves, st'.1.file j = st.1.file j

/-- At the place that its output's name led to is a file with what `x` decrypts to, with a secret that the command was supplied with; if a header file was given, with what was in that, or, as the command ignores a header file that is a directory, without it. -/
def Started.HasOpened (c : Started σ) (moves : List (Disk × Disk)) (output : List Char) (params : Cli.CryptoParams) (x : Bytes) (d : Disk) : Prop :=
  ∃ st ∈ moves, ∃ p o pw, c.LedTo output st p o ∧ lookDisk d p = some (.file o) ∧ MaySupply params.key c.self (moves.map (·.1)) pw ∧
    match params.header with
    | none => DecryptsTo c.s.C pw x (d.file o)
    | some name => DecryptsTo c.s.C pw x (d.file o) ∨ ∃ st' ∈ moves, ∃ p' j, (c.self.on st'.1).resolve (Cli.toPath c.s.cwd name) = .ok p' ∧ lookDisk st'.1 p' = some (.file j) ∧ DetachedDecryptsTo c.s.C pw (st'.1.file j) x (d.file o)

end Volaris.Spec
