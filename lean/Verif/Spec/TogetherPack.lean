import Verif.Spec.Together
/-!
# Several commands pack, encrypt or decrypt one file, and erase it, at the same time
-/
namespace Volaris.Spec
variable {σ : Type}

/-- The command packs file `i`, which is at the place `q`, that is, at `ns` below the directory that is its `input`, and perhaps erases what it packs, whatever the `moves` of the machine: while the file is there, the name of the input leads to that directory.
The names of the output and the header file do not lead to the file, nor both to the same file, nor to what is erased with the inputs; and nothing of this is where the temporary file is.  No transfer is cut short. -/
structure Started.Packs (c : Started σ) (moves : List (Disk × Disk)) (q : Path) (i : Nat) (inputs : List (List Char)) (output : List Char) (packParams : Cli.PackParams) (params : Cli.CryptoParams) (algorithm : Algorithm)
    (input : List Char) (ns : List Name) : Prop where
  cmd : c.cmd = .pack inputs output packParams params algorithm
  lawful : c.s.C.Lawful
  zip : c.s.z.Lawful
  noShort : ∀ k, Io.short k ∉ c.self.sched
  given : input ∈ inputs
  named : ns ≠ [] ∧ ∃ top, q = top ++ ns ∧ ∀ st ∈ moves, lookDisk st.1 q = some (.file i) → (c.self.on st.1).resolve (Cli.toPath c.s.cwd input) = .ok top
  apart : ∀ name ∈ output :: params.header.toList, ∀ st ∈ moves, ∀ p, ¬ c.LedTo name st p i
  header : ∀ name ∈ params.header.toList, ∀ st ∈ moves, ∀ st' ∈ moves, ∀ p p' o, c.LedTo output st p o → ¬ c.LedTo name st' p' o
  own : packParams.eraseSource = true → ∀ f ∈ inputs, ∀ name ∈ output :: params.header.toList, ∀ st ∈ moves, ∀ p o, c.LedTo name st p o →
    ∀ st' ∈ moves, ∀ top, (c.self.on st'.1).resolve (Cli.toPath c.s.cwd f) = .ok top → ¬ top <+: p ∧ ∀ p', top <+: p' → lookDisk st'.1 p' ≠ some (.file o) ∧ lookDisk st'.2 p' ≠ some (.file o)
  temporary : ∀ path ∈ c.temporary, ∀ st ∈ moves, ∀ p, (c.self.on st.1).resolve path = .ok p → (p ≠ q ∧ lookDisk st.1 p ≠ some (.file i) ∧ lookDisk st.2 p ≠ some (.file i)) ∧
    ∀ name ∈ output :: params.header.toList, ∀ st' ∈ moves, ∀ p' o, c.LedTo name st' p' o → p ≠ p' ∧ lookDisk st.1 p ≠ some (.file o) ∧ lookDisk st.2 p ≠ some (.file o)

/-- Nobody else has anything to do with the temporary file of the command, which is the one with the number `k`. -/
def Started.TempUndisturbed (c : Started σ) (cs : List (Started σ)) (k : Nat) (moves : List (Disk × Disk)) : Prop :=
  ∀ k' c', cs[k']? = some c' → k' ≠ k → ∀ path ∈ c.temporary, ∀ st ∈ moves, ∀ p o, (c.self.on st.1).resolve path = .ok p → lookDisk st.2 p = some (.file o) → c'.Foreign moves p o

/-- The output opens, with a secret that the command was supplied with, to an archive in which a member with the path of the file, as it is reached from the command line, holds `x`. -/
def Started.HasPacked (c : Started σ) (moves : List (Disk × Disk)) (output : List Char) (params : Cli.CryptoParams) (input : List Char) (ns : List Name) (x : Bytes) (d : Disk) : Prop :=
  ∃ archive members, c.HasSealed moves output params archive d ∧ c.s.z.decode archive = some members ∧
    { name := ZipName.ofPath ((Cli.toPath c.s.cwd input).push (ns.map .name)), opens := true, content := x, sound := true } ∈ members

end Volaris.Spec
