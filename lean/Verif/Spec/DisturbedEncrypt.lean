import Verif.Spec.DisturbedDecrypt
import Verif.Spec.CmdRoundTrip
/-!
# Encryption while other programs change the disk
-/
namespace Volaris.Spec

/-- Every block of `p`, also the last one, which is not full, was at its place in file `i` on one of these disks. -/
def SeenIn (ds : List Disk) (i : Nat) (p : Bytes) : Prop := ∀ k, k ≤ p.length / blockLen → ∃ d ∈ ds, chunk p k = chunk (d.file i) k

/-- The name was that of file `i` on one of these disks. -/
def NamedOn (self : World) (ds : List Disk) (cwd : Path) (name : List Char) (i : Nat) : Prop :=
  ∃ d ∈ ds, ∃ q, (self.on d).resolve (Cli.toPath cwd name) = .ok q ∧ lookDisk d q = some (.file i)

/-- The bytes `b` are an encrypted file that opens, with a secret that the key source may have supplied, to something that was read from the file with the name `input`. -/
def Captures {σ : Type} (s : Cli.Sys σ) (self : World) (ds : List Disk) (input : List Char) (key : Cli.Key) (b : Bytes) : Prop :=
  ∃ i pw p, NamedOn self ds s.cwd input i ∧ SeenIn ds i p ∧ MaySupply key self ds pw ∧ DecryptsTo s.C pw b p

/-- The step removes no name and gives none to something else; it may add some. -/
def KeepsNames (step : Disk × Disk) : Prop := ∀ q n, lookDisk step.1 q = some n → lookDisk step.2 q = some n

/-- The step removes no name and changes no file, except that a file with the name of the output or of the header file can be emptied. -/
def OnlyEmpties (output header : Disk → Disk → Nat → Prop) (step : Disk × Disk) : Prop :=
  KeepsNames step ∧ ∀ i, step.2.file i = step.1.file i ∨ step.2.file i = [] ∧ (output step.1 step.2 i ∨ header step.1 step.2 i)

/-- The steps of an encryption: first none that writes to a file, though those for the output and the header can be emptied; then one that writes the header `hb` to the file `oh`, which is the one with the name of the header file and was emptied before; then those that write the body `c` to `o`, which is the one with the name of the output and was emptied before as well:
after the header if it is the same file, at the start if the header is kept elsewhere; no name was removed until now; then those of erasing the input.  If something was erased, or the command has succeeded, header and body are `complete`. -/
def Seals (detached erases succeeded : Prop) (output header : Disk → Disk → Nat → Prop) (complete : Bytes → Prop) (steps : List (Disk × Disk)) : Prop :=
  (¬ succeeded ∧ ∀ st ∈ steps, OnlyEmpties output header st) ∨
  ∃ before d d' during afterwards oh hb o start c, steps = before ++ (d, d') :: during ++ afterwards ∧
    (∀ st ∈ before, OnlyEmpties output header st) ∧ (∀ st ∈ (d, d') :: during, KeepsNames st) ∧
    (∃ st ∈ before, st.2.file oh = [] ∧ header st.1 st.2 oh) ∧ (∃ st ∈ before, st.2.file o = [] ∧ output st.1 st.2 o) ∧
    d'.file oh = writeAt (d.file oh) 0 hb ∧ (∀ i, i ≠ oh → d'.file i = d.file i) ∧
    (¬ detached → oh = o ∧ start = hb.length) ∧ (detached → start = 0) ∧
    Lays o start c during ∧
    (afterwards ≠ [] → erases ∧ complete (hb ++ c)) ∧
    (succeeded → complete (hb ++ c))

end Volaris.Spec
