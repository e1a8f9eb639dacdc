import Verif.Spec.Commands
/-!
# Vocabulary for commands that succeed
-/
namespace Volaris.Spec

/-- In `u` the user has been asked, if need be, whether what is at `name` may be overwritten, and has said yes. -/
def AfterConsent (force : Cli.ForceMode) (cwd : Path) (name : List Char) (w u : World) : Prop :=
  ((¬ Occupied w (Cli.toPath cwd name) ∨ force = .forced) ∧ u = w) ∨
  (Occupied w (Cli.toPath cwd name) ∧ force = .prompt ∧ ∃ rest, FirstAnswer true w.stdin true rest ∧ u = answered w (overwriteQuestion name) rest)

/-- A file can be written at `p` and no question is asked about it. -/
def FreelyWritable (force : Cli.ForceMode) (w : World) (p : PathBuf) : Prop := CanHold w p ∧ (¬ Occupied w p ∨ force = .forced)

/-- In `v` the output (with the header file, if there is one) is an encrypted file that decrypts with `secret` to `p`.  With a header file, provided that the ciphertext does not start with as many zeros
as the header has bytes (see `C15_zero_ciphertext`). -/
def Encrypted (C : Crypto) (cwd : Path) (output : List Char) (header : Option (List Char)) (secret p : Bytes) (v : World) : Prop :=
  match header with
  | none => ∃ c, ContentAt v (Cli.toPath cwd output) c ∧ DecryptsTo C secret c p
  | some hd => ∃ h c, ContentAt v (Cli.toPath cwd hd) h ∧ ContentAt v (Cli.toPath cwd output) c ∧
      ((∃ b ∈ c.take h.length, b ≠ 0) → DetachedDecryptsTo C secret h c p)

/-- The input content `c`, with the header file of `w` if one is given, decrypts with `secret` to `p`. -/
def Unlocks (C : Crypto) (cwd : Path) (header : Option (List Char)) (secret c p : Bytes) (w : World) : Prop :=
  match header with
  | none => DecryptsTo C secret c p
  | some hd => ∃ h, ContentAt w (Cli.toPath cwd hd) h ∧ DetachedDecryptsTo C secret h c p

/-- Everything is in place for the encrypt command: no fault will happen; the input is a file; input, output and header file are apart and the latter two can be written; the user agrees to overwriting
the output, if need be; the key source then supplies `secret`; the primitives work and can count the blocks. -/
structure EncryptReady {σ : Type} (s : Cli.Sys σ) (input output : List Char) (params : Cli.CryptoParams) (a : Algorithm) (secret : Bytes) (q : Path) (i : Nat) (w : World) : Prop where
  faultless : w.sched = []
  names : input ≠ output
  source : LeadsToFile w (Cli.toPath s.cwd input) q i
  separate : Separate s.cwd input output params.header w
  target : CanHold w (Cli.toPath s.cwd output)
  header : ∀ hd, params.header = some hd → FreelyWritable params.force w (Cli.toPath s.cwd hd)
  key : secret ≠ [] ∧ ∃ u, AfterConsent params.force s.cwd output w u ∧ Supplies s.words s.cwd .validate params.key u secret
  primitives : PrimitivesWork s.C a params.hashingAlgorithm secret
  size : (w.file i).length / 2 ^ 20 ≤ s.C.ctrMax

/-- The same for the decrypt command, whose input has the content `c`. -/
structure DecryptReady {σ : Type} (s : Cli.Sys σ) (input output : List Char) (params : Cli.CryptoParams) (secret c : Bytes) (w : World) : Prop where
  faultless : w.sched = []
  names : input ≠ output
  source : ContentAt w (Cli.toPath s.cwd input) c
  separate : OutputApart s.cwd input output params.header w
  target : CanHold w (Cli.toPath s.cwd output)
  key : secret ≠ [] ∧ ∃ u, AfterConsent params.force s.cwd output w u ∧ Supplies s.words s.cwd .direct params.key u secret

/-- The header file, if there was one, has been brought from where it was in `w` to where it is wanted in `v`, and the ciphertext `c` does not begin with zeros in place of the header. -/
def HeaderBrought (cwd cwd' : Path) (header header' : Option (List Char)) (c : Bytes) (w v : World) : Prop :=
  match header, header' with
  | none, none => True
  | some hd, some hd' => ∀ h, ContentAt w (Cli.toPath cwd hd) h → ContentAt v (Cli.toPath cwd' hd') h ∧ ∃ b ∈ c.take h.length, b ≠ 0
  | _, _ => False

end Volaris.Spec
