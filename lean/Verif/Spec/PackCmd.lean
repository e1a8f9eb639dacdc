import Verif.Spec.Cli
import Verif.Spec.Pack
/-!
# Vocabulary for the pack command
-/
namespace Volaris.Spec

/-- `x` is a directory that one of the inputs leads to, or a path below. -/
def InSource (cwd : Path) (inputs : List (List Char)) (w : World) (x : Path) : Prop :=
  ∃ f ∈ inputs, ∃ T, LeadsToDir w (Cli.toPath cwd f) T ∧ T <+: x

/-- The user's consent to erasing directories: the flag, or an answer to the question that says yes (a blank answer is a no). -/
def EraseConsent (force : Cli.ForceMode) (w : World) : Prop := force = .forced ∨ ∃ lines rest, lines <:+ w.stdin ∧ FirstAnswer false lines true rest

/-- A path of a temporary file: sixteen letters and digits right in the directory for temporary files. -/
def TempPlace (tmp : PathBuf) (q : Path) : Prop := ∃ name : Name, name.length = 16 ∧ (∀ c ∈ name, c.isAlphanum = true) ∧ q = onPaper (tmp.push [.name name])

/-- The archive `l` holds what the inputs lead to in `w`, and nothing else: every directory, and every file with its content, under the path by which it is reached from the command line. -/
structure Archives (cwd : Path) (inputs : List (List Char)) (w : World) (l : List ZipEntry) : Prop where
  files : ∀ f ∈ inputs, ∀ T, LeadsToDir w (Cli.toPath cwd f) T → ∀ ns i, w.look (T ++ ns) = some (.file i) →
    { name := ZipName.ofPath ((Cli.toPath cwd f).push (ns.map .name)), content := w.file i } ∈ l
  dirs : ∀ f ∈ inputs, ∀ T, LeadsToDir w (Cli.toPath cwd f) T → ∀ ns, w.look (T ++ ns) = some .dir →
    { name := Pack.dirName (ZipName.ofPath ((Cli.toPath cwd f).push (ns.map .name))), content := [] } ∈ l
  only : ∀ e ∈ l, ∃ f ∈ inputs, ∃ T, LeadsToDir w (Cli.toPath cwd f) T ∧ ∃ ns,
    (∃ i, w.look (T ++ ns) = some (.file i) ∧ e = { name := ZipName.ofPath ((Cli.toPath cwd f).push (ns.map .name)), content := w.file i }) ∨
    (w.look (T ++ ns) = some .dir ∧ e = { name := Pack.dirName (ZipName.ofPath ((Cli.toPath cwd f).push (ns.map .name))), content := [] })

/-- Neither the place that `p` leads to nor the file there, if any, is among the sources. -/
def Beside (cwd : Path) (inputs : List (List Char)) (w : World) (p : PathBuf) : Prop :=
  ∀ q, w.resolve p = .ok q → ¬ InSource cwd inputs w q ∧ ∀ i, w.look q = some (.file i) → ∀ x, InSource cwd inputs w x → w.look x ≠ some (.file i)

/-- Output and header file are beside the sources and different from each other. -/
structure Outside (cwd : Path) (inputs : List (List Char)) (output : List Char) (header : Option (List Char)) (w : World) : Prop where
  allocated : Allocated w
  out : Beside cwd inputs w (Cli.toPath cwd output)
  hdr : ∀ hd, header = some hd → Beside cwd inputs w (Cli.toPath cwd hd) ∧ Apart w (Cli.toPath cwd output) (Cli.toPath cwd hd)

/-- In `v` there is the file `i` at the place that `p` led to in `w`; neither that place nor the file is among the sources. -/
def KeptAt (cwd : Path) (inputs : List (List Char)) (p : PathBuf) (w v : World) (i : Nat) : Prop :=
  ∃ q, w.resolve p = .ok q ∧ ¬ InSource cwd inputs w q ∧ v.look q = some (.file i) ∧ ∀ x, InSource cwd inputs w x → v.look x ≠ some (.file i)

/-- In `v`, output and, if there is one, header file hold what decrypts with `secret` to `p`, beside the sources. -/
def Keeps (C : Crypto) (cwd : Path) (inputs : List (List Char)) (output : List Char) (header : Option (List Char)) (secret p : Bytes) (w v : World) : Prop :=
  ∃ j, KeptAt cwd inputs (Cli.toPath cwd output) w v j ∧
    match header with
    | none => DecryptsTo C secret (v.file j) p
    | some hd => ∃ k, KeptAt cwd inputs (Cli.toPath cwd hd) w v k ∧ DecryptsTo C secret (v.file k ++ v.file j) p

/-- Where the pack command may write: the output, the header file, and a new file for the archive. -/
def PackTargets {σ : Type} (s : Cli.Sys σ) (output : List Char) (params : Cli.CryptoParams) (w : World) (q : Path) : Prop :=
  Targets s.cwd output params w q ∨ (TempPlace s.tmp q ∧ w.look q = none)

/-- Everything below the inputs is as it was. -/
def Intact (cwd : Path) (inputs : List (List Char)) (w w' : World) : Prop :=
  ∀ x, InSource cwd inputs w x → ∀ n, w.look x = some n → w'.look x = some n ∧ ∀ i, n = .file i → w'.file i = w.file i

end Volaris.Spec
