import Verif.Spec.UnpackCmd
import Verif.Spec.Asked
/-!
# Vocabulary for what is on the screen after a command
-/
namespace Volaris.Spec

/-- From `w` to `w'` exactly these lines came on the screen, in this order. -/
def Shows (lines : List (List Char)) (w w' : World) : Prop := w'.out.map (·.text) = lines.reverse ++ w.out.map (·.text)

/-- The lines are those of one question, which is repeated after every line that is no answer. -/
def AsksOnce (question : List Char) (lines : List (List Char)) : Prop := ∃ k, lines = questionLines question k

/-- Before the output is opened: the question whether to overwrite it, and it comes if and only if the command gets that far, there is something, and overwriting is not forced. -/
def AboutOutput (cwd : Path) (force : Cli.ForceMode) (output : List Char) (starts : Prop) (w : World) (lines : List (List Char)) : Prop :=
  (lines = [] ∨ AsksOnce (overwriteQuestion output) lines) ∧ (lines ≠ [] ↔ starts ∧ Occupied w (Cli.toPath cwd output) ∧ force = .prompt)

/-- About the header file: at most the question whether to overwrite it. -/
def AboutHeader (force : Cli.ForceMode) (header : Option (List Char)) (lines : List (List Char)) : Prop :=
  lines = [] ∨ force = .prompt ∧ ∃ hd, header = some hd ∧ AsksOnce (overwriteQuestion hd) lines

/-- About the secret: a generated passphrase, once, and always if the command succeeds; or remarks on passwords that are empty or not confirmed; nothing else. -/
def AboutKey (state : Cli.PasswordState) (key : Cli.Key) (ok : Bool) (lines : List (List Char)) : Prop :=
  match key with
  | .generate _ => (lines = [] ∧ ok = false) ∨ ∃ passphrase, lines = ["[-] Your generated passphrase is: ".toList ++ passphrase]
  | .user => ∀ l ∈ lines, state = .validate ∧ (l = "[-] Password cannot be empty, please try again.".toList ∨ l = "[-] The passwords aren't the same, please try again.".toList)
  | _ => lines = []

/-- The digest: nothing unless it is asked for; one line, and always if the command succeeds. -/
def AboutDigest (mode : Cli.HashMode) (file : List Char) (ok : Bool) (lines : List (List Char)) : Prop :=
  match mode with
  | .noHash => lines = []
  | .calculateHash => (lines = [] ∧ ok = false) ∨ ∃ digest, lines = [digestLine file digest]

/-- The questions before directories are erased: at most one for each directory. -/
inductive AboutErasing (force : Cli.ForceMode) : List (List Char) → List (List Char) → Prop
  | none {inputs : List (List Char)} : AboutErasing force inputs []
  | next {input : List Char} {inputs lines : List (List Char)} (h : AboutErasing force inputs lines) : AboutErasing force (input :: inputs) lines
  | asked {input : List Char} {inputs lines more : List (List Char)} (hf : force = .prompt) (ha : AsksOnce eraseQuestion lines) (h : AboutErasing force inputs more) :
      AboutErasing force (input :: inputs) (lines ++ more)

/-- The command ended well. -/
def endedWell (r : Res Cli.Error Unit) : Bool :=
  match r with
  | .ok _ => true
  | _ => false

end Volaris.Spec
