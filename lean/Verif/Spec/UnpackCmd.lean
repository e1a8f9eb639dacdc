import Verif.Spec.PackCmd
import Verif.Spec.Commands
/-!
# Vocabulary for the unpack command
-/
namespace Volaris.Spec

/-- The lines on the screen when a question is answered after `k` lines that are no answer. -/
def questionLines (question : List Char) : Nat → List (List Char)
  | 0 => [question]
  | k + 1 => question :: "[-] Unrecognised answer - please try again".toList :: questionLines question k

/-- The lines on the screen about the decision to extract the file called `name`, or not to. -/
def decisionLines (verbose : Bool) (name : Name) (extracted : Bool) : List (List Char) :=
  if extracted then (if verbose then ["[i] Extracting ".toList ++ name] else []) else ["[-] Skipping ".toList ++ name]

/-- `Dialogue force verbose w lines conv shown`: with the lines `lines` before them, the user (or the flag that forces) decided about the paths of `conv`, in this order, as `conv` says: a path is accepted without a
question only if nothing was there in `w` or by force; otherwise it is the first answer among the lines still unread that decides.  Meanwhile the lines `shown` were printed: the questions, each with
the name of the file, and the decisions. -/
inductive Dialogue (force : Cli.ForceMode) (verbose : Bool) (w : World) : List String → List (PathBuf × Bool) → List (List Char) → Prop
  | nil {lines : List String} : Dialogue force verbose w lines [] []
  | free {lines : List String} {p : PathBuf} {name : Name} {conv : List (PathBuf × Bool)} {shown : List (List Char)} (h : ¬ Occupied w p) (hn : p.comps.getLast? = some (.name name))
      (hd : Dialogue force verbose w lines conv shown) : Dialogue force verbose w lines ((p, true) :: conv) (decisionLines verbose name true ++ shown)
  | forced {lines : List String} {p : PathBuf} {name : Name} {conv : List (PathBuf × Bool)} {shown : List (List Char)} (h : force = .forced) (hn : p.comps.getLast? = some (.name name))
      (hd : Dialogue force verbose w lines conv shown) : Dialogue force verbose w lines ((p, true) :: conv) (decisionLines verbose name true ++ shown)
  | asked {lines rest : List String} {p : PathBuf} {name : Name} {b : Bool} {k : Nat} {conv : List (PathBuf × Bool)} {shown : List (List Char)} (h : FirstAnswer true lines b rest)
      (hf : force = .prompt) (hk : lines.length = k + 1 + rest.length) (hn : p.comps.getLast? = some (.name name)) (hd : Dialogue force verbose w rest conv shown) :
      Dialogue force verbose w lines ((p, b) :: conv) (questionLines (overwriteQuestion name) k ++ decisionLines verbose name b ++ shown)

/-- A run of the command with the result `r` has printed exactly the lines `shown` and then, if a hash was asked for and there was no error, the digest of the input. -/
def Screen (params : Cli.CryptoParams) (input : List Char) (r : Res Cli.Error Unit) (shown : List (List Char)) (w w' : World) : Prop :=
  ∃ after, w'.out.map (·.text) = (shown ++ after).reverse ++ w.out.map (·.text) ∧
    ((after = [] ∧ (r = .ok () → params.hashMode = .noHash)) ∨ (params.hashMode = .calculateHash ∧ ∃ d, after = [digestLine input d]))

end Volaris.Spec
