import Verif.Spec.Screen
/-!
# Vocabulary for what unpacking shows on the screen
-/
namespace Volaris.Spec

/-- About one member of the archive, which is extracted (`kept`) or skipped: the question whether to overwrite, which never comes if overwriting is forced; then that it is extracted, which is said if and only if that was asked for, or that it
is skipped, which happens only after the question. -/
def AboutMember (force : Cli.ForceMode) (verbose : Bool) (name : List Char) (kept : Bool) (lines : List (List Char)) : Prop :=
  ∃ q a, lines = q ++ a ∧ (q = [] ∨ force = .prompt ∧ AsksOnce (overwriteQuestion name) q) ∧
    a = decisionLines verbose name kept ∧ (kept = false → q ≠ [])

/-- About the members with these names, one after the other; a question without an answer is the last thing of all. -/
inductive AboutMembers (force : Cli.ForceMode) (verbose : Bool) (ok : Bool) : List (List Char × Bool) → List (List Char) → Prop
  | none : AboutMembers force verbose ok [] []
  | next {name : List Char} {kept : Bool} {names : List (List Char × Bool)} {lines more : List (List Char)} (h : AboutMember force verbose name kept lines) (g : AboutMembers force verbose ok names more) :
      AboutMembers force verbose ok ((name, kept) :: names) (lines ++ more)
  | unanswered {name : List Char} {lines : List (List Char)} (hk : ok = false) (hf : force = .prompt) (h : AsksOnce (overwriteQuestion name) lines) :
      AboutMembers force verbose ok [] lines

end Volaris.Spec
