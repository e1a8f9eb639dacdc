import Verif.Spec.Status
import Verif.Props.Ends
import Verif.Props.PackCmd
import Verif.Props.Cli
import Verif.Proofs.CrashSafe
/-!
# Exit statuses
-/
namespace Volaris.Cli
open Volaris.Spec Volaris.Props
variable {σ : Type}

theorem status_zero {x : Prog Error Unit} {w w' : World} {r : Res Error (List String)} (h : (x >>= fun _ => (pure [] : Prog Error (List String))) w = (r, w')) (hs : Status r 0) :
    x w = (.ok (), w') ∨ x w = (.abort (.exit 0), w') := by
  rw [Prog.bind_run] at h
  rcases hx : x w with ⟨_ | e | a, v⟩ <;> rw [hx] at h
  · cases h; exact .inl rfl
  · cases h; cases hs
  · cases h
    cases hs
    exact .inr rfl

theorem Quits.refused {words : List (List Char)} {key : Key} {q : List (List Char × Bool)} {ε α : Type} {x : Prog ε α} (h : Quits words key q x) {w w' : World} (hx : x w = (.abort (.exit 0), w')) :
    ∃ question default, (question, default) ∈ q ∧ Declined question default w w' := by
  have := (h w).2 (.exit 0) (by rw [hx])
  rw [hx] at this
  cases this with
  | declined t d hm hd => exact ⟨t, d, hm, hd⟩

theorem declined_stdin {t : List Char} {d : Bool} {w w' : World} (h : Declined t d w w') : w.stdin ≠ [] := by
  obtain ⟨_, lines, _, _, _, h1, ⟨sk, l, h2, _⟩, _⟩ := h
  intro e
  rw [e, List.suffix_nil] at h1
  rw [h1] at h2
  simp at h2

theorem unattended_refused {opts : List (String × List Char)} {q : List (List Char × Bool)} {w w' : World} (h : Unattended opts w) : ¬ Refused opts q w w' := by
  rintro ⟨h1, t, d, -, h2⟩
  rcases h with h | h
  · rw [h1] at h; cases h
  · exact declined_stdin h2 h


/-- Erasing a file is not asked about. -/
theorem eraseIf_file_returns (s : Sys σ) (mode : EraseMode) (force : ForceMode) {input : List Char} {u w' : World} {q : Path} {i : Nat} {a : Abort} (hq : LeadsToFile u (toPath s.cwd input) q i) : eraseIf s mode force input u ≠ (.abort a, w') := by
  cases mode with
  | ignoreFile => intro h; cases h
  | eraseFile n =>
    show secureErase s input n force u ≠ _
    rcases secureErase_file s input n force hq with ⟨e, sc, h1, _⟩ | ⟨r, v, w2, h1, _, _, ⟨rfl, -⟩ | ⟨⟨e, rfl⟩, -⟩⟩ <;> rw [h1] <;> intro h <;> cases h

end Volaris.Cli
