import Verif.Proofs.ScreenRest
import Verif.Props.Screen
import Verif.Props.Announced
/-!
# C92: what the key, header and erase commands show on the screen
-/
namespace Volaris.Props
open Volaris.Spec Volaris.Cli Volaris.Example
variable {σ : Type}

/-- **C92, two keys.** `key add` and `key change`, under every schedule of faults and however they end, show exactly these lines, in this order: what is said before the old key is typed and what belongs to it; the same for the new key. -/
theorem C92_two_keys (s : Sys σ) (params : KeyManipulationParams) (cmd : Prog Error Unit) (hc : TwoKeys s params cmd) (w w' : World) (r : Res Error Unit) (he : cmd w = (r, w')) :
    ∃ a k b m, Shows (a ++ k ++ b ++ m) w w' ∧ Announces params.keyOld "[i] Please enter your old key below" (endedWell r) a ∧ AboutKey .direct params.keyOld (endedWell r) k ∧
      Announces params.keyNew "[i] Please enter your new key below" (endedWell r) b ∧ AboutKey .validate params.keyNew (endedWell r) m := by
  obtain ⟨l, h1, x, y, rfl, ⟨a, k, rfl, h2, h3⟩, ⟨b, m, rfl, h4, h5⟩⟩ := twoKeys_tells hc w
  rw [he] at h1 h2 h3 h4 h5
  rw [good_ended] at h2 h3 h4 h5
  exact ⟨a, k, b, m, by simpa using h1, h2, h3, h4, h5⟩

/-- **C92, one key.** The same for `key del` and `key verify`. -/
theorem C92_one_key (s : Sys σ) (key : Key) (cmd : Prog Error Unit) (hc : OneKey s key cmd) (w w' : World) (r : Res Error Unit) (he : cmd w = (r, w')) :
    ∃ a k, Shows (a ++ k) w w' ∧ Announces key "[i] Please enter your key below" (endedWell r) a ∧ AboutKey .direct key (endedWell r) k := by
  obtain ⟨l, h1, a, k, rfl, h2, h3⟩ := oneKey_tells hc w
  rw [he] at h1 h2 h3
  rw [good_ended] at h2 h3
  exact ⟨a, k, h1, h2, h3⟩

/-- **C92, headers.** `header dump` shows at most the question whether to overwrite the output; it comes only if there is something and overwriting is not forced, and then always if the command succeeds.  `header restore` and `header strip`
show nothing. -/
theorem C92_header (s : Sys σ) (input output : List Char) (force : ForceMode) (w : World) :
    (∀ r w', headerDump s input output force w = (r, w') → ∃ l, Shows l w w' ∧ (l = [] ∨ AsksOnce (overwriteQuestion output) l) ∧ (l ≠ [] → Occupied w (toPath s.cwd output) ∧ force = .prompt) ∧
      (r = .ok () → Occupied w (toPath s.cwd output) → force = .prompt → l ≠ [])) ∧
    Shows [] w (headerRestore s input output w).2 ∧ Shows [] w (headerStrip s input w).2 := by
  refine ⟨fun r w' he => ?_, .nil (headerRestore_wordless s input output w), .nil (headerStrip_wordless s input w)⟩
  obtain ⟨l, h1, h2, h3, h4⟩ := headerDump_shows s input output force w
  rw [he] at h1 h4
  exact ⟨l, h1, h2, h3, fun hr => h4 (by rw [hr]; rfl)⟩

/-- **C92, erasing.** `erase` shows at most the question about the directory, not if that is forced, and nothing if the name leads to a file. -/
theorem C92_erase (s : Sys σ) (input : List Char) (passes : Int) (force : ForceMode) (w w' : World) (r : Res Error Unit) (he : secureErase s input passes force w = (r, w')) :
    ∃ l, Shows l w w' ∧ (l = [] ∨ force = .prompt ∧ AsksOnce eraseQuestion l) ∧ ∀ q i, LeadsToFile w (toPath s.cwd input) q i → l = [] := by
  obtain ⟨l, h1, h2⟩ := secureErase_tells s input passes force w
  rw [he] at h1
  refine ⟨l, h1, h2, fun q i hq => ?_⟩
  have := eraseIf_wordless s (.eraseFile passes) force input hq
  rw [show eraseIf s (.eraseFile passes) force input w = (r, w') from he] at this
  unfold Shows at h1
  rw [this] at h1
  have := congrArg List.length h1
  simp at this
  exact this

/-! ### The hypotheses can be met -/

/-- Keys that are typed, with a new one that is not confirmed at first: all four kinds of lines; and a file that cannot be opened: none. -/
example : TwoKeys exSys exKeyParams (keyAdd exSys ['z'] exKeyParams) ∧ (exKeyAdd [[112, 119], [9], [8], [9, 9], [9, 9]] []).1 = .ok () ∧ (exKeyAdd [[112, 119], [9], [8], [9, 9], [9, 9]] []).2.out.length = 3 ∧
    (exKeyAdd exTyped [.fail]).1 ≠ .ok () ∧ (exKeyAdd exTyped [.fail]).2.out.length = 0 ∧ OneKey exSys .user (keyDelete exSys ['z'] .user) ∧ (exKeyDelete exTyped []).2.out.length = 1 :=
  ⟨.add _, by decide +kernel, by decide +kernel, by decide +kernel, by decide +kernel, .delete _, by decide +kernel⟩

/-- A directory is erased after a question; a file without one. -/
example : (secureErase exSys ['a'] 1 .prompt (exWorld ["y\n"] [])).1 = .ok () ∧ (secureErase exSys ['a'] 1 .prompt (exWorld ["y\n"] [])).2.out.map (·.text) = [eraseQuestion] ∧
    (secureErase exSys ['z'] 1 .prompt (exWorld [] [])).1 = .ok () ∧ (secureErase exSys ['z'] 1 .prompt (exWorld [] [])).2.out.length = 0 ∧ LeadsToFile (exWorld [] []) (toPath exSys.cwd ['z']) [['z']] 2 :=
  ⟨by decide +kernel, by decide +kernel, by decide +kernel, by decide +kernel, ⟨rfl, rfl⟩⟩

/-- The header of an encrypted file is dumped to a file that is there, after a question. -/
example : (headerDump exSys ['z'] ['a', '/', 'x'] .prompt (exKeyWorld [] [])).2.out.map (·.text) = [overwriteQuestion ['a', '/', 'x']] ∧
    (headerDump exSys ['z'] ['a', '/', 'x'] .forced (exKeyWorld [] [])).1 = .ok () ∧ (headerDump exSys ['z'] ['a', '/', 'x'] .forced (exKeyWorld [] [])).2.out.length = 0 :=
  ⟨by decide +kernel, by decide +kernel, by decide +kernel⟩

end Volaris.Props
