import Verif.Proofs.Asked
import Verif.Props.PackCmd
/-!
# C88: questions before something is destroyed
-/
namespace Volaris.Props
open Spec Cli
variable {σ : Type}

/-! ### C88 -/

/-- **C88, the output.** Under every schedule of faults and however it ends: if something is at the path of the output of an encrypt, decrypt, pack or header dump command without `--force`, and the command has
modified anything or succeeds, then before the first call that modifies anything it has printed the question whether to overwrite the output, by its name as typed, and the user's first answer from then on was yes. -/
theorem C88_output (s : Sys σ) (output : List Char) (cmd : Prog Error Unit) (hc : WritesTo s output cmd) (w : World) (ho : Occupied w (toPath s.cwd output)) (h : (cmd w).2.log ≠ w.log ∨ (cmd w).1 = .ok ()) :
    AgreedTo (overwriteQuestion output) true w.log.length w (cmd w).2 :=
  writes_agreed hc ho (h.imp id fun h => ⟨(), h⟩)

/-- **C88, killed.** If such a command is killed at any moment, the disk is as it was or the user has been asked and has agreed. -/
theorem C88_output_killed (s : Sys σ) (output : List Char) (cmd : Prog Error Unit) (hc : WritesTo s output cmd) (w v : World) (ho : Occupied w (toPath s.cwd output)) (h : StoppedAt cmd w v) :
    v.disk = w.disk ∨ AgreedTo (overwriteQuestion output) true w.log.length w (cmd w).2 := by
  obtain ⟨es, hcalls, hm⟩ := h
  by_cases hl : (cmd w).2.log = w.log
  · left
    unfold Calls at hcalls
    rw [hl] at hcalls
    have : es = [] := by
      have := congrArg List.length hcalls
      simp at this
      exact this
    subst this
    exact hm
  · exact .inr (C88_output s output cmd hc w ho (.inl hl))

/-- **C88, the header file.** Under every schedule of faults and however it ends: if something is at the path for the detached header of an encrypt or pack command without `--force`, then the command has printed
the question whether to overwrite it, by its name as typed, and the user's first answer from then on was yes; or it does not succeed and nothing on the disk has changed except at the output path. -/
theorem C88_header (s : Sys σ) (output hd : List Char) (cmd : Prog Error Unit) (hc : WritesHeader s output hd cmd) (w w' : World) (r : Res Error Unit) (ho : Occupied w (toPath s.cwd hd)) (he : cmd w = (r, w')) :
    (∃ calls, w.log.length ≤ calls ∧ AgreedTo (overwriteQuestion hd) true calls w w') ∨ (r ≠ .ok () ∧ OnlyAt s.cwd output w w') := by
  have h := header_asked hc ho
  unfold wp at h
  rw [he] at h
  exact h.imp id fun h => ⟨h.1 (), h.2.onlyAt⟩

/-- **C88, erasing a directory.** Under every schedule of faults and however it ends: if the erase command is given a directory, without `--force`, and has modified anything or succeeds, then before the first call
that modifies anything it has printed the question whether to erase everything in it, and the user's first answer from then on was yes, for which an empty line does not count. -/
theorem C88_erase (s : Sys σ) (input : List Char) (passes : Int) (w w' : World) (r : Res Error Unit) (T : Path) (hd : LeadsToDir w (toPath s.cwd input) T) (he : secureErase s input passes .prompt w = (r, w'))
    (h : w'.log ≠ w.log ∨ ¬ SameFiles w w' ∨ r = .ok ()) : AgreedTo eraseQuestion false w.log.length w w' := by
  have g := secureErase_asked s input passes hd
  rw [he] at g
  rcases g with g | ⟨h1, h2, h3⟩
  · exact g
  · rcases h with h | h | h
    · exact absurd h2 h
    · exact absurd h3 h
    · exact absurd h h1

/-- **C88, erasing the sources.** Under every schedule of faults and however it ends: after a pack command without `--force` whose output and header file are outside the sources, everything in the sources is as it
was, or the question whether to erase everything in a directory was printed and the user's first answer from then on was yes. -/
theorem C88_pack_sources (s : Sys σ) (inputs : List (List Char)) (output : List Char) (pp : PackParams) (params : CryptoParams) (a : Algorithm) (w w' : World) (r : Res Error Unit) (ht : TreeOk w)
    (hf : params.force = .prompt) (ho : Outside s.cwd inputs output params.header w) (he : packMode s inputs output pp params a w = (r, w')) :
    Intact s.cwd inputs w w' ∨ ∃ calls, w.log.length ≤ calls ∧ AgreedTo eraseQuestion false calls w w' := by
  rcases pack_asked s inputs output pp params a w ht hf with h | ⟨u, h1, h2⟩
  · rw [he] at h
    exact .inr h
  · rw [he] at h2
    left
    intro x hx n hn
    obtain ⟨g1, g2⟩ := intact_of_trail ho h1 x hx n hn
    exact ⟨(World.look_congr h2.2 x).trans g1, fun i hi => (congrFun h2.1 i).trans (g2 i hi)⟩

/-- Output and header file both exist. -/
def exLate : Prog Error Unit := encryptMode exSys ['z'] ['a', '/', 'x'] { exParams with header := some ['a', '/', 'b', '/', 'y'] } .aes256Gcm

/-- **C88, too late.** The question about the header file comes after the output has been emptied: without faults, a user who declines it keeps the header file, but the old content of the output is gone, nothing has
been encrypted, and the command ends with exit code 0. -/
theorem C88_declined_late : ∃ (input output hd : List Char) (cmd : Prog Error Unit) (w : World) (q : Path) (j : Nat), WritesHeader exSys output hd cmd ∧ w.sched = [] ∧ Occupied w (toPath exSys.cwd hd) ∧
    input ≠ output ∧ LeadsToFile w (toPath exSys.cwd output) q j ∧ w.file j ≠ [] ∧ (cmd w).1 = .abort (.exit 0) ∧ (cmd w).2.file j = [] :=
  ⟨['z'], ['a', '/', 'x'], ['a', '/', 'b', '/', 'y'], exLate, exWorld ["y\n", "n\n"] [], [['a'], ['x']], 0, .encrypt ['z'] { exParams with header := some ['a', '/', 'b', '/', 'y'] } .aes256Gcm rfl rfl, rfl,
    ⟨[['a'], ['b'], ['y']], .file 1, rfl, by decide +kernel⟩, by decide, ⟨rfl, by decide +kernel⟩, by decide +kernel, by decide +kernel, by decide +kernel⟩

/-- The hypotheses are met by a command that overwrites its output after the second question … -/
example : WritesTo exSys ['a', '/', 'x'] (encryptMode exSys ['z'] ['a', '/', 'x'] exParams .aes256Gcm) ∧ Occupied (exWorld ["what\n", "\n"] []) (toPath exSys.cwd ['a', '/', 'x']) :=
  ⟨.encrypt _ exParams _ rfl, [['a'], ['x']], .file 0, rfl, by decide +kernel⟩

def exAskedRun : Res Error Unit × World := encryptMode exSys ['z'] ['a', '/', 'x'] exParams .aes256Gcm (exWorld ["what\n", "\n"] [])

example : exAskedRun.1 = .ok () ∧ exAskedRun.2.log ≠ [] ∧ exAskedRun.2.file 0 ≠ [1, 2, 3] ∧
    exAskedRun.2.out = [⟨0, 1, 0, "[?] a/x already exists, would you like to overwrite? (Y/n): ".toList⟩, ⟨0, 1, 0, "[-] Unrecognised answer - please try again".toList⟩,
      ⟨0, 2, 0, "[?] a/x already exists, would you like to overwrite? (Y/n): ".toList⟩] := by decide +kernel

/-- … by one that asks about both files; the second question comes after the first call that modifies anything … -/
def exBothRun : Res Error Unit × World := exLate (exWorld ["y\n", "y\n"] [])

example : exBothRun.1 = .ok () ∧ exBothRun.2.file 1 ≠ (exWorld [] []).file 1 ∧
    exBothRun.2.out = [⟨1, 1, 0, "[?] a/b/y already exists, would you like to overwrite? (Y/n): ".toList⟩, ⟨0, 2, 0, "[?] a/x already exists, would you like to overwrite? (Y/n): ".toList⟩] := by decide +kernel

/-- … by erasing a directory, where an empty line means no … -/
example : LeadsToDir (exWorld ["\n"] []) (toPath exSys.cwd ['a']) [['a']] ∧ (secureErase exSys ['a'] 1 .prompt (exWorld ["\n"] [])).1 = .abort (.exit 0) ∧
    (secureErase exSys ['a'] 1 .prompt (exWorld ["y\n"] [])).1 = .ok () ∧ (secureErase exSys ['a'] 1 .prompt (exWorld ["y\n"] [])).2.log ≠ [] ∧
    (secureErase exSys ['a'] 1 .prompt (exWorld ["y\n"] [])).2.out = [⟨0, 1, 0, eraseQuestion⟩] :=
  ⟨⟨rfl, by decide +kernel⟩, by decide +kernel, by decide +kernel, by decide +kernel, by decide +kernel⟩

/-- … and by packing and erasing. -/
example : TreeOk (exWorld ["y\n"] []) ∧ Outside exPackSys.cwd [['a']] ['o'] exParams.header (exWorld ["y\n"] []) ∧ (exPackErase ["y\n"] []).2.look [['a'], ['x']] = none ∧
    (exPackErase ["y\n"] []).2.out.map (·.text) = [eraseQuestion] :=
  ⟨exWorld_tree _ _, exPack_outside _ _, by decide +kernel, by decide +kernel⟩

end Volaris.Props
