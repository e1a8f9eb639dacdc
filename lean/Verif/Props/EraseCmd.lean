import Verif.Proofs.EraseCmd
import Verif.Props.Cli
/-!
# C66: the erase command
-/
namespace Volaris.Props
open Spec Cli
variable {σ : Type}

/-! ### C66 -/

/-- **C66.** The erase command on a file: no question is asked (the user's lines are all there afterwards); without faults it succeeds; success means that the file is empty and its name is gone;
whatever happens, no other path and no other file has changed, the content is as before or empty, it is empty if the name is gone, and the command returns. -/
theorem C66_file (s : Sys σ) (m : Matches) (h : Accepted eraseArgs m) (input : List Char) (hi : Gives m .input input) (w : World) (q : Path) (i : Nat)
    (hp : LeadsToFile w (toPath s.cwd input) q i) (r : Res Error Unit) (w' : World) (hrun : Cli.erase s m w = (r, w')) :
    (w.sched = [] → r = .ok ()) ∧ (r = .ok () → w'.look q = none ∧ w'.file i = []) ∧ (∀ x, x ≠ q → w'.look x = w.look x) ∧ (w'.look q = w.look q ∨ w'.look q = none) ∧
    (∀ j, j ≠ i → w'.file j = w.file j) ∧ (w'.file i = w.file i ∨ w'.file i = []) ∧ (w'.look q = none → w'.file i = []) ∧ w'.stdin = w.stdin ∧ w'.tty = w.tty ∧ ∀ a, r ≠ .abort a := by
  obtain ⟨n, force, -, -, he⟩ := erase_run s h hi w
  rw [hrun] at he
  rcases secureErase_file s input n force hp with ⟨e, sc, h1, hs⟩ | ⟨r', u, w2, h1, hu, hE, hr⟩
  · rw [h1] at he
    cases he
    exact ⟨fun h => absurd h hs, fun h => (nomatch h), fun _ _ => rfl, .inl rfl, fun _ _ => rfl, .inl rfl, fun hn => (nomatch hp.look.symm.trans hn), rfl, rfl, fun a h => (nomatch h)⟩
  · rw [h1] at he
    cases he
    obtain ⟨u1, u2, u3, u4⟩ := hu
    have hl : ∀ x, u.look x = w.look x := World.look_congr u2
    refine ⟨fun hs => ?_, fun hok => ?_, fun x hx => by rw [hE.dir x hx, hl], ?_, fun j hj => by rw [hE.files j hj, u1], ?_, fun hn => ?_, hE.stdin.trans u3, hE.tty.trans u4, ?_⟩
    · rcases hr with ⟨rfl, -⟩ | ⟨-, h⟩
      · rfl
      · exact absurd hs h
    · rcases hr with ⟨-, h⟩ | ⟨⟨e, h⟩, -⟩
      · exact h
      · rw [hok] at h; cases h
    · rcases hE.entry with h | ⟨h, -⟩
      · exact .inl (by rw [h, hl])
      · exact .inr h
    · rcases hE.target with h | h
      · exact .inl (by rw [h, u1])
      · exact .inr h
    · rcases hE.entry with h | ⟨_, _, h⟩
      · rw [h, hl, hp.look] at hn; cases hn
      · exact h
    · rintro a rfl
      rcases hr with ⟨h, -⟩ | ⟨⟨e, h⟩, -⟩ <;> cases h

/-- **C66.** The erase command on a directory: unless `--force` was given, something is erased only if the user's first answer says yes; a blank answer is a no.  Without faults the command succeeds
if that is so, and ends with status 0 if the answer is no.  Success means that the directory and everything below it is gone and that the files are empty; whatever happens, no path outside has changed,
nothing new has appeared, files that are not linked below the directory have kept their content, directories are removed only after all files below, and every file is as before or empty, and empty if a name of it is gone. -/
theorem C66_directory (s : Sys σ) (m : Matches) (h : Accepted eraseArgs m) (input : List Char) (hi : Gives m .input input) (w : World) (T : Path) (ht : TreeOk w)
    (hp : LeadsToDir w (toPath s.cwd input) T) (r : Res Error Unit) (w' : World) (hrun : Cli.erase s m w = (r, w')) :
    (r = .ok () ∨ ¬ SameFiles w w' → ¬ Omits m .force ∨ ∃ rest, FirstAnswer false w.stdin true rest) ∧
    (w.sched = [] → ((¬ Omits m .force ∨ ∃ rest, FirstAnswer false w.stdin true rest) → r = .ok ()) ∧
      (Omits m .force → (∃ rest, FirstAnswer false w.stdin false rest) → r = .abort (.exit 0))) ∧
    (r = .ok () → (∀ x, T <+: x → x ≠ [] → w'.look x = none) ∧ (∀ k i, T <+: k → w.look k = some (.file i) → w'.file i = [])) ∧
    (∀ x, ¬ T <+: x → w'.look x = w.look x) ∧ (∀ x, w'.look x = w.look x ∨ w'.look x = none) ∧
    (∀ j, (∀ k, T <+: k → w.look k ≠ some (.file j)) → w'.file j = w.file j) ∧
    ((∃ d, w.look d = some .dir ∧ w'.look d = none) → ∀ k i, T <+: k → w.look k = some (.file i) → w'.look k = none) ∧
    (∀ k i, w.look k = some (.file i) → w'.look k = none → w'.file i = []) ∧ (∀ j, w'.file j = w.file j ∨ w'.file j = []) ∧
    ∀ a, r = .abort a → a = .exit 0 ∧ Omits m .force ∧ ∃ rest, FirstAnswer false w.stdin false rest := by
  obtain ⟨n, force, hf, -, he⟩ := erase_run s h hi w
  rw [hrun] at he
  obtain ⟨r', w2, h1, hb, hor⟩ := secureErase_dir s input n force ht hp
  rw [h1] at he
  cases he
  have hpr : force = .prompt → Omits m .force := fun e => by
    cases hx : m.explicit .force with
    | none => exact hx
    | some v =>
      have : force = .forced := hf.2 (fun ho => by rw [ho] at hx; cases hx)
      rw [e] at this; cases this
  refine ⟨?_, ?_, ?_, hb.outside, hb.entries, hb.files, hb.filesFirst, hb.emptied, hb.contents, ?_⟩
  · intro hc
    rcases hor with ⟨hs, hfp, hr⟩ | ⟨hc, -⟩
    · rcases hc with rfl | hc
      · rcases hr with ⟨h, -⟩ | ⟨⟨e, h⟩, -⟩ <;> cases h
      · exact absurd hs hc
    · exact hc.imp hf.1 id
  · intro hs
    rcases hor with ⟨_, hfp, ⟨rfl, a1⟩ | ⟨⟨e, rfl⟩, h2⟩⟩ | ⟨hc, ⟨rfl, -⟩ | ⟨⟨e, rfl⟩, h2⟩⟩
    · refine ⟨?_, fun _ _ => rfl⟩
      rintro (hn | ⟨rest, a2⟩)
      · exact absurd (hpr hfp) hn
      · obtain ⟨_, a1⟩ := a1
        exact nomatch (firstAnswer_unique a1 a2).1
    · refine ⟨?_, ?_⟩
      · rintro (hn | ⟨rest, a2⟩)
        · exact absurd (hpr hfp) hn
        · exact absurd ⟨_, _, a2⟩ (h2 hs)
      · rintro _ ⟨rest, a2⟩
        exact absurd ⟨_, _, a2⟩ (h2 hs)
    · refine ⟨fun _ => rfl, ?_⟩
      rintro ho ⟨rest, a2⟩
      rcases hc with hc | ⟨_, a1⟩
      · exact absurd ho (hf.1 hc)
      · exact nomatch (firstAnswer_unique a1 a2).1
    · exact absurd hs h2
  · rintro rfl
    rcases hor with ⟨_, _, ⟨h, -⟩ | ⟨⟨e, h⟩, -⟩⟩ | ⟨_, ⟨-, h⟩ | ⟨⟨e, h⟩, -⟩⟩
    · cases h
    · cases h
    · exact h
    · cases h
  · rintro a rfl
    rcases hor with ⟨_, hfp, ⟨h, a1⟩ | ⟨⟨e, h⟩, -⟩⟩ | ⟨_, ⟨h, -⟩ | ⟨⟨e, h⟩, -⟩⟩
    · cases h
      exact ⟨rfl, hpr hfp, a1⟩
    · cases h
    · cases h
    · cases h

/-- **C66.** The erase command on a path that leads neither to a file nor to a directory fails under every schedule and changes nothing. -/
theorem C66_nothing (s : Sys σ) (m : Matches) (h : Accepted eraseArgs m) (input : List Char) (hi : Gives m .input input) (w : World)
    (hf : ∀ q i, ¬ LeadsToFile w (toPath s.cwd input) q i) (hd : ∀ q, ¬ LeadsToDir w (toPath s.cwd input) q) :
    ∃ e w', Cli.erase s m w = (.err e, w') ∧ SameFiles w w' ∧ w'.stdin = w.stdin := by
  obtain ⟨n, force, -, -, he⟩ := erase_run s h hi w
  obtain ⟨e, sc, h1⟩ := secureErase_none s input n force hf hd
  exact ⟨e, _, he.trans h1, ⟨rfl, rfl⟩, rfl⟩

/-- The command lines `erase a/x`, `erase a` and `erase a --force …`. -/
def exEraseFileLine : Matches := { args := eraseArgs, given := [(.input, [['a', '/', 'x']])] }
def exEraseDirLine : Matches := { args := eraseArgs, given := [(.input, [['a']])] }
def exEraseForceLine : Matches := { args := eraseArgs, given := [(.input, [['a']]), (.force, [['y']])] }

example : Accepted eraseArgs exEraseFileLine ∧ Accepted eraseArgs exEraseDirLine ∧ Accepted eraseArgs exEraseForceLine := ⟨⟨rfl, by decide, rfl⟩, ⟨rfl, by decide, rfl⟩, ⟨rfl, by decide, rfl⟩⟩
example : LeadsToFile (exWorld [] []) (toPath exSys.cwd ['a', '/', 'x']) [['a'], ['x']] 0 := ⟨rfl, rfl⟩
example : TreeOk (exWorld ["y\n"] []) ∧ LeadsToDir (exWorld ["y\n"] []) (toPath exSys.cwd ['a']) [['a']] := ⟨(Example.disk_ok []).congr (w := Example.disk []) rfl, rfl, rfl⟩

def exEraseFile : Res Error Unit × World := Cli.erase exSys exEraseFileLine (exWorld [] [])
/-- Answers: something else, then yes; a blank line; something else only. -/
def exEraseYes : Res Error Unit × World := Cli.erase exSys exEraseDirLine (exWorld ["what\n", "Yes\n"] [])
def exEraseBlank : Res Error Unit × World := Cli.erase exSys exEraseDirLine (exWorld ["\n"] [])
def exEraseForce : Res Error Unit × World := Cli.erase exSys exEraseForceLine (exWorld [] [])
example : exEraseFile.1 = .ok () ∧ exEraseFile.2.dir.length = 4 := by decide +kernel
example : exEraseYes.1 = .ok () ∧ exEraseYes.2.dir = [([['z']], .file 2)] := by decide +kernel
example : exEraseBlank.1 = .abort (.exit 0) ∧ exEraseBlank.2.dir.length = 5 := by decide +kernel
example : exEraseForce.1 = .ok () ∧ exEraseForce.2.dir = [([['z']], .file 2)] := by decide +kernel
/-- Without an answer (the end of standard input) it fails. -/
example : (Cli.erase exSys exEraseDirLine (exWorld [] [])).1 = .err .noFirstChar := by decide +kernel

end Volaris.Props
