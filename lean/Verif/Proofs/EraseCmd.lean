import Verif.Proofs.EraseStage
import Verif.Proofs.TreeOk
import Verif.Proofs.EraseDir
import Verif.Proofs.Args
import Verif.Proofs.Commands
/-!
# The erase command
-/
namespace Volaris.Spec

theorem LeadsToDir.congr {w w' : World} (h : w'.dir = w.dir) {p : PathBuf} {T : Path} (hd : LeadsToDir w p T) : LeadsToDir w' p T :=
  ⟨by rw [World.resolve_congr h]; exact hd.resolve, by rw [World.look_congr h]; exact hd.look⟩

end Volaris.Spec

namespace Volaris.Cli
open Volaris.Spec
variable {σ : Type}

/-- What erasing the tree at `T` does at most, from `w` to `w'`. -/
structure ErasedBelow (T : Path) (w w' : World) : Prop where
  emptied : ∀ k i, w.look k = some (.file i) → w'.look k = none → w'.file i = []
  contents : ∀ j, w'.file j = w.file j ∨ w'.file j = []
  outside : ∀ x, ¬ T <+: x → w'.look x = w.look x
  entries : ∀ x, w'.look x = w.look x ∨ w'.look x = none
  files : ∀ j, (∀ k, T <+: k → w.look k ≠ some (.file j)) → w'.file j = w.file j
  filesFirst : (∃ d, w.look d = some .dir ∧ w'.look d = none) → ∀ k i, T <+: k → w.look k = some (.file i) → w'.look k = none

theorem ErasedBelow.of_same {T : Path} {w w' : World} (h : SameFiles w w') : ErasedBelow T w w' where
  emptied k i hk hn := by rw [World.look_congr h.2, hk] at hn; cases hn
  contents j := .inl (by rw [h.1])
  outside x _ := World.look_congr h.2 x
  entries x := .inl (World.look_congr h.2 x)
  files j _ := by rw [h.1]
  filesFirst := by
    rintro ⟨d, h1, h2⟩
    rw [World.look_congr h.2, h1] at h2
    cases h2

/-- Every outcome of the erase command on a file. -/
theorem secureErase_file (s : Sys σ) (input : List Char) (n : Int) (force : ForceMode) {w : World} {q : Path} {i : Nat} (hq : LeadsToFile w (toPath s.cwd input) q i) :
    (∃ e sc, secureErase s input n force w = (.err e, { w with sched := sc }) ∧ w.sched ≠ []) ∨
    ∃ r u w', secureErase s input n force w = (r, w') ∧ (u.file = w.file ∧ u.dir = w.dir ∧ u.stdin = w.stdin ∧ u.tty = w.tty) ∧ Erasing q i u w' ∧
      (r = .ok () ∧ w'.look q = none ∧ w'.file i = [] ∨ (∃ e, r = .err e) ∧ w.sched ≠ []) := by
  rcases readInput_cases (toPath s.cwd input) w with ⟨q', i', sc, hsc, hq', he⟩ | ⟨q', hq', he⟩ | ⟨e, sc, hsc, he, hor⟩
  · obtain ⟨rfl, rfl⟩ : q' = q ∧ i' = i := by
      have h1 := hq'.resolve
      rw [hq.resolve] at h1; cases h1
      have h2 := hq'.look
      rw [hq.look] at h2; cases h2
      exact ⟨rfl, rfl⟩
    right
    obtain ⟨r, w', h1, h2, h3⟩ := erase_cases n (p := toPath s.cwd input) (w := ({ w with sched := sc } : World).opened i') (q := q') (i := i')
      (by rw [World.resolve_congr (w := w) (w' := ({ w with sched := sc } : World).opened i') rfl]; exact hq.resolve) hq.look
    refine ⟨r.mapErr .erase, ({ w with sched := sc } : World).opened i', w', ?_, ⟨rfl, rfl, rfl, rfl⟩, h2, ?_⟩
    · unfold secureErase
      rw [Prog.bind_ok he, if_neg (show ¬ ((Storage.Entry.file (toPath s.cwd input) w.nextFd).isDir = true) from Bool.false_ne_true), Prog.mapErr_eq, h1]
    · rcases h3 with ⟨rfl, h4, h5⟩ | ⟨⟨e, rfl⟩, h4⟩
      · exact .inl ⟨rfl, h4, h5⟩
      · refine .inr ⟨⟨_, rfl⟩, fun hn => h4 ?_⟩
        rw [hn] at hsc
        exact List.suffix_nil.1 hsc
  · exfalso
    have h1 := hq'.resolve
    rw [hq.resolve] at h1; cases h1
    have h2 := hq'.look
    rw [hq.look] at h2; cases h2
  · left
    refine ⟨e, sc, ?_, ?_⟩
    · unfold secureErase
      rw [Prog.bind_err he]
    · rcases hor with h | h
      · exact h
      · exact absurd ⟨q, i, hq⟩ h

/-- Every outcome of the erase command on a directory. -/
theorem secureErase_dir (s : Sys σ) (input : List Char) (n : Int) (force : ForceMode) {w : World} {T : Path} (ht : TreeOk w) (hd : LeadsToDir w (toPath s.cwd input) T) :
    ∃ r w', secureErase s input n force w = (r, w') ∧ ErasedBelow T w w' ∧
      (SameFiles w w' ∧ force = .prompt ∧ (r = .abort (.exit 0) ∧ (∃ rest, FirstAnswer false w.stdin false rest) ∨
          (∃ e, r = .err e) ∧ (w.sched = [] → ¬ ∃ b rest, FirstAnswer false w.stdin b rest)) ∨
        (force = .forced ∨ ∃ rest, FirstAnswer false w.stdin true rest) ∧
        (r = .ok () ∧ (∀ x, T <+: x → x ≠ [] → w'.look x = none) ∧ (∀ k i, T <+: k → w.look k = some (.file i) → w'.file i = []) ∨ (∃ e, r = .err e) ∧ w.sched ≠ [])) := by
  have hrd : readInput (toPath s.cwd input) w = (.ok (.dir (toPath s.cwd input)), w) := by
    rcases readInput_cases (toPath s.cwd input) w with ⟨q', i', sc, hsc, hq', he⟩ | ⟨q', hq', he⟩ | ⟨e, sc, hsc, he, hor⟩
    · have h1 := hq'.resolve
      rw [hd.resolve] at h1; cases h1
      have h2 := hq'.look
      rw [hd.look] at h2; cases h2
    · exact he
    · unfold readInput Storage.readFile at he
      have hi : w.isDirAt (toPath s.cwd input) = true := by
        unfold World.isDirAt
        rw [hd.resolve]
        simp [hd.look]
      rw [Prog.mapErr_run, Prog.bind_ok (show Volaris.isDir (toPath s.cwd input) w = (.ok true, w) by unfold Volaris.isDir; rw [hi])] at he
      exact absurd he (by intro h; cases h)
  have key : ∀ (u : World), u.dir = w.dir → u.file = w.file → u.sched <:+ w.sched → getAnswer "This is a directory, would you like to erase all files within it?".toList false force w = (.ok true, u) → (force = .forced ∨ ∃ rest, FirstAnswer false w.stdin true rest) →
      ∃ r w', secureErase s input n force w = (r, w') ∧ ErasedBelow T w w' ∧
        (SameFiles w w' ∧ force = .prompt ∧ (r = .abort (.exit 0) ∧ (∃ rest, FirstAnswer false w.stdin false rest) ∨
            (∃ e, r = .err e) ∧ (w.sched = [] → ¬ ∃ b rest, FirstAnswer false w.stdin b rest)) ∨
          (force = .forced ∨ ∃ rest, FirstAnswer false w.stdin true rest) ∧
          (r = .ok () ∧ (∀ x, T <+: x → x ≠ [] → w'.look x = none) ∧ (∀ k i, T <+: k → w.look k = some (.file i) → w'.file i = []) ∨ (∃ e, r = .err e) ∧ w.sched ≠ [])) := by
    intro u hud huf hus hans hcons
    obtain ⟨r, w', he, hr, h1, h2, h3, h4, h6, h7, -⟩ := eraseDir_cases s.order n (ht.congr hud) (hd.congr hud)
    simp only [World.look_congr hud, huf] at hr h1 h2 h3 h4 h6 h7
    refine ⟨r.mapErr .eraseDir, w', ?_, ⟨h6, h7, h1, h2, h3, h4⟩, .inr ⟨hcons, ?_⟩⟩
    · unfold secureErase
      rw [Prog.bind_ok hrd, if_pos (show (Storage.Entry.dir (toPath s.cwd input)).isDir = true from rfl), Prog.bind_ok hans, if_pos rfl, Prog.mapErr_eq, he]
    · rcases hr with ⟨rfl, h5, h6⟩ | ⟨⟨e, rfl⟩, h5⟩
      · exact .inl ⟨rfl, h5, h6⟩
      · refine .inr ⟨⟨_, rfl⟩, fun hn => h5 ?_⟩
        rw [hn] at hus
        exact List.suffix_nil.1 hus
  cases force with
  | forced => exact key w rfl rfl (List.suffix_refl _) rfl (.inl rfl)
  | prompt =>
    rcases getAnswer_cases "This is a directory, would you like to erase all files within it?".toList false w with ⟨b, rest, sc, h1, h2, h3, h4⟩ | ⟨e, rest, sc, o, h1, h2, h3, h4⟩
    · cases b with
      | true => exact key { answered w _ rest with sched := sc } rfl rfl h2 h3 (.inr ⟨rest, h4⟩)
      | false =>
        refine ⟨.abort (.exit 0), { answered w (questionText "This is a directory, would you like to erase all files within it?".toList false) rest with sched := sc }, ?_, .of_same ⟨rfl, rfl⟩, .inl ⟨⟨rfl, rfl⟩, rfl, .inl ⟨rfl, rest, h4⟩⟩⟩
        unfold secureErase
        rw [Prog.bind_ok hrd, if_pos (show (Storage.Entry.dir (toPath s.cwd input)).isDir = true from rfl), Prog.bind_ok h3]
        rfl
    · refine ⟨.err e, { w with stdin := rest, sched := sc, out := o ++ w.out }, ?_, .of_same ⟨rfl, rfl⟩, .inl ⟨⟨rfl, rfl⟩, rfl, .inr ⟨⟨e, rfl⟩, fun hs => (h4 hs).2⟩⟩⟩
      unfold secureErase
      rw [Prog.bind_ok hrd, if_pos (show (Storage.Entry.dir (toPath s.cwd input)).isDir = true from rfl), Prog.bind_err h3]

/-- The erase command on a path that leads nowhere. -/
theorem secureErase_none (s : Sys σ) (input : List Char) (n : Int) (force : ForceMode) {w : World} (hf : ∀ q i, ¬ LeadsToFile w (toPath s.cwd input) q i)
    (hd : ∀ q, ¬ LeadsToDir w (toPath s.cwd input) q) : ∃ e sc, secureErase s input n force w = (.err e, { w with sched := sc }) := by
  rcases readInput_cases (toPath s.cwd input) w with ⟨q', i', sc, hsc, hq', he⟩ | ⟨q', hq', he⟩ | ⟨e, sc, hsc, he, hor⟩
  · exact absurd hq' (hf _ _)
  · exact absurd hq' (hd _)
  · refine ⟨e, sc, ?_⟩
    unfold secureErase
    rw [Prog.bind_err he]

/-- The erase command on its command line. -/
theorem erase_run (s : Sys σ) {m : Matches} (h : Accepted eraseArgs m) {input : List Char} (hi : Gives m .input input) (w : World) :
    ∃ n force, (force = .forced ↔ ¬ Omits m .force) ∧ (Omits m .passes → n = 1) ∧ Cli.erase s m w = secureErase s input n force w := by
  have hin : getParam m .input w = (.ok input, w) := by
    rw [getParam_release h.release]
    rcases value_cases h .input with ⟨v', ⟨vs', e'⟩, h1, _⟩ | ⟨ho, _⟩
    · obtain ⟨vs, e⟩ := hi
      rw [e] at e'; cases e'
      rw [h1]
    · obtain ⟨vs, e⟩ := hi
      rw [ho] at e; cases e
  have hfd : m.default .force = none := by unfold Matches.default; rw [h.args]; rfl
  have hpd : m.default .passes = some ['1'] := by unfold Matches.default; rw [h.args]; rfl
  have hp : ∃ v, (m.values .passes).bind List.head? = some v ∧ (m.values .passes).isSome = true ∧ (Omits m .passes → v = ['1']) := by
    rcases value_cases h .passes with ⟨v, ⟨vs, e⟩, h1, h2⟩ | ⟨ho, h1, h2⟩
    · exact ⟨v, h1, h2, fun ho => by rw [ho] at e; cases e⟩
    · rw [hpd] at h1 h2
      exact ⟨_, h1, h2, fun _ => rfl⟩
  obtain ⟨v, hv, hvs, hv1⟩ := hp
  refine ⟨(parseI32 v).getD 1, if (m.values .force).isSome then .forced else .prompt, ?_, fun ho => by rw [hv1 ho]; rfl, ?_⟩
  · rcases value_cases h .force with ⟨v, ⟨vs, e⟩, _, h2⟩ | ⟨ho, _, h2⟩
    · rw [h2]
      simp only [if_true, true_iff]
      intro ho
      rw [ho] at e; cases e
    · rw [h2, hfd]
      simp [ho]
  · unfold Cli.erase eraseParams
    have e1 : getParam m .passes w = (.ok v, w) := by rw [getParam_release h.release, hv]
    rw [Prog.bind_ok (a := ((parseI32 v).getD 1, if (m.values .force).isSome then .forced else .prompt)) (w' := w)]
    · exact Prog.bind_ok hin
    rw [Prog.bind_ok (a := (parseI32 v).getD 1) (w' := w), Prog.bind_ok (forcemode_run h.release w)]
    · rfl
    · rw [Prog.bind_ok (containsId_release h.release .passes w), hvs, if_pos rfl, Prog.bind_ok e1]
      rfl

end Volaris.Cli
