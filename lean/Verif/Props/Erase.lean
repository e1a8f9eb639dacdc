import Verif.Proofs.EraseDir
import Verif.Spec.Log
import Verif.Spec.Disk
/-!
# Properties of erasing files and directories
-/
namespace Volaris.Props
open Spec Example

/-! ### C38 -/

/-- **C38.** Erasing an existing file, with any number of passes: without faults it succeeds; under every schedule, success means that the path is gone; whatever
happens, no other path and no other file has changed, nothing has been asked of the user, the file's content is either as before or empty, it is empty if the path is gone, and the call returns. -/
theorem C38_erase (p : PathBuf) (q : Path) (i : Nat) (passes : Int) (w : World) (hp : LeadsToFile w p q i) :
    (w.sched = [] → ∃ w', Erase.execute p passes w = (.ok (), w')) ∧
    (∀ w', Erase.execute p passes w = (.ok (), w') → w'.look q = none ∧ w'.file i = []) ∧
    (∀ r w', Erase.execute p passes w = (r, w') →
      (∀ x, x ≠ q → w'.look x = w.look x) ∧ (w'.look q = w.look q ∨ w'.look q = none) ∧
      (∀ j, j ≠ i → w'.file j = w.file j) ∧ (w'.file i = w.file i ∨ w'.file i = []) ∧ (w'.look q = none → w'.file i = []) ∧
      w'.stdin = w.stdin ∧ w'.tty = w.tty ∧ ∀ a, r ≠ .abort a) := by
  obtain ⟨r, w', he, hE, hr⟩ := erase_cases passes hp.resolve hp.look
  rw [he]
  refine ⟨fun hs => ?_, ?_, ?_⟩
  · rcases hr with ⟨rfl, -⟩ | ⟨-, h⟩
    · exact ⟨w', rfl⟩
    · exact absurd hs h
  · rintro w2 h
    obtain ⟨rfl, rfl⟩ := Prod.mk.inj h
    rcases hr with ⟨-, h⟩ | ⟨⟨e, h⟩, -⟩
    · exact h
    · cases h
  · rintro r2 w2 h
    obtain ⟨rfl, rfl⟩ := Prod.mk.inj h
    refine ⟨hE.dir, ?_, hE.files, hE.target, fun hn => ?_, hE.stdin, hE.tty, ?_⟩
    · rcases hE.entry with h | ⟨h, -⟩
      · exact .inl h
      · exact .inr h
    · rcases hE.entry with h | ⟨_, _, h⟩
      · rw [h, hp.look] at hn; cases hn
      · exact h
    · rintro a rfl
      rcases hr with ⟨h, -⟩ | ⟨⟨e, h⟩, -⟩ <;> cases h

/-- **C38.** Erasing a path that leads to no file (nothing there, a directory, something missing on the way) fails under every schedule and changes nothing. -/
theorem C38_missing (p : PathBuf) (passes : Int) (w : World) (hp : ∀ q i, ¬ LeadsToFile w p q i) :
    ∃ w', Erase.execute p passes w = (.err .openFile, w') ∧ w'.core = w.core ∧ w'.log = w.log :=
  erase_missing passes fun q h i hl => hp q i ⟨h, hl⟩

/-- `a/b/../x` on the small disk. -/
example : LeadsToFile (disk []) ⟨false, [], [.name ['a'], .name ['b'], .up, .name ['x']]⟩ [['a'], ['x']] 0 :=
  ⟨rfl, rfl⟩
/-- `a/c/../x`: `c` does not exist. -/
example : ∀ q i, ¬ LeadsToFile (disk []) ⟨false, [], [.name ['a'], .name ['c'], .up, .name ['x']]⟩ q i := by
  intro q i h
  have : (disk []).resolve ⟨false, [], [.name ['a'], .name ['c'], .up, .name ['x']]⟩ = .error .notFound := rfl
  have h := h.resolve
  rw [this] at h
  cases h

/-! ### C39 -/

/-- **C39 fails.**  Whatever the path, the number of passes, the state of the disk and the faults: erasing never writes a byte. -/
theorem C39_nothing_overwritten (p : PathBuf) (passes : Int) :
    OnlyDoes (fun e => ∀ i off bs, e ≠ .write i off bs) (Erase.execute p passes) := by
  intro w
  by_cases h : ∃ q i, LeadsToFile w p q i
  · obtain ⟨q, i, hp⟩ := h
    obtain ⟨r, w', he, hE, -⟩ := erase_cases passes hp.resolve hp.look
    rw [he]
    obtain ⟨evs, hl, hv⟩ := hE.log
    refine ⟨evs, hl, fun e h => ?_⟩
    rcases hv e h with rfl | rfl <;> intros <;> simp
  · obtain ⟨w', he, -, hl⟩ := C38_missing p passes w fun q i hp => h ⟨q, i, hp⟩
    rw [he]
    exact ⟨[], hl, by simp⟩

/-- **C39, the part that holds.**  After a successful erase the file is empty (and not only unlinked): whoever has it open or linked under another name reads nothing. -/
theorem C39_emptied_partial (p : PathBuf) (q : Path) (i : Nat) (passes : Int) (w w' : World) (hp : LeadsToFile w p q i)
    (hok : Erase.execute p passes w = (.ok (), w')) : w'.file i = [] :=
  ((C38_erase p q i passes w hp).2.1 w' hok).2

/-! ### C40 -/

/-- **C40.** Erasing a directory, for every interleaving of the threads (`order`), every tree, every fault: without faults it succeeds; success means that the directory and everything
below it is gone and that the files are empty; whatever happens, no path outside has changed, nothing new appeared, and a file that is not linked below the directory kept its
content; if any directory was removed, every file below had been erased; every file is as before or empty, and empty if a name of it is gone; the call returns. -/
theorem C40_eraseDir (order : List Nat) (p : PathBuf) (T : Path) (passes : Int) (w : World) (ht : TreeOk w) (hp : LeadsToDir w p T) :
    (w.sched = [] → ∃ w', EraseDir.execute order (.dir p) passes w = (.ok (), w')) ∧
    (∀ w', EraseDir.execute order (.dir p) passes w = (.ok (), w') →
      (∀ x, T <+: x → x ≠ [] → w'.look x = none) ∧ (∀ k i, T <+: k → w.look k = some (.file i) → w'.file i = [])) ∧
    (∀ r w', EraseDir.execute order (.dir p) passes w = (r, w') →
      (∀ x, ¬ T <+: x → w'.look x = w.look x) ∧ (∀ x, w'.look x = w.look x ∨ w'.look x = none) ∧
      (∀ j, (∀ k, T <+: k → w.look k ≠ some (.file j)) → w'.file j = w.file j) ∧
      ((∃ d, w.look d = some .dir ∧ w'.look d = none) → ∀ k i, T <+: k → w.look k = some (.file i) → w'.look k = none) ∧
      (∀ k i, w.look k = some (.file i) → w'.look k = none → w'.file i = []) ∧ (∀ j, w'.file j = w.file j ∨ w'.file j = []) ∧
      w'.stdin = w.stdin ∧ w'.tty = w.tty ∧ ∀ a, r ≠ .abort a) := by
  obtain ⟨r, w', he, hr, h1, h2, h3, h4, h7, h8, h5, h6, -⟩ := eraseDir_cases order passes ht hp
  rw [he]
  refine ⟨fun hs => ?_, ?_, ?_⟩
  · rcases hr with ⟨rfl, -⟩ | ⟨-, h⟩
    · exact ⟨w', rfl⟩
    · exact absurd hs h
  · rintro w2 h
    obtain ⟨rfl, rfl⟩ := Prod.mk.inj h
    rcases hr with ⟨-, h⟩ | ⟨⟨e, h⟩, -⟩
    · exact h
    · cases h
  · rintro r2 w2 h
    obtain ⟨rfl, rfl⟩ := Prod.mk.inj h
    refine ⟨h1, h2, h3, h4, h7, h8, h5, h6, ?_⟩
    rintro a rfl
    rcases hr with ⟨h, -⟩ | ⟨⟨e, h⟩, -⟩ <;> cases h

/-- **C40.** Given a file instead of a directory, erase_dir refuses and changes nothing. -/
theorem C40_notDir (order : List Nat) (p : PathBuf) (h : Nat) (passes : Int) (w : World) :
    EraseDir.execute order (.file p h) passes w = (.err .invalidFileType, w) := rfl

/-- The small disk, `a` given as `a/b/..`; two threads, interleaved. -/
example : TreeOk (disk []) ∧ LeadsToDir (disk []) ⟨false, [], [.name ['a'], .name ['b'], .up]⟩ [['a']] :=
  ⟨disk_ok _, rfl, rfl⟩
example : (EraseDir.execute [0, 1, 1, 0, 0] (.dir ⟨false, [], [.name ['a']]⟩) 1 (disk [])).2.dir = [([['z']], .file 2)] := by decide +kernel
/-- A fault in the second thread: the directories stay. -/
example : let r := EraseDir.execute [0, 1, 1, 0, 0] (.dir ⟨false, [], [.name ['a']]⟩) 1 (disk [.full, .full, .full, .full, .full, .full, .full, .full, .fail])
    r.1 = .err (.eraseFile .openFile) ∧ r.2.look [['a'], ['b']] = some .dir ∧ r.2.look [['z']] = some (.file 2) := by decide +kernel

end Volaris.Props
