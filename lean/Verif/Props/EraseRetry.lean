import Verif.Proofs.EraseRetry
import Verif.Props.Crash
/-!
# C100: an erase command that is killed and started again
-/
namespace Volaris.Props
open Volaris.Spec Volaris.Cli Volaris.Example
variable {σ : Type}

/-- **C100, at any moment, a file.** However often erasing a file is started and killed, at whatever moments and under whatever faults: no other name and no other file has changed, the file is as it was or empty, and it is
empty if its name is gone. -/
theorem C100_file_any (s : Sys σ) (input : List Char) (w v : World) (q : Path) (i : Nat) (hp : LeadsToFile w (toPath s.cwd input) q i) (hk : EraseKilled s input w v) : FileGoing q i w v :=
  fileGoing_killed s hk hp (.same hp.look rfl)

/-- **C100, a file.** If the command is then started once more and nothing fails, the name is gone and the file is empty, and still nothing else has changed; the command reports success unless there was nothing left to erase. -/
theorem C100_file_again (s : Sys σ) (input : List Char) (w v : World) (q : Path) (i : Nat) (hp : LeadsToFile w (toPath s.cwd input) q i) (hk : EraseKilled s input w v) (m : Matches)
    (ha : Accepted eraseArgs m) (hi : Gives m .input input) (hs : v.sched = []) (r : Res Error Unit) (v' : World) (hrun : Cli.erase s m v = (r, v')) :
    v'.look q = none ∧ v'.file i = [] ∧ FileGoing q i w v' ∧ (r = .ok () ∨ (∃ e, r = .err e) ∧ v.look q = none) := by
  have h := C100_file_any s input w v q i hp hk
  have hg := fileGoing_next s ha hi hp h
  rw [hrun] at hg
  rcases h.name with hn | ⟨hn, he⟩
  · obtain ⟨h1, h2, _⟩ := C66_file s m ha input hi v q i ⟨(h.resolves hp.look _ _).2 hp.resolve, hn⟩ r v' hrun
    have hr := h1 hs
    exact ⟨(h2 hr).1, (h2 hr).2, hg, .inl hr⟩
  · obtain ⟨g1, g2⟩ := nowhere_file hp h hn
    obtain ⟨e, u, h1, h2, _⟩ := C66_nothing s m ha input hi v g1 g2
    rw [hrun] at h1
    obtain ⟨rfl, rfl⟩ := Prod.mk.inj h1
    exact ⟨by rw [World.look_congr h2.2]; exact hn, by rw [h2.1]; exact he, hg, .inr ⟨⟨e, rfl⟩, hn⟩⟩

/-- **C100, at any moment, a directory.** However often erasing a directory is started and killed, at whatever moments, under whatever faults and interleavings: nothing outside has changed, nothing is new, every file is as it was
or empty, a file of which a name is gone is empty, and no directory is gone before all the files. -/
theorem C100_directory_any (s : Sys σ) (input : List Char) (w v : World) (T : Path) (ht : TreeOk w) (hp : LeadsToDir w (toPath s.cwd input) T) (hk : EraseKilled s input w v) : DirGoing T w v :=
  (dirGoing_killed s hk hp ht (.same rfl rfl)).2

/-- **C100, a directory.** If the command is then started once more, with consent, and nothing fails: all files that the directory ever held are empty and their names are gone; the directory and everything below is gone, unless the path
given contains `..`; nothing outside has changed; and the command reports success unless the path did not lead to the directory any more. -/
theorem C100_directory_again (s : Sys σ) (input : List Char) (w v : World) (T : Path) (ht : TreeOk w) (hp : LeadsToDir w (toPath s.cwd input) T) (hk : EraseKilled s input w v) (m : Matches)
    (ha : Accepted eraseArgs m) (hi : Gives m .input input) (hs : v.sched = []) (hc : ¬ Omits m .force ∨ ∃ rest, FirstAnswer false v.stdin true rest) (r : Res Error Unit) (v' : World)
    (hrun : Cli.erase s m v = (r, v')) :
    (∀ k i, T <+: k → w.look k = some (.file i) → v'.look k = none ∧ v'.file i = []) ∧
    ((∀ x, T <+: x → x ≠ [] → v'.look x = none) ∨ Comp.up ∈ (toPath s.cwd input).comps ∧ ¬ LeadsToDir v (toPath s.cwd input) T) ∧
    DirGoing T w v' ∧ (r = .ok () ∨ (∃ e, r = .err e) ∧ ¬ LeadsToDir v (toPath s.cwd input) T) := by
  obtain ⟨ht', h⟩ := dirGoing_killed s hk hp ht (.same rfl rfl)
  have hg := dirGoing_next s ha hi hp ht' h
  rw [hrun] at hg
  by_cases hd : LeadsToDir v (toPath s.cwd input) T
  · obtain ⟨_, h2, h3, _⟩ := C66_directory s m ha input hi v T ht' hd r v' hrun
    have hr := (h2 hs).1 hc
    obtain ⟨h4, _⟩ := h3 hr
    refine ⟨fun k i hk hl => ?_, .inl h4, hg, .inl hr⟩
    have hn := h4 k hk (by rintro rfl; simp [World.look_nil] at hl)
    exact ⟨hn, hg.emptied k i hl hn⟩
  · obtain ⟨g1, g2⟩ := nowhere_dir hp h hd
    obtain ⟨e, u, h1, h2, _⟩ := C66_nothing s m ha input hi v g1 g2
    rw [hrun] at h1
    obtain ⟨rfl, rfl⟩ := Prod.mk.inj h1
    have hgone := h.gone hp hd
    refine ⟨fun k i hk hl => ?_, ?_, hg, .inr ⟨⟨e, rfl⟩, hd⟩⟩
    · have hn := h.filesFirst hgone k i hk hl
      have hn' : v'.look k = none := by rw [World.look_congr h2.2]; exact hn
      exact ⟨hn', hg.emptied k i hl hn'⟩
    · by_cases hu : Comp.up ∈ (toPath s.cwd input).comps
      · exact .inr ⟨hu, hd⟩
      · left
        intro x hx _
        rw [World.look_congr h2.2]
        refine nothing_below ht' ?_ x hx
        have hr := (walk_straight h.outside _ _ hu hp.resolve).2
        rcases h.names T with e' | e'
        · exact absurd ⟨hr, e'.trans hp.look⟩ hd
        · exact e'

/-! ### The hypotheses can be met, and the exception is real -/

/-- The file `a/x` is emptied and the command killed; it is started again and killed at once. -/
def exHalfErased1 : World := stopped (Cli.erase exSys exEraseFileLine) (exWorld [] []) 1 0
def exHalfErased2 : World := { stopped (Cli.erase exSys exEraseFileLine) exHalfErased1 1 0 with sched := [] }

example : EraseKilled exSys ['a', '/', 'x'] (exWorld [] []) exHalfErased2 :=
  .again exEraseFileLine ⟨rfl, by decide, rfl⟩ ⟨[], rfl⟩ (stopped_at _ _ _ _ rfl) (.again exEraseFileLine ⟨rfl, by decide, rfl⟩ ⟨[], rfl⟩ (stopped_at _ _ 1 0 rfl) (.never rfl))
example : (exWorld [] []).file 0 = [1, 2, 3] ∧ exHalfErased2.file 0 = [] ∧ exHalfErased2.look [['a'], ['x']] = some (.file 0) ∧ exHalfErased2.sched = [] := by decide +kernel
example : (Cli.erase exSys exEraseFileLine exHalfErased2).1 = .ok () ∧ (Cli.erase exSys exEraseFileLine exHalfErased2).2.look [['a'], ['x']] = none := by decide +kernel

/-- The directory `a`: one of the two files is gone, the other is there. -/
def exHalfErasedDir : World := { stopped (Cli.erase exSys exEraseForceLine) (exWorld [] []) 3 0 with sched := [] }

example : EraseKilled exSys ['a'] (exWorld [] []) exHalfErasedDir := .again exEraseForceLine ⟨rfl, by decide, rfl⟩ ⟨[], rfl⟩ (stopped_at _ _ 3 0 rfl) (.never rfl)
example : exHalfErasedDir.dir.map (·.1) = [[['a'], ['b']], [['a'], ['x']], [['a']], [['z']]] ∧ ¬ Omits exEraseForceLine .force := ⟨by decide +kernel, by simp [Omits, exEraseForceLine, Matches.explicit]⟩
example : (Cli.erase exSys exEraseForceLine exHalfErasedDir).1 = .ok () ∧ (Cli.erase exSys exEraseForceLine exHalfErasedDir).2.dir = [([['z']], .file 2)] := by decide +kernel

/-- The directory `a`, given as `a/b/..`. -/
def exEraseDotsLine : Matches := { args := eraseArgs, given := [(.input, [['a', '/', 'b', '/', '.', '.']]), (.force, [['y']])] }
def exDots : World := { stopped (Cli.erase exSys exEraseDotsLine) (exWorld [] []) 7 0 with sched := [] }

/-- **C100, the exception.** The directory `a`, given as `a/b/..`, is erased and the command killed when `a/b` has been removed: the path given now leads nowhere, the command fails when it is started again, and the (empty) directory `a`
stays. -/
theorem C100_dots : ∃ (input : List Char) (m : Matches) (w v : World) (T : Path), TreeOk w ∧ LeadsToDir w (toPath exSys.cwd input) T ∧ Accepted eraseArgs m ∧ Gives m .input input ∧ ¬ Omits m .force ∧
    EraseKilled exSys input w v ∧ v.sched = [] ∧ ∃ e, (Cli.erase exSys m v).1 = .err e ∧ (Cli.erase exSys m v).2.look T = some .dir :=
  ⟨['a', '/', 'b', '/', '.', '.'], exEraseDotsLine, exWorld [] [], exDots, [['a']], (Example.disk_ok []).congr (w := Example.disk []) rfl, ⟨rfl, rfl⟩, ⟨rfl, by decide, rfl⟩, ⟨[], rfl⟩,
    by simp [Omits, exEraseDotsLine, Matches.explicit], .again exEraseDotsLine ⟨rfl, by decide, rfl⟩ ⟨[], rfl⟩ (stopped_at _ _ 7 0 rfl) (.never rfl), rfl, _, rfl, by decide +kernel⟩

end Volaris.Props
