import Verif.Spec.EraseRetry
import Verif.Props.EraseCmd
import Verif.Proofs.CrashCmd
import Verif.Proofs.CrashSafe
/-!
# An erase command that is killed and started again
-/
namespace Volaris
open Spec Cli Props
variable {σ : Type}

/-! ### A file -/

namespace Spec.FileGoing
variable {q : Path} {i : Nat} {w u v : World}

theorem same (hq : w.look q = some (.file i)) (h : v.disk = w.disk) : FileGoing q i w v where
  names x _ := World.look_congr (disk_dir h) x
  files j _ := by rw [disk_file h]
  content := .inl (by rw [disk_file h])
  name := .inl (by rw [World.look_congr (disk_dir h)]; exact hq)

/-- Once the name is gone, nothing more happens. -/
theorem rest (h : FileGoing q i w u) (h1 : v.file = u.file) (h2 : v.dir = u.dir) : FileGoing q i w v where
  names x hx := by rw [World.look_congr h2, h.names x hx]
  files j hj := by rw [h1, h.files j hj]
  content := by rw [h1]; exact h.content
  name := by rw [h1, World.look_congr h2]; exact h.name

theorem trans (h : FileGoing q i w u) (g : FileGoing q i u v) : FileGoing q i w v where
  names x hx := by rw [g.names x hx, h.names x hx]
  files j hj := by rw [g.files j hj, h.files j hj]
  content := by
    rcases g.content with h1 | h1
    · rw [h1]; exact h.content
    · exact .inr h1
  name := g.name

theorem resolves (h : FileGoing q i w v) (hq : w.look q = some (.file i)) (p : PathBuf) (x : Path) : v.resolve p = .ok x ↔ w.resolve p = .ok x := by
  have hd : ∀ d, v.look d = some .dir ↔ w.look d = some .dir := fun d => by
    by_cases e : d = q
    · subst e
      rw [hq]
      rcases h.name with h1 | ⟨h1, _⟩ <;> rw [h1] <;> simp
    · rw [h.names d e]
  exact ⟨World.resolve_mono fun d => (hd d).1, World.resolve_mono fun d => (hd d).2⟩

end Spec.FileGoing

/-- Erasing a file, at the end of any run. -/
theorem fileGoing_run (s : Sys σ) {m : Matches} (ha : Accepted eraseArgs m) {input : List Char} (hi : Gives m .input input) {w : World} {q : Path} {i : Nat} (hp : LeadsToFile w (toPath s.cwd input) q i) :
    FileGoing q i w (Cli.erase s m w).2 := by
  obtain ⟨_, _, h3, h4, h5, h6, h7, _⟩ := C66_file s m ha input hi w q i hp _ _ rfl
  refine ⟨h3, h5, h6, ?_⟩
  rcases h4 with h | h
  · exact .inl (h.trans hp.look)
  · exact .inr ⟨h, h7 h⟩

/-- A path that has led to a file does not lead to a directory when the name is gone, and leads to no file. -/
theorem nowhere_file {s : Sys σ} {input : List Char} {w v : World} {q : Path} {i : Nat} (hp : LeadsToFile w (toPath s.cwd input) q i) (h : FileGoing q i w v) (hn : v.look q = none) :
    (∀ x j, ¬ LeadsToFile v (toPath s.cwd input) x j) ∧ ∀ x, ¬ LeadsToDir v (toPath s.cwd input) x := by
  have hr : ∀ x, v.resolve (toPath s.cwd input) = .ok x → x = q := fun x hx => by
    have := (h.resolves hp.look _ _).1 hx
    rw [hp.resolve] at this
    exact (Except.ok.inj this).symm
  refine ⟨fun x j g => ?_, fun x g => ?_⟩
  · have := g.look; rw [hr x g.resolve, hn] at this; cases this
  · have := g.look; rw [hr x g.resolve, hn] at this; cases this

/-- One more run. -/
theorem fileGoing_next (s : Sys σ) {m : Matches} (ha : Accepted eraseArgs m) {input : List Char} (hi : Gives m .input input) {w v : World} {q : Path} {i : Nat} (hp : LeadsToFile w (toPath s.cwd input) q i)
    (h : FileGoing q i w v) : FileGoing q i w (Cli.erase s m v).2 := by
  rcases h.name with hn | ⟨hn, _⟩
  · exact h.trans (fileGoing_run s ha hi ⟨(h.resolves hp.look _ _).2 hp.resolve, hn⟩)
  · obtain ⟨g1, g2⟩ := nowhere_file hp h hn
    obtain ⟨e, v', he, hs, _⟩ := C66_nothing s m ha input hi v g1 g2
    rw [he]
    exact h.rest hs.1 hs.2

theorem fileGoing_stopped (s : Sys σ) {m : Matches} (ha : Accepted eraseArgs m) {input : List Char} (hi : Gives m .input input) {w u v : World} {q : Path} {i : Nat} (hp : LeadsToFile w (toPath s.cwd input) q i)
    (h : FileGoing q i w u) (hv : StoppedAt (Cli.erase s m) u v) : FileGoing q i w v := by
  obtain ⟨sc, r, v', he, hd⟩ := (erase_crashes s m).stopped hv
  have := fileGoing_next s ha hi hp (v := u.withSched sc) (h.rest rfl rfl)
  rw [he] at this
  exact this.rest (disk_file hd) (disk_dir hd)

theorem fileGoing_killed (s : Sys σ) {input : List Char} {w v : World} (hk : EraseKilled s input w v) :
    ∀ {w0 : World} {q : Path} {i : Nat}, LeadsToFile w0 (toPath s.cwd input) q i → FileGoing q i w0 w → FileGoing q i w0 v := by
  induction hk with
  | never h => intro w0 q i _ hg; exact hg.rest (disk_file h) (disk_dir h)
  | again m ha hi h _ ih => intro w0 q i hp hg; exact ih hp (fileGoing_stopped s ha hi hp hg h)

/-! ### A directory -/

namespace Spec.DirGoing
variable {T : Path} {w u v : World}

theorem same (h1 : v.file = w.file) (h2 : v.dir = w.dir) : DirGoing T w v where
  outside x _ := World.look_congr h2 x
  names x := .inl (World.look_congr h2 x)
  files j _ := by rw [h1]
  contents j := .inl (by rw [h1])
  emptied k i hk hn := by rw [World.look_congr h2, hk] at hn; cases hn
  filesFirst := by
    rintro ⟨d, h3, h4⟩
    rw [World.look_congr h2, h3] at h4; cases h4

theorem trans (h : DirGoing T w u) (g : DirGoing T u v) : DirGoing T w v where
  outside x hx := by rw [g.outside x hx, h.outside x hx]
  names x := by
    rcases g.names x with e | e
    · rw [e]; exact h.names x
    · exact .inr e
  files j hj := by
    rw [g.files j, h.files j hj]
    intro k hk hl
    rcases h.names k with e | e
    · exact hj k hk (e ▸ hl)
    · rw [e] at hl; cases hl
  contents j := by
    rcases g.contents j with e | e
    · rw [e]; exact h.contents j
    · exact .inr e
  emptied k i hk hn := by
    rcases h.names k with e | e
    · exact g.emptied k i (e.trans hk) hn
    · rcases g.contents i with e' | e'
      · rw [e']; exact h.emptied k i hk e
      · exact e'
  filesFirst := by
    rintro ⟨d, h1, h2⟩ k i hk hl
    rcases h.names k with e | e
    · rcases h.names d with e' | e'
      · exact g.filesFirst ⟨d, e'.trans h1, h2⟩ k i hk (e.trans hl)
      · rw [h.filesFirst ⟨d, h1, e'⟩ k i hk hl] at e
        rw [hl] at e; cases e
    · rcases g.names k with e' | e'
      · rw [e', e]
      · exact e'

/-- Where a path leads does not change; it may lead nowhere in the end. -/
theorem resolves (h : DirGoing T w v) {p : PathBuf} {x : Path} (hx : v.resolve p = .ok x) : w.resolve p = .ok x :=
  World.resolve_mono (fun d hd => by
    rcases h.names d with e | e
    · rw [← e]; exact hd
    · rw [e] at hd; cases hd) hx

/-- If the path does not lead to the directory any more, a directory is gone. -/
theorem gone (h : DirGoing T w v) {p : PathBuf} (hp : LeadsToDir w p T) (hn : ¬ LeadsToDir v p T) : ∃ d, w.look d = some .dir ∧ v.look d = none := by
  refine Classical.byContradiction fun hc => hn ?_
  have hd : ∀ d, w.look d = some .dir → v.look d = some .dir := fun d hd => by
    rcases h.names d with e | e
    · rw [e]; exact hd
    · exact absurd ⟨d, hd, e⟩ hc
  exact ⟨World.resolve_mono hd hp.resolve, hd T hp.look⟩

end Spec.DirGoing

theorem dirGoing_run (s : Sys σ) {m : Matches} (ha : Accepted eraseArgs m) {input : List Char} (hi : Gives m .input input) {w : World} {T : Path} (ht : TreeOk w) (hp : LeadsToDir w (toPath s.cwd input) T) :
    DirGoing T w (Cli.erase s m w).2 := by
  obtain ⟨_, _, _, h4, h5, h6, h7, h8, h9, _⟩ := C66_directory s m ha input hi w T ht hp _ _ rfl
  exact ⟨h4, h5, h6, h9, h8, h7⟩

/-- A path that has led to a directory leads there or nowhere. -/
theorem nowhere_dir {s : Sys σ} {input : List Char} {w v : World} {T : Path} (hp : LeadsToDir w (toPath s.cwd input) T) (h : DirGoing T w v) (hn : ¬ LeadsToDir v (toPath s.cwd input) T) :
    (∀ x j, ¬ LeadsToFile v (toPath s.cwd input) x j) ∧ ∀ x, ¬ LeadsToDir v (toPath s.cwd input) x := by
  have hr : ∀ x, v.resolve (toPath s.cwd input) = .ok x → x = T := fun x hx => by
    have := h.resolves hx
    rw [hp.resolve] at this
    exact (Except.ok.inj this).symm
  refine ⟨fun x j g => ?_, fun x g => hn (hr x g.resolve ▸ g)⟩
  have hl := g.look
  rw [hr x g.resolve] at hl
  rcases h.names T with e | e
  · rw [e, hp.look] at hl; cases hl
  · rw [e] at hl; cases hl

theorem dirGoing_next (s : Sys σ) {m : Matches} (ha : Accepted eraseArgs m) {input : List Char} (hi : Gives m .input input) {w v : World} {T : Path} (hp : LeadsToDir w (toPath s.cwd input) T) (ht : TreeOk v)
    (h : DirGoing T w v) : DirGoing T w (Cli.erase s m v).2 := by
  by_cases hd : LeadsToDir v (toPath s.cwd input) T
  · exact h.trans (dirGoing_run s ha hi ht hd)
  · obtain ⟨g1, g2⟩ := nowhere_dir hp h hd
    obtain ⟨e, v', he, hs, _⟩ := C66_nothing s m ha input hi v g1 g2
    rw [he]
    exact h.trans (.same hs.1 hs.2)

theorem dirGoing_stopped (s : Sys σ) {m : Matches} (ha : Accepted eraseArgs m) {input : List Char} (hi : Gives m .input input) {w u v : World} {T : Path} (hp : LeadsToDir w (toPath s.cwd input) T)
    (ht : TreeOk u) (h : DirGoing T w u) (hv : StoppedAt (Cli.erase s m) u v) : TreeOk v ∧ DirGoing T w v := by
  obtain ⟨sc, r, v', he, hd⟩ := (erase_crashes s m).stopped hv
  have ht' : TreeOk (u.withSched sc) := ht.congr (w := u) rfl
  have h1 := dirGoing_next s ha hi hp (v := u.withSched sc) ht' (h.trans (.same rfl rfl))
  have h2 := (erase_crashes s m (u.withSched sc)).tree ht'
  rw [he] at h1 h2
  exact ⟨h2.congr (disk_dir hd), h1.trans (.same (disk_file hd) (disk_dir hd))⟩

theorem dirGoing_killed (s : Sys σ) {input : List Char} {w v : World} (hk : EraseKilled s input w v) :
    ∀ {w0 : World} {T : Path}, LeadsToDir w0 (toPath s.cwd input) T → TreeOk w → DirGoing T w0 w → TreeOk v ∧ DirGoing T w0 v := by
  induction hk with
  | never h => intro w0 T _ ht hg; exact ⟨ht.congr (disk_dir h), hg.trans (.same (disk_file h) (disk_dir h))⟩
  | again m ha hi h _ ih =>
    intro w0 T hp ht hg
    obtain ⟨h1, h2⟩ := dirGoing_stopped s ha hi hp ht hg h
    exact ih hp h1 h2

/-- A path without `..` passes only through what is above where it leads. -/
theorem walk_straight {w v : World} {q : Path} (h : ∀ x, ¬ q <+: x → v.look x = w.look x) : ∀ (cs : List Comp) (cur : Path), Comp.up ∉ cs → w.walk cur cs = .ok q →
    cur <+: q ∧ v.walk cur cs = .ok q
  | [], cur, _, hw => by
    unfold World.walk at hw ⊢
    cases hw
    exact ⟨List.prefix_refl _, rfl⟩
  | .up :: cs, cur, hc, _ => absurd List.mem_cons_self hc
  | .name n :: cs, cur, hc, hw => by
    unfold World.walk at hw ⊢
    cases hl : w.look cur with
    | none => rw [hl] at hw; cases hw
    | some nd =>
      cases nd with
      | file i => rw [hl] at hw; cases hw
      | dir =>
        rw [hl] at hw
        obtain ⟨h1, h2⟩ := walk_straight h cs (cur ++ [n]) (fun g => hc (List.mem_cons_of_mem _ g)) hw
        have h3 : ¬ q <+: cur := fun g => by
          have := h1.length_le
          have := g.length_le
          simp at *
          omega
        rw [h cur h3, hl]
        exact ⟨(List.prefix_append ..).trans h1, h2⟩

/-- What lies below nothing is nothing. -/
theorem nothing_below {w : World} (ht : TreeOk w) {T : Path} (hn : w.look T = none) : ∀ x, T <+: x → w.look x = none := by
  rintro x ⟨s, rfl⟩
  by_cases hs : s = []
  · subst hs; simpa using hn
  · cases hx : w.look (T ++ s) with
    | none => rfl
    | some n =>
      have := TreeOk.ancestors ht T s.length s rfl (by rw [hx]; rfl) 0 (List.length_pos_iff.2 hs)
      simp [hn] at this

end Volaris
