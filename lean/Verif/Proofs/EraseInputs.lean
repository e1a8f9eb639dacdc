import Verif.Proofs.Prunes
import Verif.Spec.PackCmd
/-!
# Erasing the inputs of the pack command
-/
namespace Volaris.Cli
open Volaris.Spec
variable {σ : Type}

/-- What erasing the trees in `S` does at most. -/
structure ErasedIn (S : Path → Prop) (w w' : World) : Prop where
  outside : ∀ x, ¬ S x → w'.look x = w.look x
  entries : ∀ x, w'.look x = w.look x ∨ w'.look x = none
  files : ∀ j, (∀ k, S k → w.look k ≠ some (.file j)) → w'.file j = w.file j

theorem ErasedIn.of_same {S : Path → Prop} {w w' : World} (h : SameFiles w w') : ErasedIn S w w' :=
  ⟨fun x _ => World.look_congr h.2 x, fun x => .inl (World.look_congr h.2 x), fun j _ => by rw [h.1]⟩

theorem ErasedIn.trans {S : Path → Prop} {w w' w'' : World} (h : ErasedIn S w w') (g : ErasedIn S w' w'') : ErasedIn S w w'' where
  outside x hx := (g.outside x hx).trans (h.outside x hx)
  entries x := by
    rcases g.entries x with e | e
    · rw [e]; exact h.entries x
    · exact .inr e
  files j hj := by
    rw [g.files j ?_, h.files j hj]
    intro k hk hl
    rcases h.entries k with e | e
    · rw [e] at hl; exact hj k hk hl
    · rw [e] at hl; cases hl

theorem ErasedIn.dirs {S : Path → Prop} {w w' : World} (h : ErasedIn S w w') {d : Path} (hd : w'.look d = some .dir) : w.look d = some .dir := by
  rcases h.entries d with e | e
  · rw [← e]; exact hd
  · rw [e] at hd; cases hd

theorem ErasedIn.leadsDir {S : Path → Prop} {w w' : World} (h : ErasedIn S w w') {p : PathBuf} {T : Path} (hd : LeadsToDir w' p T) : LeadsToDir w p T :=
  ⟨World.resolve_mono (fun _ => h.dirs) hd.resolve, h.dirs hd.look⟩

theorem ErasedIn.leadsFile {S : Path → Prop} {w w' : World} (h : ErasedIn S w w') {p : PathBuf} {q : Path} {i : Nat} (hd : LeadsToFile w' p q i) : LeadsToFile w p q i := by
  refine ⟨World.resolve_mono (fun _ => h.dirs) hd.resolve, ?_⟩
  rcases h.entries q with e | e
  · rw [← e]; exact hd.look
  · have := hd.look; rw [e] at this; cases this

theorem ErasedIn.mono {S S' : Path → Prop} {w w' : World} (h : ErasedIn S w w') (hS : ∀ x, S x → S' x) : ErasedIn S' w w' :=
  ⟨fun x hx => h.outside x fun hs => hx (hS x hs), h.entries, fun j hj => h.files j fun k hk => hj k (hS k hk)⟩

/-- Every outcome of erasing the inputs. -/
theorem eraseInputs_cases (s : Sys σ) (force : ForceMode) : ∀ (fs : List (List Char)) (w : World), TreeOk w →
    (∀ f ∈ fs, ∀ q i, ¬ LeadsToFile w (toPath s.cwd f) q i) →
    ∃ r w', eraseInputs s force fs w = (r, w') ∧ ErasedIn (InSource s.cwd fs w) w w' ∧ (¬ SameFiles w w' → EraseConsent force w) ∧
      (r = .ok () → ∀ f ∈ fs, ∃ T, LeadsToDir w (toPath s.cwd f) T ∧ (∀ x, T <+: x → x ≠ [] → w'.look x = none) ∧
        (∀ k i, T <+: k → w.look k = some (.file i) → w'.file i = [])) := by
  intro fs
  induction fs with
  | nil => intro w _ _; exact ⟨.ok (), w, rfl, .of_same ⟨rfl, rfl⟩, fun h => absurd ⟨rfl, rfl⟩ h, fun _ f hf => by cases hf⟩
  | cons f fs ih =>
    intro w ht hnf
    have hrun : ∀ {r w1}, secureErase s f 1 force w = (r, w1) → r ≠ .ok () → ∃ r', eraseInputs s force (f :: fs) w = (r', w1) ∧ r' ≠ .ok () := by
      intro r w1 he hr
      unfold eraseInputs
      cases r with
      | ok a => exact absurd rfl hr
      | err e => exact ⟨.err e, Prog.bind_err he, by simp⟩
      | abort a => exact ⟨.abort a, Prog.bind_abort he, by simp⟩
    by_cases hd : ∃ T, LeadsToDir w (toPath s.cwd f) T
    · obtain ⟨T, hd⟩ := hd
      obtain ⟨r, w1, he, hb, hor⟩ := secureErase_dir s f 1 force ht hd
      have hpr := secureErase_prunes s f 1 force w
      rw [he] at hpr
      replace hpr : Pruned w w1 := hpr
      have h1 : ErasedIn (InSource s.cwd (f :: fs) w) w w1 :=
        ErasedIn.mono (S := fun x => T <+: x) ⟨hb.outside, hb.entries, hb.files⟩ fun x hx => ⟨f, List.mem_cons_self, T, hd, hx⟩
      have hcons : ¬ SameFiles w w1 → EraseConsent force w := by
        intro hn
        rcases hor with ⟨h, -⟩ | ⟨h, -⟩
        · exact absurd h hn
        · exact h.imp id fun ⟨rest, h⟩ => ⟨_, rest, List.suffix_refl _, h⟩
      by_cases hr : r = .ok ()
      · subst hr
        have hcons' : EraseConsent force w := by
          rcases hor with ⟨_, _, ⟨h, -⟩ | ⟨⟨e, h⟩, -⟩⟩ | ⟨h, -⟩
          · cases h
          · cases h
          · exact h.imp id fun ⟨rest, h⟩ => ⟨_, rest, List.suffix_refl _, h⟩
        obtain ⟨hgone, hempty⟩ : (∀ x, T <+: x → x ≠ [] → w1.look x = none) ∧ (∀ k i, T <+: k → w.look k = some (.file i) → w1.file i = []) := by
          rcases hor with ⟨_, _, ⟨h, -⟩ | ⟨⟨e, h⟩, -⟩⟩ | ⟨-, ⟨-, h⟩ | ⟨⟨e, h⟩, -⟩⟩
          · cases h
          · cases h
          · exact h
          · cases h
        obtain ⟨r2, w2, he2, h2, hc2, hok2⟩ := ih w1 (ht.cut hpr hgone hb.outside) (fun g hg q i h => hnf g (List.mem_cons_of_mem _ hg) q i (h1.leadsFile h))
        have h2' : ErasedIn (InSource s.cwd (f :: fs) w) w1 w2 := h2.mono fun x ⟨g, hg, T', hT', hx⟩ => ⟨g, List.mem_cons_of_mem _ hg, T', h1.leadsDir hT', hx⟩
        have hrun2 : eraseInputs s force (f :: fs) w = (r2, w2) := by unfold eraseInputs; rw [Prog.bind_ok he, he2]
        refine ⟨r2, w2, hrun2, h1.trans h2', fun _ => hcons', ?_⟩
        intro hr2 g hg
        have hstay : ∀ i, w1.file i = [] → w2.file i = [] := by
          intro i hi
          by_cases hlink : ∃ k, InSource s.cwd fs w1 k ∧ w1.look k = some (.file i)
          · obtain ⟨k', ⟨g, hg, T', hT', hk'⟩, hl'⟩ := hlink
            obtain ⟨T2, hT2, -, he⟩ := hok2 hr2 g hg
            have : T2 = T' := by have := hT2.resolve; rw [hT'.resolve] at this; cases this; rfl
            subst this
            exact he k' i hk' hl'
          · rw [h2.files i fun k hk hl => hlink ⟨k, hk, hl⟩]; exact hi
        rcases List.mem_cons.1 hg with rfl | hg
        · refine ⟨T, hd, fun x hx hne => ?_, fun k i hk hl => hstay i (hempty k i hk hl)⟩
          rcases h2.entries x with e | e
          · rw [e]; exact hgone x hx hne
          · exact e
        · obtain ⟨T', a, b, c⟩ := hok2 hr2 g hg
          refine ⟨T', h1.leadsDir a, b, fun k i hk hl => ?_⟩
          by_cases hT : T <+: k
          · exact hstay i (hempty k i hT hl)
          · exact c k i hk (by rw [hb.outside k hT]; exact hl)
      · obtain ⟨r', he', hr'⟩ := hrun he hr
        exact ⟨r', w1, he', h1, hcons, fun h => absurd h hr'⟩
    · obtain ⟨e, sc, he⟩ := secureErase_none s f 1 force (hnf f List.mem_cons_self) (fun q h => hd ⟨q, h⟩)
      obtain ⟨r', he', hr'⟩ := hrun he (by simp)
      exact ⟨r', _, he', .of_same ⟨rfl, rfl⟩, fun h => absurd ⟨rfl, rfl⟩ h, fun h => absurd h hr'⟩

end Volaris.Cli
