import Verif.Spec.Storage
import Verif.Proofs.Fs
/-!
# Changes that leave a directory tree a tree
-/
namespace Volaris.Spec

theorem TreeOk.congr {w w' : World} (h : w'.dir = w.dir) (ht : TreeOk w) : TreeOk w' :=
  ⟨by rw [h]; exact ht.distinct, fun k n hk => by rw [World.look_congr h]; rw [h] at hk; exact ht.parents k n hk⟩

theorem TreeOk.added {w : World} (ht : TreeOk w) {q : Path} (hl : w.look q = none) (hd : w.look q.dropLast = some .dir) (m : Node) {w' : World}
    (hw : w'.dir = (q, m) :: w.dir) : TreeOk w' := by
  have hne : q ≠ [] := by rintro rfl; simp at hl
  have hlook : ∀ x, w.look x = some .dir → w'.look x = some .dir := by
    intro x hx
    rw [World.look_cons hw]
    split
    · rfl
    · split
      · next h => subst h; rw [hl] at hx; cases hx
      · exact hx
  refine ⟨?_, fun k n hk => ?_⟩
  · rw [hw, List.map_cons, List.nodup_cons]
    refine ⟨fun hm => ?_, ht.distinct⟩
    obtain ⟨⟨k, n⟩, hk, rfl⟩ := List.mem_map.1 hm
    have : (w.look k).isSome := World.look_isSome_of_mem hk
    simp only at hl
    rw [hl] at this; cases this
  · rw [hw] at hk
    rcases List.mem_cons.1 hk with h | h
    · cases h; exact ⟨hne, hlook _ hd⟩
    · obtain ⟨h1, h2⟩ := ht.parents k n h
      exact ⟨h1, hlook _ h2⟩

theorem TreeOk.created {w : World} (ht : TreeOk w) {q : Path} (hl : w.look q = none) (hd : w.look q.dropLast = some .dir) (i : Nat) {w' : World}
    (hw : w'.dir = (q, .file i) :: w.dir) : TreeOk w' := ht.added hl hd _ hw

theorem TreeOk.removed {w : World} (ht : TreeOk w) {q : Path} {i : Nat} (hl : w.look q = some (.file i)) : TreeOk (w.removed q) := by
  refine ⟨(List.filter_sublist.map _).nodup ht.distinct, fun k n hk => ?_⟩
  obtain ⟨h1, h2⟩ := ht.parents k n (List.mem_filter.1 hk).1
  refine ⟨h1, ?_⟩
  rw [World.look_removed, if_neg]
  · exact h2
  · rintro ⟨_, h⟩
    rw [h, hl] at h2; cases h2

/-- A directory with nothing in it can go. -/
theorem TreeOk.removedEmpty {w : World} (ht : TreeOk w) {q : Path} (he : ∀ e ∈ w.dir, q <+: e.1 → e.1 = q) : TreeOk (w.removed q) := by
  refine ⟨(List.filter_sublist.map _).nodup ht.distinct, fun k n hk => ?_⟩
  obtain ⟨hk, hq⟩ := List.mem_filter.1 hk
  obtain ⟨h1, h2⟩ := ht.parents k n hk
  refine ⟨h1, ?_⟩
  rw [World.look_removed, if_neg]
  · exact h2
  · rintro ⟨_, h⟩
    have : k = q := he _ hk (h ▸ List.dropLast_prefix k)
    exact (of_decide_eq_true hq) this

end Volaris.Spec
