import Verif.Spec.Tools
import Verif.Model.Tools.Overwrite
import Verif.Proofs.HeaderOps
/-!
# Lemmas about hashing and overwriting files
-/
namespace Volaris
open Spec

namespace HashCmd

theorem loop_cases {σ : Type} (H : Hasher σ) (h : Nat) : ∀ (fuel : Nat) (st : σ) (w : World), (w.rest h).length ≤ fuel →
    (∃ (pieces : List Bytes) (w' : World), loop H h fuel st w = (.ok (pieces.foldl H.write st), w') ∧
      pieces.flatten <+: w.rest h ∧ (NoShort w.sched → pieces.flatten = w.rest h) ∧ Touches [h] [] w w') ∨
    (∃ w', loop H h fuel st w = (.err .readData, w') ∧ w.sched ≠ [] ∧ Touches [h] [] w w') := by
  intro fuel
  induction fuel with
  | zero =>
    intro st w hl
    unfold loop
    have hnil : w.rest h = [] := List.length_eq_zero_iff.1 (by omega)
    rcases read_spec h BLOCK_SIZE w with ⟨k, w', he, hk, _, hc⟩ | ⟨e, w', he, hc⟩
    · left
      rw [hnil] at he hc
      simp only [List.take_nil] at he hc
      rw [Prog.bind_ok (Prog.mapErr_ok he), if_pos (by decide)]
      refine ⟨[[]], w', rfl, by simp, by simp [hnil], (Touches.adv (by simp)).core_right hc⟩
    · right
      refine ⟨w', Prog.bind_err (Prog.mapErr_err he), ?_, .of_core hc⟩
      intro hs; rw [read_nil hs] at he; simp at he
  | succ fuel ih =>
    intro st w hl
    unfold loop
    have hS := Shrinks.read h BLOCK_SIZE w
    rcases read_spec h BLOCK_SIZE w with ⟨k, w', he, hk, _, hc⟩ | ⟨e, w', he, hc⟩
    · rw [he] at hS
      have ht : Touches [h] [] w w' := (Touches.adv (by simp)).core_right hc
      by_cases hlen : ((w.rest h).take k).length ≠ BLOCK_SIZE
      · left
        rw [Prog.bind_ok (Prog.mapErr_ok he)]
        simp only [hlen, ne_eq, not_false_eq_true, if_true]
        refine ⟨[(w.rest h).take k], w', rfl, by simpa using List.take_prefix _ _, ?_, ht⟩
        intro hns
        have hr := read_noShort hns he
        rw [hr] at hlen
        simp only [List.flatten_cons, List.flatten_nil, List.append_nil]
        rw [hr]
        refine List.take_of_length_le ?_
        rw [List.length_take] at hlen
        omega
      · have hlen : ((w.rest h).take k).length = BLOCK_SIZE := by simpa using hlen
        rw [Prog.bind_ok (Prog.mapErr_ok he)]
        simp only [hlen, ne_eq, not_true_eq_false, if_false]
        have hrest : w'.rest h = (w.rest h).drop BLOCK_SIZE := by
          rw [World.rest_of_core hc, World.rest_adv, hlen]
        have htk : (w.rest h).take k = (w.rest h).take BLOCK_SIZE := by
          have hmin : min k (w.rest h).length = BLOCK_SIZE := by rw [← List.length_take]; exact hlen
          have : k = BLOCK_SIZE := by omega
          rw [this]
        have hpos : 0 < BLOCK_SIZE := by decide
        have hge : BLOCK_SIZE ≤ (w.rest h).length := by
          rw [List.length_take] at hlen; omega
        rcases ih (H.write st ((w.rest h).take k)) w' (by rw [hrest, List.length_drop]; omega) with ⟨ps, w2, h1, h2, h3, h4⟩ | ⟨w2, h1, h2, h3⟩
        · left
          refine ⟨(w.rest h).take k :: ps, w2, h1, ?_, ?_, ht.trans h4⟩
          · rw [hrest] at h2
            rw [List.flatten_cons, htk]
            exact List.prefix_append_right_inj _ |>.2 h2 |>.trans (by rw [List.take_append_drop]; exact List.prefix_refl _)
          · intro hns
            rw [List.flatten_cons, h3 (hns.of_suffix hS), hrest, htk, List.take_append_drop]
        · right
          refine ⟨w2, h1, ?_, ht.trans h3⟩
          intro hs
          exact h2 (sched_nil_run (Shrinks.read h BLOCK_SIZE) hs he)
    · right
      refine ⟨w', Prog.bind_err (Prog.mapErr_err he), ?_, .of_core hc⟩
      intro hs; rw [read_nil hs] at he; simp at he

theorem execute_cases {σ : Type} (H : Hasher σ) (h : Nat) (w : World) :
    (∃ (pieces : List Bytes) (w' : World), execute H h w = (.ok (H.finish (pieces.foldl H.write H.init)), w') ∧
      pieces.flatten <+: w.data h ∧ (NoShort w.sched → pieces.flatten = w.data h) ∧ Touches [h] [] w w') ∨
    (∃ e w', execute H h w = (.err e, w') ∧ w.sched ≠ [] ∧ Touches [h] [] w w') := by
  unfold execute
  have hS := Shrinks.rewind h w
  rcases rewind_spec h w with ⟨w1, he, hc⟩ | ⟨e, w1, he, hc⟩
  · rw [Prog.bind_ok (Prog.mapErr_ok he)]
    rw [he] at hS
    have ht : Touches [h] [] w w1 := (Touches.setPos (by simp)).core_right hc
    have hd : w1.data h = w.data h := by rw [World.data_of_core hc]; simp [World.data]
    have hr : w1.rest h = w.data h := by
      rw [World.rest_of_pos_zero (by rw [World.fd_of_core hc]; simp), hd]
    rcases loop_cases H h (w1.data h).length H.init w1 (by rw [hr, hd]; exact Nat.le_refl _) with ⟨ps, w2, h1, h2, h3, h4⟩ | ⟨w2, h1, h2, h3⟩
    · left
      refine ⟨ps, w2, ?_, by rw [← hr]; exact h2, fun hns => by rw [← hr]; exact h3 (hns.of_suffix hS), ht.trans h4⟩
      rw [Prog.bind_ok (x := hashAll H h) h1]; rfl
    · right
      refine ⟨.readData, w2, Prog.bind_err (x := hashAll H h) h1, ?_, ht.trans h3⟩
      · intro hs; exact h2 (sched_nil_run (Shrinks.rewind h) hs he)
  · right
    refine ⟨_, w1, Prog.bind_err (Prog.mapErr_err he), ?_, .of_core hc⟩
    intro hs; rw [rewind_nil hs] at he; simp at he

end HashCmd

namespace Overwrite

theorem writeBlocks_run (h : Nat) : ∀ (bs : List Nat) (w : World), writeBlocks h bs w = (.ok (), w) := by
  intro bs
  induction bs with
  | nil => intro w; rfl
  | cons b bs ih =>
    intro w
    unfold writeBlocks
    rw [Prog.bind_ok (genBytes_run 0 w)]
    have e : ({ w with rng := fun i => w.rng (i + 0) } : World) = w := by cases w; rfl
    rw [e, show ((List.range 0).map w.rng) = [] from rfl, Prog.bind_ok (Prog.mapErr_ok (writeAll_empty w h))]
    exact ih w

theorem passes_cases (h cap : Nat) : ∀ (n : Nat) (w : World),
    ∃ (r : Res Error Unit) (w' : World), passes h cap n w = (r, w') ∧ (r = .ok () ∨ r = .err .resetCursorPosition ∨ r = .err .flushFile) ∧
      (w.sched = [] → r = .ok ()) ∧ w'.sched <:+ w.sched ∧ ∃ p, w'.core = (w.setPos h p).core := by
  intro n
  induction n with
  | zero => intro w; exact ⟨_, w, rfl, .inl rfl, fun _ => rfl, List.suffix_refl _, (w.fd h).pos, by rw [World.setPos_self]⟩
  | succ n ih =>
    intro w
    unfold passes
    have hS := Shrinks.rewind h w
    rcases rewind_spec h w with ⟨w1, he, hc⟩ | ⟨e, w1, he, hc⟩
    · rw [Prog.bind_ok (Prog.mapErr_ok he), Prog.bind_ok (writeBlocks_run h _ w1)]
      rw [he] at hS
      have hS2 := Shrinks.flush h w1
      rcases flush_spec h w1 with ⟨w2, he2, hc2⟩ | ⟨e, w2, he2, hc2⟩
      · rw [Prog.bind_ok (Prog.mapErr_ok he2)]
        rw [he2] at hS2
        obtain ⟨r, w3, h1, h2, h3, h4, p, h5⟩ := ih w2
        refine ⟨r, w3, h1, h2, ?_, h4.trans (hS2.trans hS), p, ?_⟩
        · intro hs
          exact h3 (sched_nil_run (Shrinks.flush h) (sched_nil_run (Shrinks.rewind h) hs he) he2)
        · rw [h5, World.setPos_core_congr h p (hc2.trans hc), World.setPos_setPos]
      · rw [he2] at hS2
        refine ⟨_, w2, Prog.bind_err (Prog.mapErr_err he2), .inr (.inr rfl), ?_, hS2.trans hS, 0, hc2.trans hc⟩
        intro hs
        rw [flush_nil (sched_nil_run (Shrinks.rewind h) hs he)] at he2; simp at he2
    · rw [he] at hS
      refine ⟨_, w1, Prog.bind_err (Prog.mapErr_err he), .inr (.inl rfl), ?_, hS, (w.fd h).pos, by rw [World.setPos_self]; exact hc⟩
      intro hs; rw [rewind_nil hs] at he; simp at he

theorem execute_cases (h cap : Nat) (n : Int) (w : World) :
    (∃ w', execute h cap n w = (.ok (), w') ∧ w'.core = ((w.setPos h 0).put h (zeros cap)).core) ∨
    (∃ e k w', execute h cap n w = (.err e, w') ∧ w.sched ≠ [] ∧ k ≤ cap ∧
      ∃ p, w'.core = ((w.setPos h p).put h (zeros k)).core ∧ (k = 0 ∨ p = 0)) := by
  unfold execute
  obtain ⟨r, w1, h1, h2, h3, h4, p, h5⟩ := passes_cases h cap n.toNat w
  have herr : ∀ e, r = .err e → w.sched ≠ [] := by rintro e rfl hs; have := h3 hs; simp at this
  have hstay : ∀ w' : World, w'.core = (w.setPos h p).core → ∃ p, w'.core = ((w.setPos h p).put h (zeros 0)).core ∧ (0 = 0 ∨ p = 0) :=
    fun w' hw => ⟨p, by rw [show zeros 0 = [] from rfl, World.put_nil_core]; exact hw, .inl rfl⟩
  rcases h2 with rfl | rfl | rfl
  · rw [Prog.bind_ok h1]
    rcases rewind_spec h w1 with ⟨w2, he2, hc2⟩ | ⟨e, w2, he2, hc2⟩
    · rw [Prog.bind_ok (Prog.mapErr_ok he2)]
      have hc02 : w2.core = (w.setPos h 0).core := by
        rw [hc2, World.setPos_core_congr h 0 h5, World.setPos_setPos]
      have hs12 : w.sched = [] → w2.sched = [] := fun hs =>
        sched_nil_run (Shrinks.rewind h) (by rw [hs] at h4; exact List.suffix_nil.1 h4) he2
      rcases writeAll_spec h (List.replicate cap 0) w2 with ⟨w3, he3, hc3⟩ | ⟨e, k, w3, hk, he3, hc3⟩
      · rw [Prog.bind_ok (Prog.mapErr_ok he3)]
        have hc03 : w3.core = ((w.setPos h 0).put h (zeros cap)).core := by
          rw [hc3]; exact World.put_core_congr _ _ hc02
        rcases flush_spec h w3 with ⟨w4, he4, hc4⟩ | ⟨e, w4, he4, hc4⟩
        · exact .inl ⟨w4, Prog.mapErr_ok he4, hc4.trans hc03⟩
        · refine .inr ⟨_, cap, w4, Prog.mapErr_err he4, ?_, Nat.le_refl _, 0, hc4.trans hc03, .inr rfl⟩
          intro hs
          rw [flush_nil (sched_nil_run (Shrinks.writeAll h _) (hs12 hs) he3)] at he4; simp at he4
      · right
        rw [List.length_replicate] at hk
        refine ⟨_, k, w3, Prog.bind_err (Prog.mapErr_err he3), ?_, hk, 0, ?_, .inr rfl⟩
        · intro hs
          by_cases hcap : cap = 0
          · subst hcap; rw [show List.replicate 0 (0 : UInt8) = [] from rfl, writeAll_empty] at he3; simp at he3
          · rw [writeAll_nil (hs12 hs) h (by intro h; have := congrArg List.length h; rw [List.length_replicate] at this; exact hcap this)] at he3
            simp at he3
        · rw [hc3, List.take_replicate, Nat.min_eq_left hk]
          exact World.put_core_congr _ _ hc02
    · right
      refine ⟨_, 0, w2, Prog.bind_err (Prog.mapErr_err he2), ?_, by omega, hstay w2 (hc2.trans h5)⟩
      intro hs
      rw [rewind_nil (by rw [hs] at h4; exact List.suffix_nil.1 h4)] at he2; simp at he2
  · exact .inr ⟨_, 0, w1, Prog.bind_err h1, herr _ rfl, by omega, hstay w1 h5⟩
  · exact .inr ⟨_, 0, w1, Prog.bind_err h1, herr _ rfl, by omega, hstay w1 h5⟩

end Overwrite
end Volaris
