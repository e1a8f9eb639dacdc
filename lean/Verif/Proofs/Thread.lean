import Verif.Fs
import Verif.Proofs.Basic
/-!
# Reasoning about threads

`RG R G Q t w`: started in `w`, whatever the environment does within `R` between the steps of `t`, every step of `t` is within `G`, and when `t` ends the result and the world
satisfy `Q`.
-/
namespace Volaris

namespace Thr
variable {ε ε' α β : Type}

theorem bind_eq (t : Thr ε α) (f : α → Thr ε β) : t >>= f = t.bind f := rfl
theorem pure_eq (a : α) : (pure a : Thr ε α) = .done (.ok a) := rfl

theorem run_bind (t : Thr ε α) (f : α → Thr ε β) : (t >>= f).run = (t.run >>= fun a => (f a).run) := by
  rw [bind_eq]
  induction t with
  | done r => cases r <;> rfl
  | step eff k ih =>
    funext w
    have := congrFun (ih w) (eff w)
    exact this

theorem run_atom (x : Prog ε α) : (Thr.atom x).run = x := rfl

theorem run_pure (a : α) : (pure a : Thr ε α).run = pure a := rfl

theorem run_mapErr (f : ε → ε') (t : Thr ε α) : (t.mapErr f).run = t.run.mapErr f := by
  induction t with
  | done r => cases r <;> rfl
  | step eff k ih =>
    funext w
    exact congrFun (ih w) (eff w)

/-- See the head of this file. -/
def RG (R G : World → World → Prop) (Q : Res ε α → World → Prop) : Thr ε α → World → Prop
  | .done r, w => ∀ w', R w w' → Q r w'
  | .step eff k, w => ∀ w1, R w w1 → G w1 (eff w1) ∧ RG R G Q (k w1) (eff w1)

namespace RG
variable {R G : World → World → Prop} {Q : Res ε α → World → Prop}

theorem stable (ht : ∀ {a b c}, R a b → R b c → R a c) {t : Thr ε α} {w w' : World} (h : RG R G Q t w) (hr : R w w') : RG R G Q t w' := by
  cases t with
  | done r => exact fun w2 h2 => h w2 (ht hr h2)
  | step eff k => exact fun w2 h2 => h w2 (ht hr h2)

theorem mono {Q' : Res ε α → World → Prop} {t : Thr ε α} : ∀ {w : World}, RG R G Q t w → (∀ r w, Q r w → Q' r w) → RG R G Q' t w := by
  induction t with
  | done r => intro w h hq w' hr; exact hq _ _ (h w' hr)
  | step eff k ih => intro w h hq w1 hr; exact ⟨(h w1 hr).1, ih w1 (h w1 hr).2 hq⟩

theorem pure {a : α} {w : World} (h : ∀ w', R w w' → Q (.ok a) w') : RG R G Q (Pure.pure a) w := h

theorem atom {x : Prog ε α} {w : World} (h : ∀ w1, R w w1 → G w1 (x w1).2 ∧ ∀ w2, R (x w1).2 w2 → Q (x w1).1 w2) :
    RG R G Q (Thr.atom x) w := h

theorem bind (hrefl : ∀ a, R a a) {Q' : Res ε β → World → Prop} {f : α → Thr ε β} {t : Thr ε α} : ∀ {w : World}, RG R G Q t w →
    (∀ a w, Q (.ok a) w → RG R G Q' (f a) w) → (∀ e w, Q (.err e) w → Q' (.err e) w) → (∀ a w, Q (.abort a) w → Q' (.abort a) w) →
    RG R G Q' (t >>= f) w := by
  induction t with
  | done r =>
    intro w h h1 h2 h3
    cases r with
    | ok a => exact h1 a w (h w (hrefl w))
    | err e => exact fun w' hr => h2 e w' (h w' hr)
    | abort a => exact fun w' hr => h3 a w' (h w' hr)
  | step eff k ih =>
    intro w h h1 h2 h3 w1 hr
    exact ⟨(h w1 hr).1, ih w1 (h w1 hr).2 h1 h2 h3⟩

theorem mapErr {Q' : Res ε' α → World → Prop} {f : ε → ε'} {t : Thr ε α} : ∀ {w : World}, RG R G Q t w →
    (∀ r w, Q r w → Q' (r.mapErr f) w) → RG R G Q' (t.mapErr f) w := by
  induction t with
  | done r => intro w h h1 w' hr; exact h1 _ _ (h w' hr)
  | step eff k ih => intro w h h1 w1 hr; exact ⟨(h w1 hr).1, ih w1 (h w1 hr).2 h1⟩

end RG

/-- Reflexive-transitive closure. -/
inductive Star (G : World → World → Prop) : World → World → Prop
  | refl (w : World) : Star G w w
  | tail {a b c : World} (h : Star G a b) (g : G b c) : Star G a c

theorem Star.of_closed {G P : World → World → Prop} (hr : ∀ w, P w w) (ht : ∀ {a b c}, P a b → G b c → P a c) {w w' : World} (h : Star G w w') : P w w' := by
  induction h with
  | refl => exact hr _
  | tail _ g ih => exact ht ih g

theorem Star.trans {G : World → World → Prop} {a b c : World} (h1 : Star G a b) (h2 : Star G b c) : Star G a c := by
  induction h2 with
  | refl => exact h1
  | tail _ g ih => exact .tail ih g

/-- A thread on its own. -/
theorem RG.run {R G : World → World → Prop} {Q : Res ε α → World → Prop} (hrefl : ∀ a, R a a) {t : Thr ε α} :
    ∀ {w : World}, RG R G Q t w → Q (t.run w).1 (t.run w).2 ∧ Star G w (t.run w).2 := by
  induction t with
  | done r => intro w h; exact ⟨h w (hrefl w), .refl _⟩
  | step eff k ih =>
    intro w h
    obtain ⟨h1, h2⟩ := h w (hrefl w)
    obtain ⟨h3, h4⟩ := ih w h2
    exact ⟨h3, (Star.tail (.refl w) h1).trans h4⟩

end Thr

open Thr

/-! ### Pools -/

variable {ε α : Type}

theorem interleave_cons (i : Nat) (is : List Nat) (ts : List (Thr ε α)) (w : World) : interleave (i :: is) ts w =
    match ts[i]? with
    | some (.step eff k) => interleave is (ts.set i (k w)) (eff w)
    | _ => interleave is ts w := rfl

theorem interleave_append (a b : List Nat) : ∀ (ts : List (Thr ε α)) (w : World),
    interleave (a ++ b) ts w = interleave b (interleave a ts w).1 (interleave a ts w).2 := by
  induction a with
  | nil => intro ts w; rfl
  | cons i a ih =>
    intro ts w
    rw [List.cons_append, interleave_cons, interleave_cons]
    split
    · exact ih _ _
    · exact ih _ _

theorem interleave_length (is : List Nat) : ∀ (ts : List (Thr ε α)) (w : World), (interleave is ts w).1.length = ts.length := by
  induction is with
  | nil => intro ts w; rfl
  | cons i is ih =>
    intro ts w
    unfold interleave
    split
    · rw [ih, List.length_set]
    · exact ih _ _

/-- Any interleaving of threads that tolerate each other keeps what each thread promises. -/
theorem interleave_RG {R G : Nat → World → World → Prop} {Q : Nat → Res ε α → World → Prop} (ht : ∀ i {a b c}, R i a b → R i b c → R i a c)
    (hr : ∀ i a, R i a a) (n : Nat) (hG : ∀ i j w w', i < n → j < n → i ≠ j → G j w w' → R i w w') (is : List Nat) :
    ∀ (ts : List (Thr ε α)) (w : World), ts.length = n → (∀ i t, ts[i]? = some t → RG (R i) (G i) (Q i) t w) →
      (∀ i t, (interleave is ts w).1[i]? = some t → RG (R i) (G i) (Q i) t (interleave is ts w).2) ∧
      Star (fun a b => ∃ i < n, G i a b) w (interleave is ts w).2 := by
  induction is with
  | nil => intro ts w _ h; exact ⟨h, .refl _⟩
  | cons j is ih =>
    intro ts w hlen h
    unfold interleave
    split
    · next eff k hj =>
      have hjl : j < n := by
        rw [← hlen]
        exact (List.getElem?_eq_some_iff.1 hj).1
      have h0 := h j _ hj w (hr j w)
      have h2 : ∀ i t, (ts.set j (k w))[i]? = some t → RG (R i) (G i) (Q i) t (eff w) := by
        intro i t hi
        rw [List.getElem?_set] at hi
        split at hi
        · next hij =>
          subst hij
          split at hi
          · cases hi; exact h0.2
          · cases hi
        · next hij =>
          have hil : i < n := by
            rw [← hlen]
            exact (List.getElem?_eq_some_iff.1 hi).1
          exact RG.stable (R := R i) (w := w) (w' := eff w) (ht i) (h i t hi) (hG i j w (eff w) hil hjl (Ne.symm hij) h0.1)
      obtain ⟨h3, h4⟩ := ih (ts.set j (k w)) (eff w) (by rw [List.length_set]; exact hlen) h2
      exact ⟨h3, (Star.tail (.refl w) ⟨j, hjl, h0.1⟩).trans h4⟩
    · exact ih ts w hlen h

/-- One thread running to its end is an interleaving. -/
theorem interleave_one (t : Thr ε α) : ∀ (i : Nat) (ts : List (Thr ε α)) (w : World), ts[i]? = some t →
    ∃ n, interleave (List.replicate n i) ts w = (ts.set i (.done (t.run w).1), (t.run w).2) := by
  induction t with
  | done r =>
    intro i ts w hi
    refine ⟨0, ?_⟩
    have : ts.set i (.done r) = ts := by
      obtain ⟨hl, he⟩ := List.getElem?_eq_some_iff.1 hi
      conv => lhs; rw [← he]
      exact List.set_getElem_self hl
    show (ts, w) = (ts.set i (.done r), w)
    rw [this]
  | step eff k ih =>
    intro i ts w hi
    have hl := (List.getElem?_eq_some_iff.1 hi).1
    obtain ⟨n, hn⟩ := ih w i (ts.set i (k w)) (eff w) (by rw [List.getElem?_set_self hl])
    refine ⟨n + 1, ?_⟩
    rw [List.replicate_succ]
    unfold interleave
    rw [hi]
    simp only
    rw [hn, List.set_set]
    rfl

/-- All threads running to their ends, one after the other, is an interleaving. -/
theorem interleave_finish (ts : List (Thr ε α)) : ∀ (pre : List (Thr ε α)) (w : World),
    ∃ is, interleave is (pre ++ ts) w = (pre ++ (finish ts w).1.map .done, (finish ts w).2) := by
  induction ts with
  | nil => intro pre w; exact ⟨[], rfl⟩
  | cons t ts ih =>
    intro pre w
    obtain ⟨n, hn⟩ := interleave_one t pre.length (pre ++ t :: ts) w (by rw [List.getElem?_append_right (Nat.le_refl _)]; simp)
    obtain ⟨is, his⟩ := ih (pre ++ [.done (t.run w).1]) (t.run w).2
    refine ⟨List.replicate n pre.length ++ is, ?_⟩
    rw [interleave_append, hn]
    have e : (pre ++ t :: ts).set pre.length (.done (t.run w).1) = (pre ++ [.done (t.run w).1]) ++ ts := by
      rw [List.set_append_right _ _ (Nat.le_refl _)]; simp
    rw [e, his]
    simp [finish]

theorem joined_done (rs : List (Res ε Unit)) : (joined (rs.map .done)).isSome := by
  induction rs with
  | nil => rfl
  | cons r rs ih =>
    cases r with
    | ok a => exact ih
    | err e => rfl
    | abort a => rfl

/-- Spawning and joining: there is an interleaving up to the moment of return, and the result is what joining gives then. -/
theorem spawnJoin_cases (order : List Nat) (ts : List (Thr ε Unit)) (w : World) :
    ∃ is r, joined (interleave is ts w).1 = some r ∧ spawnJoin order ts w = (r, (interleave is ts w).2) := by
  unfold spawnJoin
  cases hj : joined (interleave order ts w).1 with
  | some r => exact ⟨order, r, hj, by simp only [hj]⟩
  | none =>
    obtain ⟨is, his⟩ := interleave_finish (interleave order ts w).1 [] (interleave order ts w).2
    simp only [List.nil_append] at his
    obtain ⟨r, hr⟩ := Option.isSome_iff_exists.1 (joined_done (finish (interleave order ts w).1 (interleave order ts w).2).1)
    refine ⟨order ++ is, r, ?_, ?_⟩
    · rw [interleave_append, his]; exact hr
    · rw [interleave_append, his]
      simp only [hj, hr, Option.getD_some]

theorem joined_ok : ∀ {ts : List (Thr ε Unit)}, joined ts = some (.ok ()) → ∀ t ∈ ts, t = .done (.ok ()) := by
  intro ts
  induction ts with
  | nil => intro _ t ht; cases ht
  | cons t ts ih =>
    intro h t' ht'
    cases t with
    | step eff k => simp [joined] at h
    | done r =>
      cases r with
      | ok a =>
        rcases List.mem_cons.1 ht' with rfl | ht'
        · rfl
        · exact ih h t' ht'
      | err e => simp [joined] at h
      | abort a => simp [joined] at h

theorem joined_bad : ∀ {ts : List (Thr ε Unit)} {r : Res ε Unit}, joined ts = some r → r ≠ .ok () → .done r ∈ ts := by
  intro ts
  induction ts with
  | nil => intro r h hr; simp [joined] at h; exact absurd h.symm hr
  | cons t ts ih =>
    intro r h hr
    cases t with
    | step eff k => simp [joined] at h
    | done r' =>
      cases r' with
      | ok a => exact List.mem_cons_of_mem _ (ih h hr)
      | err e => simp [joined] at h; subst h; exact List.mem_cons_self
      | abort a => simp [joined] at h; subst h; exact List.mem_cons_self

end Volaris
