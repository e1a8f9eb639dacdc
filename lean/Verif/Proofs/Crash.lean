import Verif.Spec.Crash
import Verif.Proofs.Basic
import Verif.Proofs.TreeOk
/-!
# Every moment of a run is the end of a run with faults
-/
namespace Volaris
open Spec

/-- The same world with another schedule. -/
def World.withSched (w : World) (s : List Io) : World := { w with sched := s }

namespace World
@[simp] theorem withSched_withSched (w : World) (s s' : List Io) : (w.withSched s).withSched s' = w.withSched s' := rfl
@[simp] theorem withSched_self (w : World) : w.withSched w.sched = w := rfl
@[simp] theorem withSched_sched (w : World) (s : List Io) : (w.withSched s).sched = s := rfl
@[simp] theorem withSched_disk (w : World) (s : List Io) : (w.withSched s).disk = w.disk := rfl
@[simp] theorem withSched_log (w : World) (s : List Io) : (w.withSched s).log = w.log := rfl
end World

namespace Spec
theorem effects_append (a b : List Ev) (d : Disk) : effects (a ++ b) d = effects b (effects a d) := by
  induction a generalizing d with
  | nil => rfl
  | cons e es ih => exact ih _

theorem Moment.start (es : List Ev) (d : Disk) : Moment es d d := by cases es <;> simp [Moment]

theorem Moment.finish (es : List Ev) (d : Disk) : Moment es d (effects es d) := by
  induction es generalizing d with
  | nil => rfl
  | cons e es ih => exact .inr (.inr (ih _))

theorem Moment.append {a b : List Ev} {d d' : Disk} (h : Moment (a ++ b) d d') : Moment a d d' ∨ Moment b (effects a d) d' := by
  induction a generalizing d with
  | nil => exact .inr h
  | cons e es ih =>
    rcases h with h | h | h
    · exact .inl (.inl h)
    · exact .inl (.inr (.inl h))
    · rcases ih h with h | h
      · exact .inl (.inr (.inr h))
      · exact .inr h

theorem Moment.left {a b : List Ev} {d d' : Disk} (h : Moment a d d') : Moment (a ++ b) d d' := by
  induction a generalizing d with
  | nil => cases h; exact .start _ _
  | cons e es ih =>
    rcases h with h | h | h
    · exact .inl h
    · exact .inr (.inl h)
    · exact .inr (.inr (ih h))

theorem Moment.right {a b : List Ev} {d d' : Disk} (h : Moment b (effects a d) d') : Moment (a ++ b) d d' := by
  induction a generalizing d with
  | nil => exact h
  | cons e es ih => exact .inr (.inr (ih h))
end Spec

variable {ε ε' α β : Type}

/-- With `s` as the schedule, and whatever comes after it, `x` makes exactly the calls of `s`. -/
def Runs (x : Prog ε α) (w : World) (s : List Io) (r : Res ε α) (w' : World) : Prop := ∀ s', x (w.withSched (s ++ s')) = (r, w'.withSched s')

namespace Runs

theorem of_eq {x : Prog ε α} {w w' : World} {r : Res ε α} (h : ∀ s', x (w.withSched s') = (r, w'.withSched s')) : Runs x w [] r w' := h

theorem from_sched {x : Prog ε α} {w w' : World} {s : List Io} {r : Res ε α} (s0 : List Io) (h : Runs x (w.withSched s0) s r w') : Runs x w s r w' := h

theorem bind {x : Prog ε α} {f : α → Prog ε β} {w w1 w2 : World} {s1 s2 : List Io} {a : α} {r : Res ε β}
    (hx : Runs x w s1 (.ok a) w1) (hf : Runs (f a) w1 s2 r w2) : Runs (x >>= f) w (s1 ++ s2) r w2 := by
  intro s'
  rw [List.append_assoc, Prog.bind_ok (hx _)]
  exact hf s'

theorem bind_err {x : Prog ε α} {f : α → Prog ε β} {w w1 : World} {s1 : List Io} {e : ε}
    (hx : Runs x w s1 (.err e) w1) : Runs (x >>= f) w s1 (.err e) w1 := fun s' => Prog.bind_err (hx s')

theorem bind_abort {x : Prog ε α} {f : α → Prog ε β} {w w1 : World} {s1 : List Io} {e : Abort}
    (hx : Runs x w s1 (.abort e) w1) : Runs (x >>= f) w s1 (.abort e) w1 := fun s' => Prog.bind_abort (hx s')

theorem mapErr {x : Prog ε α} {f : ε → ε'} {w w1 : World} {s1 : List Io} {r : Res ε α}
    (hx : Runs x w s1 r w1) : Runs (x.mapErr f) w s1 (r.mapErr f) w1 := fun s' => by rw [Prog.mapErr_eq, hx s']

end Runs

/-- What `attempt` makes of a result. -/
def tried : Res ε α → Res ε' (Res ε α)
  | .ok a => .ok (.ok a)
  | .err e => .ok (.err e)
  | .abort a => .abort a

theorem attempt_eq (x : Prog ε α) (w : World) : (x.attempt : Prog ε' _) w = (tried (x w).1, (x w).2) := by
  unfold Prog.attempt; rcases x w with ⟨_ | _ | _, _⟩ <;> rfl

theorem Runs.attempt {x : Prog ε α} {w w1 : World} {s1 : List Io} {r : Res ε α}
    (hx : Runs x w s1 r w1) : Runs (x.attempt : Prog ε' _) w s1 (tried r) w1 := fun s' => by rw [attempt_eq, hx s']

/-- `n` calls that fail. -/
abbrev dead (n : Nat) : List Io := List.replicate n .fail

/-- The environment stays, and what is on the screen stays there. -/
def Aside (w w' : World) : Prop := w'.env = w.env ∧ w.out <:+ w'.out

theorem Aside.trans {w w' w'' : World} (h : Aside w w') (g : Aside w' w'') : Aside w w'' := ⟨g.1.trans h.1, h.2.trans g.2⟩

/-- From `w` on: the run can be repeated with its calls written out, its log explains what it did to the disk, and at every moment a schedule under which all further calls fail ends with the disk of that moment. -/
structure CrashesIn (x : Prog ε α) (w : World) : Prop where
  again : ∃ s, Runs x w s (x w).1 (x w).2
  log : ∃ es, Calls x w es ∧ (x w).2.disk = effects es w.disk ∧ ∀ d, Moment es w.disk d → ∃ s r w', w'.disk = d ∧ Runs x w s r w'
  idle : ∃ n r w', w'.disk = w.disk ∧ Runs x w (dead n) r w'
  aside : Aside w (x w).2
  tree : TreeOk w → TreeOk (x w).2

def Crashes (x : Prog ε α) : Prop := ∀ w, CrashesIn x w

namespace Crashes

/-- A program that makes no call and leaves the disk alone. -/
theorem quiet {x : Prog ε α} (h : ∀ w s, x (w.withSched s) = ((x w).1, (x w).2.withSched s)) (hd : ∀ w, (x w).2.disk = w.disk) (hl : ∀ w, (x w).2.log = w.log)
    (hv : ∀ w, Aside w (x w).2 := by intro w; exact ⟨rfl, List.suffix_refl _⟩) : Crashes x := by
  intro w
  have hr : Runs x w [] (x w).1 (x w).2 := fun s' => h w s'
  exact ⟨⟨_, hr⟩, ⟨[], hl w, hd w, fun d hm => ⟨[], _, _, by rw [hd w]; exact (show d = w.disk from hm).symm, hr⟩⟩, ⟨0, _, _, hd w, hr⟩, hv w, fun h => h.congr (congrArg Disk.dir (hd w))⟩

theorem lift (r : Res ε α) : Crashes (Prog.lift r) := quiet (fun _ _ => rfl) (fun _ => rfl) (fun _ => rfl)
theorem throw (e : ε) : Crashes (Prog.throw e : Prog ε α) := lift _
theorem panic : Crashes (Prog.panic : Prog ε α) := lift _
theorem pure (a : α) : Crashes (Pure.pure a : Prog ε α) := lift (.ok a)
theorem genBytes (n : Nat) : Crashes (Volaris.genBytes n : Prog ε Bytes) := quiet (fun _ _ => rfl) (fun _ => rfl) (fun _ => rfl)

theorem bindOn {x : Prog ε α} {f : α → Prog ε β} (P : α → Prop) (hx : Crashes x) (hP : ∀ w a w', x w = (.ok a, w') → P a) (hf : ∀ a, P a → Crashes (f a)) : Crashes (x >>= f) := by
  intro w
  obtain ⟨⟨s1, h1⟩, ⟨es1, hc1, he1, hm1⟩, ⟨n1, r1, v1, hd1, hr1⟩, hv1, ht1⟩ := hx w
  -- what follows after a stop in `x`
  have stop : ∀ {s : List Io} {r : Res ε α} {w' : World}, Runs x w s r w' → ∃ n r' w'', w''.disk = w'.disk ∧ Runs (x >>= f) w (s ++ dead n) r' w'' := by
    intro s r w' hr
    cases r with
    | ok a =>
      obtain ⟨n, r2, w2, hd2, hr2⟩ := (hf a (hP _ _ _ (hr [])) w').idle
      exact ⟨n, r2, w2, hd2, hr.bind hr2⟩
    | err e => exact ⟨0, _, w', rfl, by simpa using hr.bind_err⟩
    | abort e => exact ⟨0, _, w', rfl, by simpa using hr.bind_abort⟩
  have idle : ∃ n r w', w'.disk = w.disk ∧ Runs (x >>= f) w (dead n) r w' := by
    obtain ⟨n, r', w'', hd, hr⟩ := stop hr1
    refine ⟨n1 + n, r', w'', hd.trans hd1, ?_⟩
    rw [dead, ← List.replicate_append_replicate]; exact hr
  rcases he : x w with ⟨r, w1⟩
  rw [he] at h1 he1 hv1 ht1
  have hc1' : w1.log = es1.reverse ++ w.log := by unfold Calls at hc1; rw [he] at hc1; exact hc1
  have moments : ∀ d, Moment es1 w.disk d → ∃ s r w', w'.disk = d ∧ Runs (x >>= f) w s r w' := by
    intro d hd
    obtain ⟨s, r, w', hd', hr⟩ := hm1 d hd
    obtain ⟨n, r', w'', hd'', hr'⟩ := stop hr
    exact ⟨_, r', w'', hd''.trans hd', hr'⟩
  cases r with
  | err e =>
    have hb : (x >>= f) w = (.err e, w1) := Prog.bind_err he
    refine ⟨⟨s1, ?_⟩, ⟨es1, ?_, ?_, moments⟩, idle, by rw [hb]; exact hv1, by rw [hb]; exact ht1⟩
    · rw [hb]; exact h1.bind_err
    · unfold Calls; rw [hb]; exact hc1'
    · rw [hb]; exact he1
  | abort e =>
    have hb : (x >>= f) w = (.abort e, w1) := Prog.bind_abort he
    refine ⟨⟨s1, ?_⟩, ⟨es1, ?_, ?_, moments⟩, idle, by rw [hb]; exact hv1, by rw [hb]; exact ht1⟩
    · rw [hb]; exact h1.bind_abort
    · unfold Calls; rw [hb]; exact hc1'
    · rw [hb]; exact he1
  | ok a =>
    have hb : (x >>= f) w = f a w1 := Prog.bind_ok he
    obtain ⟨⟨s2, h2⟩, ⟨es2, hc2, he2, hm2⟩, -, hv2, ht2⟩ := hf a (hP _ _ _ he) w1
    refine ⟨⟨s1 ++ s2, ?_⟩, ⟨es1 ++ es2, ?_, ?_, ?_⟩, idle, by rw [hb]; exact hv1.trans hv2, by rw [hb]; exact fun h => ht2 (ht1 h)⟩
    · rw [hb]; exact h1.bind h2
    · unfold Calls at hc2 ⊢; rw [hb, hc2, hc1', List.reverse_append, List.append_assoc]
    · rw [hb, he2, effects_append]; exact congrArg _ he1
    · intro d hd
      rcases hd.append with hd | hd
      · exact moments d hd
      · rw [← show w1.disk = _ from he1] at hd
        obtain ⟨s, r, w', hd', hr⟩ := hm2 d hd
        exact ⟨_, r, w', hd', h1.bind hr⟩

theorem bind {x : Prog ε α} {f : α → Prog ε β} (hx : Crashes x) (hf : ∀ a, Crashes (f a)) : Crashes (x >>= f) :=
  bindOn (fun _ => True) hx (fun _ _ _ _ => trivial) fun a _ => hf a

theorem mapErr {x : Prog ε α} (f : ε → ε') (hx : Crashes x) : Crashes (x.mapErr f) := by
  intro w
  obtain ⟨⟨s1, h1⟩, ⟨es1, hc1, he1, hm1⟩, ⟨n1, r1, v1, hd1, hr1⟩, hv1, ht1⟩ := hx w
  refine ⟨⟨s1, ?_⟩, ⟨es1, ?_, ?_, ?_⟩, ⟨n1, _, v1, hd1, hr1.mapErr⟩, by rw [Prog.mapErr_eq]; exact hv1, by rw [Prog.mapErr_eq]; exact ht1⟩
  · rw [Prog.mapErr_eq]; exact h1.mapErr
  · unfold Calls at *; rw [Prog.mapErr_eq]; exact hc1
  · rw [Prog.mapErr_eq]; exact he1
  · intro d hd; obtain ⟨s, r, w', a, b⟩ := hm1 d hd; exact ⟨s, _, w', a, b.mapErr⟩

theorem attempt {x : Prog ε α} (hx : Crashes x) : Crashes (x.attempt : Prog ε' _) := by
  intro w
  obtain ⟨⟨s1, h1⟩, ⟨es1, hc1, he1, hm1⟩, ⟨n1, r1, v1, hd1, hr1⟩, hv1, ht1⟩ := hx w
  refine ⟨⟨s1, ?_⟩, ⟨es1, ?_, ?_, ?_⟩, ⟨n1, _, v1, hd1, hr1.attempt⟩, by rw [attempt_eq]; exact hv1, by rw [attempt_eq]; exact ht1⟩
  · rw [attempt_eq]; exact h1.attempt
  · unfold Calls at *; rw [attempt_eq]; exact hc1
  · rw [attempt_eq]; exact he1
  · intro d hd; obtain ⟨s, r, w', a, b⟩ := hm1 d hd; exact ⟨s, _, w', a, b.attempt⟩

theorem ite {c : Prop} [Decidable c] {x y : Prog ε α} (hx : Crashes x) (hy : Crashes y) : Crashes (if c then x else y) := by split <;> assumption

/-- What a program does may depend on the world, but not on the schedule. -/
theorem looking {γ : Type} (g : World → γ) {f : γ → Prog ε α} (hg : ∀ w s, g (w.withSched s) = g w) (hf : ∀ c, Crashes (f c)) : Crashes fun w => f (g w) w := by
  intro w
  have key : ∀ {s r w'}, Runs (f (g w)) w s r w' → Runs (fun w => f (g w) w) w s r w' := by
    intro s r w' h s'
    show f (g (w.withSched _)) (w.withSched _) = _
    rw [hg]; exact h s'
  obtain ⟨⟨s1, h1⟩, ⟨es1, hc1, he1, hm1⟩, ⟨n1, r1, v1, hd1, hr1⟩, hv1, ht1⟩ := hf (g w) w
  exact ⟨⟨s1, key h1⟩, ⟨es1, hc1, he1, fun d hd => by obtain ⟨s, r, w', a, b⟩ := hm1 d hd; exact ⟨s, r, w', a, key b⟩⟩, ⟨n1, r1, v1, hd1, key hr1⟩, hv1, ht1⟩

/-! ### System calls -/

/-- A program that makes one call: the outcome of the call decides what happens.  A failing call does nothing; a call changes the disk by one event or not at all, and a write can be cut. -/
theorem call {x : Prog ε α} (act : Io → Prog ε α) (hx : ∀ w, x w = act w.pop.1 w.pop.2)
    (hs : ∀ o w s, act o (w.withSched s) = ((act o w).1, (act o w).2.withSched s)) (hf : ∀ w, (act .fail w).2.disk = w.disk)
    (he : ∀ o w, (act o w).2.log = w.log ∧ (act o w).2.disk = w.disk ∨
      ∃ e, (act o w).2.log = e :: w.log ∧ (act o w).2.disk = effect e w.disk ∧ ∀ d, Torn e w.disk d → ∃ k, (act (.short k) w).2.disk = d)
    (hv : ∀ o w, Aside w (act o w).2 := by intro o w; cases o <;> exact ⟨rfl, List.suffix_refl _⟩)
    (ht : ∀ o w, TreeOk w → TreeOk (act o w).2 := by intro o w h; cases o <;> exact TreeOk.congr (w := w) rfl h) : Crashes x := by
  have one : ∀ w o, Runs x w [o] (act o w).1 (act o w).2 := by
    intro w o s'
    rw [hx]
    exact hs o w s'
  intro w
  have idle : ∃ n r w', w'.disk = w.disk ∧ Runs x w (dead n) r w' := ⟨1, _, _, hf w, one w .fail⟩
  -- the world and the outcome of the first call
  obtain ⟨o, s0, hpop⟩ : ∃ o s0, w.pop = (o, w.withSched s0) := by
    unfold World.pop
    cases hsc : w.sched with
    | nil => exact ⟨.full, [], by show (Io.full, w) = _; rw [← hsc]; rfl⟩
    | cons o s => exact ⟨o, s, rfl⟩
  have hxw : x w = ((act o w).1, (act o w).2.withSched s0) := by rw [hx, hpop]; exact hs o w s0
  have hrun := one w o
  refine ⟨⟨[o], ?_⟩, ?_, idle, by rw [hxw]; exact hv o w, fun h => by rw [hxw]; exact TreeOk.congr (w := (act o w).2) rfl (ht o w h)⟩
  · rw [hxw]; exact hrun
  · rcases he o w with ⟨hl, hd⟩ | ⟨e, hl, hd, ht⟩
    · refine ⟨[], ?_, ?_, ?_⟩
      · unfold Calls; rw [hxw]; exact hl
      · rw [hxw]; exact hd
      · intro d hm; exact ⟨[o], _, _, hd.trans (show d = w.disk from hm).symm, hrun⟩
    · refine ⟨[e], ?_, ?_, ?_⟩
      · unfold Calls; rw [hxw]; exact hl
      · rw [hxw]; exact hd
      · rintro d (hm | hm | hm)
        · exact ⟨[.fail], _, _, (hf w).trans hm.symm, one w .fail⟩
        · obtain ⟨k, hk⟩ := ht d hm
          exact ⟨[.short k], _, _, hk, one w (.short k)⟩
        · exact ⟨[o], _, _, hd.trans (show d = _ from hm).symm, hrun⟩

theorem read (h n : Nat) : Crashes (Volaris.read h n) := by
  refine call (fun o w => match o with
      | .full => (.ok ((w.rest h).take n), w.adv h ((w.rest h).take n).length)
      | .short k => (.ok ((w.rest h).take (min n (max 1 k))), w.adv h ((w.rest h).take (min n (max 1 k))).length)
      | .intr => (.err .interrupted, w)
      | .fail => (.err .other, w)) ?_ ?_ (fun w => rfl) ?_
  · intro w; unfold Volaris.read; rcases w.pop with ⟨_ | _ | _ | _, w'⟩ <;> rfl
  · intro o w s; cases o <;> rfl
  · intro o w; cases o <;> exact .inl ⟨rfl, rfl⟩

theorem write (h : Nat) (bs : Bytes) : Crashes (Volaris.write h bs) := by
  refine call (fun o w => match o with
      | .full => (.ok bs.length, w.put h bs)
      | .short k => (.ok (bs.take k).length, w.put h (bs.take k))
      | .intr => (.err .interrupted, w)
      | .fail => (.err .other, w)) ?_ ?_ (fun w => rfl) ?_
  · intro w; unfold Volaris.write; rcases w.pop with ⟨_ | _ | _ | _, w'⟩ <;> rfl
  · intro o w s; cases o <;> rfl
  · intro o w
    cases o with
    | full => exact .inr ⟨.write (w.fd h).ino (w.fd h).pos bs, rfl, rfl, fun d ⟨k, hk⟩ => ⟨k, hk.symm⟩⟩
    | short k =>
      refine .inr ⟨.write (w.fd h).ino (w.fd h).pos (bs.take k), rfl, rfl, fun d ⟨k', hk⟩ => ⟨min k' k, ?_⟩⟩
      rw [hk, List.take_take]; rfl
    | intr => exact .inl ⟨rfl, rfl⟩
    | fail => exact .inl ⟨rfl, rfl⟩

theorem seekStart (h p : Nat) : Crashes (Volaris.seekStart h p) := by
  refine call (fun o w => match o with
      | .full => (.ok (), w.setPos h p)
      | .short _ => (.ok (), w.setPos h p)
      | .intr => (.err .interrupted, w)
      | .fail => (.err .other, w)) ?_ ?_ (fun w => rfl) ?_
  · intro w; unfold Volaris.seekStart; rcases w.pop with ⟨_ | _ | _ | _, w'⟩ <;> rfl
  · intro o w s; cases o <;> rfl
  · intro o w; cases o <;> exact .inl ⟨rfl, rfl⟩

theorem rewind (h : Nat) : Crashes (Volaris.rewind h) := seekStart h 0

theorem seekCur (h : Nat) (d : Int) : Crashes (Volaris.seekCur h d) := by
  refine call (fun o w => match o with
      | .full | .short _ => if ((w.fd h).pos : Int) + d < 0 then (.err .invalidInput, w) else (.ok (), w.setPos h (((w.fd h).pos : Int) + d).toNat)
      | .intr => (.err .interrupted, w)
      | .fail => (.err .other, w)) ?_ ?_ (fun w => rfl) ?_ (fun o w => by cases o <;> first | exact ⟨rfl, List.suffix_refl _⟩ | (dsimp only; split <;> exact ⟨rfl, List.suffix_refl _⟩))
      (fun o w h => by cases o <;> first | exact h | (dsimp only; split <;> exact TreeOk.congr (w := w) rfl h))
  · intro w; unfold Volaris.seekCur; rcases w.pop with ⟨_ | _ | _ | _, w'⟩ <;> rfl
  · intro o w s
    cases o <;> try rfl
    all_goals
      show (if ((w.fd h).pos : Int) + d < 0 then _ else _) = ((if ((w.fd h).pos : Int) + d < 0 then _ else _ : Res IoErr Unit × World).1, (if ((w.fd h).pos : Int) + d < 0 then _ else _ : Res IoErr Unit × World).2.withSched s)
      split <;> rfl
  · intro o w
    cases o <;> try exact .inl ⟨rfl, rfl⟩
    all_goals dsimp only; split <;> exact .inl ⟨rfl, rfl⟩

theorem flush (h : Nat) : Crashes (Volaris.flush h) := by
  refine call (fun o w => match o with
      | .full => (.ok (), w)
      | .short _ => (.ok (), w)
      | .intr => (.err .interrupted, w)
      | .fail => (.err .other, w)) ?_ ?_ (fun w => rfl) ?_
  · intro w; unfold Volaris.flush; rcases w.pop with ⟨_ | _ | _ | _, w'⟩ <;> rfl
  · intro o w s; cases o <;> rfl
  · intro o w; cases o <;> exact .inl ⟨rfl, rfl⟩

/-- A call that is repeated when it is interrupted, and its effect. -/
theorem sysRetry_then {y : Prog IoErr α} (hs : ∀ w s, y (w.withSched s) = ((y w).1, (y w).2.withSched s))
    (he : ∀ w, (y w).2.log = w.log ∧ (y w).2.disk = w.disk ∨ ∃ e, (y w).2.log = e :: w.log ∧ (y w).2.disk = effect e w.disk ∧ ∀ d, ¬ Torn e w.disk d)
    (hv : ∀ w, Aside w (y w).2 := by intro w; exact ⟨rfl, List.suffix_refl _⟩) (ht : ∀ w, TreeOk w → TreeOk (y w).2 := by intro w h; exact TreeOk.congr (w := w) rfl h) : Crashes (do sysRetry; y) := by
  refine call (fun o w => match o with | .fail => (.err .other, w) | _ => y w) ?_ ?_ (fun w => rfl) ?_ (fun o w => by cases o <;> first | exact ⟨rfl, List.suffix_refl _⟩ | exact hv w)
    (fun o w h => by cases o <;> first | exact ht w h | exact h)
  · intro w
    rw [Prog.bind_run]; unfold sysRetry
    rcases w.pop with ⟨_ | _ | _ | _, w'⟩ <;> rfl
  · intro o w s; cases o <;> first | rfl | exact hs w s
  · intro o w
    have : (y w).2.log = w.log ∧ (y w).2.disk = w.disk ∨ ∃ e, (y w).2.log = e :: w.log ∧ (y w).2.disk = effect e w.disk ∧
        ∀ d, Torn e w.disk d → ∃ k : Nat, (y w).2.disk = d := by
      rcases he w with h | ⟨e, h1, h2, h3⟩
      · exact .inl h
      · exact .inr ⟨e, h1, h2, fun d hd => absurd hd (h3 d)⟩
    cases o with
    | fail => exact .inl ⟨rfl, rfl⟩
    | _ => exact this

/-- Any other call and its effect. -/
theorem sys_then {y : Prog IoErr α} (hs : ∀ w s, y (w.withSched s) = ((y w).1, (y w).2.withSched s))
    (he : ∀ w, (y w).2.log = w.log ∧ (y w).2.disk = w.disk ∨ ∃ e, (y w).2.log = e :: w.log ∧ (y w).2.disk = effect e w.disk ∧ ∀ d, ¬ Torn e w.disk d)
    (hv : ∀ w, Aside w (y w).2 := by intro w; exact ⟨rfl, List.suffix_refl _⟩) (ht : ∀ w, TreeOk w → TreeOk (y w).2 := by intro w h; exact TreeOk.congr (w := w) rfl h) : Crashes (do sys; y) := by
  refine call (fun o w => match o with | .fail => (.err .other, w) | .intr => (.err .interrupted, w) | _ => y w) ?_ ?_ (fun w => rfl) ?_ (fun o w => by cases o <;> first | exact ⟨rfl, List.suffix_refl _⟩ | exact hv w)
    (fun o w h => by cases o <;> first | exact ht w h | exact h)
  · intro w
    rw [Prog.bind_run]; unfold sys
    rcases w.pop with ⟨_ | _ | _ | _, w'⟩ <;> rfl
  · intro o w s; cases o <;> first | rfl | exact hs w s
  · intro o w
    have : (y w).2.log = w.log ∧ (y w).2.disk = w.disk ∨ ∃ e, (y w).2.log = e :: w.log ∧ (y w).2.disk = effect e w.disk ∧
        ∀ d, Torn e w.disk d → ∃ k : Nat, (y w).2.disk = d := by
      rcases he w with h | ⟨e, h1, h2, h3⟩
      · exact .inl h
      · exact .inr ⟨e, h1, h2, fun d hd => absurd hd (h3 d)⟩
    cases o with
    | fail => exact .inl ⟨rfl, rfl⟩
    | intr => exact .inl ⟨rfl, rfl⟩
    | _ => exact this

theorem sysRetry : Crashes Volaris.sysRetry := by
  have h := sysRetry_then (y := Pure.pure ()) (fun _ _ => rfl) fun _ => .inl ⟨rfl, rfl⟩
  have e : (do Volaris.sysRetry; (Pure.pure () : Prog IoErr Unit)) = Volaris.sysRetry := by
    funext w; rw [Prog.bind_run]; rcases Volaris.sysRetry w with ⟨_ | _ | _, _⟩ <;> rfl
  rw [e] at h; exact h

theorem sys : Crashes Volaris.sys := by
  have h := sys_then (y := Pure.pure ()) (fun _ _ => rfl) fun _ => .inl ⟨rfl, rfl⟩
  have e : (do Volaris.sys; (Pure.pure () : Prog IoErr Unit)) = Volaris.sys := by
    funext w; rw [Prog.bind_run]; rcases Volaris.sys w with ⟨_ | _ | _, _⟩ <;> rfl
  rw [e] at h; exact h

theorem walk_withSched (w : World) (s : List Io) (cs : List Comp) : ∀ cur, (w.withSched s).walk cur cs = w.walk cur cs := by
  induction cs with
  | nil => intro cur; rfl
  | cons c cs ih =>
    intro cur
    show (match w.look cur with | some .dir => _ | some (.file _) => _ | none => _) = (match w.look cur with | some .dir => _ | some (.file _) => _ | none => _)
    cases w.look cur with
    | none => rfl
    | some n =>
      cases n with
      | file i => rfl
      | dir => cases c with
        | up => exact ih _
        | name n => exact ih _

@[simp] theorem resolve_withSched (w : World) (s : List Io) (p : PathBuf) : (w.withSched s).resolve p = w.resolve p := walk_withSched w s _ _
@[simp] theorem look_withSched (w : World) (s : List Io) (q : Path) : (w.withSched s).look q = w.look q := rfl

theorem openFile (p : PathBuf) : Crashes (Volaris.openFile p) := by
  refine sysRetry_then (fun w s => ?_) (fun w => .inl ?_) ?_ ?_
  · unfold openAt
    rw [resolve_withSched]
    split
    · rw [look_withSched]; split <;> rfl
    · rfl
  · unfold openAt
    split
    · split <;> exact ⟨rfl, rfl⟩
    · exact ⟨rfl, rfl⟩
  · intro w
    unfold openAt
    repeat' split
    all_goals exact ⟨rfl, List.suffix_refl _⟩
  · intro w h
    unfold openAt
    repeat' split
    all_goals exact TreeOk.congr (w := w) rfl h

theorem openTrunc (p : PathBuf) : Crashes (Volaris.openTrunc p) := by
  refine sysRetry_then (fun w s => ?_) (fun w => ?_) ?_ ?_
  · unfold openTruncAt
    rw [resolve_withSched]
    split
    · rw [look_withSched]; split <;> rfl
    · rfl
  · unfold openTruncAt
    split
    · split
      · next i _ => exact .inr ⟨.truncate i, rfl, rfl, fun d hd => hd⟩
      all_goals exact .inl ⟨rfl, rfl⟩
    · exact .inl ⟨rfl, rfl⟩
  · intro w
    unfold openTruncAt
    repeat' split
    all_goals exact ⟨rfl, List.suffix_refl _⟩
  · intro w h
    unfold openTruncAt
    repeat' split
    all_goals exact TreeOk.congr (w := w) rfl h

theorem openNew (p : PathBuf) : Crashes (Volaris.openNew p) := by
  refine sysRetry_then (fun w s => ?_) (fun w => ?_) ?_ ?_
  · unfold openNewAt
    rw [resolve_withSched]
    split
    · rw [look_withSched]; split
      · rfl
      · rw [look_withSched]; split <;> rfl
    · rfl
  · unfold openNewAt
    split
    · next q _ =>
      split
      · exact .inl ⟨rfl, rfl⟩
      · split
        · exact .inr ⟨.create q, rfl, rfl, fun d hd => hd⟩
        · exact .inl ⟨rfl, rfl⟩
    · exact .inl ⟨rfl, rfl⟩
  · intro w
    unfold openNewAt
    repeat' split
    all_goals exact ⟨rfl, List.suffix_refl _⟩
  · intro w h
    unfold openNewAt
    split
    · next q _ =>
      split
      · exact h
      · next hl =>
        split
        · next hd => exact h.created hl hd w.nextIno rfl
        · exact h
    · exact h

theorem setLen0 (h : Nat) : Crashes (Volaris.setLen0 h) :=
  sysRetry_then (fun _ _ => rfl) fun w => .inr ⟨.truncate (w.fd h).ino, rfl, rfl, fun _ hd => hd⟩

theorem fileLen (h : Nat) : Crashes (Volaris.fileLen h) := sys_then (fun _ _ => rfl) fun _ => .inl ⟨rfl, rfl⟩

theorem unlink (p : PathBuf) : Crashes (Volaris.unlink p) := by
  refine sys_then (fun w s => ?_) (fun w => ?_) ?_ ?_
  · unfold unlinkAt
    rw [resolve_withSched]
    split
    · rw [look_withSched]; split <;> rfl
    · rfl
  · unfold unlinkAt
    split
    · next q _ =>
      split
      · exact .inr ⟨.unlink q, rfl, rfl, fun d hd => hd⟩
      all_goals exact .inl ⟨rfl, rfl⟩
    · exact .inl ⟨rfl, rfl⟩
  · intro w
    unfold unlinkAt
    repeat' split
    all_goals exact ⟨rfl, List.suffix_refl _⟩
  · intro w h
    unfold unlinkAt
    split
    · next q _ =>
      split
      · next hl => exact h.removed hl
      all_goals exact h
    · exact h

theorem mkdir (p : PathBuf) : Crashes (Volaris.mkdir p) := by
  refine sys_then (fun w s => ?_) (fun w => ?_) ?_ ?_
  · unfold mkdirAt
    rw [resolve_withSched]
    split
    · rw [look_withSched]; split
      · rfl
      · rw [look_withSched]; split <;> rfl
    · rfl
  · unfold mkdirAt
    split
    · next q _ =>
      split
      · exact .inl ⟨rfl, rfl⟩
      · split
        · exact .inr ⟨.mkdir q, rfl, rfl, fun d hd => hd⟩
        · exact .inl ⟨rfl, rfl⟩
    · exact .inl ⟨rfl, rfl⟩
  · intro w
    unfold mkdirAt
    repeat' split
    all_goals exact ⟨rfl, List.suffix_refl _⟩
  · intro w h
    unfold mkdirAt
    split
    · next q _ =>
      split
      · exact h
      · next hl =>
        split
        · next hd => exact h.added hl hd .dir rfl
        · exact h
    · exact h

theorem isDir (p : PathBuf) : Crashes (Volaris.isDir p : Prog ε Bool) := by
  refine quiet (fun w s => ?_) (fun _ => rfl) (fun _ => rfl)
  unfold Volaris.isDir World.isDirAt
  rw [resolve_withSched]
  split <;> rfl

theorem existsAt (p : PathBuf) : Crashes (Volaris.existsAt p : Prog ε Bool) := by
  refine quiet (fun w s => ?_) (fun _ => rfl) (fun _ => rfl)
  unfold Volaris.existsAt
  rw [resolve_withSched]
  split <;> rfl

/-! ### Loops -/

theorem adv_zero (w : World) (h : Nat) : w.adv h 0 = w := by
  unfold World.adv World.setPos
  have : (fun i => if i = h then ({ w.fd h with pos := (w.fd h).pos + 0 } : Fd) else w.fd i) = w.fd := by
    funext i; split
    · next e => rw [e]; rfl
    · rfl
  rw [this]

/-- When nothing more is wanted the loop stops. -/
theorem readLoop_zero (h : Nat) (s : List Io) (acc : Bytes) (w : World) : readLoop h s 0 acc w = (.ok acc, w.withSched s) := by
  cases s with
  | nil =>
    unfold readLoop
    simp only [List.take_zero, List.append_nil, List.length_nil, adv_zero]
    rfl
  | cons o s => unfold readLoop; simp [World.withSched]

theorem readLoop_withSched (h : Nat) (s : List Io) : ∀ n acc (w : World) s0, readLoop h s n acc (w.withSched s0) = readLoop h s n acc w := by
  induction s with
  | nil => intro n acc w s0; rfl
  | cons o s ih =>
    intro n acc w s0
    simp only [readLoop]
    split
    · rfl
    · cases o with
      | full =>
        show (if (w.rest h).take n = [] then _ else _) = (if (w.rest h).take n = [] then _ else _)
        split
        · rfl
        · exact ih _ _ (w.adv h _) s0
      | short k =>
        show (if (w.rest h).take (min n (max 1 k)) = [] then _ else _) = (if (w.rest h).take (min n (max 1 k)) = [] then _ else _)
        split
        · rfl
        · exact ih _ _ (w.adv h _) s0
      | intr => exact ih _ _ w s0
      | fail => rfl

theorem readLoop_disk (h : Nat) (s : List Io) : ∀ n acc (w : World), (readLoop h s n acc w).2.disk = w.disk ∧ (readLoop h s n acc w).2.log = w.log ∧ Aside w (readLoop h s n acc w).2 := by
  induction s with
  | nil => intro n acc w; exact ⟨rfl, rfl, rfl, List.suffix_refl _⟩
  | cons o s ih =>
    intro n acc w
    simp only [readLoop]
    split
    · exact ⟨rfl, rfl, rfl, List.suffix_refl _⟩
    · cases o with
      | full =>
        dsimp only
        split
        · exact ⟨rfl, rfl, rfl, List.suffix_refl _⟩
        · exact ih _ _ _
      | short k =>
        dsimp only
        split
        · exact ⟨rfl, rfl, rfl, List.suffix_refl _⟩
        · exact ih _ _ _
      | intr => exact ih _ _ _
      | fail => exact ⟨rfl, rfl, rfl, List.suffix_refl _⟩

/-- The calls that the loop makes, written out. -/
theorem readLoop_again (h : Nat) (s : List Io) : ∀ n acc (w : World), ∃ t, ∀ s', readLoop h (t ++ s') n acc w = ((readLoop h s n acc w).1, (readLoop h s n acc w).2.withSched s') := by
  induction s with
  | nil =>
    intro n acc w
    by_cases hn : n = 0
    · subst hn; exact ⟨[], fun s' => by rw [List.nil_append, readLoop_zero, readLoop_zero]; rfl⟩
    · by_cases hb : (w.rest h).take n = []
      · refine ⟨[.full], fun s' => ?_⟩
        simp only [List.cons_append, List.nil_append, readLoop, hn, if_false, hb, if_true, List.append_nil, List.length_nil, adv_zero]
        rfl
      · by_cases hr : n - ((w.rest h).take n).length = 0
        · refine ⟨[.full], fun s' => ?_⟩
          simp only [List.cons_append, List.nil_append, readLoop, hn, if_false, hb]
          rw [hr, readLoop_zero]; rfl
        · refine ⟨[.full, .full], fun s' => ?_⟩
          have hlt : (w.rest h).length < n := by
            simp only [List.length_take] at hr; omega
          have htk : (w.rest h).take n = w.rest h := List.take_of_length_le (by omega)
          have hrest : (w.adv h (w.rest h).length).rest h = [] := by
            unfold World.rest World.data World.adv World.setPos
            simp only [if_true]
            rw [List.drop_eq_nil_iff, List.length_drop]; omega
          have hn' : n - (w.rest h).length ≠ 0 := by omega
          simp only [List.cons_append, List.nil_append, readLoop, hn, if_false, hb]
          rw [htk, if_neg hn', hrest, List.take_nil, if_pos rfl]
          rfl
  | cons o s ih =>
    intro n acc w
    by_cases hn : n = 0
    · subst hn; exact ⟨[], fun s' => by rw [List.nil_append, readLoop_zero, readLoop_zero]; rfl⟩
    · cases o with
      | full =>
        by_cases hb : (w.rest h).take n = []
        · refine ⟨[.full], fun s' => ?_⟩
          simp only [List.cons_append, List.nil_append, readLoop, hn, if_false, hb, if_true]
          rfl
        · obtain ⟨t, ht⟩ := ih (n - ((w.rest h).take n).length) (acc ++ (w.rest h).take n) (w.adv h ((w.rest h).take n).length)
          refine ⟨.full :: t, fun s' => ?_⟩
          simp only [List.cons_append, readLoop, hn, if_false, hb]
          exact ht s'
      | short k =>
        by_cases hb : (w.rest h).take (min n (max 1 k)) = []
        · refine ⟨[.short k], fun s' => ?_⟩
          simp only [List.cons_append, List.nil_append, readLoop, hn, if_false, hb, if_true]
          rfl
        · obtain ⟨t, ht⟩ := ih (n - ((w.rest h).take (min n (max 1 k))).length) (acc ++ (w.rest h).take (min n (max 1 k))) (w.adv h ((w.rest h).take (min n (max 1 k))).length)
          refine ⟨.short k :: t, fun s' => ?_⟩
          simp only [List.cons_append, readLoop, hn, if_false, hb]
          exact ht s'
      | intr =>
        obtain ⟨t, ht⟩ := ih n acc w
        refine ⟨.intr :: t, fun s' => ?_⟩
        simp only [List.cons_append, readLoop, hn, if_false]
        exact ht s'
      | fail =>
        refine ⟨[.fail], fun s' => ?_⟩
        simp only [List.cons_append, List.nil_append, readLoop, hn, if_false]
        rfl

theorem readUpTo (h n : Nat) : Crashes (Volaris.readUpTo h n) := by
  intro w
  have again : ∃ s, Runs (Volaris.readUpTo h n) w s (Volaris.readUpTo h n w).1 (Volaris.readUpTo h n w).2 := by
    obtain ⟨t, ht⟩ := readLoop_again h w.sched n [] w
    refine ⟨t, fun s' => ?_⟩
    show readLoop h (t ++ s') n [] (w.withSched _) = _
    rw [readLoop_withSched]; exact ht s'
  obtain ⟨hd, hl, hv⟩ := readLoop_disk h w.sched n [] w
  refine ⟨again, ⟨[], hl, hd, fun d hm => ?_⟩, ?_, hv, fun h => h.congr (congrArg Disk.dir hd)⟩
  · obtain ⟨s, hs⟩ := again
    exact ⟨s, _, _, hd.trans (show d = _ from hm).symm, hs⟩
  · by_cases hn : n = 0
    · refine ⟨0, .ok [], w, rfl, fun s' => ?_⟩
      show readLoop h s' n [] (w.withSched s') = _
      rw [hn, readLoop_zero]; rfl
    · refine ⟨1, .err .other, w, rfl, fun s' => ?_⟩
      show readLoop h (.fail :: s') n [] (w.withSched _) = _
      simp only [readLoop, hn, if_false]
      rfl

theorem readExact (h n : Nat) : Crashes (Volaris.readExact h n) := bind (readUpTo h n) fun _ => ite (pure _) (throw _)

theorem readToEnd (h : Nat) : Crashes (Volaris.readToEnd h) :=
  looking (fun w => (w.rest h).length + 1) (fun _ _ => rfl) fun n => readUpTo h n

theorem writeLoop_withSched (h : Nat) (s : List Io) : ∀ bs (w : World) s0, writeLoop h s bs (w.withSched s0) = writeLoop h s bs w := by
  induction s with
  | nil => intro bs w s0; rfl
  | cons o s ih =>
    intro bs w s0
    simp only [writeLoop]
    split
    · rfl
    · cases o with
      | full => rfl
      | short k =>
        dsimp only
        split
        · rfl
        · exact ih _ (w.put h _) s0
      | intr => exact ih _ w s0
      | fail => rfl

theorem writeLoop_nil (h : Nat) (s : List Io) (w : World) : writeLoop h s [] w = (.ok (), w.withSched s) := by
  cases s <;> rfl

theorem effect_write_nil (i off : Nat) (d : Disk) : effect (.write i off []) d = d := by
  show ({ d with file := fun j => if j = i then writeAt (d.file j) off [] else d.file j } : Disk) = d
  have : (fun j => if j = i then writeAt (d.file j) off [] else d.file j) = d.file := by funext j; split <;> simp
  rw [this]

/-- A write of the loop that is cut short. -/
theorem writeLoop_torn (h : Nat) (bs : Bytes) (hb : bs ≠ []) (w : World) (k : Nat) : ∃ t r, ∃ w' : World, w'.disk = effect (.write (w.fd h).ino (w.fd h).pos (bs.take k)) w.disk ∧
    ∀ s', writeLoop h (t ++ s') bs w = (r, w'.withSched s') := by
  by_cases hk : k = 0
  · refine ⟨[.fail], .err .other, w, by rw [hk, List.take_zero, effect_write_nil], fun s' => ?_⟩
    simp only [List.cons_append, List.nil_append, writeLoop, hb, if_false]; rfl
  · by_cases hd : bs.drop k = []
    · refine ⟨[.short k], .ok (), w.put h (bs.take k), rfl, fun s' => ?_⟩
      simp only [List.cons_append, List.nil_append, writeLoop, hb, if_false, hk, hd]
      exact writeLoop_nil _ _ _
    · refine ⟨[.short k, .fail], .err .other, w.put h (bs.take k), rfl, fun s' => ?_⟩
      simp only [List.cons_append, List.nil_append, writeLoop, hb, if_false, hk, hd]; rfl

theorem writeLoop_moments (h : Nat) (s : List Io) : ∀ bs (w : World),
    (∃ t, ∀ s', writeLoop h (t ++ s') bs w = ((writeLoop h s bs w).1, (writeLoop h s bs w).2.withSched s')) ∧
    ∃ es, (writeLoop h s bs w).2.log = es.reverse ++ w.log ∧ (writeLoop h s bs w).2.disk = effects es w.disk ∧
      ∀ d, Moment es w.disk d → ∃ t r, ∃ w' : World, w'.disk = d ∧ ∀ s', writeLoop h (t ++ s') bs w = (r, w'.withSched s') := by
  -- nothing is written
  have none' : ∀ bs (w : World) s, (writeLoop h s bs w).2.disk = w.disk → (writeLoop h s bs w).2.log = w.log →
      (∃ t, ∀ s', writeLoop h (t ++ s') bs w = ((writeLoop h s bs w).1, (writeLoop h s bs w).2.withSched s')) →
      ∃ es, (writeLoop h s bs w).2.log = es.reverse ++ w.log ∧ (writeLoop h s bs w).2.disk = effects es w.disk ∧
      ∀ d, Moment es w.disk d → ∃ t r, ∃ w' : World, w'.disk = d ∧ ∀ s', writeLoop h (t ++ s') bs w = (r, w'.withSched s') := by
    rintro bs w s hd hl ⟨t, ht⟩
    exact ⟨[], hl, hd, fun d hm => ⟨t, _, _, hd.trans (show d = _ from hm).symm, ht⟩⟩
  -- everything is written with one call
  have all : ∀ bs (w : World) s s0, bs ≠ [] → writeLoop h s bs w = (.ok (), (w.put h bs).withSched s0) →
    (∃ t, ∀ s', writeLoop h (t ++ s') bs w = ((writeLoop h s bs w).1, (writeLoop h s bs w).2.withSched s')) ∧
    ∃ es, (writeLoop h s bs w).2.log = es.reverse ++ w.log ∧ (writeLoop h s bs w).2.disk = effects es w.disk ∧
      ∀ d, Moment es w.disk d → ∃ t r, ∃ w' : World, w'.disk = d ∧ ∀ s', writeLoop h (t ++ s') bs w = (r, w'.withSched s') := by
    intro bs w s s0 hb he
    have hag : ∀ s', writeLoop h ([.full] ++ s') bs w = (.ok (), (w.put h bs).withSched s') := fun s' => by
      simp only [List.cons_append, List.nil_append, writeLoop, hb, if_false]; rfl
    rw [he]
    refine ⟨⟨[.full], hag⟩, [.write (w.fd h).ino (w.fd h).pos bs], rfl, rfl, ?_⟩
    rintro d (hm | ⟨k, hm⟩ | hm)
    · obtain ⟨t, r, w', h1, h2⟩ := writeLoop_torn h bs hb w 0
      rw [List.take_zero, effect_write_nil] at h1
      exact ⟨t, r, w', h1.trans hm.symm, h2⟩
    · obtain ⟨t, r, w', h1, h2⟩ := writeLoop_torn h bs hb w k
      exact ⟨t, r, w', h1.trans hm.symm, h2⟩
    · exact ⟨[.full], _, w.put h bs, (show d = _ from hm).symm, hag⟩
  induction s with
  | nil =>
    intro bs w
    by_cases hb : bs = []
    · subst hb
      have hag : ∃ t, ∀ s', writeLoop h (t ++ s') [] w = ((writeLoop h [] [] w).1, (writeLoop h [] [] w).2.withSched s') :=
        ⟨[], fun s' => by rw [List.nil_append, writeLoop_nil, writeLoop_nil]; rfl⟩
      exact ⟨hag, none' _ _ _ rfl rfl hag⟩
    · exact all bs w [] [] hb (by simp only [writeLoop, hb, if_false]; rfl)
  | cons o s ih =>
    intro bs w
    by_cases hb : bs = []
    · subst hb
      have hag : ∃ t, ∀ s', writeLoop h (t ++ s') [] w = ((writeLoop h (o :: s) [] w).1, (writeLoop h (o :: s) [] w).2.withSched s') :=
        ⟨[], fun s' => by rw [List.nil_append, writeLoop_nil, writeLoop_nil]; rfl⟩
      exact ⟨hag, none' _ _ _ rfl rfl hag⟩
    · cases o with
      | full => exact all bs w _ s hb (by simp only [writeLoop, hb, if_false]; rfl)
      | fail =>
        have he : writeLoop h (.fail :: s) bs w = (.err .other, w.withSched s) := by simp only [writeLoop, hb, if_false]; rfl
        have hag : ∃ t, ∀ s', writeLoop h (t ++ s') bs w = ((writeLoop h (.fail :: s) bs w).1, (writeLoop h (.fail :: s) bs w).2.withSched s') :=
          ⟨[.fail], fun s' => by rw [he]; simp only [List.cons_append, List.nil_append, writeLoop, hb, if_false]; rfl⟩
        exact ⟨hag, none' _ _ _ (by rw [he]; rfl) (by rw [he]; rfl) hag⟩
      | intr =>
        have he : ∀ s, writeLoop h (.intr :: s) bs w = writeLoop h s bs w := fun s => by simp only [writeLoop, hb, if_false]
        rw [he]
        exact ih bs w
      | short k =>
        by_cases hk : k = 0
        · have he : writeLoop h (.short k :: s) bs w = (.err .writeZero, w.withSched s) := by simp only [writeLoop, hb, if_false, hk, if_true]; rfl
          have hag : ∃ t, ∀ s', writeLoop h (t ++ s') bs w = ((writeLoop h (.short k :: s) bs w).1, (writeLoop h (.short k :: s) bs w).2.withSched s') :=
            ⟨[.short k], fun s' => by rw [he]; simp only [List.cons_append, List.nil_append, writeLoop, hb, if_false, hk, if_true]; rfl⟩
          exact ⟨hag, none' _ _ _ (by rw [he]; rfl) (by rw [he]; rfl) hag⟩
        · have he : ∀ s, writeLoop h (.short k :: s) bs w = writeLoop h s (bs.drop k) (w.put h (bs.take k)) := fun s => by simp only [writeLoop, hb, if_false, hk]
          rw [he]
          obtain ⟨⟨t, ht⟩, es, h1, h2, h3⟩ := ih (bs.drop k) (w.put h (bs.take k))
          refine ⟨⟨.short k :: t, fun s' => by rw [List.cons_append, he]; exact ht s'⟩, .write (w.fd h).ino (w.fd h).pos (bs.take k) :: es, ?_, h2, ?_⟩
          · rw [h1, List.reverse_cons, List.append_assoc]; rfl
          · rintro d (hm | ⟨k', hm⟩ | hm)
            · obtain ⟨t, r, w', h1, h2⟩ := writeLoop_torn h bs hb w 0
              rw [List.take_zero, effect_write_nil] at h1
              exact ⟨t, r, w', h1.trans hm.symm, h2⟩
            · obtain ⟨t, r, w', h1, h2⟩ := writeLoop_torn h bs hb w (min k' k)
              rw [List.take_take] at hm
              exact ⟨t, r, w', h1.trans hm.symm, h2⟩
            · obtain ⟨t, r, w', h4, h5⟩ := h3 d hm
              exact ⟨.short k :: t, r, w', h4, fun s' => by rw [List.cons_append, he]; exact h5 s'⟩

theorem writeLoop_env (h : Nat) (s : List Io) : ∀ bs (w : World), Aside w (writeLoop h s bs w).2 := by
  induction s with
  | nil => intro bs w; simp only [writeLoop]; split <;> exact ⟨rfl, List.suffix_refl _⟩
  | cons o s ih =>
    intro bs w
    simp only [writeLoop]
    split
    · exact ⟨rfl, List.suffix_refl _⟩
    · cases o with
      | full => exact ⟨rfl, List.suffix_refl _⟩
      | short k =>
        dsimp only
        split
        · exact ⟨rfl, List.suffix_refl _⟩
        · exact ih _ _
      | intr => exact ih _ _
      | fail => exact ⟨rfl, List.suffix_refl _⟩

theorem writeLoop_dir (h : Nat) (s : List Io) : ∀ bs (w : World), (writeLoop h s bs w).2.dir = w.dir := by
  induction s with
  | nil => intro bs w; simp only [writeLoop]; split <;> rfl
  | cons o s ih =>
    intro bs w
    simp only [writeLoop]
    split
    · rfl
    · cases o with
      | full => rfl
      | short k =>
        dsimp only
        split
        · rfl
        · exact ih _ _
      | intr => exact ih _ _
      | fail => rfl

theorem writeAll (h : Nat) (bs : Bytes) : Crashes (Volaris.writeAll h bs) := by
  intro w
  have key : ∀ {t r w'}, (∀ s', writeLoop h (t ++ s') bs w = (r, w'.withSched s')) → Runs (Volaris.writeAll h bs) w t r w' := by
    intro t r w' hr s'
    show writeLoop h (t ++ s') bs (w.withSched _) = _
    rw [writeLoop_withSched]; exact hr s'
  obtain ⟨⟨t, ht⟩, es, h1, h2, h3⟩ := writeLoop_moments h w.sched bs w
  refine ⟨⟨t, key ht⟩, ⟨es, h1, h2, fun d hd => ?_⟩, ?_, writeLoop_env h w.sched bs w, fun g => g.congr (writeLoop_dir h w.sched bs w)⟩
  · obtain ⟨t, r, w', h4, h5⟩ := h3 d hd
    exact ⟨t, r, w', h4, key h5⟩
  · by_cases hb : bs = []
    · exact ⟨0, .ok (), w, rfl, key fun s' => by rw [hb]; exact writeLoop_nil _ _ _⟩
    · exact ⟨1, .err .other, w, rfl, key fun s' => by show writeLoop h (.fail :: s') bs w = _; simp only [writeLoop, hb, if_false]; rfl⟩

end Crashes
end Volaris
