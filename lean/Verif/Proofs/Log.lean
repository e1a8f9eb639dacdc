import Verif.Spec.Log
import Verif.Proofs.Basic
/-!
# Rules for `OnlyDoes`
-/
namespace Volaris
open Spec

namespace Spec.OnlyDoes
variable {ε ε' α β : Type} {P : Ev → Prop}

theorem of_same {x : Prog ε α} (h : ∀ w, (x w).2.log = w.log) : OnlyDoes P x :=
  fun w => ⟨[], by rw [h w]; rfl, by simp⟩

theorem mono {Q : Ev → Prop} {x : Prog ε α} (h : OnlyDoes P x) (hpq : ∀ e, P e → Q e) : OnlyDoes Q x := by
  intro w; obtain ⟨evs, h1, h2⟩ := h w; exact ⟨evs, h1, fun e he => hpq e (h2 e he)⟩

theorem lift (r : Res ε α) : OnlyDoes P (Prog.lift r) := of_same fun _ => rfl
theorem throw (e : ε) : OnlyDoes P (Prog.throw e : Prog ε α) := of_same fun _ => rfl
theorem panic : OnlyDoes P (Prog.panic : Prog ε α) := of_same fun _ => rfl
theorem pure (a : α) : OnlyDoes P (Pure.pure a : Prog ε α) := of_same fun _ => rfl
theorem genBytes (n : Nat) : OnlyDoes P (Volaris.genBytes n : Prog ε Bytes) := of_same fun _ => rfl

theorem trans {w : World} {l l' : List Ev} (h1 : ∃ evs, l = evs ++ w.log ∧ ∀ e ∈ evs, P e) (h2 : ∃ evs, l' = evs ++ l ∧ ∀ e ∈ evs, P e) :
    ∃ evs, l' = evs ++ w.log ∧ ∀ e ∈ evs, P e := by
  obtain ⟨a, rfl, ha⟩ := h1
  obtain ⟨b, rfl, hb⟩ := h2
  refine ⟨b ++ a, by simp, ?_⟩
  intro e he
  rcases List.mem_append.1 he with he | he
  · exact hb e he
  · exact ha e he

theorem bind {x : Prog ε α} {f : α → Prog ε β} (hx : OnlyDoes P x) (hf : ∀ a, OnlyDoes P (f a)) : OnlyDoes P (x >>= f) := by
  intro w
  have h1 := hx w
  rw [Prog.bind_run]
  revert h1
  rcases x w with ⟨a | e | a, w'⟩ <;> intro h1
  · exact trans h1 (hf a w')
  · exact h1
  · exact h1

theorem mapErr {x : Prog ε α} (f : ε → ε') (hx : OnlyDoes P x) : OnlyDoes P (x.mapErr f) := by
  intro w
  rw [Prog.mapErr_eq]; exact hx w

theorem attempt {x : Prog ε α} (hx : OnlyDoes P x) : OnlyDoes P (x.attempt : Prog ε' _) := by
  intro w
  have h1 := hx w
  unfold Prog.attempt
  revert h1
  rcases x w with ⟨a | e | a, w'⟩ <;> intro h1 <;> exact h1

theorem ite {c : Prop} [Decidable c] {x y : Prog ε α} (hx : OnlyDoes P x) (hy : OnlyDoes P y) :
    OnlyDoes P (if c then x else y) := by split <;> assumption

theorem pop_log (w : World) : w.pop.2.log = w.log := by unfold World.pop; split <;> rfl

theorem read (h n : Nat) : OnlyDoes P (Volaris.read h n) := by
  refine of_same fun w => ?_
  have := pop_log w
  unfold Volaris.read
  revert this
  rcases w.pop with ⟨_ | _ | _ | _, w'⟩ <;> intro this <;> exact this

theorem seekStart (h p : Nat) : OnlyDoes P (Volaris.seekStart h p) := by
  refine of_same fun w => ?_
  have := pop_log w
  unfold Volaris.seekStart
  revert this
  rcases w.pop with ⟨_ | _ | _ | _, w'⟩ <;> intro this <;> exact this

theorem rewind (h : Nat) : OnlyDoes P (Volaris.rewind h) := seekStart h 0

theorem seekCur (h : Nat) (d : Int) : OnlyDoes P (Volaris.seekCur h d) := by
  refine of_same fun w => ?_
  have := pop_log w
  unfold Volaris.seekCur
  revert this
  rcases w.pop with ⟨_ | _ | _ | _, w'⟩ <;> intro this <;> simp only <;> (try split) <;> exact this

theorem flush (h : Nat) : OnlyDoes P (Volaris.flush h) := by
  refine of_same fun w => ?_
  have := pop_log w
  unfold Volaris.flush
  revert this
  rcases w.pop with ⟨_ | _ | _ | _, w'⟩ <;> intro this <;> exact this

theorem readLoop_log (h : Nat) (s : List Io) : ∀ (n : Nat) (acc : Bytes) (w : World), (Volaris.readLoop h s n acc w).2.log = w.log := by
  induction s with
  | nil => intro n acc w; rfl
  | cons o s ih =>
    intro n acc w
    unfold Volaris.readLoop
    split
    · rfl
    · cases o with
      | full => simp only; split
                · rfl
                · rw [ih]; rfl
      | short k => simp only; split
                   · rfl
                   · rw [ih]; rfl
      | intr => exact ih _ _ _
      | fail => rfl

theorem readUpTo (h n : Nat) : OnlyDoes P (Volaris.readUpTo h n) := of_same fun w => readLoop_log h _ n [] w
theorem readExact (h n : Nat) : OnlyDoes P (Volaris.readExact h n) :=
  bind (readUpTo h n) fun _ => ite (pure _) (throw _)
theorem readToEnd (h : Nat) : OnlyDoes P (Volaris.readToEnd h) := of_same fun w => readLoop_log h _ _ [] w

/-- `write` writes a prefix of its argument, at the position of the handle. -/
theorem write (h : Nat) (bs : Bytes) (hP : ∀ i off k, P (.write i off (bs.take k))) : OnlyDoes P (Volaris.write h bs) := by
  intro w
  have := pop_log w
  unfold Volaris.write
  revert this
  rcases w.pop with ⟨_ | k | _ | _, w'⟩ <;> intro this
  · have h0 := hP (w'.fd h).ino (w'.fd h).pos bs.length
    rw [List.take_length] at h0
    exact ⟨[.write (w'.fd h).ino (w'.fd h).pos bs], by simp only [World.put, List.cons_append, List.nil_append]; rw [← this], by
      intro e he; rw [List.mem_singleton.1 he]; exact h0⟩
  · exact ⟨[.write (w'.fd h).ino (w'.fd h).pos (bs.take k)], by simp only [World.put, List.cons_append, List.nil_append]; rw [← this], by
      intro e he; rw [List.mem_singleton.1 he]; exact hP _ _ _⟩
  · exact ⟨[], this, by simp⟩
  · exact ⟨[], this, by simp⟩

theorem writeLoop_log (h : Nat) (s : List Io) : ∀ (bs : Bytes) (w : World) (_ : ∀ off a b, P (.write (w.fd h).ino off ((bs.drop a).take b))),
    ∃ evs, (Volaris.writeLoop h s bs w).2.log = evs ++ w.log ∧ ∀ e ∈ evs, P e := by
  induction s with
  | nil =>
    intro bs w hP
    unfold Volaris.writeLoop
    split
    · exact ⟨[], rfl, by simp⟩
    · refine ⟨[.write (w.fd h).ino (w.fd h).pos bs], rfl, ?_⟩
      intro e he; rw [List.mem_singleton.1 he]
      have := hP (w.fd h).pos 0 bs.length
      rwa [List.drop_zero, List.take_length] at this
  | cons o s ih =>
    intro bs w hP
    unfold Volaris.writeLoop
    split
    · exact ⟨[], rfl, by simp⟩
    · cases o with
      | full =>
        refine ⟨[.write (w.fd h).ino (w.fd h).pos bs], rfl, ?_⟩
        intro e he; rw [List.mem_singleton.1 he]
        have := hP (w.fd h).pos 0 bs.length
        rwa [List.drop_zero, List.take_length] at this
      | short k =>
        simp only
        split
        · exact ⟨[], rfl, by simp⟩
        · refine trans (l := (w.put h (bs.take k)).log) ⟨[.write (w.fd h).ino (w.fd h).pos (bs.take k)], rfl, ?_⟩ (ih _ _ ?_)
          · intro e he; rw [List.mem_singleton.1 he]
            have := hP (w.fd h).pos 0 k
            rwa [List.drop_zero] at this
          · intro off a b
            rw [World.put_ino, List.drop_drop]
            exact hP _ _ _
      | intr => exact ih _ _ hP
      | fail => exact ⟨[], rfl, by simp⟩

/-- `write_all` writes pieces of its argument. -/
theorem writeAll (h : Nat) (bs : Bytes) (hP : ∀ i off a b, P (.write i off ((bs.drop a).take b))) : OnlyDoes P (Volaris.writeAll h bs) :=
  fun w => writeLoop_log h w.sched bs w (fun off a b => hP _ off a b)

end Spec.OnlyDoes
end Volaris
