import Verif.Proofs.Stream
namespace Volaris

/-- Running a program only consumes the schedule. -/
def Shrinks {ε α : Type} (x : Prog ε α) : Prop := ∀ w, (x w).2.sched <:+ w.sched

namespace Shrinks
variable {ε ε' α β : Type}

theorem lift (r : Res ε α) : Shrinks (Prog.lift r) := fun _ => List.suffix_refl _
theorem throw (e : ε) : Shrinks (Prog.throw e : Prog ε α) := fun _ => List.suffix_refl _
theorem panic : Shrinks (Prog.panic : Prog ε α) := fun _ => List.suffix_refl _
theorem pure (a : α) : Shrinks (Pure.pure a : Prog ε α) := fun _ => List.suffix_refl _

theorem bind {x : Prog ε α} {f : α → Prog ε β} (hx : Shrinks x) (hf : ∀ a, Shrinks (f a)) : Shrinks (x >>= f) := by
  intro w
  have h1 := hx w
  rw [Prog.bind_run]
  revert h1
  rcases x w with ⟨r, w'⟩
  intro h1
  cases r with
  | ok a => exact (hf a w').trans h1
  | err e => exact h1
  | abort a => exact h1

theorem mapErr {x : Prog ε α} (f : ε → ε') (hx : Shrinks x) : Shrinks (x.mapErr f) := by
  intro w
  have h1 := hx w
  rw [Prog.mapErr_run]
  revert h1
  rcases x w with ⟨r, w'⟩
  cases r <;> exact id

theorem attempt {x : Prog ε α} (hx : Shrinks x) : Shrinks (x.attempt : Prog ε' _) := by
  intro w
  have h1 := hx w
  unfold Prog.attempt
  revert h1
  rcases x w with ⟨r, w'⟩
  cases r <;> exact id

theorem ite {c : Prop} [Decidable c] {x y : Prog ε α} (hx : Shrinks x) (hy : Shrinks y) :
    Shrinks (if c then x else y) := by split <;> assumption

theorem genBytes (n : Nat) : Shrinks (Volaris.genBytes n : Prog ε Bytes) := fun _ => List.suffix_refl _

theorem pop (w : World) : w.pop.2.sched <:+ w.sched := by
  unfold World.pop
  split
  · exact List.suffix_refl _
  · next h => rw [h]; exact List.suffix_cons _ _

theorem read (h n : Nat) : Shrinks (Volaris.read h n) := by
  intro w
  have := pop w
  unfold Volaris.read
  revert this
  rcases w.pop with ⟨o, w1⟩
  intro this
  cases o <;> exact this

theorem write (h : Nat) (bs : Bytes) : Shrinks (Volaris.write h bs) := by
  intro w
  have := pop w
  unfold Volaris.write
  revert this
  rcases w.pop with ⟨o, w1⟩
  intro this
  cases o <;> exact this

theorem seekStart (h p : Nat) : Shrinks (Volaris.seekStart h p) := by
  intro w
  have := pop w
  unfold Volaris.seekStart
  revert this
  rcases w.pop with ⟨o, w1⟩
  intro this
  cases o <;> exact this

theorem rewind (h : Nat) : Shrinks (Volaris.rewind h) := seekStart h 0

theorem seekCur (h : Nat) (d : Int) : Shrinks (Volaris.seekCur h d) := by
  intro w
  have := pop w
  unfold Volaris.seekCur
  revert this
  rcases w.pop with ⟨o, w1⟩
  intro this
  cases o <;> (try exact this) <;> (dsimp only; split <;> exact this)

theorem flush (h : Nat) : Shrinks (Volaris.flush h) := by
  intro w
  have := pop w
  unfold Volaris.flush
  revert this
  rcases w.pop with ⟨o, w1⟩
  intro this
  cases o <;> exact this

theorem readLoop (h : Nat) (s : List Io) : ∀ (n : Nat) (acc : Bytes) (w : World),
    (Volaris.readLoop h s n acc w).2.sched <:+ s := by
  induction s with
  | nil => intro n acc w; exact List.suffix_refl _
  | cons o s ih =>
    intro n acc w
    simp only [Volaris.readLoop]
    split
    · exact List.suffix_refl _
    · cases o with
      | full =>
        dsimp only
        split
        · exact List.suffix_cons _ _
        · exact (ih _ _ _).trans (List.suffix_cons _ _)
      | short k =>
        dsimp only
        split
        · exact List.suffix_cons _ _
        · exact (ih _ _ _).trans (List.suffix_cons _ _)
      | intr => exact (ih _ _ _).trans (List.suffix_cons _ _)
      | fail => exact List.suffix_cons _ _

theorem writeLoop (h : Nat) (s : List Io) : ∀ (bs : Bytes) (w : World),
    (Volaris.writeLoop h s bs w).2.sched <:+ s := by
  induction s with
  | nil => intro bs w; simp only [Volaris.writeLoop]; split <;> exact List.suffix_refl _
  | cons o s ih =>
    intro bs w
    simp only [Volaris.writeLoop]
    split
    · exact List.suffix_refl _
    · cases o with
      | full => exact List.suffix_cons _ _
      | short k =>
        dsimp only
        split
        · exact List.suffix_cons _ _
        · exact (ih _ _).trans (List.suffix_cons _ _)
      | intr => exact (ih _ _).trans (List.suffix_cons _ _)
      | fail => exact List.suffix_cons _ _

theorem readUpTo (h n : Nat) : Shrinks (Volaris.readUpTo h n) := fun w => readLoop h w.sched n [] w
theorem writeAll (h : Nat) (bs : Bytes) : Shrinks (Volaris.writeAll h bs) := fun w => writeLoop h w.sched bs w
theorem readExact (h n : Nat) : Shrinks (Volaris.readExact h n) :=
  bind (readUpTo h n) fun _ => ite (pure _) (throw _)
theorem readToEnd (h : Nat) : Shrinks (Volaris.readToEnd h) := fun w => readUpTo h _ w

theorem deserialize (h : Nat) : Shrinks (Volaris.deserialize h) := by
  unfold Volaris.deserialize
  refine bind (mapErr _ (readExact _ _)) fun b => bind (mapErr _ (seekCur _ _)) fun _ => ?_
  split
  · exact throw _
  · exact bind (mapErr _ (readExact _ _)) fun _ => lift _

end Shrinks

theorem NoShort.of_suffix {s s' : List Io} (h : NoShort s) (hs : s' <:+ s) : NoShort s' :=
  fun k hk => h k (hs.subset hk)

theorem NoShort.run {ε α : Type} {x : Prog ε α} (hx : Shrinks x) {w w' : World} {r : Res ε α} (h : NoShort w.sched)
    (he : x w = (r, w')) : NoShort w'.sched := h.of_suffix (by have := hx w; rw [he] at this; exact this)

theorem sched_nil_run {ε α : Type} {x : Prog ε α} (hx : Shrinks x) {w w' : World} {r : Res ε α} (h : w.sched = [])
    (he : x w = (r, w')) : w'.sched = [] := by
  have := hx w; rw [he, h] at this; exact List.suffix_nil.1 this

/-- Without short transfers, a `write` that returns has written everything. -/
theorem write_noShort {h n : Nat} {bs : Bytes} {w w' : World} (hs : NoShort w.sched)
    (he : write h bs w = (.ok n, w')) : w'.core = (w.put h bs).core := by
  unfold write World.pop at he
  cases hsc : w.sched with
  | nil => rw [hsc] at he; simp at he; rw [← he.2]
  | cons o s =>
    rw [hsc] at he hs
    cases o with
    | full => simp at he; rw [← he.2]; rfl
    | short k => exact absurd (by simp) (hs k)
    | intr => simp at he
    | fail => simp at he

end Volaris
