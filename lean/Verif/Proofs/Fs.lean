import Verif.Fs
import Verif.Proofs.Sched
/-!
# Lemmas about paths and file system calls
-/
namespace Volaris

namespace World

@[simp] theorem look_nil (w : World) : w.look [] = some .dir := by simp [look]

theorem look_congr {w w' : World} (h : w'.dir = w.dir) (p : Path) : w'.look p = w.look p := by
  unfold look; rw [h]

@[simp] theorem look_opened (w : World) (i : Nat) (p : Path) : (w.opened i).look p = w.look p := rfl
@[simp] theorem look_truncated (w : World) (i : Nat) (p : Path) : (w.truncated i).look p = w.look p := rfl
@[simp] theorem look_setPos (w : World) (h n : Nat) (p : Path) : (w.setPos h n).look p = w.look p := rfl

theorem look_removed (w : World) (q p : Path) : (w.removed q).look p = if p ≠ [] ∧ p = q then none else w.look p := by
  unfold look removed
  by_cases hp : p = []
  · simp [hp]
  · simp only [hp, if_false, ne_eq, not_false_eq_true, true_and]
    rw [List.find?_filter]
    by_cases hq : p = q
    · subst hq
      rw [if_pos rfl, List.find?_eq_none.2]
      · rfl
      · intro x _; simp
    · rw [if_neg hq]
      congr 1
      congr 1
      funext a
      by_cases ha : a.1 = p
      · simp [ha, hq]
      · simp [ha]

theorem look_cons {w w' : World} {q : Path} {n : Node} (h : w'.dir = (q, n) :: w.dir) (p : Path) :
    w'.look p = if p = [] then some .dir else if p = q then some n else w.look p := by
  unfold look
  rw [h]
  by_cases hp : p = []
  · simp [hp]
  · simp only [hp, if_false]
    rw [List.find?_cons]
    by_cases hq : p = q
    · subst hq; simp
    · have : decide (q = p) = false := by simp; exact fun h => hq h.symm
      simp [this, hq]

theorem look_madeDir (w : World) (q p : Path) :
    (w.madeDir q).look p = if p = [] then some .dir else if p = q then some .dir else w.look p := look_cons rfl p

theorem look_created (w : World) (q p : Path) :
    (w.created q).look p = if p = [] then some .dir else if p = q then some (.file w.nextIno) else w.look p :=
  look_cons rfl p

/-- A path that leads somewhere is listed. -/
theorem mem_of_look {w : World} {p : Path} {n : Node} (hp : p ≠ []) (h : w.look p = some n) : (p, n) ∈ w.dir := by
  unfold look at h
  rw [if_neg hp] at h
  obtain ⟨x, hx, rfl⟩ := Option.map_eq_some_iff.1 h
  have h1 := List.mem_of_find?_eq_some hx
  have h2 := List.find?_some hx
  simp only [decide_eq_true_eq] at h2
  rw [← h2]; exact h1

theorem look_isSome_of_mem {w : World} {p : Path} {n : Node} (h : (p, n) ∈ w.dir) : (w.look p).isSome := by
  unfold look
  split
  · rfl
  · rw [Option.isSome_map, List.find?_isSome]
    exact ⟨_, h, by simp⟩

/-! ### Walking -/

theorem walk_cons (w : World) (cur : Path) (c : Comp) (cs : List Comp) : w.walk cur (c :: cs) =
    match w.look cur with
    | some .dir => w.walk (lexical cur [c]) cs
    | some (.file _) => .error .other
    | none => .error .notFound := by
  cases c <;> rfl

theorem walk_append (w : World) (cs ds : List Comp) : ∀ cur, w.walk cur (cs ++ ds) =
    match w.walk cur cs with
    | .ok q => w.walk q ds
    | .error e => .error e := by
  induction cs with
  | nil => intro cur; rfl
  | cons c cs ih =>
    intro cur
    rw [List.cons_append, walk_cons, walk_cons]
    cases w.look cur with
    | none => rfl
    | some n =>
      cases n with
      | file i => rfl
      | dir => exact ih _

theorem walk_lexical {w : World} {cs : List Comp} : ∀ {cur q : Path}, w.walk cur cs = .ok q → q = lexical cur cs := by
  induction cs with
  | nil => intro cur q h; cases h; rfl
  | cons c cs ih =>
    intro cur q h
    unfold walk at h
    revert h
    cases w.look cur with
    | none => intro h; cases h
    | some n =>
      cases n with
      | file i => intro h; cases h
      | dir => cases c <;> exact ih

/-- Walking works after a change that keeps directories. -/
theorem walk_mono {w w' : World} (hd : ∀ d, w.look d = some .dir → w'.look d = some .dir) {cs : List Comp} :
    ∀ {cur q : Path}, w.walk cur cs = .ok q → w'.walk cur cs = .ok q := by
  induction cs with
  | nil => intro cur q h; exact h
  | cons c cs ih =>
    intro cur q h
    unfold walk at h ⊢
    revert h
    cases hl : w.look cur with
    | none => intro h; cases h
    | some n =>
      cases n with
      | file i => intro h; cases h
      | dir => rw [hd _ hl]; cases c <;> exact ih

theorem resolve_mono {w w' : World} (hd : ∀ d, w.look d = some .dir → w'.look d = some .dir) {p : PathBuf} {q : Path}
    (h : w.resolve p = .ok q) : w'.resolve p = .ok q := walk_mono hd h

theorem walk_congr {w w' : World} (h : ∀ p, w'.look p = w.look p) : ∀ (cs : List Comp) (cur : Path), w'.walk cur cs = w.walk cur cs := by
  intro cs
  induction cs with
  | nil => intro cur; rfl
  | cons c cs ih =>
    intro cur
    unfold walk
    rw [h]
    cases w.look cur with
    | none => rfl
    | some n =>
      cases n with
      | file i => rfl
      | dir => cases c <;> exact ih _

theorem resolve_congr {w w' : World} (h : w'.dir = w.dir) (p : PathBuf) : w'.resolve p = w.resolve p :=
  walk_congr (look_congr h) _ _

theorem isDirAt_congr {w w' : World} (h : w'.dir = w.dir) (p : PathBuf) : w'.isDirAt p = w.isDirAt p := by
  unfold isDirAt
  rw [resolve_congr h]
  cases w.resolve p with
  | ok q => simp only [look_congr h]
  | error e => rfl

end World

/-! ### System calls -/

theorem sysRetry_cases (w : World) :
    (∃ s, s <:+ w.sched ∧ sysRetry w = (.ok (), { w with sched := s })) ∨
    (∃ s e, s <:+ w.sched ∧ w.sched ≠ [] ∧ sysRetry w = (.err e, { w with sched := s })) := by
  unfold sysRetry World.pop
  cases h : w.sched with
  | nil => left; exact ⟨[], List.suffix_refl _, by rw [World.with_sched_nil w h]⟩
  | cons o s =>
    cases o with
    | fail => right; exact ⟨s, _, List.suffix_cons _ _, by simp, rfl⟩
    | full => left; exact ⟨s, List.suffix_cons _ _, rfl⟩
    | short k => left; exact ⟨s, List.suffix_cons _ _, rfl⟩
    | intr => left; exact ⟨s, List.suffix_cons _ _, rfl⟩

theorem sys_cases (w : World) :
    (∃ s, s <:+ w.sched ∧ sys w = (.ok (), { w with sched := s })) ∨
    (∃ s e, s <:+ w.sched ∧ w.sched ≠ [] ∧ sys w = (.err e, { w with sched := s })) := by
  unfold sys World.pop
  cases h : w.sched with
  | nil => left; exact ⟨[], List.suffix_refl _, by rw [World.with_sched_nil w h]⟩
  | cons o s =>
    cases o with
    | fail => right; exact ⟨s, _, List.suffix_cons _ _, by simp, rfl⟩
    | full => left; exact ⟨s, List.suffix_cons _ _, rfl⟩
    | short k => left; exact ⟨s, List.suffix_cons _ _, rfl⟩
    | intr => right; exact ⟨s, _, List.suffix_cons _ _, by simp, rfl⟩

theorem sys_nil {w : World} (h : w.sched = []) : sys w = (.ok (), w) := by
  unfold sys; rw [World.pop_nil h]

theorem sysRetry_nil {w : World} (h : w.sched = []) : sysRetry w = (.ok (), w) := by
  unfold sysRetry; rw [World.pop_nil h]

@[simp] theorem World.look_sched (w : World) (s : List Io) (p : Path) : ({ w with sched := s } : World).look p = w.look p := rfl
@[simp] theorem World.resolve_sched (w : World) (s : List Io) (p : PathBuf) : ({ w with sched := s } : World).resolve p = w.resolve p :=
  World.resolve_congr (w := w) (w' := { w with sched := s }) rfl p

theorem setLen0_cases (h : Nat) (w : World) :
    (∃ s, s <:+ w.sched ∧ setLen0 h w = (.ok (), ({ w with sched := s } : World).truncated (w.fd h).ino)) ∨
    (∃ s e, s <:+ w.sched ∧ w.sched ≠ [] ∧ setLen0 h w = (.err e, { w with sched := s })) := by
  unfold setLen0
  rcases sysRetry_cases w with ⟨s, hs, he⟩ | ⟨s, e, hs, hn, he⟩
  · exact .inl ⟨s, hs, Prog.bind_ok he⟩
  · exact .inr ⟨s, e, hs, hn, Prog.bind_err he⟩

theorem fileLen_cases (h : Nat) (w : World) :
    (∃ s, s <:+ w.sched ∧ fileLen h w = (.ok (w.data h).length, { w with sched := s })) ∨
    (∃ s e, s <:+ w.sched ∧ w.sched ≠ [] ∧ fileLen h w = (.err e, { w with sched := s })) := by
  unfold fileLen
  rcases sys_cases w with ⟨s, hs, he⟩ | ⟨s, e, hs, hn, he⟩
  · exact .inl ⟨s, hs, Prog.bind_ok he⟩
  · exact .inr ⟨s, e, hs, hn, Prog.bind_err he⟩

/-- A call on a path that leads to a file at `q`. -/
theorem openTrunc_cases {p : PathBuf} {q : Path} {i : Nat} {w : World} (hr : w.resolve p = .ok q) (hl : w.look q = some (.file i)) :
    (∃ s, s <:+ w.sched ∧ openTrunc p w = (.ok w.nextFd, (({ w with sched := s } : World).opened i).truncated i)) ∨
    (∃ s e, s <:+ w.sched ∧ w.sched ≠ [] ∧ openTrunc p w = (.err e, { w with sched := s })) := by
  unfold openTrunc
  rcases sysRetry_cases w with ⟨s, hs, he⟩ | ⟨s, e, hs, hn, he⟩
  · refine .inl ⟨s, hs, (Prog.bind_ok he).trans ?_⟩
    unfold openTruncAt
    rw [World.resolve_sched, hr]
    simp only [World.look_sched, hl]
  · exact .inr ⟨s, e, hs, hn, Prog.bind_err he⟩

theorem openFile_cases {p : PathBuf} {q : Path} {i : Nat} {w : World} (hr : w.resolve p = .ok q) (hl : w.look q = some (.file i)) :
    (∃ s, s <:+ w.sched ∧ openFile p w = (.ok w.nextFd, ({ w with sched := s } : World).opened i)) ∨
    (∃ s e, s <:+ w.sched ∧ w.sched ≠ [] ∧ openFile p w = (.err e, { w with sched := s })) := by
  unfold openFile
  rcases sysRetry_cases w with ⟨s, hs, he⟩ | ⟨s, e, hs, hn, he⟩
  · refine .inl ⟨s, hs, (Prog.bind_ok he).trans ?_⟩
    unfold openAt
    rw [World.resolve_sched, hr]
    simp only [World.look_sched, hl]
  · exact .inr ⟨s, e, hs, hn, Prog.bind_err he⟩

theorem unlink_cases {p : PathBuf} {q : Path} {i : Nat} {w : World} (hr : w.resolve p = .ok q) (hl : w.look q = some (.file i)) :
    (∃ s, s <:+ w.sched ∧ unlink p w = (.ok (), ({ w with sched := s } : World).removed q)) ∨
    (∃ s e, s <:+ w.sched ∧ w.sched ≠ [] ∧ unlink p w = (.err e, { w with sched := s })) := by
  unfold unlink
  rcases sys_cases w with ⟨s, hs, he⟩ | ⟨s, e, hs, hn, he⟩
  · refine .inl ⟨s, hs, (Prog.bind_ok he).trans ?_⟩
    unfold unlinkAt
    rw [World.resolve_sched, hr]
    simp only [World.look_sched, hl]
  · exact .inr ⟨s, e, hs, hn, Prog.bind_err he⟩

/-- A handle operation that only moves the position of its handle. -/
theorem rewind_cases (h : Nat) (w : World) :
    (∃ s, s <:+ w.sched ∧ rewind h w = (.ok (), { w.setPos h 0 with sched := s })) ∨
    (∃ s e, s <:+ w.sched ∧ w.sched ≠ [] ∧ rewind h w = (.err e, { w with sched := s })) := by
  unfold rewind seekStart World.pop
  cases hs : w.sched with
  | nil => left; exact ⟨[], List.suffix_refl _, by simp only; rw [World.with_sched_nil (w.setPos h 0) (by simpa using hs)]⟩
  | cons o s =>
    cases o with
    | fail => right; exact ⟨s, _, List.suffix_cons _ _, by simp, rfl⟩
    | full => left; exact ⟨s, List.suffix_cons _ _, rfl⟩
    | short k => left; exact ⟨s, List.suffix_cons _ _, rfl⟩
    | intr => right; exact ⟨s, _, List.suffix_cons _ _, by simp, rfl⟩

theorem flush_cases (h : Nat) (w : World) :
    (∃ s, s <:+ w.sched ∧ flush h w = (.ok (), { w with sched := s })) ∨
    (∃ s e, s <:+ w.sched ∧ w.sched ≠ [] ∧ flush h w = (.err e, { w with sched := s })) := by
  unfold flush World.pop
  cases hs : w.sched with
  | nil => left; exact ⟨[], List.suffix_refl _, by simp only; rw [World.with_sched_nil w hs]⟩
  | cons o s =>
    cases o with
    | fail => right; exact ⟨s, _, List.suffix_cons _ _, by simp, rfl⟩
    | full => left; exact ⟨s, List.suffix_cons _ _, rfl⟩
    | short k => left; exact ⟨s, List.suffix_cons _ _, rfl⟩
    | intr => right; exact ⟨s, _, List.suffix_cons _ _, by simp, rfl⟩

end Volaris
