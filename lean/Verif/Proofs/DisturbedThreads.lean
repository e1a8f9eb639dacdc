import Verif.Proofs.DisturbedCmd
import Verif.Proofs.EraseRetry
import Verif.Proofs.Unpack
/-!
# A command while other programs change the disk: the threads of a command
-/
namespace Volaris.Dist
open Volaris.Spec Volaris.Cli
variable {N : Disk → Path → Prop} {I J : Nat → Prop} {a : World} {ε ε' α β σ : Type}

/-- `Fr` for a thread of a process: between any two of its steps other threads make theirs, so that there are more handles and more files that were met. -/
def FrS (N : Disk → Path → Prop) (Q : α → World → (Nat → Prop) → Prop) : Thr ε α → World → (Nat → Prop) → Prop
  | .done r, a, I => ∀ y, r = .ok y → Q y a I
  | .step eff k, a, I => ∀ a' J d, Fds a a' → (∀ i, I i → J i) → GoodDisk d →
      Move N J d (eff (a'.on d)).disk ∧ Fds a' (eff (a'.on d)) ∧ FrS N Q (k (a'.on d)) (eff (a'.on d)) fun i => J i ∨ Seen N d (eff (a'.on d)).disk i

namespace FrS
variable {Q : α → World → (Nat → Prop) → Prop}

theorem mono {Q' : α → World → (Nat → Prop) → Prop} : ∀ {t : Thr ε α} {a : World} {I : Nat → Prop}, FrS N Q t a I → (∀ y w J, Fds a w → (∀ i, I i → J i) → Q y w J → Q' y w J) → FrS N Q' t a I := by
  intro t
  induction t with
  | done r => intro a I h hq y hy; exact hq y a I (.refl a) (fun _ h => h) (h y hy)
  | step eff k ih =>
    intro a I h hq a' J d hf hi hd
    obtain ⟨h1, h2, h3⟩ := h a' J d hf hi hd
    exact ⟨h1, h2, ih _ h3 fun y w J' hf' hi' => hq y w J' ((hf.trans h2).trans hf') fun i h => hi' i (.inl (hi i h))⟩

theorem later {t : Thr ε α} {w : World} (h : FrS N Any t a I) (hf : Fds a w) (hi : ∀ i, I i → J i) : FrS N Any t w J := by
  cases t with
  | done r => exact fun _ _ => trivial
  | step eff k => exact fun a' J' d hf' hi' hd => h a' J' d (hf.trans hf') (fun i h => hi' i (hi i h)) hd

theorem bind {f : α → Thr ε β} {Q' : β → World → (Nat → Prop) → Prop} : ∀ {t : Thr ε α} {a : World} {I : Nat → Prop}, FrS N Q t a I →
    (∀ y w J, Fds a w → (∀ i, I i → J i) → Q y w J → FrS N Q' (f y) w J) → FrS N Q' (t >>= f) a I := by
  intro t
  rw [Thr.bind_eq]
  induction t with
  | done r =>
    intro a I h hf
    cases r with
    | ok y => exact hf y a I (.refl a) (fun _ h => h) (h y rfl)
    | err e => exact fun _ h => nomatch h
    | abort e => exact fun _ h => nomatch h
  | step eff k ih =>
    intro a I h hq a' J d hf hi hd
    obtain ⟨h1, h2, h3⟩ := h a' J d hf hi hd
    exact ⟨h1, h2, ih _ h3 fun y w J' hf' hi' => hq y w J' ((hf.trans h2).trans hf') fun i h => hi' i (.inl (hi i h))⟩

theorem mapErr {f : ε → ε'} : ∀ {t : Thr ε α} {a : World} {I : Nat → Prop}, FrS N Q t a I → FrS N Q (t.mapErr f) a I := by
  intro t
  induction t with
  | done r => intro a I h y hy; exact h y (by cases r <;> cases hy; rfl)
  | step eff k ih =>
    intro a I h a' J d hf hi hd
    obtain ⟨h1, h2, h3⟩ := h a' J d hf hi hd
    exact ⟨h1, h2, ih _ h3⟩

theorem atom {x : Prog ε α} (h : ∀ a' J, Fds a a' → (∀ i, I i → J i) → FrK N Q (Thr.atom x) a' J) : FrS N Q (Thr.atom x) a I := by
  intro a' J d hf hi hd
  obtain ⟨h1, h2, -, h3⟩ := h a' J hf hi d hd
  exact ⟨h1, h2, h3⟩

theorem free {x : Prog ε α} (h : ∀ a' J, FrK N Q (Thr.atom x) a' J) : FrS N Q (Thr.atom x) a I := atom fun a' J _ _ => h a' J

theorem pure {y : α} (h : Q y a I) : FrS N Q (Pure.pure y : Thr ε α) a I := fun _ hy => by cases hy; exact h
theorem fail {e : ε} : FrS N Q (.done (.err e)) a I := fun _ h => nomatch h
theorem abort {e : Abort} : FrS (ε := ε) N Q (.done (.abort e)) a I := fun _ h => nomatch h

end FrS

/-! ## Running and joining threads -/

theorem FrK.step {Q : α → World → (Nat → Prop) → Prop} {eff : World → World} {k : World → Thr ε α}
    (h : ∀ d, GoodDisk d → Move N I d (eff (a.on d)).disk ∧ Fds a (eff (a.on d)) ∧ FrK N Q (k (a.on d)) (eff (a.on d)) fun i => I i ∨ Seen N d (eff (a.on d)).disk i) : FrK N Q (.step eff k) a I :=
  fun d hd => ⟨(h d hd).1, Fr.mono (fun _ _ _ hp => ⟨(h d hd).2.1.trans hp.1, fun i hi => hp.2.1 i (.inl hi), hp.2.2⟩) (h d hd).2.2⟩

theorem fr_gather : ∀ (order : List Nat) {ts : List (Thr ε Unit)} {a : World} {I : Nat → Prop}, (∀ t ∈ ts, FrS N Any t a I) → FrK N (fun ts w J => ∀ t ∈ ts, FrS N Any t w J) (Steps.gather order ts) a I
  | [], _, _, _, h => .pure h
  | i :: is, ts, a, I, h => by
    unfold Steps.gather
    split
    · next eff k he =>
      refine FrK.step fun d hd => ?_
      obtain ⟨h1, h2, h3⟩ := h _ (List.mem_of_getElem? he) a I d (.refl a) (fun _ h => h) hd
      refine ⟨h1, h2, fr_gather is fun t ht => ?_⟩
      rcases List.mem_or_eq_of_mem_set ht with ht | rfl
      · exact (h t ht).later h2 fun _ => .inl
      · exact h3
    · exact fr_gather is h

theorem fr_settle : ∀ {t : Thr ε α} {a : World} {I : Nat → Prop}, FrS N Any t a I → FrK N Any (Steps.settle (ε' := ε') t) a I := by
  intro t
  induction t with
  | done r => intro a I _; exact .pure trivial
  | step eff k ih =>
    intro a I h
    refine FrK.step fun d hd => ?_
    obtain ⟨h1, h2, h3⟩ := h a I d (.refl a) (fun _ h => h) hd
    exact ⟨h1, h2, ih _ h3⟩

theorem fr_settleAll : ∀ {ts : List (Thr ε Unit)} {a : World} {I : Nat → Prop}, (∀ t ∈ ts, FrS N Any t a I) → FrK N Any (Steps.settleAll ts) a I
  | [], _, _, _ => .pure trivial
  | t :: ts, a, I, h => by
    unfold Steps.settleAll
    refine (fr_settle (h t (List.mem_cons_self ..))).bind fun r w J hf hi _ => ?_
    exact (fr_settleAll fun t ht => (h t (List.mem_cons_of_mem _ ht)).later hf hi).bind fun _ _ _ _ _ _ => .pure trivial

theorem fr_joinAll (order : List Nat) {ts : List (Thr ε Unit)} (h : ∀ t ∈ ts, FrS N Any t a I) : FrK N Any (Steps.joinAll order ts) a I := by
  unfold Steps.joinAll
  refine (fr_gather order h).bind fun ts w J _ _ h => ?_
  split
  · exact .lift
  · exact (fr_settleAll h).bind fun _ _ _ _ _ _ => .lift

/-! ## The threads that erase -/

theorem frs_writeBlocks {h : Nat} : ∀ (bs : List Nat) {a : World} {I : Nat → Prop}, Wr h a I → FrS N Any (Erase.writeBlocks h bs) a I
  | [], _, _, _ => .pure trivial
  | _ :: bs, _, _, hw => by
    unfold Erase.writeBlocks
    exact (FrS.free fun _ _ => FrK.aside (.genBytes _)).bind fun _ _ _ hf hi _ =>
      (FrS.atom fun _ _ hf' hi' => fr_writeAll ((hw.keep hf hi).keep hf' hi') _ _).bind fun _ _ _ hf' hi' _ => frs_writeBlocks bs ((hw.keep hf hi).keep hf' hi')

theorem frs_passes {h : Nat} (cap : Nat) : ∀ (n : Nat) {a : World} {I : Nat → Prop}, Wr h a I → FrS N Any (Erase.passes h cap n) a I
  | 0, _, _, _ => .pure trivial
  | n + 1, _, _, hw => by
    unfold Erase.passes
    refine (FrS.free fun _ _ => fr_rewind h _).bind fun _ _ _ f1 i1 _ => (frs_writeBlocks _ (hw.keep f1 i1)).bind fun _ _ _ f2 i2 _ => ?_
    exact (FrS.free fun _ _ => fr_flush h _).bind fun _ _ _ f3 i3 _ => frs_passes cap n (((hw.keep f1 i1).keep f2 i2).keep f3 i3)

theorem frs_overwrite {h : Nat} (hw : Wr h a I) (cap : Nat) (n : Int) : FrS N Any (Erase.overwrite h cap n) a I := by
  unfold Erase.overwrite
  refine (frs_passes cap _ hw).bind fun _ _ _ f1 i1 _ => (FrS.free fun _ _ => fr_rewind h _).bind fun _ _ _ f2 i2 _ => ?_
  exact (FrS.atom fun _ _ f i => fr_writeAll (((hw.keep f1 i1).keep f2 i2).keep f i) _ _).bind fun _ _ _ _ _ _ => FrS.free fun _ _ => fr_flush h _

theorem frs_eraseThread {p : PathBuf} (hp : Named N p) (n : Int) : FrS N Any (Erase.thread p n) a I := by
  unfold Erase.thread
  refine (FrS.free fun _ _ => fr_mapErr (fr_openTrunc hp)).bind fun h _ _ _ _ hw => (FrS.free fun _ _ => fr_fileLen h _).bind fun cap _ _ f1 i1 _ => ?_
  refine (frs_overwrite (hw.keep f1 i1) cap n).mapErr.bind fun _ _ _ f2 i2 _ => FrS.mapErr ?_
  unfold Erase.removeFile
  exact (FrS.atom fun _ _ f i => fr_mapErr (fr_setLen0 (((hw.keep f1 i1).keep f2 i2).keep f i))).bind fun _ _ _ _ _ _ => (FrS.free fun _ _ => fr_flush h _).bind fun _ _ _ _ _ _ => FrS.free fun _ _ => fr_mapErr (fr_unlink hp)

/-! ## The threads that make directories -/

/-- A directory is made where nothing is. -/
def MayMake (N : Disk → Path → Prop) (p : PathBuf) : Prop := ∀ (w : World) q, w.resolve p = .ok q → w.look q = none → N w.disk q

theorem mkdir_what (p : PathBuf) (w : World) : ∃ s, (∃ e, mkdir p w = (.err e, { w with sched := s })) ∨
    ∃ q, w.resolve p = .ok q ∧ w.look q = none ∧ w.look q.dropLast = some .dir ∧ mkdir p w = (.ok (), ({ w with sched := s } : World).madeDir q) := by
  obtain ⟨s, h | ⟨e, h⟩⟩ := sys_cases w
  · refine ⟨s, ?_⟩
    unfold mkdir
    rw [Prog.bind_ok h]
    unfold mkdirAt
    rw [World.resolve_congr (w := w) (w' := { w with sched := s }) rfl]
    split
    · next q hq =>
      rw [World.look_congr (w := w) (w' := { w with sched := s }) rfl]
      split
      · exact .inl ⟨_, rfl⟩
      · next hl =>
        rw [World.look_congr (w := w) (w' := { w with sched := s }) rfl]
        split
        · next hd => exact .inr ⟨q, hq, hl, hd, rfl⟩
        · exact .inl ⟨_, rfl⟩
    · exact .inl ⟨_, rfl⟩
  · exact ⟨s, .inl ⟨e, by unfold mkdir; rw [Prog.bind_err h]⟩⟩

theorem fr_mkdir {p : PathBuf} (hp : MayMake N p) : FrK N Any (Thr.atom (mkdir p)) a I := .atom fun d hd => by
  obtain ⟨s, ⟨e, h⟩ | ⟨q, hq, hl, hd', h⟩⟩ := mkdir_what p (a.on d) <;> rw [h]
  · exact ⟨.same rfl rfl rfl, .of_eq rfl rfl, fun _ h => nomatch h⟩
  · have hN : N d q := hp _ q hq hl
    have hne : q ≠ [] := fun e => by subst e; rw [World.look_nil] at hl; cases hl
    have l := fun x => World.look_madeDir { a.on d with sched := s } q x
    refine ⟨⟨fun x hx => ?_, fun j _ hj => absurd rfl hj, fun _ => ?_, Nat.le_refl _⟩, .of_eq rfl rfl, fun _ _ => trivial⟩
    · by_cases e : x = q
      · subst e; exact hN
      · refine absurd ((l x).trans ?_) hx
        rw [if_neg e]
        split
        · next e => subst e; rfl
        · rfl
    · have := (good_crashes (.mkdir p) (a.on d) hd).1
      rw [h] at this
      exact this

theorem frs_createDirAllRev (p : PathBuf) : ∀ (cs : List Comp), (∀ pre, pre <+: cs.reverse → MayMake N { p with comps := pre }) → ∀ {a : World} {I : Nat → Prop}, FrS N Any (Storage.createDirAllRev p cs) a I
  | [], _, _, _ => .pure trivial
  | c :: cs, h, a, I => by
    have hm : ∀ {a I}, FrK N Any (Thr.atom (Prog.attempt (ε' := IoErr) (mkdir { p with comps := (c :: cs).reverse }))) a I := (fr_attemptAtom (fr_mkdir (h _ (List.prefix_refl _)))).mono fun _ _ _ _ => trivial
    have hr := fun {a I} => frs_createDirAllRev p cs (fun pre hp => h pre (hp.trans ⟨[c], by simp⟩)) (a := a) (I := I)
    have htol : ∀ {e : IoErr} {a : World} {I : Nat → Prop}, FrS N Any (do if ← Thr.atom (Volaris.isDir { p with comps := (c :: cs).reverse }) then Pure.pure () else Thr.done (Res.err e) : Thr IoErr Unit) a I := by
      intro e a I
      refine (FrS.free fun _ _ => fr_look fun _ => rfl).bind fun b _ _ _ _ _ => ?_
      cases b with
      | true => exact .pure trivial
      | false => exact .fail
    unfold Storage.createDirAllRev
    refine (FrS.free fun _ _ => hm).bind fun r _ _ _ _ _ => ?_
    split
    · exact .pure trivial
    · refine hr.bind fun _ _ _ _ _ _ => (FrS.free fun _ _ => hm).bind fun r _ _ _ _ _ => ?_
      split
      · exact .pure trivial
      · exact htol
      · exact .abort
    · exact htol
    · exact .abort

end Volaris.Dist
