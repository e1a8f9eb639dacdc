import Verif.Spec.Disturbed
import Verif.Proofs.ConcPack
import Verif.Proofs.Frame
import Verif.Proofs.EraseDir
import Verif.Proofs.History
/-!
# A command while other programs change the disk: steps and parts
-/
namespace Volaris.Dist
open Volaris.Spec
open Volaris.Conc (Own Always Each Rng opened_ino)
variable {N : Disk → Path → Prop} {I J : Nat → Prop} {a : World} {ε ε' α β σ : Type}

/-- A file that is at a place in `N` before or after the step. -/
def Seen (N : Disk → Path → Prop) (d d' : Disk) (i : Nat) : Prop := ∃ q, N d q ∧ (lookDisk d q = some (.file i) ∨ lookDisk d' q = some (.file i))

/-- One step changes entries only at places in `N`, and contents only of files that are or were there. -/
structure Move (N : Disk → Path → Prop) (I : Nat → Prop) (d d' : Disk) : Prop where
  look : ∀ q, lookDisk d' q ≠ lookDisk d q → N d q
  file : ∀ i, i < d.nextIno → d'.file i ≠ d.file i → I i ∨ Seen N d d' i
  good : GoodDisk d → GoodDisk d'
  next : d.nextIno ≤ d'.nextIno

theorem good_same {d d' : Disk} (h : d'.dir = d.dir) (hn : d'.nextIno = d.nextIno) (hd : GoodDisk d) : GoodDisk d' := by
  have hl : lookDisk d' = lookDisk d := by funext q; unfold lookDisk; rw [h]
  exact ⟨by rw [h]; exact hd.distinct, by rw [h, hl]; exact hd.parents, by rw [hl, hn]; exact hd.allocated⟩

theorem good_crashes {x : Prog ε α} (hc : Crashes x) (w : World) (hd : GoodDisk w.disk) : GoodDisk (x w).2.disk ∧ w.nextIno ≤ (x w).2.nextIno := by
  obtain ⟨es, -, he, -⟩ := (hc w).log
  have ht := (hc w).tree ⟨hd.distinct, hd.parents⟩
  refine ⟨⟨ht.distinct, ht.parents, Cli.allocated_crashes hc hd.allocated⟩, ?_⟩
  have := Cli.effects_nextIno es w.disk
  rw [← he] at this
  exact this

/-- Handles stay what they are. -/
structure Fds (a a' : World) : Prop where
  fds : a.nextFd ≤ a'.nextFd
  ino : ∀ h, h < a.nextFd → (a'.fd h).ino = (a.fd h).ino

theorem Fds.refl (a : World) : Fds a a := ⟨Nat.le_refl _, fun _ _ => rfl⟩
theorem Fds.trans {a b c : World} (h : Fds a b) (h' : Fds b c) : Fds a c :=
  ⟨Nat.le_trans h.fds h'.fds, fun x hx => (h'.ino x (Nat.lt_of_lt_of_le hx h.fds)).trans (h.ino x hx)⟩
theorem Fds.of_eq {a a' : World} (h : a'.fd = a.fd) (h' : a'.nextFd = a.nextFd) : Fds a a' := ⟨Nat.le_of_eq h'.symm, fun _ _ => by rw [h]⟩

/-- Every step is such a move, whatever the disk is then; `Q` holds at the end. -/
def Fr (N : Disk → Path → Prop) (Q : Res ε α → World → (Nat → Prop) → Prop) : Thr ε α → World → (Nat → Prop) → Prop
  | .done r, a, I => Q r a I
  | .step eff k, a, I => ∀ d, GoodDisk d → Move N I d (eff (a.on d)).disk ∧ Fr N Q (k (a.on d)) (eff (a.on d)) fun i => I i ∨ Seen N d (eff (a.on d)).disk i

namespace Fr

theorem mono {Q Q' : Res ε α → World → (Nat → Prop) → Prop} (hq : ∀ r w J, Q r w J → Q' r w J) : ∀ {t : Thr ε α} {a : World} {I : Nat → Prop}, Fr N Q t a I → Fr N Q' t a I := by
  intro t
  induction t with
  | done r => intro a I h; exact hq _ _ _ h
  | step eff k ih => intro a I h d hd; exact ⟨(h d hd).1, ih _ (h d hd).2⟩

theorem bind {f : α → Thr ε β} {Q : Res ε α → World → (Nat → Prop) → Prop} {Q' : Res ε β → World → (Nat → Prop) → Prop}
    (hf : ∀ y w J, Q (.ok y) w J → Fr N Q' (f y) w J) (he : ∀ e w J, Q (.err e) w J → Q' (.err e) w J) (hb : ∀ e w J, Q (.abort e) w J → Q' (.abort e) w J) :
    ∀ {t : Thr ε α} {a : World} {I : Nat → Prop}, Fr N Q t a I → Fr N Q' (t >>= f) a I := by
  intro t
  rw [Thr.bind_eq]
  induction t with
  | done r =>
    intro a I h
    cases r with
    | ok y => exact hf y a I h
    | err e => exact he e a I h
    | abort e => exact hb e a I h
  | step eff k ih => intro a I h d hd; exact ⟨(h d hd).1, ih _ (h d hd).2⟩

theorem mapErr {f : ε → ε'} {Q : Res ε α → World → (Nat → Prop) → Prop} {Q' : Res ε' α → World → (Nat → Prop) → Prop} (hq : ∀ r w J, Q r w J → Q' (r.mapErr f) w J) :
    ∀ {t : Thr ε α} {a : World} {I : Nat → Prop}, Fr N Q t a I → Fr N Q' (t.mapErr f) a I := by
  intro t
  induction t with
  | done r => intro a I h; exact hq _ _ _ h
  | step eff k ih => intro a I h d hd; exact ⟨(h d hd).1, ih _ (h d hd).2⟩

end Fr

/-- What holds at the end, beside the handles being what they were. -/
def Post (a : World) (I : Nat → Prop) (Q : α → World → (Nat → Prop) → Prop) (r : Res ε α) (w : World) (J : Nat → Prop) : Prop :=
  Fds a w ∧ (∀ i, I i → J i) ∧ ∀ y, r = .ok y → Q y w J

/-- `Fr`, and the handles stay what they are. -/
abbrev FrK (N : Disk → Path → Prop) (Q : α → World → (Nat → Prop) → Prop) (t : Thr ε α) (a : World) (I : Nat → Prop) : Prop := Fr N (Post a I Q) t a I

/-- `Fr` without any claim on the end. -/
abbrev FrT (N : Disk → Path → Prop) (t : Thr ε α) (a : World) (I : Nat → Prop) : Prop := Fr N (fun _ _ _ => True) t a I

/-- No claim on the result. -/
abbrev Any : α → World → (Nat → Prop) → Prop := fun _ _ _ => True

namespace FrK
variable {Q : α → World → (Nat → Prop) → Prop} {t : Thr ε α}

theorem bind {f : α → Thr ε β} {Q' : β → World → (Nat → Prop) → Prop} (h : FrK N Q t a I) (hf : ∀ y w J, Fds a w → (∀ i, I i → J i) → Q y w J → FrK N Q' (f y) w J) : FrK N Q' (t >>= f) a I :=
  Fr.bind (fun y w J hp => (hf y w J hp.1 hp.2.1 (hp.2.2 y rfl)).mono fun _ _ _ h => ⟨hp.1.trans h.1, fun i hi => h.2.1 i (hp.2.1 i hi), h.2.2⟩)
    (fun _ _ _ hp => ⟨hp.1, hp.2.1, fun _ h => nomatch h⟩) (fun _ _ _ hp => ⟨hp.1, hp.2.1, fun _ h => nomatch h⟩) h

theorem bindT {f : α → Thr ε β} (h : FrK N Q t a I) (hf : ∀ y w J, Fds a w → (∀ i, I i → J i) → Q y w J → FrT N (f y) w J) : FrT N (t >>= f) a I :=
  Fr.bind (fun y w J hp => hf y w J hp.1 hp.2.1 (hp.2.2 y rfl)) (fun _ _ _ _ => trivial) (fun _ _ _ _ => trivial) h

theorem mono {Q' : α → World → (Nat → Prop) → Prop} (h : FrK N Q t a I) (hq : ∀ y w J, Q y w J → Q' y w J) : FrK N Q' t a I :=
  Fr.mono (fun _ _ _ hp => ⟨hp.1, hp.2.1, fun y hy => hq _ _ _ (hp.2.2 y hy)⟩) h

theorem weak (h : FrK N Q t a I) : FrT N t a I := Fr.mono (fun _ _ _ _ => trivial) h

theorem mapErr {f : ε → ε'} (h : FrK N Q t a I) : FrK N Q (t.mapErr f) a I :=
  Fr.mapErr (fun r _ _ hp => ⟨hp.1, hp.2.1, fun y hy => hp.2.2 y (by cases r <;> cases hy; rfl)⟩) h

theorem done {r : Res ε α} (h : ∀ y, r = .ok y → Q y a I) : FrK N Q (.done r) a I := ⟨.refl _, fun _ h => h, h⟩
theorem pure {y : α} (h : Q y a I) : FrK N Q (Pure.pure y : Thr ε α) a I := done fun _ hy => by cases hy; exact h
theorem lift {r : Res ε α} : FrK N Any (.done r) a I := done fun _ _ => trivial
theorem fail {e : ε} : FrK N Q (.done (.err e)) a I := done fun _ h => nomatch h
theorem abort {e : Abort} : FrK (ε := ε) N Q (.done (.abort e)) a I := done fun _ h => nomatch h

theorem attempt : ∀ {t : Thr ε α} {a : World} {I : Nat → Prop} {b : World} {K : Nat → Prop}, Fr N (Post b K Q) t a I →
    Fr N (Post b K fun r w J => ∀ y, r = .ok y → Q y w J) (Cli.Steps.attempt (ε' := ε') t) a I := by
  intro t
  induction t with
  | done r =>
    intro a I b K h
    cases r with
    | ok y => exact ⟨h.1, h.2.1, fun r hr y hy => by cases hr; exact h.2.2 y hy⟩
    | err e => exact ⟨h.1, h.2.1, fun r hr y hy => by cases hr; cases hy⟩
    | abort e => exact ⟨h.1, h.2.1, fun r hr => by cases hr⟩
  | step eff k ih => intro a I b K h d hd; exact ⟨(h d hd).1, ih _ (h d hd).2⟩

theorem atom {x : Prog ε α} (h : ∀ d, GoodDisk d → Move N I d (x (a.on d)).2.disk ∧ Fds (a.on d) (x (a.on d)).2 ∧
    ∀ y, (x (a.on d)).1 = .ok y → Q y (x (a.on d)).2 fun i => I i ∨ Seen N d (x (a.on d)).2.disk i) : FrK N Q (Thr.atom x) a I :=
  fun d hd => ⟨(h d hd).1, ⟨(h d hd).2.1.fds, (h d hd).2.1.ino⟩, fun _ hi => .inl hi, (h d hd).2.2⟩

/-- A program that works on open handles. -/
theorem within {R W : List Nat} {x : Prog ε α} (hx : Within R W x) (hw : ∀ h ∈ W, I (a.fd h).ino) : FrK N Any (Thr.atom x) a I := by
  refine atom fun d hd => ?_
  have h := hx (a.on d)
  refine ⟨⟨fun q hq => ?_, fun i _ hi => ?_, good_same h.dir h.nextIno, Nat.le_of_eq h.nextIno.symm⟩, ⟨Nat.le_of_eq h.nextFd.symm, fun x _ => h.inos x⟩, fun _ _ => trivial⟩
  · exact absurd (World.look_congr h.dir q) hq
  · refine .inl (Classical.byContradiction fun hn => hi (h.files i fun x hx e => hn ?_))
    rw [← e]; exact hw x hx

theorem aside {x : Prog ε α} (hx : Conc.Aside x) : FrK N Any (Thr.atom x) a I := by
  refine atom fun d hd => ?_
  have h := (hx (a.on d) (a.on d) ⟨rfl, rfl, rfl, rfl, rfl, rfl, rfl⟩).2.2.1
  have hs : (x (a.on d)).2.disk = d := h.disk
  rw [hs]
  exact ⟨⟨fun q hq => absurd rfl hq, fun i _ hi => absurd rfl hi, id, Nat.le_refl _⟩, .of_eq h.fd h.nextFd, fun _ _ => trivial⟩

/-- What is left of the random bytes, if the steps use none. -/
theorem rng : ∀ {t : Thr ε α} {a : World} {I : Nat → Prop} {b : World} {K : Nat → Prop}, Fr N (Post b K Q) t a I → Always Rng t →
    Fr N (Post b K fun y w J => Q y w J ∧ w.rng = a.rng) t a I := by
  intro t
  induction t with
  | done r => intro a I b K h _; exact ⟨h.1, h.2.1, fun y hy => ⟨h.2.2 y hy, rfl⟩⟩
  | step eff k ih =>
    intro a I b K h ha d hd
    refine ⟨(h d hd).1, Fr.mono (fun r w J hp => ⟨hp.1, hp.2.1, fun y hy => ⟨(hp.2.2 y hy).1, (hp.2.2 y hy).2.trans (ha (a.on d)).1⟩⟩) (ih _ (h d hd).2 (ha (a.on d)).2)⟩

end FrK

/-- The handle leads to a file that was met. -/
def Wr (h : Nat) (a : World) (I : Nat → Prop) : Prop := h < a.nextFd ∧ I (a.fd h).ino

theorem Wr.keep {h : Nat} {w : World} (hw : Wr h a I) (hf : Fds a w) (hi : ∀ i, I i → J i) : Wr h w J :=
  ⟨Nat.lt_of_lt_of_le hw.1 hf.fds, hi _ (by rw [hf.ino h hw.1]; exact hw.2)⟩

/-- Wherever the path leads is a place in `N`. -/
def Named (N : Disk → Path → Prop) (p : PathBuf) : Prop := ∀ (w : World) q, w.resolve p = .ok q → N w.disk q

/-- So is what is below. -/
def Root (N : Disk → Path → Prop) (p : PathBuf) : Prop := ∀ (w : World) top q, w.resolve p = .ok top → top <+: q → N w.disk q

theorem Root.named {p : PathBuf} (h : Root N p) : Named N p := fun w q hq => h w q q hq (List.prefix_refl q)

theorem Move.same {d d' : Disk} (h : d'.dir = d.dir) (hf : d'.file = d.file) (hn : d'.nextIno = d.nextIno) : Move N I d d' := by
  refine ⟨fun q hq => absurd ?_ hq, fun i _ hi => absurd (by rw [hf]) hi, good_same h hn, Nat.le_of_eq hn.symm⟩
  unfold lookDisk; rw [h]

/-! ## System calls with paths -/

theorem sysRetry_cases (w : World) : ∃ s, Volaris.sysRetry w = (.ok (), { w with sched := s }) ∨ ∃ e, Volaris.sysRetry w = (.err e, { w with sched := s }) := by
  obtain ⟨o, s, h⟩ := Conc.pop_world w
  refine ⟨s, ?_⟩
  unfold Volaris.sysRetry
  rw [h]
  cases o <;> first | exact .inl rfl | exact .inr ⟨_, rfl⟩

theorem sys_cases (w : World) : ∃ s, Volaris.sys w = (.ok (), { w with sched := s }) ∨ ∃ e, Volaris.sys w = (.err e, { w with sched := s }) := by
  obtain ⟨o, s, h⟩ := Conc.pop_world w
  refine ⟨s, ?_⟩
  unfold Volaris.sys
  rw [h]
  cases o <;> first | exact .inl rfl | exact .inr ⟨_, rfl⟩

theorem fds_opened (w : World) (i : Nat) : Fds w (w.opened i) := ⟨Nat.le_succ _, fun x hx => by unfold World.opened; simp only; rw [if_neg (Nat.ne_of_lt hx)]⟩

theorem fds_openedS (w : World) (s : List Io) (i : Nat) : Fds w (({ w with sched := s } : World).opened i) := ⟨Nat.le_succ _, fun x hx => by unfold World.opened; simp only; rw [if_neg (Nat.ne_of_lt hx)]⟩

/-- Every outcome of opening a file that is there. -/
theorem openFile_cases (p : PathBuf) (w : World) : ∃ s, (∃ e, openFile p w = (.err e, { w with sched := s })) ∨
    ∃ q i, w.resolve p = .ok q ∧ w.look q = some (.file i) ∧ openFile p w = (.ok w.nextFd, ({ w with sched := s } : World).opened i) := by
  obtain ⟨s, h | ⟨e, h⟩⟩ := sysRetry_cases w
  · refine ⟨s, ?_⟩
    unfold openFile
    rw [Prog.bind_ok h]
    unfold openAt
    rw [World.resolve_congr (w := w) (w' := { w with sched := s }) rfl]
    split
    · next q hq =>
      rw [World.look_congr (w := w) (w' := { w with sched := s }) rfl]
      split
      · next i hl => exact .inr ⟨q, i, hq, hl, rfl⟩
      · exact .inl ⟨_, rfl⟩
      · exact .inl ⟨_, rfl⟩
    · exact .inl ⟨_, rfl⟩
  · exact ⟨s, .inl ⟨e, by unfold openFile; rw [Prog.bind_err h]⟩⟩

theorem openTrunc_cases (p : PathBuf) (w : World) : ∃ s, (∃ e, openTrunc p w = (.err e, { w with sched := s })) ∨
    ∃ q i, w.resolve p = .ok q ∧ w.look q = some (.file i) ∧ openTrunc p w = (.ok w.nextFd, (({ w with sched := s } : World).opened i).truncated i) := by
  obtain ⟨s, h | ⟨e, h⟩⟩ := sysRetry_cases w
  · refine ⟨s, ?_⟩
    unfold openTrunc
    rw [Prog.bind_ok h]
    unfold openTruncAt
    rw [World.resolve_congr (w := w) (w' := { w with sched := s }) rfl]
    split
    · next q hq =>
      rw [World.look_congr (w := w) (w' := { w with sched := s }) rfl]
      split
      · next i hl => exact .inr ⟨q, i, hq, hl, rfl⟩
      · exact .inl ⟨_, rfl⟩
      · exact .inl ⟨_, rfl⟩
    · exact .inl ⟨_, rfl⟩
  · exact ⟨s, .inl ⟨e, by unfold openTrunc; rw [Prog.bind_err h]⟩⟩

theorem openNew_cases (p : PathBuf) (w : World) : ∃ s, (∃ e, openNew p w = (.err e, { w with sched := s })) ∨
    ∃ q, w.resolve p = .ok q ∧ w.look q = none ∧ openNew p w = (.ok w.nextFd, (({ w with sched := s } : World).created q).opened w.nextIno) := by
  obtain ⟨s, h | ⟨e, h⟩⟩ := sysRetry_cases w
  · refine ⟨s, ?_⟩
    unfold openNew
    rw [Prog.bind_ok h]
    unfold openNewAt
    rw [World.resolve_congr (w := w) (w' := { w with sched := s }) rfl]
    split
    · next q hq =>
      rw [World.look_congr (w := w) (w' := { w with sched := s }) rfl]
      split
      · exact .inl ⟨_, rfl⟩
      · next hl =>
        split
        · exact .inr ⟨q, hq, hl, rfl⟩
        · exact .inl ⟨_, rfl⟩
    · exact .inl ⟨_, rfl⟩
  · exact ⟨s, .inl ⟨e, by unfold openNew; rw [Prog.bind_err h]⟩⟩

theorem unlink_cases (p : PathBuf) (w : World) : ∃ s, (∃ e, unlink p w = (.err e, { w with sched := s })) ∨
    ∃ q, w.resolve p = .ok q ∧ unlink p w = (.ok (), ({ w with sched := s } : World).removed q) := by
  obtain ⟨s, h | ⟨e, h⟩⟩ := sys_cases w
  · refine ⟨s, ?_⟩
    unfold unlink
    rw [Prog.bind_ok h]
    unfold unlinkAt
    rw [World.resolve_congr (w := w) (w' := { w with sched := s }) rfl]
    split
    · next q hq =>
      rw [World.look_congr (w := w) (w' := { w with sched := s }) rfl]
      split
      · exact .inr ⟨q, hq, rfl⟩
      · exact .inl ⟨_, rfl⟩
      · exact .inl ⟨_, rfl⟩
    · exact .inl ⟨_, rfl⟩
  · exact ⟨s, .inl ⟨e, by unfold unlink; rw [Prog.bind_err h]⟩⟩

theorem fr_openFile (p : PathBuf) : FrK N Any (Thr.atom (openFile p)) a I := .atom fun d hd => by
  obtain ⟨s, ⟨e, h⟩ | ⟨q, i, hq, hl, h⟩⟩ := openFile_cases p (a.on d) <;> rw [h]
  · exact ⟨.same rfl rfl rfl, .of_eq rfl rfl, fun _ _ => trivial⟩
  · exact ⟨.same rfl rfl rfl, fds_openedS _ s i, fun _ _ => trivial⟩

theorem fr_openMine {p : PathBuf} (hp : Named N p) : FrK N Wr (Thr.atom (openFile p)) a I := .atom fun d hd => by
  obtain ⟨s, ⟨e, h⟩ | ⟨q, i, hq, hl, h⟩⟩ := openFile_cases p (a.on d) <;> rw [h]
  · exact ⟨.same rfl rfl rfl, .of_eq rfl rfl, fun _ h => nomatch h⟩
  · refine ⟨.same rfl rfl rfl, fds_openedS _ s i, fun y hy => ?_⟩
    cases hy
    exact ⟨Nat.lt_succ_self _, .inr ⟨q, hp _ q hq, .inl (by rw [show ((World.opened { a.on d with sched := s } i).fd (a.on d).nextFd).ino = i from opened_ino { a.on d with sched := s } i]; exact hl)⟩⟩

theorem fr_openTrunc {p : PathBuf} (hp : Named N p) : FrK N Wr (Thr.atom (openTrunc p)) a I := .atom fun d hd => by
  obtain ⟨s, ⟨e, h⟩ | ⟨q, i, hq, hl, h⟩⟩ := openTrunc_cases p (a.on d) <;> rw [h]
  · exact ⟨.same rfl rfl rfl, .of_eq rfl rfl, fun _ h => nomatch h⟩
  · have hN : N d q := hp _ q hq
    refine ⟨⟨fun x hx => absurd rfl hx, fun j _ hj => ?_, good_same rfl rfl, Nat.le_refl _⟩, (fds_openedS (a.on d) s i).trans (.of_eq rfl rfl), fun y hy => ?_⟩
    · by_cases e : j = i
      · subst e; exact .inr ⟨q, hN, .inl hl⟩
      · exact absurd (if_neg e) hj
    · cases hy
      exact ⟨Nat.lt_succ_self _, .inr ⟨q, hN, .inl (by
        rw [show (((World.opened { a.on d with sched := s } i).truncated i).fd (a.on d).nextFd).ino = i from opened_ino { a.on d with sched := s } i]; exact hl)⟩⟩

theorem fr_openNew {p : PathBuf} (hp : Named N p) : FrK N Wr (Thr.atom (openNew p)) a I := .atom fun d hd => by
  obtain ⟨s, ⟨e, h⟩ | ⟨q, hq, hl, h⟩⟩ := openNew_cases p (a.on d) <;> rw [h]
  · exact ⟨.same rfl rfl rfl, .of_eq rfl rfl, fun _ h => nomatch h⟩
  · have hN : N d q := hp _ q hq
    have hne : q ≠ [] := fun e => by subst e; rw [World.look_nil] at hl; cases hl
    have l := World.look_created { a.on d with sched := s } q
    refine ⟨⟨fun x hx => ?_, fun j hj hc => absurd (if_neg (Nat.ne_of_lt hj)) hc, fun _ => ?_, Nat.le_succ _⟩, Fds.trans (b := World.created { a.on d with sched := s } q) (.of_eq rfl rfl) (fds_opened _ _), fun y hy => ?_⟩
    · by_cases e : x = q
      · subst e; exact hN
      · refine absurd ((l x).trans ?_) hx
        rw [if_neg e]
        split
        · next e => subst e; rfl
        · rfl
    · have := (good_crashes (.openNew p) (a.on d) hd).1
      rw [h] at this
      exact this
    · cases hy
      refine ⟨Nat.lt_succ_self _, .inr ⟨q, hN, .inr ?_⟩⟩
      rw [show ((World.opened (World.created { a.on d with sched := s } q) (a.on d).nextIno).fd (a.on d).nextFd).ino = (a.on d).nextIno from opened_ino (World.created { a.on d with sched := s } q) _]
      exact (l q).trans (by rw [if_neg hne, if_pos rfl])

theorem fr_unlink {p : PathBuf} (hp : Named N p) : FrK N Any (Thr.atom (unlink p)) a I := .atom fun d hd => by
  obtain ⟨s, ⟨e, h⟩ | ⟨q, hq, h⟩⟩ := unlink_cases p (a.on d) <;> rw [h]
  · exact ⟨.same rfl rfl rfl, .of_eq rfl rfl, fun _ h => nomatch h⟩
  · refine ⟨⟨fun x hx => ?_, fun j _ hj => absurd rfl hj, fun _ => ?_, Nat.le_refl _⟩, .of_eq rfl rfl, fun _ _ => trivial⟩
    · by_cases e : x = q
      · subst e; exact hp _ x hq
      · exact absurd ((World.look_removed { a.on d with sched := s } q x).trans (if_neg fun h => e h.2)) hx
    · have := (good_crashes (.unlink p) (a.on d) hd).1
      rw [h] at this
      exact this

theorem fr_setLen0 {h : Nat} (hw : Wr h a I) : FrK N Any (Thr.atom (setLen0 h)) a I := .atom fun d hd => by
  unfold setLen0
  obtain ⟨s, h1 | ⟨e, h1⟩⟩ := sysRetry_cases (a.on d)
  · rw [Prog.bind_ok h1]
    refine ⟨⟨fun x hx => absurd rfl hx, fun j _ hj => .inl ?_, good_same rfl rfl, Nat.le_refl _⟩, .of_eq rfl rfl, fun _ _ => trivial⟩
    by_cases e : j = (a.fd h).ino
    · rw [e]; exact hw.2
    · exact absurd (if_neg e) hj
  · rw [Prog.bind_err h1]
    exact ⟨.same rfl rfl rfl, .of_eq rfl rfl, fun _ _ => trivial⟩

end Volaris.Dist
