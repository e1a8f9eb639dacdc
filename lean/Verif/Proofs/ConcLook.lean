import Verif.Spec.ConcLook
import Verif.Proofs.ConcKeyMachine
/-!
# Reading a file while its keys are changed

A process that reads the header in one step and afterwards only what is behind the header does the same on every disk whose file has that header and that rest.
-/
namespace Volaris.ConcLook
open Volaris.Spec

/-- The file that is read, the file that is written, the handles, and how versions of the file start. -/
structure Ctx where
  i : Nat
  o : Nat
  rh : Nat
  wh : Nat
  tag : Bytes
  apart : o ≠ i
  handles : rh ≠ wh

/-- The same but for the header, and for files that are of no concern. -/
structure Same (x : Ctx) (d d' : Disk) : Prop where
  out : d.file x.o = d'.file x.o
  body : (d.file x.i).drop 416 = (d'.file x.i).drop 416

/-- Long enough, and with the right start. -/
structure Valid (x : Ctx) (d : Disk) : Prop where
  size : 416 ≤ (d.file x.i).length
  start : (d.file x.i).take 2 = x.tag

/-- Nothing but the output is changed. -/
structure Kept (x : Ctx) (d e : Disk) : Prop where
  dir : e.dir = d.dir
  nextIno : e.nextIno = d.nextIno
  file : ∀ j, j ≠ x.o → e.file j = d.file j

theorem Kept.refl (x : Ctx) (d : Disk) : Kept x d d := ⟨rfl, rfl, fun _ _ => rfl⟩
theorem Kept.trans {x : Ctx} {d e f : Disk} (h : Kept x d e) (h' : Kept x e f) : Kept x d f :=
  ⟨h'.dir.trans h.dir, h'.nextIno.trans h.nextIno, fun j hj => (h'.file j hj).trans (h.file j hj)⟩

theorem Same.kept {x : Ctx} {d d' e e' : Disk} (h : Same x d d') (k : Kept x d e) (k' : Kept x d' e') (ho : e.file x.o = e'.file x.o) : Same x e e' :=
  ⟨ho, by rw [k.file _ x.apart.symm, k'.file _ x.apart.symm]; exact h.body⟩

theorem Valid.kept {x : Ctx} {d e : Disk} (h : Valid x d) (k : Kept x d e) : Valid x e := by
  constructor <;> rw [k.file _ x.apart.symm]
  · exact h.size
  · exact h.start

/-- Two outcomes on two disks: the same for what is the process's own. -/
def Both (x : Ctx) (d d' : Disk) (a a' : World) (P : World → Prop) : Prop :=
  ∃ (v : World) (e e' : Disk), a = v.on e ∧ a' = v.on e' ∧ Kept x d e ∧ Kept x d' e' ∧ e.file x.o = e'.file x.o ∧ ∀ D, P (v.on D)

variable {ε ε' α β : Type} {x : Ctx}

@[simp] theorem on_on (w : World) (d e : Disk) : (w.on d).on e = w.on e := rfl
theorem on_disk (w : World) : w.on w.disk = w := rfl

theorem Both.imp {d d' : Disk} {a a' : World} {P P' : World → Prop} (h : Both x d d' a a' P) (hp : ∀ w, P w → P' w) : Both x d d' a a' P' := by
  obtain ⟨v, e, e', h1, h2, h3, h4, h5, h6⟩ := h
  exact ⟨v, e, e', h1, h2, h3, h4, h5, fun D => hp _ (h6 D)⟩

/-- See the head of this file; `seen` tells whether the header has been read. -/
def Looks (x : Ctx) (Q : Bool → α → World → Prop) : Thr ε α → Bool → World → Prop
  | .done r, seen, w => ∀ y, r = .ok y → Q seen y w
  | .step eff k, true, w => ∀ d d', Same x d d' → k (w.on d) = k (w.on d') ∧ Both x d d' (eff (w.on d)) (eff (w.on d')) fun v => Looks x Q (k (w.on d)) true v
  | .step eff k, false, w =>
      (∀ d d', Valid x d → Valid x d' → Same x d d' → k (w.on d) = k (w.on d') ∧ Both x d d' (eff (w.on d)) (eff (w.on d')) fun v => Looks x Q (k (w.on d)) false v) ∨
      (∀ d d', Valid x d → Valid x d' → Same x d d' → d.file x.i = d'.file x.i → k (w.on d) = k (w.on d') ∧ Both x d d' (eff (w.on d)) (eff (w.on d')) fun v => Looks x Q (k (w.on d)) true v)

namespace Looks
variable {Q : Bool → α → World → Prop}

theorem bind {f : α → Thr ε β} {Q' : Bool → β → World → Prop} : ∀ {t : Thr ε α} {seen : Bool} {w : World}, Looks x Q t seen w → (∀ seen y w, Q seen y w → Looks x Q' (f y) seen w) → Looks x Q' (t >>= f) seen w := by
  intro t
  rw [Thr.bind_eq]
  induction t with
  | done r =>
    intro seen w h hf
    cases r with
    | ok y => exact hf seen y w (h y rfl)
    | err e => exact fun y hy => (by cases hy)
    | abort a => exact fun y hy => (by cases hy)
  | step eff k ih =>
    intro seen w h hf
    cases seen with
    | true =>
      intro d d' hs
      obtain ⟨h1, h2⟩ := h d d' hs
      exact ⟨congrArg (fun t => Thr.bind t f) h1, h2.imp fun v hv => ih _ hv hf⟩
    | false =>
      rcases h with h | h
      · refine .inl fun d d' a b hs => ?_
        obtain ⟨h1, h2⟩ := h d d' a b hs
        exact ⟨congrArg (fun t => Thr.bind t f) h1, h2.imp fun v hv => ih _ hv hf⟩
      · refine .inr fun d d' a b hs he => ?_
        obtain ⟨h1, h2⟩ := h d d' a b hs he
        exact ⟨congrArg (fun t => Thr.bind t f) h1, h2.imp fun v hv => ih _ hv hf⟩

theorem mapErr {g : ε → ε'} : ∀ {t : Thr ε α} {seen : Bool} {w : World}, Looks x Q t seen w → Looks x Q (t.mapErr g) seen w := by
  intro t
  induction t with
  | done r =>
    intro seen w h
    cases r with
    | ok y => exact fun y' hy => (by cases hy; exact h _ rfl)
    | err e => exact fun y hy => (by cases hy)
    | abort a => exact fun y hy => (by cases hy)
  | step eff k ih =>
    intro seen w h
    cases seen with
    | true =>
      intro d d' hs
      obtain ⟨h1, h2⟩ := h d d' hs
      exact ⟨congrArg (Thr.mapErr g) h1, h2.imp fun v hv => ih _ hv⟩
    | false =>
      rcases h with h | h
      · refine .inl fun d d' a b hs => ?_
        obtain ⟨h1, h2⟩ := h d d' a b hs
        exact ⟨congrArg (Thr.mapErr g) h1, h2.imp fun v hv => ih _ hv⟩
      · refine .inr fun d d' a b hs he => ?_
        obtain ⟨h1, h2⟩ := h d d' a b hs he
        exact ⟨congrArg (Thr.mapErr g) h1, h2.imp fun v hv => ih _ hv⟩

theorem result {r : Res ε α} {seen : Bool} {w : World} (h : ∀ y, r = .ok y → Q seen y w) : Looks x Q (.done r) seen w := h

end Looks

/-- Two outcomes of a program. -/
def Pair (x : Ctx) (d d' : Disk) (a a' : Res ε α × World) (Q : α → World → Prop) : Prop :=
  a.1 = a'.1 ∧ Both x d d' a.2 a'.2 fun v => ∀ y, a.1 = .ok y → Q y v

theorem Pair.own {d d' : Disk} {a a' : Res ε α × World} {Q : α → World → Prop} {r : Res ε α} {v : World} (h : a = (r, v.on d)) (h' : a' = (r, v.on d')) (hs : Same x d d') (hq : ∀ D y, r = .ok y → Q y (v.on D)) : Pair x d d' a a' Q := by
  subst h h'
  exact ⟨rfl, v, d, d', rfl, rfl, .refl .., .refl .., hs.out, fun D y hy => hq D y hy⟩

theorem Pair.mapErr {d d' : Disk} {p p' : Prog ε α} {w w' : World} {Q : α → World → Prop} {g : ε → ε'} (h : Pair x d d' (p w) (p' w') Q) : Pair x d d' (p.mapErr g w) (p'.mapErr g w') Q := by
  obtain ⟨h1, v, e, e', h2, h3, h4⟩ := h
  unfold Prog.mapErr
  rcases hp : p w with ⟨r, u⟩
  rcases hp' : p' w' with ⟨r', u'⟩
  rw [hp, hp'] at h1 
  rw [hp] at h2 h4
  rw [hp'] at h3
  obtain rfl : r = r' := h1
  cases r with
  | ok z => exact ⟨rfl, v, e, e', h2, h3, h4.1, h4.2.1, h4.2.2.1, fun D y hy => h4.2.2.2 D y (by cases hy; rfl)⟩
  | err _ => exact ⟨rfl, v, e, e', h2, h3, h4.1, h4.2.1, h4.2.2.1, fun D y hy => (by cases hy)⟩
  | abort _ => exact ⟨rfl, v, e, e', h2, h3, h4.1, h4.2.1, h4.2.2.1, fun D y hy => (by cases hy)⟩

theorem Looks.atom {p : Prog ε α} {w : World} {Q : Bool → α → World → Prop} (h : ∀ d d', Same x d d' → Pair x d d' (p (w.on d)) (p (w.on d')) (Q true)) : Looks x Q (Thr.atom p) true w := by
  intro d d' hs
  obtain ⟨h1, h2⟩ := h d d' hs
  exact ⟨congrArg _ h1, h2⟩

theorem Looks.early {p : Prog ε α} {w : World} {Q : Bool → α → World → Prop} (h : ∀ d d', Valid x d → Valid x d' → Same x d d' → Pair x d d' (p (w.on d)) (p (w.on d')) (Q false)) : Looks x Q (Thr.atom p) false w := by
  refine .inl fun d d' a b hs => ?_
  obtain ⟨h1, h2⟩ := h d d' a b hs
  exact ⟨congrArg _ h1, h2⟩

theorem Looks.choice {p : Prog ε α} {w : World} {Q : Bool → α → World → Prop} (h : ∀ d d', Valid x d → Valid x d' → Same x d d' → d.file x.i = d'.file x.i → Pair x d d' (p (w.on d)) (p (w.on d')) (Q true)) :
    Looks x Q (Thr.atom p) false w := by
  refine .inr fun d d' a b hs he => ?_
  obtain ⟨h1, h2⟩ := h d d' a b hs he
  exact ⟨congrArg _ h1, h2⟩

/-! ### System calls -/

/-- The reader is at least at `p`, and the writer leads to the output. -/
def At (x : Ctx) (p : Nat) (w : World) : Prop := (w.fd x.rh).ino = x.i ∧ p ≤ (w.fd x.rh).pos ∧ (w.fd x.wh).ino = x.o

theorem At.on {p : Nat} {w : World} (h : At x p w) (D : Disk) : At x p (w.on D) := h

theorem At.rest {w : World} (h : At x 416 w) {d d' : Disk} (hs : Same x d d') : (w.on d).rest x.rh = (w.on d').rest x.rh := by
  show (d.file (w.fd x.rh).ino).drop (w.fd x.rh).pos = (d'.file (w.fd x.rh).ino).drop (w.fd x.rh).pos
  rw [h.1]
  obtain ⟨k, hk⟩ := Nat.exists_eq_add_of_le h.2.1
  rw [hk, ← List.drop_drop, ← List.drop_drop, hs.body]

theorem At.adv {p : Nat} {w : World} (h : At x p w) (n : Nat) : At x p (w.adv x.rh n) := by
  unfold At World.adv World.setPos
  simp only [if_pos, if_neg x.handles.symm]
  exact ⟨h.1, Nat.le_trans h.2.1 (Nat.le_add_right ..), h.2.2⟩

theorem adv_zero (w : World) (h : Nat) : (w.adv h 0).fd = w.fd := by
  funext j
  simp only [World.adv, World.setPos, Nat.add_zero]
  split
  · next e => rw [e]
  · rfl

/-- Reading: what is read is the same on both disks, as far as it can be reached. -/
theorem readLoop_on {h : Nat} {d d' : Disk} : ∀ (s : List Io) (n : Nat) (acc : Bytes) (w : World), ((w.on d).rest h).take n = ((w.on d').rest h).take n →
    ∃ r v, readLoop h s n acc (w.on d) = (r, World.on v d) ∧ readLoop h s n acc (w.on d') = (r, World.on v d') ∧ ∃ k, v.fd = (w.adv h k).fd := by
  intro s
  induction s with
  | nil =>
    intro n acc w hr
    unfold readLoop
    simp only [← hr]
    exact ⟨_, { w.adv h _ with sched := [] }, rfl, rfl, _, rfl⟩
  | cons o s ih =>
    intro n acc w hr
    have hmin : ∀ m, m ≤ n → ((w.on d).rest h).take m = ((w.on d').rest h).take m := fun m hm => by
      have := congrArg (List.take m) hr
      rwa [List.take_take, List.take_take, Nat.min_eq_left hm] at this
    have hgo : ∀ m, m ≤ n → ∃ r v, (if ((w.on d).rest h).take m = [] then (Res.ok acc, { w.on d with sched := s }) else readLoop h s (n - (((w.on d).rest h).take m).length) (acc ++ ((w.on d).rest h).take m) ((w.on d).adv h (((w.on d).rest h).take m).length)) = (r, World.on v d) ∧
        (if ((w.on d').rest h).take m = [] then (Res.ok acc, { w.on d' with sched := s }) else readLoop h s (n - (((w.on d').rest h).take m).length) (acc ++ ((w.on d').rest h).take m) ((w.on d').adv h (((w.on d').rest h).take m).length)) = (r, World.on v d') ∧ ∃ k, v.fd = (w.adv h k).fd := by
      intro m hm
      rw [← hmin m hm]
      split
      · exact ⟨_, { w with sched := s }, rfl, rfl, 0, (adv_zero w h).symm⟩
      · have hk : (((w.on d).rest h).take m).length ≤ n := by rw [List.length_take]; omega
        generalize (((w.on d).rest h).take m).length = k at hk
        obtain ⟨r, v, h1, h2, k', h3⟩ := ih (n - k) (acc ++ ((w.on d).rest h).take m) (w.adv h k) (by
          have := congrArg (List.drop k) hr
          rw [List.drop_take, List.drop_take] at this
          have e : ∀ D : Disk, ((w.adv h k).on D).rest h = ((w.on D).rest h).drop k := fun D => by
            show (D.file ((w.adv h k).fd h).ino).drop ((w.adv h k).fd h).pos = ((D.file (w.fd h).ino).drop (w.fd h).pos).drop k
            rw [List.drop_drop]
            simp [World.adv, World.setPos]
          rw [e, e]; exact this)
        refine ⟨r, v, h1, h2, k + k', ?_⟩
        rw [h3]
        funext j
        simp only [World.adv, World.setPos, if_pos, Nat.add_assoc]
        split <;> rfl
    unfold readLoop
    split
    · exact ⟨_, { w with sched := o :: s }, rfl, rfl, 0, (adv_zero w h).symm⟩
    · cases o with
      | full => exact hgo n (Nat.le_refl _)
      | short k => exact hgo (min n (max 1 k)) (Nat.min_le_left ..)
      | intr =>
        obtain ⟨r, v, h1, h2, h3⟩ := ih n acc w hr
        exact ⟨r, v, h1, h2, h3⟩
      | fail => exact ⟨_, { w with sched := s }, rfl, rfl, 0, (adv_zero w h).symm⟩

theorem pair_readUpTo {h n : Nat} {w : World} {d d' : Disk} (hs : Same x d d') (hr : ((w.on d).rest h).take n = ((w.on d').rest h).take n) :
    Pair x d d' (readUpTo h n (w.on d)) (readUpTo h n (w.on d')) fun _ v => ∃ k, v.fd = (w.adv h k).fd := by
  obtain ⟨r, v, h1, h2, k, hk⟩ := readLoop_on w.sched n [] w hr
  exact .own h1 h2 hs fun D y _ => ⟨k, hk⟩

theorem pair_readExact {h n : Nat} {w : World} {d d' : Disk} (hs : Same x d d') (hr : ((w.on d).rest h).take n = ((w.on d').rest h).take n) :
    Pair x d d' (readExact h n (w.on d)) (readExact h n (w.on d')) fun y v => y = ((w.on d).rest h).take n ∧ v.fd = (w.adv h n).fd := by
  obtain ⟨r, v, h1, h2, _⟩ := readLoop_on w.sched n [] w hr
  have h1 : readUpTo h n (w.on d) = (r, v.on d) := h1
  have h2 : readUpTo h n (w.on d') = (r, v.on d') := h2
  have hsp := readExact_spec h n (w.on d)
  cases r with
  | ok b =>
    unfold readExact at hsp ⊢
    rw [Prog.bind_ok h1] at hsp ⊢
    rw [Prog.bind_ok h2]
    by_cases hb : b.length = n
    · rw [if_pos hb] at hsp ⊢
      refine .own (r := .ok b) (v := v) rfl rfl hs fun D y hy => ?_
      cases hy
      rcases hsp with ⟨w', _, he, hc⟩ | ⟨_, _, _, he, _⟩
      · cases he
        exact ⟨rfl, (World.fd_of_core hc).trans rfl⟩
      · cases he
    · rw [if_neg hb] at ⊢
      exact .own (r := .err .unexpectedEof) (v := v) rfl rfl hs fun D y hy => (by cases hy)
  | err e =>
    unfold readExact
    rw [Prog.bind_err h1, Prog.bind_err h2]
    exact .own rfl rfl hs fun D y hy => (by cases hy)
  | abort a =>
    unfold readExact
    rw [Prog.bind_abort h1, Prog.bind_abort h2]
    exact .own rfl rfl hs fun D y hy => (by cases hy)

/-- The next outcome does not depend on the disk. -/
theorem pop_on (w : World) (D : Disk) : (w.on D).pop = (w.pop.1, w.pop.2.on D) := by
  unfold World.pop
  show (match w.sched with | [] => _ | o :: s => _) = _
  cases w.sched <;> rfl

theorem pop_fd (w : World) : w.pop.2.fd = w.fd := by
  unfold World.pop
  cases w.sched <;> rfl

theorem pair_seekCur {h : Nat} {z : Int} {w : World} {d d' : Disk} (hs : Same x d d') :
    Pair x d d' (seekCur h z (w.on d)) (seekCur h z (w.on d')) fun _ v => v.fd = (w.setPos h (((w.fd h).pos : Int) + z).toNat).fd := by
  have hfd := pop_fd w
  have hgo : ∀ u : World, u.fd = w.fd → Pair x d d' (if (((u.on d).fd h).pos : Int) + z < 0 then (Res.err IoErr.invalidInput, u.on d) else (.ok (), (u.on d).setPos h ((((u.on d).fd h).pos : Int) + z).toNat))
      (if (((u.on d').fd h).pos : Int) + z < 0 then (Res.err IoErr.invalidInput, u.on d') else (.ok (), (u.on d').setPos h ((((u.on d').fd h).pos : Int) + z).toNat)) fun _ v => v.fd = (w.setPos h (((w.fd h).pos : Int) + z).toNat).fd := by
    intro u hu
    show Pair x d d' (if ((u.fd h).pos : Int) + z < 0 then _ else _) (if ((u.fd h).pos : Int) + z < 0 then _ else _) _
    split
    · exact .own rfl rfl hs fun D y hy => (by cases hy)
    · refine .own (v := u.setPos h (((u.fd h).pos : Int) + z).toNat) rfl rfl hs fun D y hy => ?_
      show (u.setPos h (((u.fd h).pos : Int) + z).toNat).fd = _
      unfold World.setPos
      rw [hu]
  unfold seekCur
  rw [pop_on, pop_on]
  generalize w.pop = z at hfd ⊢
  rcases z with ⟨o, u⟩
  cases o with
  | full => exact hgo u hfd
  | short _ => exact hgo u hfd
  | intr => exact .own rfl rfl hs fun D y hy => (by cases hy)
  | fail => exact .own rfl rfl hs fun D y hy => (by cases hy)

theorem pair_read {n : Nat} {w : World} {d d' : Disk} (hw : At x 416 w) (hs : Same x d d') : Pair x d d' (read x.rh n (w.on d)) (read x.rh n (w.on d')) fun _ v => At x 416 v := by
  have hfd := pop_fd w
  have hgo : ∀ (u : World) (m : Nat), u.fd = w.fd → Pair (ε := IoErr) x d d' (Res.ok (((u.on d).rest x.rh).take m), (u.on d).adv x.rh (((u.on d).rest x.rh).take m).length)
      (Res.ok (((u.on d').rest x.rh).take m), (u.on d').adv x.rh (((u.on d').rest x.rh).take m).length) fun _ v => At x 416 v := by
    intro u m hu
    have hu : At x 416 u := by unfold At; rw [hu]; exact hw
    rw [← hu.rest hs]
    exact .own (v := u.adv x.rh (((u.on d).rest x.rh).take m).length) rfl rfl hs fun D y _ => (hu.adv _).on D
  unfold read
  rw [pop_on, pop_on]
  generalize w.pop = z at hfd ⊢
  rcases z with ⟨o, u⟩
  cases o with
  | full => exact hgo u n hfd
  | short k => exact hgo u (min n (max 1 k)) hfd
  | intr => exact .own rfl rfl hs fun D y hy => (by cases hy)
  | fail => exact .own rfl rfl hs fun D y hy => (by cases hy)

theorem pair_readToEnd {w : World} {d d' : Disk} (hw : At x 416 w) (hs : Same x d d') : Pair x d d' (readToEnd x.rh (w.on d)) (readToEnd x.rh (w.on d')) fun _ v => At x 416 v := by
  unfold readToEnd
  rw [← hw.rest hs]
  obtain ⟨h1, h2⟩ := pair_readUpTo (h := x.rh) (n := ((w.on d).rest x.rh).length + 1) (w := w) hs (by rw [hw.rest hs])
  refine ⟨h1, h2.imp fun v hv y hy => ?_⟩
  obtain ⟨k, hk⟩ := hv y hy
  unfold At; rw [hk]; exact hw.adv k

theorem pair_flush {h p : Nat} {w : World} {d d' : Disk} (hw : At x p w) (hs : Same x d d') : Pair x d d' (flush h (w.on d)) (flush h (w.on d')) fun _ v => At x p v := by
  have hfd := pop_fd w
  unfold flush
  rw [pop_on, pop_on]
  generalize w.pop = z at hfd ⊢
  rcases z with ⟨o, u⟩
  have hu : At x p u := by
    have hfd : u.fd = w.fd := hfd
    unfold At; rw [hfd]; exact hw
  cases o with
  | full => exact .own rfl rfl hs fun D y _ => hu.on D
  | short k => exact .own rfl rfl hs fun D y _ => hu.on D
  | intr => exact .own rfl rfl hs fun D y hy => (by cases hy)
  | fail => exact .own rfl rfl hs fun D y hy => (by cases hy)

/-- The disk after writing through a handle. -/
def putDisk (w : World) (h : Nat) (bs : Bytes) (D : Disk) : Disk := withFile D (w.fd h).ino (writeAt (D.file (w.fd h).ino) (w.fd h).pos bs)

theorem put_on (w : World) (h : Nat) (bs : Bytes) (D : Disk) : (w.on D).put h bs = (w.put h bs).on (putDisk w h bs D) := by
  unfold World.put World.on putDisk withFile
  simp only
  congr 1
  funext j
  show (if j = (w.fd h).ino then writeAt (D.file j) (w.fd h).pos bs else D.file j) = _
  split
  · next e => rw [e]
  · rfl

theorem At.put {p : Nat} {w : World} (h : At x p w) (bs : Bytes) : At x p (w.put x.wh bs) := by
  unfold At World.put
  simp only [if_pos, if_neg x.handles]
  exact h

theorem Kept.put {p : Nat} {w : World} (h : At x p w) (bs : Bytes) (D : Disk) : Kept x D (putDisk w x.wh bs D) :=
  ⟨rfl, rfl, fun j hj => if_neg (by rw [h.2.2]; exact hj)⟩

theorem Same.put {p : Nat} {w : World} (h : At x p w) (bs : Bytes) {d d' : Disk} (hs : Same x d d') : Same x (putDisk w x.wh bs d) (putDisk w x.wh bs d') := by
  refine hs.kept (.put h bs d) (.put h bs d') ?_
  unfold putDisk withFile
  simp only [h.2.2, if_pos, hs.out]

theorem pair_write {p : Nat} {bs : Bytes} {w : World} {d d' : Disk} (hw : At x p w) (hs : Same x d d') : Pair x d d' (write x.wh bs (w.on d)) (write x.wh bs (w.on d')) fun _ v => At x p v := by
  have hfd := pop_fd w
  have hgo : ∀ (u : World) (cs : Bytes), u.fd = w.fd → Pair (ε := IoErr) x d d' (Res.ok cs.length, (u.on d).put x.wh cs) (Res.ok cs.length, (u.on d').put x.wh cs) fun _ v => At x p v := by
    intro u cs hu
    have hu : At x p u := by unfold At; rw [hu]; exact hw
    exact ⟨rfl, u.put x.wh cs, _, _, put_on .., put_on .., .put hu .., .put hu .., (hs.put hu cs).out, fun D y _ => (hu.put cs).on D⟩
  unfold write
  rw [pop_on, pop_on]
  generalize w.pop = z at hfd ⊢
  rcases z with ⟨o, u⟩
  cases o with
  | full => exact hgo u bs hfd
  | short k => exact hgo u (bs.take k) hfd
  | intr => exact .own rfl rfl hs fun D y hy => (by cases hy)
  | fail => exact .own rfl rfl hs fun D y hy => (by cases hy)

theorem pair_writeLoop {p : Nat} : ∀ (s : List Io) (bs : Bytes) (w : World) {d d' : Disk}, At x p w → Same x d d' → Pair x d d' (writeLoop x.wh s bs (w.on d)) (writeLoop x.wh s bs (w.on d')) fun _ v => At x p v := by
  intro s
  induction s with
  | nil =>
    intro bs w d d' hw hs
    unfold writeLoop
    split
    · exact .own (v := { w with sched := [] }) rfl rfl hs fun D y _ => hw
    · refine ⟨rfl, { w.put x.wh bs with sched := [] }, putDisk w x.wh bs d, putDisk w x.wh bs d', ?_, ?_, .put hw .., .put hw .., (hs.put hw bs).out, fun D y _ => hw.put bs⟩
      · show { (w.on d).put x.wh bs with sched := [] } = _
        rw [put_on]; rfl
      · show { (w.on d').put x.wh bs with sched := [] } = _
        rw [put_on]; rfl
  | cons o s ih =>
    intro bs w d d' hw hs
    unfold writeLoop
    split
    · exact .own (v := { w with sched := o :: s }) rfl rfl hs fun D y _ => hw
    · cases o with
      | full =>
        refine ⟨rfl, { w.put x.wh bs with sched := s }, putDisk w x.wh bs d, putDisk w x.wh bs d', ?_, ?_, .put hw .., .put hw .., (hs.put hw bs).out, fun D y _ => hw.put bs⟩
        · show { (w.on d).put x.wh bs with sched := s } = _
          rw [put_on]; rfl
        · show { (w.on d').put x.wh bs with sched := s } = _
          rw [put_on]; rfl
      | short k =>
        simp only
        split
        · exact .own (v := { w with sched := s }) rfl rfl hs fun D y hy => (by cases hy)
        · rw [put_on, put_on]
          obtain ⟨h1, v, e, e', h2, h3, h4, h5, h6, h7⟩ := ih (bs.drop k) (w.put x.wh (bs.take k)) (hw.put _) (hs.put hw (bs.take k))
          exact ⟨h1, v, e, e', h2, h3, (Kept.put hw _ _).trans h4, (Kept.put hw _ _).trans h5, h6, h7⟩
      | intr => exact ih bs w hw hs
      | fail => exact .own (v := { w with sched := s }) rfl rfl hs fun D y hy => (by cases hy)

theorem pair_writeAll {p : Nat} {bs : Bytes} {w : World} {d d' : Disk} (hw : At x p w) (hs : Same x d d') : Pair x d d' (writeAll x.wh bs (w.on d)) (writeAll x.wh bs (w.on d')) fun _ v => At x p v :=
  pair_writeLoop w.sched bs w hw hs

/-! ### The calls -/

/-- The reader is exactly there. -/
def Exact (x : Ctx) (p : Nat) (w : World) : Prop := w.fd x.rh = ⟨x.i, p⟩ ∧ (w.fd x.wh).ino = x.o

theorem Exact.rest {p : Nat} {w : World} (h : Exact x p w) (D : Disk) : (w.on D).rest x.rh = (D.file x.i).drop p := by
  show (D.file (w.fd x.rh).ino).drop (w.fd x.rh).pos = _
  rw [h.1]

theorem Exact.setPos {p : Nat} {w v : World} (h : Exact x p w) {q : Nat} (hv : v.fd = (w.setPos x.rh q).fd) : Exact x q v := by
  unfold Exact
  rw [hv]
  unfold World.setPos
  simp only [if_pos, if_neg x.handles.symm, h.1]
  exact ⟨trivial, h.2⟩

theorem looks_deserialize {w : World} (ht : parseVersion x.tag = some .v5) (hw : Exact x 0 w) : Looks x (fun seen _ v => seen = true ∧ At x 416 v) (Cli.Steps.deserialize x.rh) false w := by
  unfold Cli.Steps.deserialize
  refine .bind (Q := fun seen b v => seen = false ∧ b = x.tag ∧ Exact x 2 v) (.early fun d d' hd hd' hs => .mapErr ?_) fun seen b v ⟨e, hb, hv⟩ => ?_
  · obtain ⟨h1, h2⟩ := pair_readExact (h := x.rh) (n := 2) (w := w) hs (by rw [hw.rest, hw.rest]; exact hd.start.trans hd'.start.symm)
    refine ⟨h1, h2.imp fun v hv y hy => ?_⟩
    obtain ⟨h3, h4⟩ := hv y hy
    refine ⟨rfl, by rw [h3, hw.rest]; exact hd.start, hw.setPos (h4.trans ?_)⟩
    unfold World.adv; rw [hw.1]
  · subst e hb
    refine .bind (Q := fun seen _ v => seen = false ∧ Exact x 0 v) (.early fun d d' _ _ hs => .mapErr ?_) fun seen _ v ⟨e, hv⟩ => ?_
    · obtain ⟨h1, h2⟩ := pair_seekCur (h := x.rh) (z := -2) (w := v) hs
      refine ⟨h1, h2.imp fun u hu y hy => ⟨rfl, hv.setPos ((hu y hy).trans ?_)⟩⟩
      rw [hv.1]; rfl
    · subst e
      rw [ht]
      simp only
      refine .bind (Q := fun seen _ v => seen = true ∧ At x 416 v) (.choice fun d d' _ _ hs he => .mapErr ?_) fun seen full v ⟨e, hv⟩ => ?_
      · obtain ⟨h1, h2⟩ := pair_readExact (h := x.rh) (n := HeaderVersion.v5.size) (w := v) hs (by rw [hv.rest, hv.rest, he])
        refine ⟨h1, h2.imp fun u hu y hy => ⟨rfl, ?_⟩⟩
        have : Exact x 416 u := hv.setPos ((hu y hy).2.trans (by unfold World.adv; rw [hv.1]; rfl))
        exact ⟨by rw [this.1], by rw [this.1]; exact Nat.le_refl _, this.2⟩
      · exact .result fun y _ => ⟨e, hv⟩

theorem looks_decLoop (C : Crypto) (aad : Bytes) : ∀ (fuel : Nat) (s : Stream) {w : World}, At x 416 w → Looks x (fun seen _ v => seen = true ∧ At x 416 v) (Cli.Steps.decLoop C x.rh x.wh aad fuel s) true w := by
  intro fuel
  induction fuel with
  | zero =>
    intro s w hw
    unfold Cli.Steps.decLoop
    refine .bind (Q := fun seen _ v => seen = true ∧ At x 416 v) (.atom fun d d' hs => .mapErr ?_) fun seen b v ⟨e, hv⟩ => ?_
    · obtain ⟨h1, h2⟩ := pair_read (n := BLOCK_SIZE + 16) hw hs
      exact ⟨h1, h2.imp fun v hv y hy => ⟨rfl, hv y hy⟩⟩
    · subst e
      have hwr : ∀ (bs : Bytes) {v : World}, At x 416 v → Looks x (fun seen _ v => seen = true ∧ At x 416 v) (Thr.atom ((writeAll x.wh bs).mapErr StreamErr.io)) true v := fun bs v hv =>
        .atom fun d d' hs => .mapErr (by obtain ⟨h1, h2⟩ := pair_writeAll (bs := bs) hv hs; exact ⟨h1, h2.imp fun v hv y hy => ⟨rfl, hv y hy⟩⟩)
      split
      · refine .bind (Q := fun seen _ v => seen = true ∧ At x 416 v) (.result fun y _ => ⟨rfl, hv⟩) fun seen ⟨p, s'⟩ v ⟨e, hv⟩ => ?_
        subst e
        simp only
        refine .bind (hwr p hv) fun seen _ v ⟨e, hv⟩ => .result fun y hy => (by cases hy)
      · refine .bind (Q := fun seen _ v => seen = true ∧ At x 416 v) (.result fun y _ => ⟨rfl, hv⟩) fun seen p v ⟨e, hv⟩ => ?_
        subst e
        exact hwr p hv
  | succ fuel ih =>
    intro s w hw
    unfold Cli.Steps.decLoop
    refine .bind (Q := fun seen _ v => seen = true ∧ At x 416 v) (.atom fun d d' hs => .mapErr ?_) fun seen b v ⟨e, hv⟩ => ?_
    · obtain ⟨h1, h2⟩ := pair_read (n := BLOCK_SIZE + 16) hw hs
      exact ⟨h1, h2.imp fun v hv y hy => ⟨rfl, hv y hy⟩⟩
    · subst e
      have hwr : ∀ (bs : Bytes) {v : World}, At x 416 v → Looks x (fun seen _ v => seen = true ∧ At x 416 v) (Thr.atom ((writeAll x.wh bs).mapErr StreamErr.io)) true v := fun bs v hv =>
        .atom fun d d' hs => .mapErr (by obtain ⟨h1, h2⟩ := pair_writeAll (bs := bs) hv hs; exact ⟨h1, h2.imp fun v hv y hy => ⟨rfl, hv y hy⟩⟩)
      split
      · refine .bind (Q := fun seen _ v => seen = true ∧ At x 416 v) (.result fun y _ => ⟨rfl, hv⟩) fun seen ⟨p, s'⟩ v ⟨e, hv⟩ => ?_
        subst e
        simp only
        refine .bind (hwr p hv) fun seen _ v ⟨e, hv⟩ => ?_
        subst e
        exact ih s' hv
      · refine .bind (Q := fun seen _ v => seen = true ∧ At x 416 v) (.result fun y _ => ⟨rfl, hv⟩) fun seen p v ⟨e, hv⟩ => ?_
        subst e
        exact hwr p hv

theorem looks_decryptRest (C : Crypto) (pw : Bytes) (header : Header) (aad : Bytes) {w : World} (hw : At x 416 w) :
    Looks x (fun _ _ _ => True) (Cli.Steps.decryptRest C { headerReader := none, reader := x.rh, writer := x.wh, rawKey := pw } header aad) true w := by
  unfold Cli.Steps.decryptRest
  cases header.headerType.mode with
  | memoryMode =>
    simp only
    refine .bind (Q := fun seen _ v => seen = true ∧ At x 416 v) (.atom fun d d' hs => .mapErr ?_) fun seen b v ⟨e, hv⟩ => ?_
    · obtain ⟨h1, h2⟩ := pair_readToEnd hw hs
      exact ⟨h1, h2.imp fun v hv y hy => ⟨rfl, hv y hy⟩⟩
    subst e
    refine .bind (Q := fun seen _ v => seen = true ∧ At x 416 v) (.result fun y _ => ⟨rfl, hv⟩) fun seen mk v ⟨e, hv⟩ => ?_
    subst e
    refine .bind (Q := fun seen _ v => seen = true ∧ At x 416 v) (.result fun y _ => ⟨rfl, hv⟩) fun seen ci v ⟨e, hv⟩ => ?_
    subst e
    refine .bind (Q := fun seen _ v => seen = true ∧ At x 416 v) (.result fun y _ => ⟨rfl, hv⟩) fun seen de v ⟨e, hv⟩ => ?_
    subst e
    exact .atom fun d d' hs => .mapErr (by obtain ⟨h1, h2⟩ := pair_writeAll (bs := de) hv hs; exact ⟨h1, h2.imp fun v hv y hy => trivial⟩)
  | streamMode =>
    simp only
    refine .bind (Q := fun seen _ v => seen = true ∧ At x 416 v) (.result fun y _ => ⟨rfl, hw⟩) fun seen mk v ⟨e, hv⟩ => ?_
    subst e
    refine .bind (Q := fun seen _ v => seen = true ∧ At x 416 v) (.result fun y _ => ⟨rfl, hv⟩) fun seen st v ⟨e, hv⟩ => ?_
    subst e
    refine .mapErr ?_
    unfold Cli.Steps.decryptFile
    refine .bind (looks_decLoop C aad _ _ hv) fun seen _ v ⟨e, hv⟩ => ?_
    subst e
    exact .atom fun d d' hs => .mapErr (by obtain ⟨h1, h2⟩ := pair_flush (h := x.wh) hv hs; exact ⟨h1, h2.imp fun v hv y hy => trivial⟩)

/-- Both kinds of calls. -/
theorem looks_call (C : Crypto) (what : Look) {w : World} (ht : parseVersion x.tag = some .v5) (hw : Exact x 0 w) : Looks x (fun _ _ _ => True) (what.steps C x.rh x.wh) false w := by
  cases what with
  | decrypt pw =>
    refine .mapErr ?_
    unfold Cli.Steps.decryptExecute Cli.Steps.getHeader
    refine .bind (.mapErr (looks_deserialize ht hw)) fun seen ⟨hd, aad⟩ v ⟨e, hv⟩ => ?_
    subst e
    exact looks_decryptRest C pw hd aad hv
  | dump =>
    refine .mapErr ?_
    unfold Cli.Steps.dumpExecute
    refine .bind (.mapErr (looks_deserialize ht hw)) fun seen ⟨hd, aad⟩ v ⟨e, hv⟩ => ?_
    subst e
    refine .mapErr ?_
    unfold Cli.Steps.headerWrite
    refine .bind (Q := fun seen _ v => seen = true ∧ At x 416 v) (.result fun y _ => ⟨rfl, hv⟩) fun seen bs v ⟨e, hv⟩ => ?_
    subst e
    refine .bind (Q := fun seen _ v => True) (.atom fun d d' hs => .mapErr ?_) fun seen _ v _ => .result fun y _ => trivial
    obtain ⟨h1, h2⟩ := pair_write (bs := bs) hv hs
    exact ⟨h1, h2.imp fun v hv y hy => trivial⟩

end Volaris.ConcLook
