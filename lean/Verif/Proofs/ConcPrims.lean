import Verif.Proofs.Concurrent
/-!
# The system calls, made by a process alone and among others
-/
namespace Volaris.Conc
open Volaris.Spec
variable {c : Cfg} {R : Nat → Nat → Prop} {a v : World} {ε ε' α β : Type}

theorem keys_removed (w : World) (q : Path) : ((w.removed q).dir.map (·.1)) = (w.dir.map (·.1)).filter (· ≠ q) := by
  show (w.dir.filter (·.1 ≠ q)).map (·.1) = _
  rw [List.filter_map]; rfl

theorem filter_comm (P Q : Path → Bool) (l : List Path) : (l.filter Q).filter P = (l.filter P).filter Q := by
  rw [List.filter_filter, List.filter_filter]
  congr 1; funext x; exact Bool.and_comm ..

namespace Sim

theorem sched (h : Sim c R a v) (s : List Io) : Sim c R { a with sched := s } { v with sched := s } :=
  { h with priv := { h.priv with sched := rfl } }

theorem setPos (hs : Sim c R a v) (h p : Nat) : Sim c R (a.setPos h p) (v.setPos h p) :=
  { hs with
    priv := { hs.priv with }
    hand := fun x hx hx' => by
      have := hs.hand x hx hx'
      unfold World.setPos
      by_cases e : x = h
      · subst e; simp only [if_pos rfl]; exact ⟨this.1, rfl⟩
      · simp only [if_neg e]; exact this }

theorem data (hs : Sim c R a v) {h : Nat} (hh : Hand c h a) : a.data h = v.data h := hs.file _ _ (hs.hand h hh.1 hh.2).1

theorem rest (hs : Sim c R a v) {h : Nat} (hh : Hand c h a) : a.rest h = v.rest h := by
  unfold World.rest; rw [hs.data hh, (hs.hand h hh.1 hh.2).2]

/-- New content for a file. -/
theorem content (hs : Sim c R a v) {i j : Nat} (hr : R i j) {a' v' : World} (f : Bytes → Bytes) (ha : a'.file = fun k => if k = i then f (a.file k) else a.file k)
    (hv : v'.file = fun k => if k = j then f (v.file k) else v.file k) : ∀ k l, R k l → a'.file k = v'.file l := by
  intro k l hkl
  rw [ha, hv]
  simp only
  have := hs.inj _ _ _ _ hkl hr
  by_cases e : k = i
  · rw [if_pos e, if_pos (this.1 e), hs.file k l hkl]
  · rw [if_neg e, if_neg (fun h => e (this.2 h)), hs.file k l hkl]

theorem put (hs : Sim c R a v) {h : Nat} (hh : Hand c h a) (bs : Bytes) : Sim c R (a.put h bs) (v.put h bs) :=
  have hd := hs.hand h hh.1 hh.2
  { hs with
    priv := { hs.priv with log := congrArg (· + 1) hs.priv.log }
    hand := fun x hx hx' => by
      have := hs.hand x hx hx'
      unfold World.put
      by_cases e : x = h
      · subst e; simp only [if_true]; exact ⟨this.1, by rw [this.2]⟩
      · simp only [if_neg e]; exact this
    file := hs.content hd.1 (fun b => writeAt b (a.fd h).pos bs) rfl (by unfold World.put; rw [hd.2]) }

theorem opened (hs : Sim c R a v) {i j : Nat} (hr : R i j) : Sim c R (a.opened i) (v.opened j) :=
  { hs with
    priv := { hs.priv with }
    nextFd := congrArg (· + 1) hs.nextFd
    base := Nat.le_succ_of_le hs.base
    hand := fun x hx hx' => by
      unfold World.opened at hx' ⊢
      simp only at hx' ⊢
      by_cases e : x = a.nextFd
      · rw [if_pos e, if_pos (hs.nextFd ▸ e)]; exact ⟨hr, rfl⟩
      · rw [if_neg e, if_neg (hs.nextFd ▸ e)]; exact hs.hand x hx (by omega) }

theorem truncated (hs : Sim c R a v) {i j : Nat} (hr : R i j) : Sim c R (a.truncated i) (v.truncated j) :=
  { hs with
    priv := { hs.priv with log := congrArg (· + 1) hs.priv.log }
    file := hs.content hr (fun _ => []) rfl rfl }

theorem removed (hs : Sim c R a v) {q : Path} (hq : c.uses q) {i : Nat} (hl : a.look q = some (.file i)) : Sim c R (a.removed q) (v.removed q) := by
  have hne : q ≠ [] := fun e => by subst e; rw [World.look_nil] at hl; cases hl
  have hlv : v.look q ≠ some .dir := fun e => by
    have := (hs.dira q).2 ((hs.dirv q).1 e); rw [hl] at this; cases this
  have la := World.look_removed a q
  have lv := World.look_removed v q
  refine { hs with
    priv := { hs.priv with log := congrArg (· + 1) hs.priv.log }, alla := ?_, allv := ?_, dira := ?_, dirv := ?_, names := ?_, list := ?_ }
  · intro p k hk; rw [la] at hk; split at hk
    · cases hk
    · exact hs.alla p k hk
  · intro p k hk; rw [lv] at hk; split at hk
    · cases hk
    · exact hs.allv p k hk
  · intro p; rw [la]; split
    · next e => rw [e.2, ← hs.dira q, hl]; constructor <;> intro h <;> cases h
    · exact hs.dira p
  · intro p; rw [lv]; split
    · next e => rw [e.2, ← hs.dirv q]; exact Iff.intro (fun h => by cases h) fun h => absurd h hlv
    · exact hs.dirv p
  · intro p hp; rw [la, lv]; split
    · trivial
    · exact hs.names p hp
  · intro P hP
    rw [keys_removed, keys_removed, filter_comm, filter_comm _ _ (v.dir.map _), hs.list P hP]

theorem created (hs : Sim c R a v) {q : Path} (hl : a.look q = none) (hlv : v.look q = none) :
    Sim c (fun i j => R i j ∨ (i = a.nextIno ∧ j = v.nextIno)) (a.created q) (v.created q) := by
  have hne : q ≠ [] := fun e => by subst e; rw [World.look_nil] at hl; cases hl
  have la := World.look_created a q
  have lv := World.look_created v q
  refine { priv := { hs.priv with log := congrArg (· + 1) hs.priv.log }, nextFd := hs.nextFd, base := hs.base, hand := ?_, inj := ?_, file := ?_, olda := ?_, oldv := ?_, alla := ?_,
           allv := ?_, dira := ?_, dirv := ?_, names := ?_, list := ?_ }
  · intro h hb hh; have := hs.hand h hb hh; exact ⟨.inl this.1, this.2⟩
  · intro i j i' j' h h'
    rcases h with h | ⟨rfl, rfl⟩ <;> rcases h' with h' | ⟨rfl, rfl⟩
    · exact hs.inj _ _ _ _ h h'
    · have := hs.olda _ _ h; have := hs.oldv _ _ h; omega
    · have := hs.olda _ _ h'; have := hs.oldv _ _ h'; omega
    · simp
  · intro i j h
    unfold World.created
    simp only
    rcases h with h | ⟨rfl, rfl⟩
    · have h1 := hs.olda _ _ h; have h2 := hs.oldv _ _ h
      rw [if_neg (by omega), if_neg (by omega)]; exact hs.file _ _ h
    · simp
  · intro i j h; show i < a.nextIno + 1
    rcases h with h | ⟨rfl, rfl⟩
    · have := hs.olda _ _ h; omega
    · omega
  · intro i j h; show j < v.nextIno + 1
    rcases h with h | ⟨rfl, rfl⟩
    · have := hs.oldv _ _ h; omega
    · omega
  · intro p i h; show i < a.nextIno + 1
    rw [la] at h
    split at h
    · cases h
    · split at h
      · cases h; omega
      · have := hs.alla _ _ h; omega
  · intro p i h; show i < v.nextIno + 1
    rw [lv] at h
    split at h
    · cases h
    · split at h
      · cases h; omega
      · have := hs.allv _ _ h; omega
  · intro p; rw [la]
    split
    · next e => rw [e, ← hs.dira, World.look_nil]
    · split
      · next e => rw [e, ← hs.dira q, hl]; constructor <;> intro h <;> cases h
      · exact hs.dira p
  · intro p; rw [lv]
    split
    · next e => rw [e, ← hs.dirv, World.look_nil]
    · split
      · next e => rw [e, ← hs.dirv q, hlv]; constructor <;> intro h <;> cases h
      · exact hs.dirv p
  · intro p hp; rw [la, lv]
    split
    · trivial
    · split
      · exact .inr ⟨rfl, rfl⟩
      · have := hs.names p hp
        revert this
        cases a.look p with
        | none => cases v.look p with
          | none => exact fun h => h
          | some n => cases n <;> exact fun h => h
        | some m => cases m <;> cases v.look p with
          | none => exact fun h => h
          | some n => cases n <;> first | exact fun h => h | exact fun h => .inl h
  · intro P hP
    show ((q :: a.dir.map (·.1)).filter P) = ((q :: v.dir.map (·.1)).filter P)
    rw [List.filter_cons, List.filter_cons, hs.list P hP]

/-- The file behind a handle that is named where the process writes. -/
theorem wr (hs : Sim c R a v) {h : Nat} (hw : Wr c h a) : ∃ q, c.writes q ∧ v.look q = some (.file (v.fd h).ino) := by
  obtain ⟨hh, q, hq, hl⟩ := hw
  refine ⟨q, hq, ?_⟩
  have h1 := hs.names q (c.sub q hq)
  rw [hl] at h1
  have h2 := (hs.hand h hh.1 hh.2).1
  cases hv : v.look q with
  | none => rw [hv] at h1; exact h1.elim
  | some n =>
    rw [hv] at h1
    cases n with
    | dir => exact h1.elim
    | file j => rw [(hs.inj _ _ _ _ h1 h2).1 rfl]

end Sim

namespace Others
variable {F : Path → Prop}

/-- New content for a file that has a name in `F`. -/
theorem content {w w' : World} {i : Nat} {q : Path} (hF : F q) (hl : w.look q = some (.file i)) (hd : w'.dir = w.dir) (hn : w'.nextIno = w.nextIno) (hf : ∀ j, j ≠ i → w'.file j = w.file j) :
    Others F w.disk w'.disk := by
  have look : ∀ p, w'.look p = w.look p := fun p => World.look_congr hd p
  refine ⟨Nat.le_of_eq hn.symm, fun p => by rw [show lookDisk w'.disk p = w.look p from look p]; exact Iff.rfl, fun p _ => look p, fun p j h => .inl ((look p).symm.trans h), fun j _ hne => ?_, fun P _ => by rw [show w'.disk.dir = w.disk.dir from hd]⟩
  by_cases e : j = i
  · subst e; exact ⟨q, hF, hl⟩
  · exact absurd (hf j e) hne

theorem created (w : World) {q : Path} (hF : F q) (hl : w.look q = none) : Others F w.disk (w.created q).disk := by
  have hne : q ≠ [] := fun e => by subst e; rw [World.look_nil] at hl; cases hl
  have l := World.look_created w q
  refine ⟨Nat.le_succ _, fun p => ?_, fun p hp => ?_, fun p j h => ?_, fun j hj hc => ?_, fun P hP => ?_⟩
  · show (w.created q).look p = _ ↔ w.look p = _
    rw [l]; split
    · next e => rw [e, World.look_nil]
    · split
      · next e => rw [e, hl]; constructor <;> intro h <;> cases h
      · exact Iff.rfl
  · show (w.created q).look p = w.look p
    rw [l]; split
    · next e => rw [e, World.look_nil]
    · split
      · next e => exact absurd (e ▸ hF) hp
      · rfl
  · have h : (w.created q).look p = some (.file j) := h
    show w.look p = _ ∨ w.nextIno ≤ j
    rw [l] at h; split at h
    · cases h
    · split at h
      · cases h; exact .inr (Nat.le_refl _)
      · exact .inl h
  · refine absurd ?_ hc
    show (if j = w.nextIno then [] else w.file j) = w.file j
    have hj : j < w.nextIno := hj
    rw [if_neg (by omega)]
  · show (q :: w.dir.map (·.1)).filter P = (w.dir.map (·.1)).filter P
    rw [List.filter_cons, hP q hF]; rfl

theorem removed (w : World) {q : Path} {i : Nat} (hF : F q) (hl : w.look q = some (.file i)) : Others F w.disk (w.removed q).disk := by
  have l := World.look_removed w q
  refine ⟨Nat.le_refl _, fun p => ?_, fun p hp => ?_, fun p j h => ?_, fun j hj hc => absurd rfl hc, fun P hP => ?_⟩
  · show (w.removed q).look p = _ ↔ w.look p = _
    rw [l]; split
    · next e => rw [e.2, hl]; constructor <;> intro h <;> cases h
    · exact Iff.rfl
  · show (w.removed q).look p = w.look p
    rw [l]; split
    · next e => exact absurd (e.2 ▸ hF) hp
    · rfl
  · have h : (w.removed q).look p = some (.file j) := h
    show w.look p = _ ∨ _
    rw [l] at h; split at h
    · cases h
    · exact .inl h
  · show ((w.removed q).dir.map (·.1)).filter P = (w.dir.map (·.1)).filter P
    rw [keys_removed, List.filter_filter]
    congr 1; funext x
    by_cases e : x = q
    · subst e; rw [hP x hF]; rfl
    · simp [e]

end Others

/-! ## System calls on handles -/

/-- What a step leaves as it was. -/
abbrev K (a : World) (Q : α → World → Prop) : α → World → Prop := fun r w => Keeps a w ∧ Q r w

/-- A step that changes only what the process has for itself. -/
theorem Good.own {x : Prog ε α} {Q : α → World → Prop} (h1 : (x a).1 = (x v).1) (h2 : Sim c R (x a).2 (x v).2) (h3 : (x a).2.disk = a.disk) (h4 : (x v).2.disk = v.disk) (h5 : ∀ r, (x a).1 = .ok r → Q r (x a).2) :
    Good c R x Q a v := ⟨h1, R, Grow.refl .., h2, .of_eq h3, .of_eq h4, h5⟩

theorem keeps_sched (a : World) (s : List Io) : Keeps a { a with sched := s } := ⟨Nat.le_refl _, fun _ _ => rfl, fun _ _ h => h⟩

theorem keeps_setPos (a : World) (h p : Nat) : Keeps a (a.setPos h p) := ⟨Nat.le_refl _, fun x _ => by unfold World.setPos; simp only; split <;> simp [*], fun _ _ h => h⟩

theorem keeps_put (a : World) (h : Nat) (bs : Bytes) : Keeps a (a.put h bs) := ⟨Nat.le_refl _, fun x _ => by unfold World.put; simp only; split <;> simp [*], fun _ _ h => h⟩

theorem keeps_disk {a a' : World} (hd : a'.disk = a.disk) (hf : a'.fd = a.fd) (hn : a'.nextFd = a.nextFd) : Keeps a a' :=
  ⟨Nat.le_of_eq hn.symm, fun _ _ => by rw [hf], fun q i h => by rw [← h]; exact World.look_congr (congrArg Disk.dir hd) q⟩

/-- The next outcome is the same. -/
theorem pop_same (hs : Sim c R a v) : ∃ o s, a.pop = (o, { a with sched := s }) ∧ v.pop = (o, { v with sched := s }) ∧ Sim c R { a with sched := s } { v with sched := s } := by
  have h := hs.priv.sched
  unfold World.pop
  cases ha : a.sched with
  | nil =>
    rw [ha] at h
    refine ⟨.full, [], ?_, ?_, hs.sched _⟩
    · cases a; simp only at ha; subst ha; rfl
    · cases v; simp only at h; subst h; rfl
  | cons o s => rw [ha] at h; exact ⟨o, s, rfl, by rw [← h], hs.sched _⟩

/-- From the results of a step. -/
theorem Good.of {x : Prog ε α} {Q : α → World → Prop} {r : Res ε α} {a' v' : World} (ha : x a = (r, a')) (hv : x v = (r, v')) (hs : Sim c R a' v') (oa : Others c.writes a.disk a'.disk)
    (ov : Others c.writes v.disk v'.disk) (hq : ∀ y, r = .ok y → Q y a') : Good c R x Q a v := by
  unfold Good; rw [ha, hv]; exact ⟨rfl, R, Grow.refl .., hs, oa, ov, hq⟩

theorem good_read (hs : Sim c R a v) {h : Nat} (hh : Hand c h a) (n : Nat) : Good c R (read h n) (K a fun _ _ => True) a v := by
  obtain ⟨o, s, ea, ev, hs'⟩ := pop_same hs
  have hr : ({ a with sched := s } : World).rest h = ({ v with sched := s } : World).rest h := hs.rest hh
  have hp : (({ a with sched := s } : World).fd h).pos = (({ v with sched := s } : World).fd h).pos := (hs.hand h hh.1 hh.2).2
  have step (k : Nat) : Sim c R (({ a with sched := s } : World).adv h k) (({ v with sched := s } : World).adv h k) := by unfold World.adv; rw [hp]; exact hs'.setPos _ _
  cases o with
  | full =>
    unfold Good read; rw [ea, ev]; simp only; rw [hr]
    exact ⟨rfl, R, Grow.refl .., step _, .refl _, .refl _, fun _ _ => ⟨(keeps_sched a s).trans (keeps_setPos ..), trivial⟩⟩
  | short k =>
    unfold Good read; rw [ea, ev]; simp only; rw [hr]
    exact ⟨rfl, R, Grow.refl .., step _, .refl _, .refl _, fun _ _ => ⟨(keeps_sched a s).trans (keeps_setPos ..), trivial⟩⟩
  | intr => unfold Good read; rw [ea, ev]; exact ⟨rfl, R, Grow.refl .., hs', (.refl _), (.refl _), fun _ h => by cases h⟩
  | fail => unfold Good read; rw [ea, ev]; exact ⟨rfl, R, Grow.refl .., hs', (.refl _), (.refl _), fun _ h => by cases h⟩

theorem others_put {w : World} {h : Nat} {q : Path} {F : Path → Prop} (hF : F q) (hl : w.look q = some (.file (w.fd h).ino)) (bs : Bytes) : Others F w.disk (w.put h bs).disk :=
  .content hF hl rfl rfl fun j hj => if_neg hj

theorem good_write (hs : Sim c R a v) {h : Nat} (hw : Wr c h a) (bs : Bytes) : Good c R (write h bs) (K a fun _ _ => True) a v := by
  obtain ⟨o, s, ea, ev, hs'⟩ := pop_same hs
  obtain ⟨q', hF', hl'⟩ := hs.wr hw
  obtain ⟨hh, q, hF, hl⟩ := hw
  have oa (b : Bytes) : Others c.writes a.disk (({ a with sched := s } : World).put h b).disk := others_put (w := { a with sched := s }) hF hl b
  have ov (b : Bytes) : Others c.writes v.disk (({ v with sched := s } : World).put h b).disk := others_put (w := { v with sched := s }) hF' hl' b
  cases o with
  | full =>
    unfold Good write; rw [ea, ev]; exact ⟨rfl, R, Grow.refl .., (hs'.put hh bs), (oa _), (ov _), fun _ _ => ⟨(keeps_sched a s).trans (keeps_put ..), trivial⟩⟩
  | short k =>
    unfold Good write; rw [ea, ev]; exact ⟨rfl, R, Grow.refl .., (hs'.put hh _), (oa _), (ov _), fun _ _ => ⟨(keeps_sched a s).trans (keeps_put ..), trivial⟩⟩
  | intr => unfold Good write; rw [ea, ev]; exact ⟨rfl, R, Grow.refl .., hs', (.refl _), (.refl _), fun _ h => by cases h⟩
  | fail => unfold Good write; rw [ea, ev]; exact ⟨rfl, R, Grow.refl .., hs', (.refl _), (.refl _), fun _ h => by cases h⟩

theorem good_seekStart (hs : Sim c R a v) (h p : Nat) : Good c R (seekStart h p) (K a fun _ _ => True) a v := by
  obtain ⟨o, s, ea, ev, hs'⟩ := pop_same hs
  cases o with
  | full => unfold Good seekStart; rw [ea, ev]; exact ⟨rfl, R, Grow.refl .., (hs'.setPos h p), (.refl _), (.refl _), fun _ _ => ⟨(keeps_sched a s).trans (keeps_setPos ..), trivial⟩⟩
  | short k => unfold Good seekStart; rw [ea, ev]; exact ⟨rfl, R, Grow.refl .., (hs'.setPos h p), (.refl _), (.refl _), fun _ _ => ⟨(keeps_sched a s).trans (keeps_setPos ..), trivial⟩⟩
  | intr => unfold Good seekStart; rw [ea, ev]; exact ⟨rfl, R, Grow.refl .., hs', (.refl _), (.refl _), fun _ h => by cases h⟩
  | fail => unfold Good seekStart; rw [ea, ev]; exact ⟨rfl, R, Grow.refl .., hs', (.refl _), (.refl _), fun _ h => by cases h⟩

theorem good_rewind (hs : Sim c R a v) (h : Nat) : Good c R (rewind h) (K a fun _ _ => True) a v := good_seekStart hs h 0

theorem good_seekCur (hs : Sim c R a v) {h : Nat} (hh : Hand c h a) (d : Int) : Good c R (seekCur h d) (K a fun _ _ => True) a v := by
  obtain ⟨o, s, ea, ev, hs'⟩ := pop_same hs
  have hp : (({ a with sched := s } : World).fd h).pos = (({ v with sched := s } : World).fd h).pos := (hs.hand h hh.1 hh.2).2
  by_cases hn : ((({ a with sched := s } : World).fd h).pos : Int) + d < 0
  · have hn' := hp ▸ hn
    cases o with
    | full => unfold Good seekCur; rw [ea, ev]; simp only; rw [if_pos hn, if_pos hn']; exact ⟨rfl, R, Grow.refl .., hs', .refl _, .refl _, fun _ h => by cases h⟩
    | short k => unfold Good seekCur; rw [ea, ev]; simp only; rw [if_pos hn, if_pos hn']; exact ⟨rfl, R, Grow.refl .., hs', .refl _, .refl _, fun _ h => by cases h⟩
    | intr => unfold Good seekCur; rw [ea, ev]; exact ⟨rfl, R, Grow.refl .., hs', (.refl _), (.refl _), fun _ h => by cases h⟩
    | fail => unfold Good seekCur; rw [ea, ev]; exact ⟨rfl, R, Grow.refl .., hs', (.refl _), (.refl _), fun _ h => by cases h⟩
  · have hn' := hp ▸ hn
    have step : Sim c R (({ a with sched := s } : World).setPos h (((({ a with sched := s } : World).fd h).pos : Int) + d).toNat) (({ v with sched := s } : World).setPos h (((({ v with sched := s } : World).fd h).pos : Int) + d).toNat) := by
      rw [hp]; exact hs'.setPos _ _
    cases o with
    | full => unfold Good seekCur; rw [ea, ev]; simp only; rw [if_neg hn, if_neg hn']; exact ⟨rfl, R, Grow.refl .., step, .refl _, .refl _, fun _ _ => ⟨(keeps_sched a s).trans (keeps_setPos ..), trivial⟩⟩
    | short k => unfold Good seekCur; rw [ea, ev]; simp only; rw [if_neg hn, if_neg hn']; exact ⟨rfl, R, Grow.refl .., step, .refl _, .refl _, fun _ _ => ⟨(keeps_sched a s).trans (keeps_setPos ..), trivial⟩⟩
    | intr => unfold Good seekCur; rw [ea, ev]; exact ⟨rfl, R, Grow.refl .., hs', (.refl _), (.refl _), fun _ h => by cases h⟩
    | fail => unfold Good seekCur; rw [ea, ev]; exact ⟨rfl, R, Grow.refl .., hs', (.refl _), (.refl _), fun _ h => by cases h⟩

theorem good_sysRetry (hs : Sim c R a v) : Good c R sysRetry (K a fun _ _ => True) a v := by
  obtain ⟨o, s, ea, ev, hs'⟩ := pop_same hs
  cases o <;> (unfold Good sysRetry; rw [ea, ev]; exact ⟨rfl, R, Grow.refl .., hs', (.refl _), (.refl _), fun _ _ => ⟨keeps_sched a s, trivial⟩⟩)

theorem good_sys (hs : Sim c R a v) : Good c R sys (K a fun _ _ => True) a v := by
  obtain ⟨o, s, ea, ev, hs'⟩ := pop_same hs
  cases o <;> (unfold Good sys; rw [ea, ev]; exact ⟨rfl, R, Grow.refl .., hs', (.refl _), (.refl _), fun _ _ => ⟨keeps_sched a s, trivial⟩⟩)

theorem good_flush (hs : Sim c R a v) (h : Nat) : Good c R (flush h) (K a fun _ _ => True) a v := by
  obtain ⟨o, s, ea, ev, hs'⟩ := pop_same hs
  cases o <;> (unfold Good flush; rw [ea, ev]; exact ⟨rfl, R, Grow.refl .., hs', (.refl _), (.refl _), fun _ _ => ⟨keeps_sched a s, trivial⟩⟩)

/-! ## Loops over system calls -/

/-- Two runs of the same loop. -/
def Pair (c : Cfg) (R : Nat → Nat → Prop) (a0 v0 : World) (x y : Res ε α × World) : Prop :=
  x.1 = y.1 ∧ Sim c R x.2 y.2 ∧ Others c.writes a0.disk x.2.disk ∧ Others c.writes v0.disk y.2.disk ∧ Keeps a0 x.2

theorem Pair.good {x : Prog ε α} (h : Pair c R a v (x a) (x v)) : Good c R x (K a fun _ _ => True) a v :=
  ⟨h.1, R, Grow.refl .., h.2.1, h.2.2.1, h.2.2.2.1, fun _ _ => ⟨h.2.2.2.2, trivial⟩⟩

theorem readLoop_same {h : Nat} : ∀ (s : List Io) (n : Nat) (acc : Bytes) {a v : World}, Sim c R a v → Hand c h a → Pair c R a v (readLoop h s n acc a) (readLoop h s n acc v) := by
  intro s
  induction s with
  | nil =>
    intro n acc a v hs hh
    unfold readLoop
    simp only
    rw [hs.rest hh]
    refine ⟨rfl, ?_, .refl _, .refl _, (keeps_setPos ..).trans (keeps_sched _ _)⟩
    unfold World.adv
    rw [(hs.hand h hh.1 hh.2).2]
    exact (hs.setPos _ _).sched _
  | cons o s ih =>
    intro n acc a v hs hh
    unfold readLoop
    by_cases hn : n = 0
    · rw [if_pos hn, if_pos hn]; exact ⟨rfl, hs.sched _, .refl _, .refl _, keeps_sched _ _⟩
    · rw [if_neg hn, if_neg hn]
      have go (k : Nat) : Pair c R a v
          (if (v.rest h).take k = [] then (.ok acc, { a with sched := s }) else readLoop h s (n - ((v.rest h).take k).length) (acc ++ (v.rest h).take k) (a.adv h ((v.rest h).take k).length))
          (if (v.rest h).take k = [] then (.ok acc, { v with sched := s }) else readLoop h s (n - ((v.rest h).take k).length) (acc ++ (v.rest h).take k) (v.adv h ((v.rest h).take k).length)) := by
        split
        · exact ⟨rfl, hs.sched _, .refl _, .refl _, keeps_sched _ _⟩
        · have hs' : Sim c R (a.adv h ((v.rest h).take k).length) (v.adv h ((v.rest h).take k).length) := by
            unfold World.adv; rw [(hs.hand h hh.1 hh.2).2]; exact hs.setPos _ _
          obtain ⟨h1, h2, h3, h4, h5⟩ := ih (n - ((v.rest h).take k).length) (acc ++ (v.rest h).take k) hs' hh
          exact ⟨h1, h2, h3, h4, (keeps_setPos ..).trans h5⟩
      cases o with
      | full => simp only; rw [hs.rest hh]; exact go n
      | short k => simp only; rw [hs.rest hh]; exact go _
      | intr => exact ih n acc hs hh
      | fail => exact ⟨rfl, hs.sched _, .refl _, .refl _, keeps_sched _ _⟩

theorem good_readUpTo (hs : Sim c R a v) {h : Nat} (hh : Hand c h a) (n : Nat) : Good c R (readUpTo h n) (K a fun _ _ => True) a v := by
  apply Pair.good
  unfold readUpTo
  rw [hs.priv.sched]
  exact readLoop_same _ _ _ hs hh

theorem good_readToEnd (hs : Sim c R a v) {h : Nat} (hh : Hand c h a) : Good c R (readToEnd h) (K a fun _ _ => True) a v := by
  apply Pair.good
  unfold readToEnd readUpTo
  rw [hs.priv.sched, hs.rest hh]
  exact readLoop_same _ _ _ hs hh

theorem good_readExact (hs : Sim c R a v) {h : Nat} (hh : Hand c h a) (n : Nat) : Good c R (readExact h n) (K a fun _ _ => True) a v := by
  refine (good_readUpTo hs hh n).bind fun b a' v' R' hs' hk => ?_
  split
  · exact Good.pure hs' b ⟨hk.1, trivial⟩
  · exact Good.lift hs' (Res.err IoErr.unexpectedEof) fun _ h => by cases h

theorem Wr.sim {h : Nat} (hw : Wr c h a) (bs : Bytes) : Wr c h (a.put h bs) := hw.keeps (keeps_put ..)

theorem writeLoop_same {h : Nat} : ∀ (s : List Io) (bs : Bytes) {a v : World}, Sim c R a v → Wr c h a → Pair c R a v (writeLoop h s bs a) (writeLoop h s bs v) := by
  intro s
  induction s with
  | nil =>
    intro bs a v hs hw
    unfold writeLoop
    split
    · exact ⟨rfl, hs.sched _, .refl _, .refl _, keeps_sched _ _⟩
    · obtain ⟨q', hF', hl'⟩ := hs.wr hw
      obtain ⟨q, hF, hl⟩ := hw.2
      exact ⟨rfl, (hs.put hw.1 _).sched _, others_put hF hl _, others_put hF' hl' _, (keeps_put ..).trans (keeps_sched _ _)⟩
  | cons o s ih =>
    intro bs a v hs hw
    unfold writeLoop
    split
    · exact ⟨rfl, hs.sched _, .refl _, .refl _, keeps_sched _ _⟩
    · obtain ⟨q', hF', hl'⟩ := hs.wr hw
      obtain ⟨q, hF, hl⟩ := hw.2
      cases o with
      | full => exact ⟨rfl, (hs.put hw.1 _).sched _, others_put hF hl _, others_put hF' hl' _, (keeps_put ..).trans (keeps_sched _ _)⟩
      | short k =>
        simp only
        split
        · exact ⟨rfl, hs.sched _, .refl _, .refl _, keeps_sched _ _⟩
        · obtain ⟨h1, h2, h3, h4, h5⟩ := ih (bs.drop k) (hs.put hw.1 (bs.take k)) (hw.sim _)
          exact ⟨h1, h2, (others_put hF hl _).trans h3, (others_put hF' hl' _).trans h4, (keeps_put ..).trans h5⟩
      | intr => exact ih bs hs hw
      | fail => exact ⟨rfl, hs.sched _, .refl _, .refl _, keeps_sched _ _⟩

theorem good_writeAll (hs : Sim c R a v) {h : Nat} (hw : Wr c h a) (bs : Bytes) : Good c R (writeAll h bs) (K a fun _ _ => True) a v := by
  apply Pair.good
  unfold writeAll
  rw [hs.priv.sched]
  exact writeLoop_same _ _ hs hw

theorem good_fileLen (hs : Sim c R a v) {h : Nat} (hh : Hand c h a) : Good c R (fileLen h) (K a fun _ _ => True) a v := by
  refine (good_sys hs).bind fun _ a' v' R' hs' hk => ?_
  have hh' := hh.keeps hk.1
  exact Good.of (r := .ok (a'.data h).length) rfl (by unfold lenAt; rw [hs'.data hh']) hs' (.refl _) (.refl _) fun _ _ => ⟨hk.1, trivial⟩

theorem good_setLen0 (hs : Sim c R a v) {h : Nat} (hw : Wr c h a) : Good c R (setLen0 h) (K a fun _ _ => True) a v := by
  refine (good_sysRetry hs).bind fun _ a' v' R' hs' hk => ?_
  have hw' := hw.keeps hk.1
  obtain ⟨q', hF', hl'⟩ := hs'.wr hw'
  obtain ⟨q, hF, hl⟩ := hw'.2
  exact Good.of (r := .ok ()) rfl rfl (hs'.truncated (hs'.hand h hw'.1.1 hw'.1.2).1) (.content hF hl rfl rfl fun j hj => if_neg hj) (.content hF' hl' rfl rfl fun j hj => if_neg hj)
    fun _ _ => ⟨hk.1.trans ⟨Nat.le_refl _, fun _ _ => rfl, fun _ _ h => h⟩, trivial⟩

/-! ## System calls on names -/

/-- The path leads to `q`, whatever files come and go, as long as the directories stay. -/
def Leads (c : Cfg) (p : PathBuf) (q : Path) : Prop := ∀ w : World, (∀ q, w.look q = some .dir ↔ c.dirs q) → w.resolve p = .ok q

theorem walk_dirs {w w' : World} (h : ∀ q, w'.look q = some .dir ↔ w.look q = some .dir) : ∀ (cs : List Comp) (cur q : Path), w.walk cur cs = .ok q → w'.walk cur cs = .ok q
  | [], cur, q, hq => hq
  | x :: cs, cur, q, hq => by
    unfold World.walk at hq ⊢
    cases hl : w.look cur with
    | none => rw [hl] at hq; cases hq
    | some n =>
      cases n with
      | file i => rw [hl] at hq; cases hq
      | dir =>
        rw [hl] at hq
        rw [(h cur).2 hl]
        cases x <;> exact walk_dirs h cs _ q hq

theorem Leads.of {w : World} {p : PathBuf} {q : Path} (hd : ∀ q, w.look q = some .dir ↔ c.dirs q) (h : w.resolve p = .ok q) : Leads c p q :=
  fun _ hd' => walk_dirs (fun q => (hd' q).trans (hd q).symm) _ _ _ h

theorem Sim.la (hs : Sim c R a v) {p : PathBuf} {q : Path} (h : Leads c p q) : a.resolve p = .ok q := h a hs.dira
theorem Sim.lv (hs : Sim c R a v) {p : PathBuf} {q : Path} (h : Leads c p q) : v.resolve p = .ok q := h v hs.dirv

/-- What is at a place that the process uses. -/
theorem Sim.at (hs : Sim c R a v) {q : Path} (hq : c.uses q) : (a.look q = none ∧ v.look q = none) ∨ (a.look q = some .dir ∧ v.look q = some .dir) ∨ ∃ i j, a.look q = some (.file i) ∧ v.look q = some (.file j) ∧ R i j := by
  have h := hs.names q hq
  revert h
  cases a.look q with
  | none => cases v.look q with
    | none => exact fun _ => .inl ⟨rfl, rfl⟩
    | some n => cases n <;> exact fun h => h.elim
  | some m => cases m with
    | dir => cases v.look q with
      | none => exact fun h => h.elim
      | some n => cases n with
        | dir => exact fun _ => .inr (.inl ⟨rfl, rfl⟩)
        | file j => exact fun h => h.elim
    | file i => cases v.look q with
      | none => exact fun h => h.elim
      | some n => cases n with
        | dir => exact fun h => h.elim
        | file j => exact fun h => .inr (.inr ⟨i, j, rfl, rfl, h⟩)

theorem good_isDir (hs : Sim c R a v) {p : PathBuf} {q : Path} (hl : Leads c p q) : Good (ε := ε) c R (isDir p) (K a fun b _ => b = true ↔ c.dirs q) a v := by
  have ha : a.isDirAt p = decide (a.look q = some .dir) := by unfold World.isDirAt; rw [hs.la hl]
  have hv : v.isDirAt p = decide (v.look q = some .dir) := by unfold World.isDirAt; rw [hs.lv hl]
  have : decide (a.look q = some .dir) = decide (v.look q = some .dir) := decide_eq_decide.2 ((hs.dira q).trans (hs.dirv q).symm)
  exact Good.of (r := .ok (decide (a.look q = some .dir))) (by unfold isDir; rw [ha]) (by unfold isDir; rw [hv, this]) hs (.refl _) (.refl _) fun b hb => by
    cases hb; exact ⟨.refl _, decide_eq_true_iff.trans (hs.dira q)⟩

theorem good_existsAt (hs : Sim c R a v) {p : PathBuf} {q : Path} (hl : Leads c p q) (hq : c.uses q) : Good (ε := ε) c R (existsAt p) (K a fun _ _ => True) a v := by
  have : (a.look q).isSome = (v.look q).isSome := by
    rcases hs.at hq with ⟨h1, h2⟩ | ⟨h1, h2⟩ | ⟨i, j, h1, h2, _⟩ <;> rw [h1, h2] <;> rfl
  exact Good.of (r := .ok (a.look q).isSome) (by unfold existsAt; rw [hs.la hl]) (by unfold existsAt; rw [hs.lv hl]; simp only; rw [this]) hs (.refl _) (.refl _) fun _ _ => ⟨.refl _, trivial⟩

theorem keeps_opened (a : World) (i : Nat) : Keeps a (a.opened i) := ⟨Nat.le_succ _, fun x hx => by
  unfold World.opened; simp only; rw [if_neg (by omega)], fun _ _ h => h⟩

theorem hand_opened (hs : Sim c R a v) (i : Nat) : Hand c a.nextFd (a.opened i) := ⟨hs.base, Nat.lt_succ_self _⟩

theorem opened_ino (a : World) (i : Nat) : ((a.opened i).fd a.nextFd).ino = i := by unfold World.opened; simp

theorem good_openFile (hs : Sim c R a v) {p : PathBuf} {q : Path} (hl : Leads c p q) (hq : c.uses q) : Good c R (openFile p) (K a fun h w => Hand c h w) a v := by
  refine (good_sysRetry hs).bind fun _ a' v' R' hs' hk => ?_
  rcases hs'.at hq with ⟨h1, h2⟩ | ⟨h1, h2⟩ | ⟨i, j, h1, h2, hr⟩
  · exact Good.of (r := .err .notFound) (by unfold openAt; rw [hs'.la hl]; simp only; rw [h1]) (by unfold openAt; rw [hs'.lv hl]; simp only; rw [h2]) hs' (.refl _) (.refl _) fun _ h => by cases h
  · exact Good.of (r := .err .other) (by unfold openAt; rw [hs'.la hl]; simp only; rw [h1]) (by unfold openAt; rw [hs'.lv hl]; simp only; rw [h2]) hs' (.refl _) (.refl _) fun _ h => by cases h
  · exact Good.of (r := .ok a'.nextFd) (by unfold openAt; rw [hs'.la hl]; simp only; rw [h1]) (by unfold openAt; rw [hs'.lv hl]; simp only; rw [h2, hs'.nextFd]) (hs'.opened hr) (.refl _) (.refl _) fun _ h => by
      cases h; exact ⟨hk.1.trans (keeps_opened ..), hand_opened hs' i⟩

theorem good_openTrunc (hs : Sim c R a v) {p : PathBuf} {q : Path} (hl : Leads c p q) (hq : c.writes q) : Good c R (openTrunc p) (K a fun h w => Wr c h w) a v := by
  refine (good_sysRetry hs).bind fun _ a' v' R' hs' hk => ?_
  rcases hs'.at (c.sub q hq) with ⟨h1, h2⟩ | ⟨h1, h2⟩ | ⟨i, j, h1, h2, hr⟩
  · exact Good.of (r := .err .notFound) (by unfold openTruncAt; rw [hs'.la hl]; simp only; rw [h1]) (by unfold openTruncAt; rw [hs'.lv hl]; simp only; rw [h2]) hs' (.refl _) (.refl _) fun _ h => by cases h
  · exact Good.of (r := .err .other) (by unfold openTruncAt; rw [hs'.la hl]; simp only; rw [h1]) (by unfold openTruncAt; rw [hs'.lv hl]; simp only; rw [h2]) hs' (.refl _) (.refl _) fun _ h => by cases h
  · refine Good.of (r := .ok a'.nextFd) (by unfold openTruncAt; rw [hs'.la hl]; simp only; rw [h1]) (by unfold openTruncAt; rw [hs'.lv hl]; simp only; rw [h2, hs'.nextFd]) ((hs'.opened hr).truncated hr)
      (.content hq h1 rfl rfl fun j hj => if_neg hj) (.content hq h2 rfl rfl fun j hj => if_neg hj) fun _ h => ?_
    cases h
    exact ⟨hk.1.trans ((keeps_opened ..).trans ⟨Nat.le_refl _, fun _ _ => rfl, fun _ _ h => h⟩), hand_opened hs' i, q, hq, by
      show a'.look q = some (.file ((a'.opened i).fd a'.nextFd).ino); rw [opened_ino]; exact h1⟩

theorem keeps_created {q : Path} (hl : a.look q = none) : Keeps a (a.created q) := ⟨Nat.le_refl _, fun _ _ => rfl, fun p i h => by
  rw [World.look_created]
  split
  · next e => rw [e, World.look_nil] at h; cases h
  · split
    · next e => rw [e, hl] at h; cases h
    · exact h⟩

theorem good_openNew (hs : Sim c R a v) {p : PathBuf} {q : Path} (hl : Leads c p q) (hq : c.writes q) : Good c R (openNew p) (K a fun h w => Wr c h w) a v := by
  refine (good_sysRetry hs).bind fun _ a' v' R' hs' hk => ?_
  rcases hs'.at (c.sub q hq) with ⟨h1, h2⟩ | ⟨h1, h2⟩ | ⟨i, j, h1, h2, hr⟩
  · have hd : a'.look q.dropLast = some .dir ↔ v'.look q.dropLast = some .dir := (hs'.dira _).trans (hs'.dirv _).symm
    by_cases hp : a'.look q.dropLast = some .dir
    · have hne : q ≠ [] := fun e => by subst e; rw [World.look_nil] at h1; cases h1
      have ea : openNewAt p a' = (.ok a'.nextFd, (a'.created q).opened a'.nextIno) := by unfold openNewAt; rw [hs'.la hl]; simp only; rw [h1]; simp only; rw [if_pos hp]
      have ev : openNewAt p v' = (.ok a'.nextFd, (v'.created q).opened v'.nextIno) := by unfold openNewAt; rw [hs'.lv hl]; simp only; rw [h2]; simp only; rw [if_pos (hd.1 hp), hs'.nextFd]
      have sim := (hs'.created h1 h2).opened (.inr ⟨rfl, rfl⟩)
      unfold Good
      rw [ea, ev]
      refine ⟨rfl, _, ⟨fun _ _ h => .inl h, fun i j h => h.imp id fun h => by omega⟩, sim, .created a' hq h1, .created v' hq h2, fun r hr => ?_⟩
      cases hr
      refine ⟨hk.1.trans ((keeps_created h1).trans (keeps_opened ..)), ⟨hs'.base, Nat.lt_succ_self _⟩, q, hq, ?_⟩
      rw [World.look_opened, World.look_created, if_neg hne, if_pos rfl]
      exact congrArg (fun i => some (Node.file i)) (opened_ino (a'.created q) a'.nextIno).symm
    · exact Good.of (r := .err .notFound) (by unfold openNewAt; rw [hs'.la hl]; simp only; rw [h1]; simp only; rw [if_neg hp])
        (by unfold openNewAt; rw [hs'.lv hl]; simp only; rw [h2]; simp only; rw [if_neg fun h => hp (hd.2 h)]) hs' (.refl _) (.refl _) fun _ h => by cases h
  · exact Good.of (r := .err .alreadyExists) (by unfold openNewAt; rw [hs'.la hl]; simp only; rw [h1]) (by unfold openNewAt; rw [hs'.lv hl]; simp only; rw [h2]) hs' (.refl _) (.refl _) fun _ h => by cases h
  · exact Good.of (r := .err .alreadyExists) (by unfold openNewAt; rw [hs'.la hl]; simp only; rw [h1]) (by unfold openNewAt; rw [hs'.lv hl]; simp only; rw [h2]) hs' (.refl _) (.refl _) fun _ h => by cases h

theorem good_unlink (hs : Sim c R a v) {p : PathBuf} {q : Path} (hl : Leads c p q) (hq : c.writes q) : Good c R (unlink p) (fun _ _ => True) a v := by
  refine (good_sys hs).bind fun _ a' v' R' hs' hk => ?_
  rcases hs'.at (c.sub q hq) with ⟨h1, h2⟩ | ⟨h1, h2⟩ | ⟨i, j, h1, h2, hr⟩
  · exact Good.of (r := .err .notFound) (by unfold unlinkAt; rw [hs'.la hl]; simp only; rw [h1]) (by unfold unlinkAt; rw [hs'.lv hl]; simp only; rw [h2]) hs' (.refl _) (.refl _) fun _ h => by cases h
  · exact Good.of (r := .err .other) (by unfold unlinkAt; rw [hs'.la hl]; simp only; rw [h1]) (by unfold unlinkAt; rw [hs'.lv hl]; simp only; rw [h2]) hs' (.refl _) (.refl _) fun _ h => by cases h
  · exact Good.of (r := .ok ()) (by unfold unlinkAt; rw [hs'.la hl]; simp only; rw [h1]) (by unfold unlinkAt; rw [hs'.lv hl]; simp only; rw [h2]) (hs'.removed (c.sub q hq) h1) (.removed a' hq h1) (.removed v' hq h2)
      fun _ _ => trivial

end Volaris.Conc
