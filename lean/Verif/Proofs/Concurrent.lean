import Verif.Spec.Concurrent
import Verif.Proofs.Fs
import Verif.Proofs.Thread
/-!
# A process among others does what it does alone

`Sim`: the world `a` of a process that runs alone, and what the same process sees, `v`, when others run too.  The numbers of files may differ, `R` says which belong together.
-/
namespace Volaris.Conc
open Volaris.Spec

/-- The same thing at a place, up to the numbers of files. -/
def Rel (R : Nat → Nat → Prop) : Option Node → Option Node → Prop
  | none, none => True
  | some .dir, some .dir => True
  | some (.file i), some (.file j) => R i j
  | _, _ => False

/-- What does not change while a process runs: from which handle on the handles are its own, the places it uses, those it writes, and the directories. -/
structure Cfg where
  base : Nat
  uses : Path → Prop
  writes : Path → Prop
  dirs : Path → Prop
  sub : ∀ q, writes q → uses q

/-- What is the process's own is the same. -/
structure Priv (a v : World) : Prop where
  sched : a.sched = v.sched
  rng : a.rng = v.rng
  stdin : a.stdin = v.stdin
  tty : a.tty = v.tty
  env : a.env = v.env
  out : a.out = v.out
  log : a.log.length = v.log.length

/-- See the head of this file. -/
structure Sim (c : Cfg) (R : Nat → Nat → Prop) (a v : World) : Prop where
  priv : Priv a v
  nextFd : a.nextFd = v.nextFd
  base : c.base ≤ a.nextFd
  hand : ∀ h, c.base ≤ h → h < a.nextFd → R (a.fd h).ino (v.fd h).ino ∧ (a.fd h).pos = (v.fd h).pos
  inj : ∀ i j i' j', R i j → R i' j' → (i = i' ↔ j = j')
  file : ∀ i j, R i j → a.file i = v.file j
  olda : ∀ i j, R i j → i < a.nextIno
  oldv : ∀ i j, R i j → j < v.nextIno
  alla : ∀ q i, a.look q = some (.file i) → i < a.nextIno
  allv : ∀ q i, v.look q = some (.file i) → i < v.nextIno
  dira : ∀ q, a.look q = some .dir ↔ c.dirs q
  dirv : ∀ q, v.look q = some .dir ↔ c.dirs q
  names : ∀ q, c.uses q → Rel R (a.look q) (v.look q)
  list : ∀ P : Path → Bool, (∀ q, P q = true → c.uses q) → (a.dir.map (·.1)).filter P = (v.dir.map (·.1)).filter P

/-- What a process may do to the disk: only at the places `F`, and only to the files that have a name there. -/
structure Others (F : Path → Prop) (d d' : Disk) : Prop where
  mono : d.nextIno ≤ d'.nextIno
  dirs : ∀ q, lookDisk d' q = some .dir ↔ lookDisk d q = some .dir
  look : ∀ q, ¬ F q → lookDisk d' q = lookDisk d q
  old : ∀ q j, lookDisk d' q = some (.file j) → lookDisk d q = some (.file j) ∨ d.nextIno ≤ j
  file : ∀ j, j < d.nextIno → d'.file j ≠ d.file j → ∃ q, F q ∧ lookDisk d q = some (.file j)
  list : ∀ P : Path → Bool, (∀ q, F q → P q = false) → (d'.dir.map (·.1)).filter P = (d.dir.map (·.1)).filter P

namespace Others
variable {F : Path → Prop}

theorem refl (d : Disk) : Others F d d := ⟨Nat.le_refl _, fun _ => Iff.rfl, fun _ _ => rfl, fun _ _ h => .inl h, fun _ _ h => absurd rfl h, fun _ _ => rfl⟩

theorem trans {d d' d'' : Disk} (h : Others F d d') (h' : Others F d' d'') : Others F d d'' where
  mono := Nat.le_trans h.mono h'.mono
  dirs q := (h'.dirs q).trans (h.dirs q)
  look q hq := (h'.look q hq).trans (h.look q hq)
  old q j hq := by
    rcases h'.old q j hq with h1 | h1
    · exact h.old q j h1
    · exact .inr (Nat.le_trans h.mono h1)
  file j hj hne := by
    by_cases h1 : d'.file j = d.file j
    · obtain ⟨q, hF, hq⟩ := h'.file j (Nat.lt_of_lt_of_le hj h.mono) (by rw [h1]; exact hne)
      rcases h.old q j hq with h2 | h2
      · exact ⟨q, hF, h2⟩
      · omega
    · exact h.file j hj h1
  list P hP := (h'.list P hP).trans (h.list P hP)

theorem of_eq {d d' : Disk} (h : d' = d) : Others F d d' := by rw [h]; exact refl _

end Others

/-- More files belong together: only new ones. -/
def Grow (R R' : Nat → Nat → Prop) (a v : World) : Prop := (∀ i j, R i j → R' i j) ∧ ∀ i j, R' i j → R i j ∨ (a.nextIno ≤ i ∧ v.nextIno ≤ j)

theorem Grow.refl (R : Nat → Nat → Prop) (a v : World) : Grow R R a v := ⟨fun _ _ h => h, fun _ _ h => .inl h⟩

theorem Grow.trans {R R' R'' : Nat → Nat → Prop} {a v a' v' : World} (h : Grow R R' a v) (h' : Grow R' R'' a' v') (ha : a.nextIno ≤ a'.nextIno) (hv : v.nextIno ≤ v'.nextIno) : Grow R R'' a v := by
  refine ⟨fun i j hr => h'.1 i j (h.1 i j hr), fun i j hr => ?_⟩
  rcases h'.2 i j hr with h1 | ⟨h1, h2⟩
  · exact h.2 i j h1
  · exact .inr ⟨Nat.le_trans ha h1, Nat.le_trans hv h2⟩

/-- The handles of the process still lead to the same files, and files still have the names they had. -/
structure Keeps (a a' : World) : Prop where
  fds : a.nextFd ≤ a'.nextFd
  ino : ∀ h, h < a.nextFd → (a'.fd h).ino = (a.fd h).ino
  look : ∀ q i, a.look q = some (.file i) → a'.look q = some (.file i)

theorem Keeps.refl (a : World) : Keeps a a := ⟨Nat.le_refl _, fun _ _ => rfl, fun _ _ h => h⟩

theorem Keeps.trans {a b d : World} (h : Keeps a b) (h' : Keeps b d) : Keeps a d :=
  ⟨Nat.le_trans h.fds h'.fds, fun x hx => (h'.ino x (Nat.lt_of_lt_of_le hx h.fds)).trans (h.ino x hx), fun q i hq => h'.look q i (h.look q i hq)⟩

/-- An open handle of the process. -/
def Hand (c : Cfg) (h : Nat) (a : World) : Prop := c.base ≤ h ∧ h < a.nextFd

/-- The file behind the handle has a name where the process writes. -/
def Wr (c : Cfg) (h : Nat) (a : World) : Prop := Hand c h a ∧ ∃ q, c.writes q ∧ a.look q = some (.file (a.fd h).ino)

theorem Hand.keeps {c : Cfg} {h : Nat} {a a' : World} (hh : Hand c h a) (k : Keeps a a') : Hand c h a' := ⟨hh.1, Nat.lt_of_lt_of_le hh.2 k.fds⟩

theorem Wr.keeps {c : Cfg} {h : Nat} {a a' : World} (hh : Wr c h a) (k : Keeps a a') : Wr c h a' := by
  obtain ⟨h1, q, hq, hl⟩ := hh
  exact ⟨h1.keeps k, q, hq, by rw [k.ino h h1.2]; exact k.look q _ hl⟩

variable {c : Cfg} {R : Nat → Nat → Prop} {a v : World} {ε ε' α β : Type}

/-- One step, made by the process alone and among others: the same result, and the two still belong together. -/
def Good (c : Cfg) (R : Nat → Nat → Prop) (x : Prog ε α) (Q : α → World → Prop) (a v : World) : Prop :=
  (x a).1 = (x v).1 ∧ ∃ R', Grow R R' a v ∧ Sim c R' (x a).2 (x v).2 ∧ Others c.writes a.disk (x a).2.disk ∧ Others c.writes v.disk (x v).2.disk ∧ ∀ r, (x a).1 = .ok r → Q r (x a).2

namespace Good
variable {x : Prog ε α} {Q : α → World → Prop}

theorem mono {Q' : α → World → Prop} (h : Good c R x Q a v) (hq : ∀ r w, Q r w → Q' r w) : Good c R x Q' a v := by
  obtain ⟨h1, R', h2, h3, h4, h5, h6⟩ := h
  exact ⟨h1, R', h2, h3, h4, h5, fun r hr => hq r _ (h6 r hr)⟩

theorem bind {f : α → Prog ε β} {Q' : β → World → Prop} (h : Good c R x Q a v) (hf : ∀ r a' v' R', Sim c R' a' v' → Q r a' → Good c R' (f r) Q' a' v') : Good c R (x >>= f) Q' a v := by
  obtain ⟨h1, R', h2, h3, h4, h5, h6⟩ := h
  unfold Good
  rw [Prog.bind_run, Prog.bind_run]
  rcases hx : x a with ⟨r, a'⟩
  rcases hy : x v with ⟨r', v'⟩
  rw [hx, hy] at h1 h3
  rw [hx] at h4 h6
  rw [hy] at h5
  simp only at h1 h3 h4 h5 h6
  subst h1
  cases r with
  | err e => exact ⟨rfl, R', h2, h3, h4, h5, fun r hr => by cases hr⟩
  | abort e => exact ⟨rfl, R', h2, h3, h4, h5, fun r hr => by cases hr⟩
  | ok r =>
    obtain ⟨g1, R'', g2, g3, g4, g5, g6⟩ := hf r a' v' R' h3 (h6 r rfl)
    exact ⟨g1, R'', h2.trans g2 h4.mono h5.mono, g3, h4.trans g4, h5.trans g5, g6⟩

theorem mapErr {f : ε → ε'} (h : Good c R x Q a v) : Good c R (x.mapErr f) Q a v := by
  obtain ⟨h1, R', h2, h3, h4, h5, h6⟩ := h
  unfold Good
  rw [Prog.mapErr_run, Prog.mapErr_run]
  rcases hx : x a with ⟨r, a'⟩
  rcases hy : x v with ⟨r', v'⟩
  rw [hx, hy] at h1 h3
  rw [hx] at h4 h6
  rw [hy] at h5
  simp only at h1 h3 h4 h5 h6
  subst h1
  cases r with
  | err e => exact ⟨rfl, R', h2, h3, h4, h5, fun r hr => by cases hr⟩
  | abort e => exact ⟨rfl, R', h2, h3, h4, h5, fun r hr => by cases hr⟩
  | ok r => exact ⟨rfl, R', h2, h3, h4, h5, fun r' hr => by cases hr; exact h6 r rfl⟩

theorem attempt (h : Good c R x Q a v) : Good c R (Prog.attempt (ε' := ε') x) (fun r w => ∀ y, r = .ok y → Q y w) a v := by
  obtain ⟨h1, R', h2, h3, h4, h5, h6⟩ := h
  unfold Good Prog.attempt
  rcases hx : x a with ⟨r, a'⟩
  rcases hy : x v with ⟨r', v'⟩
  rw [hx, hy] at h1 h3
  rw [hx] at h4 h6
  rw [hy] at h5
  simp only at h1 h3 h4 h5 h6
  subst h1
  cases r with
  | err e => exact ⟨rfl, R', h2, h3, h4, h5, fun r hr => by cases hr; intro y hy; cases hy⟩
  | abort e => exact ⟨rfl, R', h2, h3, h4, h5, fun r hr => by cases hr⟩
  | ok r => exact ⟨rfl, R', h2, h3, h4, h5, fun r' hr => by cases hr; intro y hy; cases hy; exact h6 r rfl⟩

/-- Nothing happens. -/
theorem lift (hs : Sim c R a v) (r : Res ε α) (hq : ∀ y, r = .ok y → Q y a) : Good c R (Prog.lift r) Q a v :=
  ⟨rfl, R, Grow.refl .., hs, .refl _, .refl _, hq⟩

theorem pure (hs : Sim c R a v) (y : α) (hq : Q y a) : Good (ε := ε) c R (Pure.pure y) Q a v := ⟨rfl, R, Grow.refl .., hs, .refl _, .refl _, fun r hr => by cases hr; exact hq⟩

end Good

end Volaris.Conc
