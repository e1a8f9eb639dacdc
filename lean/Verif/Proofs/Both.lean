import Verif.Spec.Secrecy
import Verif.Proofs.Fs
import Verif.Proofs.Stages
/-!
# Running a program on two machines
-/
namespace Volaris
open Volaris.Spec

namespace Spec

/-- The order of `Differ`. -/
def Differ.within : Differ → Differ → Prop
  | .no, _ => True
  | .content, .no => False
  | .content, _ => True
  | .anyhow, .anyhow => True
  | .anyhow, _ => False

theorem Differ.within_refl : ∀ d : Differ, d.within d := by intro d; cases d <;> trivial

theorem Differ.within_trans {a b c : Differ} (h : a.within b) (h' : b.within c) : a.within c := by
  cases a <;> cases b <;> cases c <;> simp_all [Differ.within]

theorem Differ.within_no {d : Differ} (h : d.within .no) : d = .no := by cases d <;> simp_all [Differ.within]

theorem Differ.allows_mono {d e : Differ} (h : d.within e) {a b : Bytes} (hab : d.allows a b) : e.allows a b := by
  cases d <;> cases e <;> simp_all [Differ.within, Differ.allows]

theorem Differ.allows_refl : ∀ (d : Differ) (a : Bytes), d.allows a a := by intro d a; cases d <;> simp [Differ.allows]

theorem Differ.allows_len {d : Differ} (h : d.within .content) {a b : Bytes} (hab : d.allows a b) : a.length = b.length := by
  cases d <;> simp_all [Differ.within, Differ.allows]

theorem Differ.allows_take {d : Differ} {a b : Bytes} (n : Nat) (hab : d.allows a b) : d.allows (a.take n) (b.take n) := by
  cases d <;> simp_all [Differ.allows]

theorem Differ.allows_drop {d : Differ} {a b : Bytes} (n : Nat) (hab : d.allows a b) : d.allows (a.drop n) (b.drop n) := by
  cases d <;> simp_all [Differ.allows]

theorem Differ.allows_append {d : Differ} {a b a' b' : Bytes} (hab : d.allows a b) (hab' : d.allows a' b') : d.allows (a ++ a') (b ++ b') := by
  cases d <;> simp_all [Differ.allows]

theorem Differ.allows_writeAt {d : Differ} {a b : Bytes} (p : Nat) (bs : Bytes) (hab : d.allows a b) : d.allows (writeAt a p bs) (writeAt b p bs) := by
  cases d with
  | no => cases hab; rfl
  | content => have hab : a.length = b.length := hab; show (writeAt a p bs).length = (writeAt b p bs).length; simp only [writeAt_length, hab]
  | anyhow => trivial

end Spec

/-- The second machine is a twin of the first; what is at a place differs at most as `L` says. -/
structure Alike (K : Nat → Differ) (L : Path → Differ) (f : Bytes → Bytes) (w v : World) : Prop where
  twin : ∃ g, v = twin f g w ∧ ∀ i, (K i).allows (w.file i) (g i)
  seen : ∀ q i, w.look q = some (.file i) → (K i).within (L q)
  fresh : ∀ i, w.nextIno ≤ i → K i = .no

/-- Handles stay what they are. -/
structure Later (w w' : World) : Prop where
  next : w.nextFd ≤ w'.nextFd
  ino : ∀ h, h < w.nextFd → (w'.fd h).ino = (w.fd h).ino

theorem Later.refl (w : World) : Later w w := ⟨Nat.le_refl _, fun _ _ => rfl⟩
theorem Later.trans {a b c : World} (h : Later a b) (h' : Later b c) : Later a c :=
  ⟨Nat.le_trans h.next h'.next, fun i hi => by rw [h'.ino i (Nat.lt_of_lt_of_le hi h.next), h.ino i hi]⟩

/-- Results of the same kind. -/
inductive Results {ε α : Type} (Q : α → α → Prop) : Res ε α → Res ε α → Prop
  | ok {a b : α} (h : Q a b) : Results Q (.ok a) (.ok b)
  | err (e : ε) : Results Q (.err e) (.err e)
  | abort (a : Abort) : Results Q (.abort a) (.abort a)

theorem Results.mono {ε α : Type} {Q Q' : α → α → Prop} (h : ∀ a b, Q a b → Q' a b) {r r' : Res ε α} (hr : Results Q r r') : Results Q' r r' := by
  cases hr with
  | ok g => exact .ok (h _ _ g)
  | err e => exact .err e
  | abort a => exact .abort a

theorem Results.refl {ε α : Type} {Q : α → α → Prop} (h : ∀ a, Q a a) (r : Res ε α) : Results Q r r := by
  cases r with
  | ok a => exact .ok (h a)
  | err e => exact .err e
  | abort a => exact .abort a

theorem Results.eq {ε α : Type} {r r' : Res ε α} (hr : Results Eq r r') : r = r' := by
  cases hr with
  | ok g => rw [g]
  | err e => rfl
  | abort a => rfl

section
variable {ε ε' α β : Type} (K : Nat → Differ) (L : Path → Differ) (f : Bytes → Bytes)

/-- The programs, run on the two machines, do alike. -/
structure Both (Q : α → α → World → Prop) (x y : Prog ε α) (w v : World) : Prop where
  alike : Alike K L f (x w).2 (y v).2
  later : Later w (x w).2
  results : Results (fun a b => Q a b (x w).2) (x w).1 (y v).1

/-- An open file whose content differs at most like this. -/
def Holds (d : Differ) (h : Nat) (w : World) : Prop := h < w.nextFd ∧ (K (w.fd h).ino).within d

end

section
variable {ε ε' α β : Type} {K : Nat → Differ} {L : Path → Differ} {f : Bytes → Bytes}

theorem Holds.later {d : Differ} {h : Nat} {w w' : World} (hh : Holds K d h w) (hl : Later w w') : Holds K d h w' :=
  ⟨Nat.lt_of_lt_of_le hh.1 hl.next, by rw [hl.ino h hh.1]; exact hh.2⟩

theorem Holds.mono {d e : Differ} {h : Nat} {w : World} (hh : Holds K d h w) (hd : d.within e) : Holds K e h w := ⟨hh.1, Differ.within_trans hh.2 hd⟩

/-- The contents of the file behind a handle. -/
theorem Alike.data {w v : World} (hR : Alike K L f w v) {d : Differ} {h : Nat} (hh : Holds K d h w) : d.allows (w.data h) (v.data h) := by
  obtain ⟨⟨g, rfl, hg⟩, _, _⟩ := hR
  exact Differ.allows_mono hh.2 (hg _)

theorem Alike.fd {w v : World} (hR : Alike K L f w v) : v.fd = w.fd := by obtain ⟨⟨g, rfl, hg⟩, _, _⟩ := hR; rfl
theorem Alike.dir {w v : World} (hR : Alike K L f w v) : v.dir = w.dir := by obtain ⟨⟨g, rfl, hg⟩, _, _⟩ := hR; rfl
theorem Alike.sched {w v : World} (hR : Alike K L f w v) : v.sched = w.sched := by obtain ⟨⟨g, rfl, hg⟩, _, _⟩ := hR; rfl
theorem Alike.log {w v : World} (hR : Alike K L f w v) : v.log = w.log := by obtain ⟨⟨g, rfl, hg⟩, _, _⟩ := hR; rfl
theorem Alike.stdin {w v : World} (hR : Alike K L f w v) : v.stdin = w.stdin := by obtain ⟨⟨g, rfl, hg⟩, _, _⟩ := hR; rfl
theorem Alike.tty {w v : World} (hR : Alike K L f w v) : v.tty = w.tty.map f := by obtain ⟨⟨g, rfl, hg⟩, _, _⟩ := hR; rfl
theorem Alike.env {w v : World} (hR : Alike K L f w v) : v.env = w.env.map f := by obtain ⟨⟨g, rfl, hg⟩, _, _⟩ := hR; rfl
theorem Alike.look {w v : World} (hR : Alike K L f w v) (q : Path) : v.look q = w.look q := World.look_congr hR.dir q
theorem Alike.resolve {w v : World} (hR : Alike K L f w v) (p : PathBuf) : v.resolve p = w.resolve p := World.resolve_congr hR.dir p

theorem Both.pure {Q : α → α → World → Prop} {w v : World} (hR : Alike K L f w v) {a b : α} (h : Q a b w) : Both (ε := ε) K L f Q (Pure.pure a) (Pure.pure b) w v :=
  ⟨hR, Later.refl w, .ok h⟩

theorem Both.throw {Q : α → α → World → Prop} {w v : World} (hR : Alike K L f w v) (e : ε) : Both K L f Q (Prog.throw e) (Prog.throw e) w v :=
  ⟨hR, Later.refl w, .err e⟩

theorem Both.panic {Q : α → α → World → Prop} {w v : World} (hR : Alike K L f w v) : Both (ε := ε) K L f Q Prog.panic Prog.panic w v :=
  ⟨hR, Later.refl w, .abort _⟩

theorem Both.lift {Q : α → α → World → Prop} {w v : World} (hR : Alike K L f w v) {r r' : Res ε α} (h : Results (fun a b => Q a b w) r r') : Both K L f Q (Prog.lift r) (Prog.lift r') w v :=
  ⟨hR, Later.refl w, h⟩

theorem Both.bind {P : α → α → World → Prop} {Q : β → β → World → Prop} {x y : Prog ε α} {k l : α → Prog ε β} {w v : World} (h : Both K L f P x y w v)
    (hk : ∀ a b w' v', P a b w' → Alike K L f w' v' → Later w w' → Both K L f Q (k a) (l b) w' v') : Both K L f Q (x >>= k) (y >>= l) w v := by
  obtain ⟨h1, h2, h3⟩ := h
  rcases ex : x w with ⟨r, w'⟩
  rcases ey : y v with ⟨r', v'⟩
  simp only [ex, ey] at h1 h2 h3
  cases h3 with
  | ok hP =>
    have g := hk _ _ w' v' hP h1 h2
    refine ⟨?_, ?_, ?_⟩ <;> (simp only [Prog.bind_ok ex, Prog.bind_ok ey])
    · exact g.alike
    · exact h2.trans g.later
    · exact g.results
  | err e =>
    refine ⟨?_, ?_, ?_⟩ <;> simp only [Prog.bind_err ex, Prog.bind_err ey]
    · exact h1
    · exact h2
    · exact .err e
  | abort a =>
    refine ⟨?_, ?_, ?_⟩ <;> simp only [Prog.bind_abort ex, Prog.bind_abort ey]
    · exact h1
    · exact h2
    · exact .abort a

theorem Both.mapErr {Q : α → α → World → Prop} {x y : Prog ε α} {w v : World} (h : Both K L f Q x y w v) (m : ε → ε') : Both K L f Q (x.mapErr m) (y.mapErr m) w v := by
  obtain ⟨h1, h2, h3⟩ := h
  rcases ex : x w with ⟨r, w'⟩
  rcases ey : y v with ⟨r', v'⟩
  simp only [ex, ey] at h1 h2 h3
  have e1 : x.mapErr m w = (r.mapErr m, w') := by rw [Prog.mapErr_eq, ex]
  have e2 : y.mapErr m v = (r'.mapErr m, v') := by rw [Prog.mapErr_eq, ey]
  refine ⟨?_, ?_, ?_⟩ <;> simp only [e1, e2]
  · exact h1
  · exact h2
  · cases h3 with
    | ok g => exact .ok g
    | err e => exact .err _
    | abort a => exact .abort a

theorem Both.attempt {Q : α → α → World → Prop} {x y : Prog ε α} {w v : World} (h : Both K L f Q x y w v) :
    Both (ε := ε') K L f (fun r r' w' => Results (fun a b => Q a b w') r r') x.attempt y.attempt w v := by
  obtain ⟨h1, h2, h3⟩ := h
  rcases ex : x w with ⟨r, w'⟩
  rcases ey : y v with ⟨r', v'⟩
  simp only [ex, ey] at h1 h2 h3
  cases h3 with
  | @ok a b g =>
    have e1 : (x.attempt : Prog ε' _) w = (.ok (.ok a), w') := by unfold Prog.attempt; rw [ex]
    have e2 : (y.attempt : Prog ε' _) v = (.ok (.ok b), v') := by unfold Prog.attempt; rw [ey]
    exact ⟨by rw [e1, e2]; exact h1, by rw [e1]; exact h2, by rw [e1, e2]; exact .ok (.ok g)⟩
  | err e =>
    have e1 : (x.attempt : Prog ε' _) w = (.ok (.err e), w') := by unfold Prog.attempt; rw [ex]
    have e2 : (y.attempt : Prog ε' _) v = (.ok (.err e), v') := by unfold Prog.attempt; rw [ey]
    exact ⟨by rw [e1, e2]; exact h1, by rw [e1]; exact h2, by rw [e1, e2]; exact .ok (.err e)⟩
  | abort a =>
    have e1 : (x.attempt : Prog ε' _) w = (.abort a, w') := by unfold Prog.attempt; rw [ex]
    have e2 : (y.attempt : Prog ε' _) v = (.abort a, v') := by unfold Prog.attempt; rw [ey]
    exact ⟨by rw [e1, e2]; exact h1, by rw [e1]; exact h2, by rw [e1, e2]; exact .abort a⟩

theorem Both.mono {Q Q' : α → α → World → Prop} {x y : Prog ε α} {w v : World} (h : Both K L f Q x y w v) (hq : ∀ a b w', Later w w' → Q a b w' → Q' a b w') : Both K L f Q' x y w v :=
  ⟨h.alike, h.later, h.results.mono fun a b => hq a b _ h.later⟩

/-- `or_else`. -/
theorem Both.orElse {Q : α → α → World → Prop} {x y x' y' : Prog ε α} {w v : World} (h : Both K L f Q x y w v) (h' : ∀ w' v', Alike K L f w' v' → Later w w' → Both K L f Q x' y' w' v') :
    Both K L f Q (Unpack.orElse x x') (Unpack.orElse y y') w v := by
  obtain ⟨h1, h2, h3⟩ := h
  rcases ex : x w with ⟨r, w'⟩
  rcases ey : y v with ⟨r', v'⟩
  simp only [ex, ey] at h1 h2 h3
  cases h3 with
  | @ok a b g =>
    have e1 : Unpack.orElse x x' w = (.ok a, w') := by unfold Unpack.orElse; rw [ex]
    have e2 : Unpack.orElse y y' v = (.ok b, v') := by unfold Unpack.orElse; rw [ey]
    exact ⟨by rw [e1, e2]; exact h1, by rw [e1]; exact h2, by rw [e1, e2]; exact .ok g⟩
  | err e =>
    have e1 : Unpack.orElse x x' w = x' w' := by unfold Unpack.orElse; rw [ex]
    have e2 : Unpack.orElse y y' v = y' v' := by unfold Unpack.orElse; rw [ey]
    have g := h' w' v' h1 h2
    exact ⟨by rw [e1, e2]; exact g.alike, by rw [e1]; exact h2.trans g.later, by rw [e1, e2]; exact g.results⟩
  | abort a =>
    have e1 : Unpack.orElse x x' w = (.abort a, w') := by unfold Unpack.orElse; rw [ex]
    have e2 : Unpack.orElse y y' v = (.abort a, v') := by unfold Unpack.orElse; rw [ey]
    exact ⟨by rw [e1, e2]; exact h1, by rw [e1]; exact h2, by rw [e1, e2]; exact .abort a⟩

/-! ## System calls -/

theorem twin_pop (g : Nat → Bytes) (w : World) : (twin f g w).pop = (w.pop.1, twin f g w.pop.2) := by
  unfold World.pop
  show (match w.sched with | [] => _ | o :: s => _) = _
  cases w.sched <;> rfl

theorem pop_same (w : World) : w.pop.2.file = w.file ∧ w.pop.2.dir = w.dir ∧ w.pop.2.nextIno = w.nextIno ∧ w.pop.2.nextFd = w.nextFd ∧ w.pop.2.fd = w.fd := by
  unfold World.pop; cases w.sched <;> exact ⟨rfl, rfl, rfl, rfl, rfl⟩

theorem Alike.pop {w v : World} (hR : Alike K L f w v) : v.pop.1 = w.pop.1 ∧ Alike K L f w.pop.2 v.pop.2 := by
  obtain ⟨⟨g, rfl, hg⟩, hs, hf⟩ := hR
  obtain ⟨e1, e2, e3, _, _⟩ := pop_same w
  rw [twin_pop]
  exact ⟨rfl, ⟨g, rfl, fun i => by rw [e1]; exact hg i⟩, fun q i h => hs q i (by rw [World.look_congr e2] at h; exact h), fun i hi => hf i (by rw [e3] at hi; exact hi)⟩

theorem Later.pop (w : World) : Later w w.pop.2 := by
  obtain ⟨_, _, _, e4, e5⟩ := pop_same w
  exact ⟨by rw [e4]; exact Nat.le_refl _, fun h _ => by rw [e5]⟩

theorem Alike.setPos {w v : World} (hR : Alike K L f w v) (h p : Nat) : Alike K L f (w.setPos h p) (v.setPos h p) := by
  obtain ⟨⟨g, rfl, hg⟩, hs, hf⟩ := hR
  exact ⟨⟨g, rfl, hg⟩, hs, hf⟩

theorem Later.setPos (w : World) (h p : Nat) : Later w (w.setPos h p) := ⟨Nat.le_refl _, fun i _ => by simp⟩

theorem Alike.put {w v : World} (hR : Alike K L f w v) (h : Nat) (bs : Bytes) : Alike K L f (w.put h bs) (v.put h bs) := by
  obtain ⟨⟨g, rfl, hg⟩, hs, hf⟩ := hR
  refine ⟨⟨_, rfl, fun i => ?_⟩, hs, hf⟩
  show (K i).allows (if i = (w.fd h).ino then _ else _) (if i = (w.fd h).ino then _ else _)
  split
  · exact Differ.allows_writeAt _ _ (hg i)
  · exact hg i

theorem Later.put (w : World) (h : Nat) (bs : Bytes) : Later w (w.put h bs) := ⟨Nat.le_refl _, fun i _ => by simp⟩

theorem Alike.withSched {w v : World} (hR : Alike K L f w v) (s : List Io) : Alike K L f { w with sched := s } { v with sched := s } := by
  obtain ⟨⟨g, rfl, hg⟩, hs, hf⟩ := hR
  exact ⟨⟨g, rfl, hg⟩, hs, hf⟩

theorem Later.withSched (w : World) (s : List Io) : Later w { w with sched := s } := ⟨Nat.le_refl _, fun _ _ => rfl⟩

theorem Alike.rest {w v : World} (hR : Alike K L f w v) {d : Differ} {h : Nat} (hh : Holds K d h w) : d.allows (w.rest h) (v.rest h) := by
  unfold World.rest
  rw [hR.fd]
  exact Differ.allows_drop _ (hR.data hh)

theorem both_sysRetry {w v : World} (hR : Alike K L f w v) : Both K L f (fun _ _ _ => True) sysRetry sysRetry w v := by
  obtain ⟨e, hR'⟩ := hR.pop
  unfold sysRetry
  rcases hw : w.pop with ⟨o, w'⟩
  rcases hv : v.pop with ⟨o', v'⟩
  have hl := Later.pop w
  rw [hw, hv] at e hR'
  rw [hw] at hl
  cases e
  cases o <;> refine ⟨?_, ?_, ?_⟩ <;> simp only [hw, hv]
  all_goals first | exact hR' | exact hl | exact .ok trivial | exact .err _

theorem both_sys {w v : World} (hR : Alike K L f w v) : Both K L f (fun _ _ _ => True) sys sys w v := by
  obtain ⟨e, hR'⟩ := hR.pop
  unfold sys
  rcases hw : w.pop with ⟨o, w'⟩
  rcases hv : v.pop with ⟨o', v'⟩
  have hl := Later.pop w
  rw [hw, hv] at e hR'
  rw [hw] at hl
  cases e
  cases o <;> refine ⟨?_, ?_, ?_⟩ <;> simp only [hw, hv]
  all_goals first | exact hR' | exact hl | exact .ok trivial | exact .err _

theorem both_flush (h : Nat) {w v : World} (hR : Alike K L f w v) : Both K L f (fun _ _ _ => True) (flush h) (flush h) w v := by
  obtain ⟨e, hR'⟩ := hR.pop
  unfold flush
  rcases hw : w.pop with ⟨o, w'⟩
  rcases hv : v.pop with ⟨o', v'⟩
  have hl := Later.pop w
  rw [hw, hv] at e hR'
  rw [hw] at hl
  cases e
  cases o <;> refine ⟨?_, ?_, ?_⟩ <;> simp only [hw, hv]
  all_goals first | exact hR' | exact hl | exact .ok trivial | exact .err _

theorem both_seekStart (h p : Nat) {w v : World} (hR : Alike K L f w v) : Both K L f (fun _ _ _ => True) (seekStart h p) (seekStart h p) w v := by
  obtain ⟨e, hR'⟩ := hR.pop
  unfold seekStart
  rcases hw : w.pop with ⟨o, w'⟩
  rcases hv : v.pop with ⟨o', v'⟩
  have hl := Later.pop w
  rw [hw, hv] at e hR'
  rw [hw] at hl
  cases e
  cases o <;> refine ⟨?_, ?_, ?_⟩ <;> simp only [hw, hv]
  all_goals first | exact hR' | exact hR'.setPos h p | exact hl | exact hl.trans (Later.setPos _ _ _) | exact .ok trivial | exact .err _

theorem both_rewind (h : Nat) {w v : World} (hR : Alike K L f w v) : Both K L f (fun _ _ _ => True) (rewind h) (rewind h) w v := both_seekStart h 0 hR

theorem both_seekCur (h : Nat) (d : Int) {w v : World} (hR : Alike K L f w v) : Both K L f (fun _ _ _ => True) (seekCur h d) (seekCur h d) w v := by
  obtain ⟨e, hR'⟩ := hR.pop
  unfold seekCur
  rcases hw : w.pop with ⟨o, w'⟩
  rcases hv : v.pop with ⟨o', v'⟩
  have hl := Later.pop w
  rw [hw, hv] at e hR'
  rw [hw] at hl
  cases e
  have hfd := hR'.fd
  cases o <;> refine ⟨?_, ?_, ?_⟩ <;> simp only [hw, hv] <;> try rw [hfd]
  all_goals try split
  all_goals first | exact hR' | exact hR'.setPos h _ | exact hl | exact hl.trans (Later.setPos _ _ _) | exact .ok trivial | exact .err _

theorem both_read {d : Differ} (hd : d.within .content) {h : Nat} (n : Nat) {w v : World} (hR : Alike K L f w v) (hh : Holds K d h w) :
    Both K L f (fun a b _ => d.allows a b) (read h n) (read h n) w v := by
  obtain ⟨e, hR'⟩ := hR.pop
  have hh' : Holds K d h w.pop.2 := hh.later (Later.pop w)
  have hr := hR'.rest hh'
  unfold read
  rcases hw : w.pop with ⟨o, w'⟩
  rcases hv : v.pop with ⟨o', v'⟩
  have hl := Later.pop w
  rw [hw, hv] at e hR' hr
  rw [hw] at hl
  cases e
  have ht : ∀ m, d.allows ((w'.rest h).take m) ((v'.rest h).take m) := fun m => Differ.allows_take m hr
  have hlen : ∀ m, ((v'.rest h).take m).length = ((w'.rest h).take m).length := fun m => (Differ.allows_len hd (ht m)).symm
  have hadv : ∀ m, Alike K L f (w'.adv h m) (v'.adv h m) := fun m => by unfold World.adv; rw [hR'.fd]; exact hR'.setPos _ _
  cases o <;> refine ⟨?_, ?_, ?_⟩ <;> simp only [hw, hv, hlen]
  all_goals first | exact hR' | exact hadv _ | exact hl | exact hl.trans (Later.setPos _ _ _) | exact .ok (ht _) | exact .err _

theorem both_write (h : Nat) (bs : Bytes) {w v : World} (hR : Alike K L f w v) : Both K L f (fun _ _ _ => True) (write h bs) (write h bs) w v := by
  obtain ⟨e, hR'⟩ := hR.pop
  unfold write
  rcases hw : w.pop with ⟨o, w'⟩
  rcases hv : v.pop with ⟨o', v'⟩
  have hl := Later.pop w
  rw [hw, hv] at e hR'
  rw [hw] at hl
  cases e
  cases o <;> refine ⟨?_, ?_, ?_⟩ <;> simp only [hw, hv]
  all_goals first | exact hR' | exact hR'.put h _ | exact hl | exact hl.trans (Later.put _ _ _) | exact .ok trivial | exact .err _

theorem both_writeLoop (h : Nat) : ∀ (s : List Io) (bs : Bytes) {w v : World}, Alike K L f w v → Both K L f (fun _ _ _ => True) (writeLoop h s bs) (writeLoop h s bs) w v
  | [], bs, w, v, hR => by
    refine ⟨?_, ?_, ?_⟩ <;> simp only [writeLoop] <;> split
    · exact hR.withSched []
    · exact (hR.put h bs).withSched []
    · exact Later.withSched _ _
    · exact (Later.put _ _ _).trans (Later.withSched _ _)
    · exact .ok trivial
    · exact .ok trivial
  | o :: s, bs, w, v, hR => by
    by_cases hb : bs = []
    · refine ⟨?_, ?_, ?_⟩ <;> simp only [writeLoop, if_pos hb]
      · exact hR.withSched _
      · exact Later.withSched _ _
      · exact .ok trivial
    · cases o with
      | full =>
        refine ⟨?_, ?_, ?_⟩ <;> simp only [writeLoop, if_neg hb]
        · exact (hR.put h bs).withSched s
        · exact (Later.put _ _ _).trans (Later.withSched _ _)
        · exact .ok trivial
      | short k =>
        by_cases hk : k = 0
        · refine ⟨?_, ?_, ?_⟩ <;> simp only [writeLoop, if_neg hb, if_pos hk]
          · exact hR.withSched s
          · exact Later.withSched _ _
          · exact .err _
        · have ih := both_writeLoop h s (bs.drop k) (hR.put h (bs.take k))
          refine ⟨?_, ?_, ?_⟩ <;> simp only [writeLoop, if_neg hb, if_neg hk]
          · exact ih.alike
          · exact (Later.put _ _ _).trans ih.later
          · exact ih.results
      | intr =>
        have ih := both_writeLoop h s bs hR
        refine ⟨?_, ?_, ?_⟩ <;> simp only [writeLoop, if_neg hb]
        · exact ih.alike
        · exact ih.later
        · exact ih.results
      | fail =>
        refine ⟨?_, ?_, ?_⟩ <;> simp only [writeLoop, if_neg hb]
        · exact hR.withSched s
        · exact Later.withSched _ _
        · exact .err _

theorem both_writeAll (h : Nat) (bs : Bytes) {w v : World} (hR : Alike K L f w v) : Both K L f (fun _ _ _ => True) (writeAll h bs) (writeAll h bs) w v := by
  have := both_writeLoop h w.sched bs hR
  have e : writeAll h bs v = writeLoop h w.sched bs v := by unfold writeAll; rw [hR.sched]
  exact ⟨by rw [e]; exact this.alike, this.later, by rw [e]; exact this.results⟩

theorem both_readLoop {d : Differ} (hd : d.within .content) {h : Nat} : ∀ (s : List Io) (n : Nat) (acc acc' : Bytes) {w v : World}, Alike K L f w v → Holds K d h w → d.allows acc acc' →
    Both K L f (fun a b _ => d.allows a b) (readLoop h s n acc) (readLoop h s n acc') w v
  | [], n, acc, acc', w, v, hR, hh, ha => by
    have ht := Differ.allows_take n (hR.rest hh)
    have hlen := (Differ.allows_len hd ht).symm
    refine ⟨?_, ?_, ?_⟩ <;> simp only [readLoop, hlen]
    · unfold World.adv
      rw [hR.fd]
      exact (hR.setPos _ _).withSched []
    · exact (Later.setPos _ _ _).trans (Later.withSched _ _)
    · exact .ok (Differ.allows_append ha ht)
  | o :: s, n, acc, acc', w, v, hR, hh, ha => by
    by_cases hn : n = 0
    · refine ⟨?_, ?_, ?_⟩ <;> simp only [readLoop, if_pos hn]
      · exact hR.withSched _
      · exact Later.withSched _ _
      · exact .ok ha
    · have step : ∀ m, Both K L f (fun a b _ => d.allows a b)
          (fun w => if (w.rest h).take m = [] then (.ok acc, { w with sched := s }) else readLoop h s (n - ((w.rest h).take m).length) (acc ++ (w.rest h).take m) (w.adv h ((w.rest h).take m).length))
          (fun w => if (w.rest h).take m = [] then (.ok acc', { w with sched := s }) else readLoop h s (n - ((w.rest h).take m).length) (acc' ++ (w.rest h).take m) (w.adv h ((w.rest h).take m).length)) w v := by
        intro m
        have ht := Differ.allows_take m (hR.rest hh)
        have hlen := (Differ.allows_len hd ht).symm
        by_cases hb : (w.rest h).take m = []
        · have hb' : (v.rest h).take m = [] := by
            rw [hb] at hlen; exact List.length_eq_zero_iff.1 hlen
          refine ⟨?_, ?_, ?_⟩ <;> simp only [if_pos hb, if_pos hb']
          · exact hR.withSched s
          · exact Later.withSched _ _
          · exact .ok ha
        · have hb' : (v.rest h).take m ≠ [] := by
            intro e
            rw [e] at hlen
            exact hb (List.length_eq_zero_iff.1 hlen.symm)
          have hadv : Alike K L f (w.adv h ((w.rest h).take m).length) (v.adv h ((w.rest h).take m).length) := by
            unfold World.adv
            rw [hR.fd]
            exact hR.setPos _ _
          have ih := both_readLoop hd s (n - ((w.rest h).take m).length) (acc ++ (w.rest h).take m) (acc' ++ (v.rest h).take m) hadv (hh.later (Later.setPos _ _ _)) (Differ.allows_append ha ht)
          refine ⟨?_, ?_, ?_⟩ <;> simp only [if_neg hb, if_neg hb', hlen]
          · exact ih.alike
          · exact (Later.setPos _ _ _).trans ih.later
          · exact ih.results
      cases o with
      | full =>
        have := step n
        refine ⟨?_, ?_, ?_⟩ <;> simp only [readLoop, if_neg hn]
        · exact this.alike
        · exact this.later
        · exact this.results
      | short k =>
        have := step (min n (max 1 k))
        refine ⟨?_, ?_, ?_⟩ <;> simp only [readLoop, if_neg hn]
        · exact this.alike
        · exact this.later
        · exact this.results
      | intr =>
        have ih := both_readLoop hd s n acc acc' hR hh ha
        refine ⟨?_, ?_, ?_⟩ <;> simp only [readLoop, if_neg hn]
        · exact ih.alike
        · exact ih.later
        · exact ih.results
      | fail =>
        refine ⟨?_, ?_, ?_⟩ <;> simp only [readLoop, if_neg hn]
        · exact hR.withSched s
        · exact Later.withSched _ _
        · exact .err _

theorem both_readUpTo {d : Differ} (hd : d.within .content) {h : Nat} (n : Nat) {w v : World} (hR : Alike K L f w v) (hh : Holds K d h w) :
    Both K L f (fun a b _ => d.allows a b) (readUpTo h n) (readUpTo h n) w v := by
  have := both_readLoop hd w.sched n [] [] hR hh (Differ.allows_refl _ _)
  have e : readUpTo h n v = readLoop h w.sched n [] v := by unfold readUpTo; rw [hR.sched]
  exact ⟨by rw [e]; exact this.alike, this.later, by rw [e]; exact this.results⟩

theorem both_readToEnd {d : Differ} (hd : d.within .content) {h : Nat} {w v : World} (hR : Alike K L f w v) (hh : Holds K d h w) :
    Both K L f (fun a b _ => d.allows a b) (readToEnd h) (readToEnd h) w v := by
  have := both_readUpTo hd ((w.rest h).length + 1) hR hh
  have e : readToEnd h v = readUpTo h ((w.rest h).length + 1) v := by unfold readToEnd; rw [Differ.allows_len hd (hR.rest hh)]
  exact ⟨by rw [e]; exact this.alike, this.later, by rw [e]; exact this.results⟩

theorem both_readExact {d : Differ} (hd : d.within .content) {h : Nat} (n : Nat) {w v : World} (hR : Alike K L f w v) (hh : Holds K d h w) :
    Both K L f (fun a b _ => d.allows a b) (readExact h n) (readExact h n) w v := by
  unfold readExact
  refine (both_readUpTo hd n hR hh).bind fun a b w' v' hab hR' _ => ?_
  rw [← Differ.allows_len hd hab]
  split
  · exact .pure hR' hab
  · exact .throw hR' _

theorem both_genBytes (n : Nat) {w v : World} (hR : Alike K L f w v) : Both (ε := ε) K L f (fun a b _ => a = b) (genBytes n) (genBytes n) w v := by
  obtain ⟨⟨g, rfl, hg⟩, hs, hf⟩ := hR
  exact ⟨⟨⟨g, rfl, hg⟩, hs, hf⟩, ⟨Nat.le_refl _, fun _ _ => rfl⟩, .ok rfl⟩

end
end Volaris
