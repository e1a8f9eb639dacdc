import Verif.Proofs.Prompt
import Verif.Proofs.Utils
import Verif.Proofs.Unpack
/-!
# Programs that only look

A program that at most opens files, reads them through the handles it has opened, talks to the user and draws random bytes.
-/
namespace Volaris
open Volaris.Spec

/-- From `w` to `w'` nothing has happened to files, directories and the handles below `n`. -/
structure Looked (n : Nat) (w w' : World) : Prop where
  file : w'.file = w.file
  dir : w'.dir = w.dir
  fds : ∀ h, h < n → w'.fd h = w.fd h
  nextFd : w.nextFd ≤ w'.nextFd
  nextIno : w'.nextIno = w.nextIno
  env : w'.env = w.env
  stdin : w'.stdin <:+ w.stdin
  tty : w'.tty <:+ w.tty
  sched : w'.sched <:+ w.sched

namespace Looked
variable {n m : Nat} {w w' w'' : World}

theorem refl (n : Nat) (w : World) : Looked n w w :=
  ⟨rfl, rfl, fun _ _ => rfl, Nat.le_refl _, rfl, rfl, List.suffix_refl _, List.suffix_refl _, List.suffix_refl _⟩

theorem trans (h1 : Looked n w w') (h2 : Looked n w' w'') : Looked n w w'' where
  file := h2.file.trans h1.file
  dir := h2.dir.trans h1.dir
  fds := fun h hh => (h2.fds h hh).trans (h1.fds h hh)
  nextFd := Nat.le_trans h1.nextFd h2.nextFd
  nextIno := h2.nextIno.trans h1.nextIno
  env := h2.env.trans h1.env
  stdin := h2.stdin.trans h1.stdin
  tty := h2.tty.trans h1.tty
  sched := h2.sched.trans h1.sched

theorem mono (h : Looked n w w') (hm : m ≤ n) : Looked m w w' := { h with fds := fun i hi => h.fds i (Nat.lt_of_lt_of_le hi hm) }

theorem of_sched (n : Nat) (w : World) {s : List Io} (h : s <:+ w.sched) : Looked n w { w with sched := s } :=
  ⟨rfl, rfl, fun _ _ => rfl, Nat.le_refl _, rfl, rfl, List.suffix_refl _, List.suffix_refl _, h⟩

theorem opened (w : World) (i : Nat) (h : n ≤ w.nextFd) : Looked n w (w.opened i) := by
  refine ⟨rfl, rfl, fun x hx => ?_, Nat.le_succ _, rfl, rfl, List.suffix_refl _, List.suffix_refl _, List.suffix_refl _⟩
  unfold World.opened
  simp only
  rw [if_neg (by omega)]

theorem look (h : Looked n w w') (q : Path) : w'.look q = w.look q := World.look_congr h.dir q
theorem resolve (h : Looked n w w') (p : PathBuf) : w'.resolve p = w.resolve p := World.resolve_congr h.dir p

theorem leads (h : Looked n w w') (p : PathBuf) (q : Path) (i : Nat) : LeadsToFile w' p q i ↔ LeadsToFile w p q i :=
  ⟨fun hl => ⟨by rw [← h.resolve]; exact hl.resolve, by rw [← h.look]; exact hl.look⟩,
   fun hl => ⟨by rw [h.resolve]; exact hl.resolve, by rw [h.look]; exact hl.look⟩⟩

theorem occupied (h : Looked n w w') (p : PathBuf) : Occupied w' p ↔ Occupied w p := by
  unfold Occupied
  simp only [h.resolve, h.look]

theorem touches {R : List Nat} (h : Touches R [] w w') (hR : ∀ x ∈ R, n ≤ x) (hs : w'.sched <:+ w.sched) : Looked n w w' where
  file := funext fun i => h.files i (by simp)
  dir := h.dir
  fds := fun x hx => h.fds x (fun hm => by have := hR x hm; omega) (by simp)
  nextFd := by rw [h.nextFd]; exact Nat.le_refl _
  nextIno := h.nextIno
  env := h.env
  stdin := by rw [h.stdin]; exact List.suffix_refl _
  tty := by rw [h.tty]; exact List.suffix_refl _
  sched := hs

end Looked

/-- Such a program; `P` holds of what it returns. -/
def Looks {ε α : Type} (n : Nat) (P : α → Prop) (x : Prog ε α) : Prop :=
  ∀ w, n ≤ w.nextFd → Looked n w (x w).2 ∧ ∀ a w', x w = (.ok a, w') → P a

namespace Looks
variable {n : Nat} {ε ε' α β : Type} {P : α → Prop} {Q : β → Prop}

theorem pure {a : α} (h : P a) : Looks n P (Pure.pure a : Prog ε α) := fun w _ => ⟨.refl _ _, fun a' w' e => by cases e; exact h⟩
theorem throw (e : ε) : Looks n P (Prog.throw e : Prog ε α) := fun w _ => ⟨.refl _ _, fun a' w' e => by cases e⟩
theorem panic : Looks n P (Prog.panic : Prog ε α) := fun w _ => ⟨.refl _ _, fun a' w' e => by cases e⟩
theorem lift {r : Res ε α} (h : ∀ a, r = .ok a → P a) : Looks n P (Prog.lift r : Prog ε α) :=
  fun w _ => ⟨.refl _ _, fun a' w' e => h a' (by cases r <;> cases e <;> rfl)⟩

theorem weaken {P' : α → Prop} {x : Prog ε α} (h : Looks n P x) (hp : ∀ a, P a → P' a) : Looks n P' x :=
  fun w hw => ⟨(h w hw).1, fun a w' e => hp a ((h w hw).2 a w' e)⟩

theorem bind {x : Prog ε α} {f : α → Prog ε β} (hx : Looks n P x) (hf : ∀ a, P a → Looks n Q (f a)) : Looks n Q (x >>= f) := by
  intro w hw
  obtain ⟨h1, h2⟩ := hx w hw
  rw [Prog.bind_run]
  rcases hr : x w with ⟨r, w'⟩
  rw [hr] at h1
  cases r with
  | ok a =>
    obtain ⟨h3, h4⟩ := hf a (h2 a w' hr) w' (Nat.le_trans hw h1.nextFd)
    exact ⟨h1.trans h3, h4⟩
  | err e => exact ⟨h1, fun a w' e => by cases e⟩
  | abort a => exact ⟨h1, fun a w' e => by cases e⟩

theorem mapErr {x : Prog ε α} (f : ε → ε') (hx : Looks n P x) : Looks n P (x.mapErr f) := by
  intro w hw
  obtain ⟨h1, h2⟩ := hx w hw
  rw [Prog.mapErr_run]
  rcases hr : x w with ⟨r, w'⟩
  rw [hr] at h1
  cases r with
  | ok a => exact ⟨h1, fun a' w'' e => by cases e; exact h2 a w' hr⟩
  | err e => exact ⟨h1, fun a w' e => by cases e⟩
  | abort a => exact ⟨h1, fun a w' e => by cases e⟩

theorem ite {c : Prop} [Decidable c] {x y : Prog ε α} (hx : Looks n P x) (hy : Looks n P y) : Looks n P (if c then x else y) := by
  split
  · exact hx
  · exact hy

theorem sys : Looks n (fun _ => True) Volaris.sys := by
  intro w _
  refine ⟨?_, fun _ _ _ => trivial⟩
  rcases sys_cases w with ⟨s, hs, he⟩ | ⟨s, e, hs, hn, he⟩ <;> rw [he] <;> exact .of_sched _ _ hs

theorem sysRetry : Looks n (fun _ => True) Volaris.sysRetry := by
  intro w _
  refine ⟨?_, fun _ _ _ => trivial⟩
  rcases sysRetry_cases w with ⟨s, hs, he⟩ | ⟨s, e, hs, hn, he⟩ <;> rw [he] <;> exact .of_sched _ _ hs

/-- Opening a file that exists for reading: the handle is new. -/
theorem openFile (p : PathBuf) : Looks n (fun h => n ≤ h) (Volaris.openFile p) := by
  intro w hw
  unfold Volaris.openFile
  rcases sysRetry_cases w with ⟨s, hs, he⟩ | ⟨s, e, hs, hn, he⟩
  · rw [Prog.bind_ok he]
    unfold openAt
    split
    · split
      · refine ⟨(Looked.of_sched n w hs).trans (.opened _ _ hw), fun a w' e => ?_⟩
        cases e; exact hw
      · exact ⟨.of_sched n w hs, fun a w' e => by cases e⟩
      · exact ⟨.of_sched n w hs, fun a w' e => by cases e⟩
    · exact ⟨.of_sched n w hs, fun a w' e => by cases e⟩
  · rw [Prog.bind_err he]
    exact ⟨.of_sched n w hs, fun a w' e => by cases e⟩

theorem existsAt (p : PathBuf) : Looks n (fun _ => True) (Volaris.existsAt p : Prog ε Bool) := fun _ _ => ⟨.refl _ _, fun _ _ _ => trivial⟩
theorem isDir (p : PathBuf) : Looks n (fun _ => True) (Volaris.isDir p : Prog ε Bool) := fun _ _ => ⟨.refl _ _, fun _ _ _ => trivial⟩

theorem within {R : List Nat} {x : Prog ε α} (hx : Within R [] x) (hs : Shrinks x) (hR : ∀ h ∈ R, n ≤ h) : Looks n (fun _ => True) x :=
  fun w _ => ⟨.touches (hx w) hR (hs w), fun _ _ _ => trivial⟩

theorem readFile (p : PathBuf) : Looks n (fun e => ∀ h, e.stream = .ok h → n ≤ h) (Storage.readFile p) := by
  unfold Storage.readFile
  refine .bind (.isDir p) fun b _ => .ite (.pure (fun h e => by cases e)) ?_
  exact .bind (.mapErr _ (.openFile p)) fun h hh => .pure (fun h' e => by cases e; exact hh)

end Looks
end Volaris
