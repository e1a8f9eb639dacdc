import Verif.Model.Tools.Erase
import Verif.Proofs.Fs
import Verif.Proofs.Thread
import Verif.Proofs.Tools
/-!
# Lemmas about erasing files, alone and in a pool of threads
-/
namespace Volaris
open Thr

/-! ### The thread is the program -/

namespace Erase

theorem run_writeBlocks (h : Nat) (bs : List Nat) : (writeBlocks h bs).run = Overwrite.writeBlocks h bs := by
  induction bs with
  | nil => rfl
  | cons b bs ih => simp only [writeBlocks, Overwrite.writeBlocks, run_bind, run_atom, ih]

theorem run_passes (h cap n : Nat) : (passes h cap n).run = Overwrite.passes h cap n := by
  induction n with
  | zero => rfl
  | succ n ih => simp only [passes, Overwrite.passes, run_bind, run_atom, run_writeBlocks, ih]

theorem run_overwrite (h cap : Nat) (n : Int) : (overwrite h cap n).run = Overwrite.execute h cap n := by
  simp only [overwrite, Overwrite.execute, run_bind, run_atom, run_passes]

theorem run_removeFile (p : PathBuf) (h : Nat) : (removeFile p h).run = Storage.removeFile (.file p h) := by
  funext w
  simp only [removeFile, Storage.removeFile, Storage.emptyFile, run_bind, run_atom, Storage.Entry.path, Prog.bind_run]
  rcases (setLen0 h).mapErr (fun _ => Storage.Error.removeFile) w with ⟨a | e | a, w1⟩ <;> simp only

theorem run_thread (p : PathBuf) (n : Int) : (thread p n).run = execute p n := by
  funext w
  simp only [thread, execute, run_bind, run_atom, run_mapErr, run_overwrite, run_removeFile, Storage.writeFile, Prog.bind_run, Prog.mapErr_run]
  rcases openTrunc p w with ⟨h | e | a, w1⟩ <;> simp only
  show _ = _
  simp only [Pure.pure, Prog.pure, Storage.fileLen, Storage.Entry.stream, Prog.lift, Prog.bind_run, Prog.mapErr_run]
  rcases Volaris.fileLen h w1 with ⟨c | e | a, w2⟩ <;> simp only

end Erase

/-! ### What one step does -/

/-- A step of erasing the file `i` at `q`. -/
structure Erasing (q : Path) (i : Nat) (w w' : World) : Prop where
  files : ∀ j, j ≠ i → w'.file j = w.file j
  target : w'.file i = w.file i ∨ w'.file i = []
  dir : ∀ p, p ≠ q → w'.look p = w.look p
  entry : w'.look q = w.look q ∨ (w'.look q = none ∧ w.look q = some (.file i) ∧ w'.file i = [])
  fds : ∀ h, h < w.nextFd → (w'.fd h).ino = (w.fd h).ino
  nextFd : w.nextFd ≤ w'.nextFd
  sched : w'.sched <:+ w.sched
  nextIno : w'.nextIno = w.nextIno
  stdin : w'.stdin = w.stdin
  tty : w'.tty = w.tty
  env : w'.env = w.env
  log : ∃ evs, w'.log = evs ++ w.log ∧ ∀ e ∈ evs, e = .truncate i ∨ e = .unlink q

theorem Erasing.refl (q : Path) (i : Nat) (w : World) : Erasing q i w w :=
  ⟨fun _ _ => rfl, .inl rfl, fun _ _ => rfl, .inl rfl, fun _ _ => rfl, Nat.le_refl _, List.suffix_refl _, rfl, rfl, rfl, rfl, [], rfl, by simp⟩

theorem Erasing.trans {q : Path} {i : Nat} {a b c : World} (h1 : Erasing q i a b) (h2 : Erasing q i b c) : Erasing q i a c where
  files := fun j hj => (h2.files j hj).trans (h1.files j hj)
  target := by
    rcases h2.target with h | h
    · rw [h]; exact h1.target
    · exact .inr h
  dir := fun p hp => (h2.dir p hp).trans (h1.dir p hp)
  entry := by
    rcases h2.entry with h | ⟨h, h', h''⟩
    · rw [h]
      refine h1.entry.imp id fun ⟨g, g', g''⟩ => ⟨g, g', ?_⟩
      rcases h2.target with k | k
      · rw [k]; exact g''
      · exact k
    · rcases h1.entry with g | ⟨g, g', _⟩
      · exact .inr ⟨h, by rw [← g]; exact h', h''⟩
      · rw [g] at h'; cases h'
  fds := fun h hh => (h2.fds h (Nat.lt_of_lt_of_le hh h1.nextFd)).trans (h1.fds h hh)
  nextFd := Nat.le_trans h1.nextFd h2.nextFd
  sched := h2.sched.trans h1.sched
  nextIno := h2.nextIno.trans h1.nextIno
  stdin := h2.stdin.trans h1.stdin
  tty := h2.tty.trans h1.tty
  env := h2.env.trans h1.env
  log := by
    obtain ⟨e1, l1, p1⟩ := h1.log
    obtain ⟨e2, l2, p2⟩ := h2.log
    refine ⟨e2 ++ e1, by rw [l2, l1, List.append_assoc], ?_⟩
    intro e he
    rcases List.mem_append.1 he with he | he
    · exact p2 e he
    · exact p1 e he

/-- What the others may do meanwhile. -/
structure Quiet (q : Path) (w w' : World) : Prop where
  look : w'.look q = w.look q
  dirs : ∀ d, w.look d = some .dir → w'.look d = some .dir
  files : ∀ j, w'.file j = w.file j ∨ w'.file j = []
  fds : ∀ h, h < w.nextFd → (w'.fd h).ino = (w.fd h).ino
  nextFd : w.nextFd ≤ w'.nextFd
  sched : w'.sched <:+ w.sched

namespace Quiet

theorem refl (q : Path) (w : World) : Quiet q w w := ⟨rfl, fun _ h => h, fun _ => .inl rfl, fun _ _ => rfl, Nat.le_refl _, List.suffix_refl _⟩

theorem trans {q : Path} {a b c : World} (h1 : Quiet q a b) (h2 : Quiet q b c) : Quiet q a c where
  look := h2.look.trans h1.look
  dirs := fun d h => h2.dirs d (h1.dirs d h)
  files := fun j => by
    rcases h2.files j with h | h
    · rw [h]; exact h1.files j
    · exact .inr h
  fds := fun h hh => (h2.fds h (Nat.lt_of_lt_of_le hh h1.nextFd)).trans (h1.fds h hh)
  nextFd := Nat.le_trans h1.nextFd h2.nextFd
  sched := h2.sched.trans h1.sched

theorem of_eq {q : Path} {w w' : World} (h : w = w') : Quiet q w w' := h ▸ refl q w

/-- Erasing another file leaves us alone. -/
theorem of_erasing {q q' : Path} {i : Nat} {w w' : World} (hne : q ≠ q') (h : Erasing q' i w w') : Quiet q w w' where
  look := h.dir q hne
  dirs := fun d hd => by
    by_cases hq : d = q'
    · subst hq
      rcases h.entry with he | ⟨_, he, _⟩
      · rw [he]; exact hd
      · rw [hd] at he; cases he
    · rw [h.dir d hq]; exact hd
  files := fun j => by
    by_cases hj : j = i
    · subst hj; exact h.target
    · exact .inl (h.files j hj)
  fds := h.fds
  nextFd := h.nextFd
  sched := h.sched

end Quiet

/-- A step that at most moves handles and consumes the schedule. -/
structure Calm (w w' : World) : Prop where
  files : w'.file = w.file
  dir : w'.dir = w.dir
  fds : ∀ h, h < w.nextFd → (w'.fd h).ino = (w.fd h).ino
  nextFd : w.nextFd ≤ w'.nextFd
  sched : w'.sched <:+ w.sched
  nextIno : w'.nextIno = w.nextIno
  stdin : w'.stdin = w.stdin
  tty : w'.tty = w.tty
  env : w'.env = w.env
  log : w'.log = w.log

namespace Calm

theorem refl (w : World) : Calm w w := ⟨rfl, rfl, fun _ _ => rfl, Nat.le_refl _, List.suffix_refl _, rfl, rfl, rfl, rfl, rfl⟩

theorem trans {a b c : World} (h1 : Calm a b) (h2 : Calm b c) : Calm a c where
  files := h2.files.trans h1.files
  dir := h2.dir.trans h1.dir
  fds := fun h hh => (h2.fds h (Nat.lt_of_lt_of_le hh h1.nextFd)).trans (h1.fds h hh)
  nextFd := Nat.le_trans h1.nextFd h2.nextFd
  sched := h2.sched.trans h1.sched
  nextIno := h2.nextIno.trans h1.nextIno
  stdin := h2.stdin.trans h1.stdin
  tty := h2.tty.trans h1.tty
  env := h2.env.trans h1.env
  log := h2.log.trans h1.log

theorem of_sched (w : World) {s : List Io} (h : s <:+ w.sched) : Calm w { w with sched := s } :=
  ⟨rfl, rfl, fun _ _ => rfl, Nat.le_refl _, h, rfl, rfl, rfl, rfl, rfl⟩

theorem setPos (w : World) (h p : Nat) : Calm w (w.setPos h p) :=
  ⟨rfl, rfl, fun _ _ => World.setPos_ino .., Nat.le_refl _, List.suffix_refl _, rfl, rfl, rfl, rfl, rfl⟩

theorem opened (w : World) (i : Nat) : Calm w (w.opened i) := by
  refine ⟨rfl, rfl, fun h hh => ?_, Nat.le_succ _, List.suffix_refl _, rfl, rfl, rfl, rfl, rfl⟩
  unfold World.opened
  simp only
  rw [if_neg (by omega)]

theorem erasing {w w' : World} (h : Calm w w') (q : Path) (i : Nat) : Erasing q i w w' where
  files := fun j _ => by rw [h.files]
  target := .inl (by rw [h.files])
  dir := fun p _ => World.look_congr h.dir p
  entry := .inl (World.look_congr h.dir q)
  fds := h.fds
  nextFd := h.nextFd
  sched := h.sched
  nextIno := h.nextIno
  stdin := h.stdin
  tty := h.tty
  env := h.env
  log := ⟨[], h.log, by simp⟩

theorem quiet {w w' : World} (h : Calm w w') (q : Path) : Quiet q w w' :=
  ⟨World.look_congr h.dir q, fun d hd => by rw [World.look_congr h.dir]; exact hd, fun j => .inl (by rw [h.files]), h.fds, h.nextFd, h.sched⟩

end Calm

/-- A step of that kind that returns, and fails only if the schedule says so; `P` holds of its result. -/
def Harmless {ε α : Type} (P : α → Prop) (x : Prog ε α) : Prop :=
  ∀ w, (∃ a w', x w = (.ok a, w') ∧ P a ∧ Calm w w') ∨ (∃ e w', x w = (.err e, w') ∧ w.sched ≠ [] ∧ Calm w w')

namespace Harmless
variable {ε ε' α : Type}

theorem mapErr {P : α → Prop} {x : Prog ε α} (f : ε → ε') (h : Harmless P x) : Harmless P (x.mapErr f) := by
  intro w
  rcases h w with ⟨a, w', he, hp, hc⟩ | ⟨e, w', he, hs, hc⟩
  · exact .inl ⟨a, w', Prog.mapErr_ok he, hp, hc⟩
  · exact .inr ⟨_, w', Prog.mapErr_err he, hs, hc⟩

theorem rewind (h : Nat) : Harmless (fun _ => True) (Volaris.rewind h) := by
  intro w
  rcases rewind_cases h w with ⟨s, hs, he⟩ | ⟨s, e, hs, hn, he⟩
  · exact .inl ⟨_, _, he, trivial, (Calm.setPos w h 0).trans (.of_sched _ hs)⟩
  · exact .inr ⟨_, _, he, hn, .of_sched _ hs⟩

theorem flush (h : Nat) : Harmless (fun _ => True) (Volaris.flush h) := by
  intro w
  rcases flush_cases h w with ⟨s, hs, he⟩ | ⟨s, e, hs, hn, he⟩
  · exact .inl ⟨_, _, he, trivial, .of_sched _ hs⟩
  · exact .inr ⟨_, _, he, hn, .of_sched _ hs⟩

theorem genBytes0 : Harmless (fun a => a = []) (Volaris.genBytes 0 : Prog ε Bytes) := by
  intro w
  exact .inl ⟨[], w, by cases w; rfl, rfl, .refl w⟩

theorem writeNothing (h : Nat) : Harmless (fun _ => True) (Volaris.writeAll h []) :=
  fun w => .inl ⟨(), w, writeAll_empty w h, trivial, .refl w⟩

end Harmless

/-! ### The thread among others -/

/-- Where a thread stands that erases file `i` at `q`, spelled `p`, through handle `h`; without faults if `clean`. -/
structure Holding (p : PathBuf) (q : Path) (i h : Nat) (clean : Prop) (w : World) : Prop where
  resolve : w.resolve p = .ok q
  look : w.look q = some (.file i)
  ino : (w.fd h).ino = i
  open_ : h < w.nextFd
  empty : w.file i = []
  sched : clean → w.sched = []

theorem Holding.quiet {p : PathBuf} {q : Path} {i h : Nat} {clean : Prop} {w w' : World} (hh : Holding p q i h clean w) (hq : Quiet q w w') :
    Holding p q i h clean w' where
  resolve := World.resolve_mono hq.dirs hh.resolve
  look := hq.look.trans hh.look
  ino := (hq.fds h hh.open_).trans hh.ino
  open_ := Nat.lt_of_lt_of_le hh.open_ hq.nextFd
  empty := by
    rcases hq.files i with h | h
    · rw [h]; exact hh.empty
    · exact h
  sched := fun hc => by have := hq.sched; rw [hh.sched hc] at this; exact List.suffix_nil.1 this

/-- Result of the steps in the middle: success keeps the state, failure needs a fault. -/
def Mid {ε α : Type} (P : α → Prop) (S : World → Prop) (clean : Prop) (r : Res ε α) (w : World) : Prop :=
  match r with
  | .ok a => P a ∧ S w
  | .err _ => ¬ clean
  | .abort _ => False

section
variable {ε α : Type} {R : World → World → Prop} {p : PathBuf} {q : Path} {i h : Nat} {clean : Prop} {w : World}

theorem Harmless.rg {P : α → Prop} {x : Prog ε α} (hx : Harmless P x) (hR : ∀ a b, R a b → Quiet q a b)
    (hw : Holding p q i h clean w) : RG R (Erasing q i) (Mid P (Holding p q i h clean) clean) (Thr.atom x) w := by
  refine RG.atom fun w1 h1 => ?_
  have hw1 := hw.quiet (hR _ _ h1)
  rcases hx w1 with ⟨a, w', he, hp, hc⟩ | ⟨e, w', he, hs, hc⟩
  · rw [he]
    exact ⟨hc.erasing q i, fun w2 h2 => ⟨hp, (hw1.quiet (hc.quiet q)).quiet (hR _ _ h2)⟩⟩
  · rw [he]
    exact ⟨hc.erasing q i, fun w2 h2 hc => hs (hw1.sched hc)⟩

variable (hrefl : ∀ a, R a a) (hR : ∀ a b, R a b → Quiet q a b)
include hrefl hR

omit hR in
theorem RG.bindMid {β : Type} {P : α → Prop} {S : World → Prop} {t : Thr ε α} {f : α → Thr ε β} {P' : β → Prop} {S' : World → Prop} {G : World → World → Prop}
    (ht : RG R G (Mid P S clean) t w) (hf : ∀ a w, P a → S w → RG R G (Mid P' S' clean) (f a) w) : RG R G (Mid P' S' clean) (t >>= f) w :=
  RG.bind hrefl ht (fun a w h => hf a w h.1 h.2) (fun _ _ h => h) (fun _ _ h => h)

theorem Erase.writeBlocks_rg (bs : List Nat) : ∀ w, Holding p q i h clean w →
    RG R (Erasing q i) (Mid (fun _ => True) (Holding p q i h clean) clean) (Erase.writeBlocks h bs) w := by
  induction bs with
  | nil => exact fun w hw => RG.pure fun w' h' => ⟨trivial, hw.quiet (hR _ _ h')⟩
  | cons b bs ih =>
    intro w hw
    unfold Erase.writeBlocks
    refine RG.bindMid hrefl (Harmless.genBytes0.rg hR hw) fun a w ha hw => ?_
    rw [ha]
    exact RG.bindMid hrefl (((Harmless.writeNothing h).mapErr _).rg hR hw) fun _ w _ hw => ih w hw

theorem Erase.passes_rg (cap n : Nat) : ∀ w, Holding p q i h clean w →
    RG R (Erasing q i) (Mid (fun _ => True) (Holding p q i h clean) clean) (Erase.passes h cap n) w := by
  induction n with
  | zero => exact fun w hw => RG.pure fun w' h' => ⟨trivial, hw.quiet (hR _ _ h')⟩
  | succ n ih =>
    intro w hw
    unfold Erase.passes
    refine RG.bindMid hrefl (((Harmless.rewind h).mapErr _).rg hR hw) fun _ w _ hw => ?_
    refine RG.bindMid hrefl (Erase.writeBlocks_rg hrefl hR _ w hw) fun _ w _ hw => ?_
    exact RG.bindMid hrefl (((Harmless.flush h).mapErr _).rg hR hw) fun _ w _ hw => ih w hw

theorem Erase.overwrite_rg (n : Int) (hw : Holding p q i h clean w) :
    RG R (Erasing q i) (Mid (fun _ => True) (Holding p q i h clean) clean) (Erase.overwrite h 0 n) w := by
  unfold Erase.overwrite
  refine RG.bindMid hrefl (Erase.passes_rg hrefl hR 0 _ w hw) fun _ w _ hw => ?_
  refine RG.bindMid hrefl (((Harmless.rewind h).mapErr _).rg hR hw) fun _ w _ hw => ?_
  refine RG.bindMid hrefl (((Harmless.writeNothing h).mapErr _).rg hR hw) fun _ w _ hw => ?_
  exact ((Harmless.flush h).mapErr _).rg hR hw

/-- After the end: success means the path is gone and the file is empty. -/
theorem Erase.removeFile_rg (hq : q ≠ []) (hw : Holding p q i h clean w) :
    RG R (Erasing q i) (Mid (fun _ => True) (fun w => w.look q = none ∧ w.file i = []) clean) (Erase.removeFile p h) w := by
  unfold Erase.removeFile
  refine RG.bindMid (P := fun _ => True) (S := Holding p q i h clean) hrefl ?_ fun _ w _ hw => ?_
  · refine RG.atom fun w1 h1 => ?_
    have hw1 := hw.quiet (hR _ _ h1)
    rcases setLen0_cases h w1 with ⟨s, hs, he⟩ | ⟨s, e, hs, hn, he⟩
    · rw [Prog.mapErr_ok he]
      have hE : Erasing q i w1 (({ w1 with sched := s } : World).truncated (w1.fd h).ino) := by
        rw [hw1.ino]
        refine ⟨?_, ?_, fun _ _ => rfl, .inl rfl, fun _ _ => rfl, Nat.le_refl _, hs, rfl, rfl, rfl, rfl, [.truncate i], rfl, by simp⟩
        · intro j hj; simp [World.truncated, hj]
        · right; simp [World.truncated]
      refine ⟨hE, fun w2 h2 => ⟨trivial, Holding.quiet ?_ (hR _ _ h2)⟩⟩
      exact ⟨World.resolve_mono (w := w1) (by exact fun _ h => h) hw1.resolve, hw1.look, hw1.ino, hw1.open_, by
        simp only [World.truncated]; split
        · rfl
        · exact hw1.empty, fun hc => by have := hw1.sched hc; rw [this] at hs; exact List.suffix_nil.1 hs⟩
    · rw [Prog.mapErr_err he]
      exact ⟨(Calm.of_sched w1 hs).erasing q i, fun w2 _ hc => hn (hw1.sched hc)⟩
  refine RG.bindMid hrefl (((Harmless.flush h).mapErr _).rg hR hw) fun _ w _ hw => ?_
  refine RG.atom fun w1 h1 => ?_
  have hw1 := hw.quiet (hR _ _ h1)
  rcases unlink_cases hw1.resolve hw1.look with ⟨s, hs, he⟩ | ⟨s, e, hs, hn, he⟩
  · rw [Prog.mapErr_ok he]
    have hl : ∀ x, (({ w1 with sched := s } : World).removed q).look x = if x ≠ [] ∧ x = q then none else w1.look x :=
      fun x => World.look_removed _ q x
    refine ⟨⟨fun _ _ => rfl, .inl rfl, ?_, .inr ⟨?_, hw1.look, hw1.empty⟩, fun _ _ => rfl, Nat.le_refl _, hs, rfl, rfl, rfl, rfl, [.unlink q], rfl, by simp⟩, fun w2 h2 => ⟨trivial, ?_⟩⟩
    · intro x hx; rw [hl, if_neg (fun h => hx h.2)]
    · rw [hl, if_pos ⟨hq, rfl⟩]
    · show w2.look q = none ∧ w2.file i = []
      refine ⟨by rw [(hR _ _ h2).look, hl, if_pos ⟨hq, rfl⟩], ?_⟩
      rcases (hR _ _ h2).files i with h | h
      · rw [h]; exact hw1.empty
      · exact h
  · rw [Prog.mapErr_err he]
    exact ⟨(Calm.of_sched w1 hs).erasing q i, fun w2 _ hc => hn (hw1.sched hc)⟩

/-- The whole thread.  It needs that `p` leads to file `i` at `q`. -/
theorem Erase.thread_rg (n : Int) (hp : w.resolve p = .ok q) (hl : w.look q = some (.file i)) (hs : clean → w.sched = []) :
    RG R (Erasing q i) (Mid (fun _ => True) (fun w => w.look q = none ∧ w.file i = []) clean) (Erase.thread p n) w := by
  have hq : q ≠ [] := by rintro rfl; simp at hl
  unfold Erase.thread
  refine RG.bind (Q := fun r w => match r with | .ok h => Holding p q i h clean w | .err _ => ¬ clean | .abort _ => False) hrefl ?_
    (fun h w hw => ?_) (fun _ _ h => h) (fun _ _ h => h)
  · refine RG.atom fun w1 h1 => ?_
    have hq1 := hR _ _ h1
    have hr1 : w1.resolve p = .ok q := World.resolve_mono hq1.dirs hp
    have hl1 : w1.look q = some (.file i) := hq1.look.trans hl
    have hs1 : clean → w1.sched = [] := fun hc => by have := hq1.sched; rw [hs hc] at this; exact List.suffix_nil.1 this
    rcases openTrunc_cases hr1 hl1 with ⟨s, hs, he⟩ | ⟨s, e, hs, hn, he⟩
    · rw [Prog.mapErr_ok he]
      refine ⟨⟨?_, ?_, fun _ _ => rfl, .inl rfl, ?_, Nat.le_succ _, hs, rfl, rfl, rfl, rfl, [.truncate i], rfl, by simp⟩, fun w2 h2 => Holding.quiet ?_ (hR _ _ h2)⟩
      · intro j hj; simp [World.truncated, World.opened, hj]
      · right; simp [World.truncated, World.opened]
      · intro h hh
        simp only [World.truncated, World.opened]
        rw [if_neg (by omega)]
      · refine ⟨World.resolve_mono (w := w1) (by exact fun _ h => h) hr1, hl1, ?_, Nat.lt_succ_self _, ?_, ?_⟩
        · simp [World.truncated, World.opened]
        · simp [World.truncated, World.opened]
        · intro hc; have := hs1 hc; rw [this] at hs; exact List.suffix_nil.1 hs
    · rw [Prog.mapErr_err he]
      exact ⟨(Calm.of_sched w1 hs).erasing q i, fun w2 _ hc => hn (hs1 hc)⟩
  refine RG.bindMid (P := fun c => c = 0) (S := Holding p q i h clean) hrefl ?_ fun c w hc hw => ?_
  · refine RG.atom fun w1 h1 => ?_
    have hw1 := hw.quiet (hR _ _ h1)
    rcases fileLen_cases h w1 with ⟨s, hs, he⟩ | ⟨s, e, hs, hn, he⟩
    · rw [Prog.mapErr_ok he]
      have hc := Calm.of_sched w1 hs
      refine ⟨hc.erasing q i, fun w2 h2 => ⟨?_, (hw1.quiet (hc.quiet q)).quiet (hR _ _ h2)⟩⟩
      show (w1.file (w1.fd h).ino).length = 0
      rw [hw1.ino, hw1.empty]; rfl
    · rw [Prog.mapErr_err he]
      exact ⟨(Calm.of_sched w1 hs).erasing q i, fun w2 _ hc => hn (hw1.sched hc)⟩
  subst hc
  refine RG.bindMid hrefl (P := fun _ => True) (S := Holding p q i h clean) ?_ fun _ w _ hw => ?_
  · exact RG.mapErr (Erase.overwrite_rg hrefl hR n hw) (fun r w h => by cases r <;> exact h)
  · exact RG.mapErr (Erase.removeFile_rg hrefl hR hq hw) (fun r w h => by cases r <;> exact h)

end

/-- Every outcome of erasing a file. -/
theorem erase_cases (n : Int) {p : PathBuf} {q : Path} {i : Nat} {w : World} (hp : w.resolve p = .ok q) (hl : w.look q = some (.file i)) :
    ∃ r w', Erase.execute p n w = (r, w') ∧ Erasing q i w w' ∧
      (r = .ok () ∧ w'.look q = none ∧ w'.file i = [] ∨ (∃ e, r = .err e) ∧ w.sched ≠ []) := by
  have h := RG.run (fun a => Eq.refl a) (Erase.thread_rg (R := Eq) (clean := w.sched = []) (fun a => rfl) (fun a b h => Quiet.of_eq (q := q) h) n hp hl id)
  rw [Erase.run_thread] at h
  rcases he : Erase.execute p n w with ⟨r, w'⟩
  rw [he] at h
  obtain ⟨h1, h2⟩ := h
  refine ⟨r, w', rfl, Star.of_closed (Erasing.refl q i) (fun h g => h.trans g) h2, ?_⟩
  cases r with
  | ok a => exact .inl ⟨rfl, h1.2⟩
  | err e => exact .inr ⟨⟨e, rfl⟩, h1⟩
  | abort a => exact h1.elim

/-- A path that leads to no file. -/
theorem erase_missing (n : Int) {p : PathBuf} {w : World} (h : ∀ q, w.resolve p = .ok q → ∀ i, w.look q ≠ some (.file i)) :
    ∃ w', Erase.execute p n w = (.err .openFile, w') ∧ w'.core = w.core ∧ w'.log = w.log := by
  have hop : ∃ e s, openTrunc p w = (.err e, { w with sched := s }) := by
    have hat : ∀ s, ∃ e, openTruncAt p { w with sched := s } = (.err e, { w with sched := s }) := by
      intro s
      unfold openTruncAt
      rw [World.resolve_sched]
      cases hr : w.resolve p with
      | error e => exact ⟨e, rfl⟩
      | ok q =>
        simp only [World.look_sched]
        cases hq : w.look q with
        | none => exact ⟨_, rfl⟩
        | some nd =>
          cases nd with
          | file i => exact absurd hq (h q hr i)
          | dir => exact ⟨_, rfl⟩
    unfold openTrunc
    rcases sysRetry_cases w with ⟨s, hs, he⟩ | ⟨s, e, hs, hn, he⟩
    · obtain ⟨e, h'⟩ := hat s
      exact ⟨e, s, by rw [Prog.bind_ok he, h']⟩
    · exact ⟨e, s, by rw [Prog.bind_err he]⟩
  obtain ⟨e, s, ho⟩ := hop
  refine ⟨{ w with sched := s }, ?_, rfl, rfl⟩
  have : Storage.writeFile p w = (.err (.openFile .write), { w with sched := s }) := by
    unfold Storage.writeFile
    rw [Prog.bind_err (Prog.mapErr_err ho)]
  unfold Erase.execute
  rw [Prog.bind_err (Prog.mapErr_err this)]

end Volaris
