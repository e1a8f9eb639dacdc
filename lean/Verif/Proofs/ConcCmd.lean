import Verif.Proofs.ConcPrims
import Verif.Proofs.Steps
/-!
# The commands, made by a process alone and among others
-/
namespace Volaris.Conc
open Volaris.Spec
variable {c : Cfg} {R : Nat → Nat → Prop} {a v : World} {ε ε' α β σ : Type}

/-! ## What makes no use of the file system -/

/-- The file system and the handles are as they were. -/
structure Own (w w' : World) : Prop where
  disk : w'.disk = w.disk
  fd : w'.fd = w.fd
  nextFd : w'.nextFd = w.nextFd

theorem Own.refl (w : World) : Own w w := ⟨rfl, rfl, rfl⟩
theorem Own.trans {w w' w'' : World} (h : Own w w') (h' : Own w' w'') : Own w w'' := ⟨h'.disk.trans h.disk, h'.fd.trans h.fd, h'.nextFd.trans h.nextFd⟩

/-- The program uses only what the process has for itself. -/
def Aside (x : Prog ε α) : Prop := ∀ w v, Priv w v → (x w).1 = (x v).1 ∧ Priv (x w).2 (x v).2 ∧ Own w (x w).2 ∧ Own v (x v).2

namespace Aside

theorem lift (r : Res ε α) : Aside (Prog.lift r) := fun w v h => ⟨rfl, h, .refl _, .refl _⟩
theorem pure (y : α) : Aside (Pure.pure y : Prog ε α) := lift (.ok y)
theorem throw (e : ε) : Aside (Prog.throw e : Prog ε α) := lift (.err e)
theorem panic : Aside (Prog.panic : Prog ε α) := lift (.abort .panic)

theorem bind {x : Prog ε α} {f : α → Prog ε β} (hx : Aside x) (hf : ∀ y, Aside (f y)) : Aside (x >>= f) := by
  intro w v h
  obtain ⟨h1, h2, h3, h4⟩ := hx w v h
  rw [Prog.bind_run, Prog.bind_run]
  rcases ew : x w with ⟨r, w'⟩
  rcases ev : x v with ⟨r', v'⟩
  rw [ew, ev] at h1 h2
  rw [ew] at h3
  rw [ev] at h4
  simp only at h1 h2 h3 h4
  subst h1
  cases r with
  | ok y =>
    obtain ⟨g1, g2, g3, g4⟩ := hf y w' v' h2
    exact ⟨g1, g2, h3.trans g3, h4.trans g4⟩
  | err e => exact ⟨rfl, h2, h3, h4⟩
  | abort e => exact ⟨rfl, h2, h3, h4⟩

theorem mapErr {x : Prog ε α} (f : ε → ε') (hx : Aside x) : Aside (x.mapErr f) := by
  intro w v h
  obtain ⟨h1, h2, h3, h4⟩ := hx w v h
  rw [Prog.mapErr_run, Prog.mapErr_run]
  rcases ew : x w with ⟨r, w'⟩
  rcases ev : x v with ⟨r', v'⟩
  rw [ew, ev] at h1 h2
  rw [ew] at h3
  rw [ev] at h4
  simp only at h1 h2 h3 h4
  subst h1
  cases r <;> exact ⟨rfl, h2, h3, h4⟩

theorem sysRetry : Aside sysRetry := by
  intro w v h
  have hs := h.sched
  unfold Volaris.sysRetry World.pop
  cases hw : w.sched with
  | nil => rw [hw] at hs; rw [← hs]; exact ⟨rfl, h, .refl _, .refl _⟩
  | cons o s => rw [hw] at hs; rw [← hs]; cases o <;> exact ⟨rfl, { h with sched := rfl }, ⟨rfl, rfl, rfl⟩, ⟨rfl, rfl, rfl⟩⟩

theorem sys : Aside sys := by
  intro w v h
  have hs := h.sched
  unfold Volaris.sys World.pop
  cases hw : w.sched with
  | nil => rw [hw] at hs; rw [← hs]; exact ⟨rfl, h, .refl _, .refl _⟩
  | cons o s => rw [hw] at hs; rw [← hs]; cases o <;> exact ⟨rfl, { h with sched := rfl }, ⟨rfl, rfl, rfl⟩, ⟨rfl, rfl, rfl⟩⟩

theorem genBytes (n : Nat) : Aside (genBytes n : Prog ε Bytes) := by
  intro w v h
  unfold Volaris.genBytes
  exact ⟨by rw [h.rng], { h with rng := by rw [h.rng] }, ⟨rfl, rfl, rfl⟩, ⟨rfl, rfl, rfl⟩⟩

theorem say (t : List Char) : Aside (Cli.say t : Prog ε Unit) := by
  intro w v h
  unfold Cli.say
  exact ⟨rfl, { h with out := by rw [h.log, h.stdin, h.tty, h.out] }, ⟨rfl, rfl, rfl⟩, ⟨rfl, rfl, rfl⟩⟩

theorem setStdin (l : List String) : Aside (Cli.setStdin l : Prog ε Unit) := fun w v h => ⟨rfl, { h with stdin := rfl }, ⟨rfl, rfl, rfl⟩, ⟨rfl, rfl, rfl⟩⟩
theorem setTty (l : List Bytes) : Aside (Cli.setTty l : Prog ε Unit) := fun w v h => ⟨rfl, { h with tty := rfl }, ⟨rfl, rfl, rfl⟩, ⟨rfl, rfl, rfl⟩⟩

theorem answerLoop (prompt : List Char) (default : Bool) : ∀ lines, Aside (Cli.answerLoop prompt default lines)
  | [] => by
    unfold Cli.answerLoop
    exact (say _).bind fun _ => (sys.mapErr _).bind fun _ => (sysRetry.mapErr _).bind fun _ => throw _
  | l :: ls => by
    unfold Cli.answerLoop
    refine (say _).bind fun _ => (sys.mapErr _).bind fun _ => (sysRetry.mapErr _).bind fun _ => (setStdin _).bind fun _ => ?_
    split
    · exact throw _
    · split
      · exact pure _
      · exact (say _).bind fun _ => answerLoop prompt default ls

theorem getAnswer (prompt : List Char) (default : Bool) (force : Cli.ForceMode) : Aside (Cli.getAnswer prompt default force) := by
  cases force with
  | forced => exact pure _
  | prompt =>
    intro w v h
    have hw : Cli.getAnswer prompt default .prompt w = Cli.answerLoop prompt default v.stdin w := by rw [← h.stdin]; rfl
    have hv : Cli.getAnswer prompt default .prompt v = Cli.answerLoop prompt default v.stdin v := rfl
    rw [hw, hv]
    exact answerLoop prompt default v.stdin w v h

theorem confirmLoop : ∀ l, Aside (Cli.confirmLoop l)
  | [] => throw _
  | [_] => by unfold Cli.confirmLoop; exact (sysRetry.mapErr _).bind fun _ => (setTty _).bind fun _ => throw _
  | x :: y :: rest => by
    unfold Cli.confirmLoop
    refine (sysRetry.mapErr _).bind fun _ => (setTty _).bind fun _ => (sysRetry.mapErr _).bind fun _ => (setTty _).bind fun _ => ?_
    split
    · exact pure _
    · exact (say _).bind fun _ => confirmLoop rest

theorem directPassword : ∀ l, Aside (Cli.directPassword l)
  | [] => throw _
  | x :: rest => by unfold Cli.directPassword; exact (sysRetry.mapErr _).bind fun _ => (setTty _).bind fun _ => pure _

theorem getPassword (state : Cli.PasswordState) : Aside (Cli.getPassword state) := by
  intro w v h
  unfold Cli.getPassword
  cases state with
  | validate => simp only; rw [h.tty]; exact confirmLoop v.tty w v h
  | direct => simp only; rw [h.tty]; exact directPassword v.tty w v h

theorem readStdin : Aside Cli.readStdin := by
  intro w v h
  unfold Cli.readStdin
  rw [h.stdin]
  exact ((sysRetry.mapErr _).bind fun _ => (setStdin _).bind fun _ => pure _) w v h

theorem readEnv : Aside Cli.readEnv := by
  intro w v h
  unfold Cli.readEnv
  rw [h.env]
  cases v.env <;> exact ⟨rfl, h, .refl _, .refl _⟩

theorem passphraseLoop (words : List (List Char)) : ∀ (n : Nat) (p : List Char), Aside (Volaris.passphraseLoop words n p : Prog ε (List Char))
  | 0, _ => pure _
  | n + 1, p => by
    unfold Volaris.passphraseLoop
    refine Aside.bind ?_ fun i => ?_
    · unfold genRangeIncl; exact (genBytes _).bind fun _ => pure _
    · split
      · exact panic
      · exact passphraseLoop words n _

theorem fetch (words : List (List Char)) (cwd : Path) (state : Cli.PasswordState) {k : Cli.Key} (hk : ∀ p, k = .keyfile p → p = ['-']) : Aside (Cli.fetch words cwd state k) := by
  cases k with
  | keyfile p =>
    rw [hk p rfl]
    unfold Cli.fetch
    simp only [if_true]
    refine readStdin.bind fun s => ?_
    split
    · exact throw _
    · exact pure _
  | env => exact readEnv
  | user => exact getPassword state
  | generate i => exact (passphraseLoop words _ _).bind fun _ => (say _).bind fun _ => pure _

theorem prepare (C : Crypto) (req : Encrypt.Request) : Aside (Encrypt.prepare C req) := by
  unfold Encrypt.prepare genSalt genMasterKey genNonce
  exact (genBytes _).bind fun _ => (lift _).bind fun _ => (lift _).bind fun _ => (genBytes _).bind fun _ => (genBytes _).bind fun _ => (lift _).bind fun _ => (genBytes _).bind fun _ => (lift _).bind fun _ => pure _

end Aside

theorem Sim.own (hs : Sim c R a v) {a' v' : World} (hp : Priv a' v') (ha : Own a a') (hv : Own v v') : Sim c R a' v' := by
  have la : ∀ q, a'.look q = a.look q := fun q => World.look_congr (congrArg Disk.dir ha.disk) q
  have lv : ∀ q, v'.look q = v.look q := fun q => World.look_congr (congrArg Disk.dir hv.disk) q
  have fa : a'.file = a.file := congrArg Disk.file ha.disk
  have fv : v'.file = v.file := congrArg Disk.file hv.disk
  have na : a'.nextIno = a.nextIno := congrArg Disk.nextIno ha.disk
  have nv : v'.nextIno = v.nextIno := congrArg Disk.nextIno hv.disk
  refine ⟨hp, ?_, ?_, ?_, hs.inj, ?_, ?_, ?_, ?_, ?_, ?_, ?_, ?_, ?_⟩
  · rw [ha.nextFd, hv.nextFd]; exact hs.nextFd
  · rw [ha.nextFd]; exact hs.base
  · rw [ha.nextFd, ha.fd, hv.fd]; exact hs.hand
  · rw [fa, fv]; exact hs.file
  · rw [na]; exact hs.olda
  · rw [nv]; exact hs.oldv
  · intro q i; rw [la, na]; exact hs.alla q i
  · intro q i; rw [lv, nv]; exact hs.allv q i
  · intro q; rw [la]; exact hs.dira q
  · intro q; rw [lv]; exact hs.dirv q
  · intro q; rw [la, lv]; exact hs.names q
  · rw [show a'.dir = a.dir from congrArg Disk.dir ha.disk, show v'.dir = v.dir from congrArg Disk.dir hv.disk]; exact hs.list

theorem Good.aside (hs : Sim c R a v) {x : Prog ε α} (hx : Aside x) : Good c R x (K a fun _ _ => True) a v := by
  obtain ⟨h1, h2, h3, h4⟩ := hx a v hs.priv
  exact Good.own h1 (hs.own h2 h3 h4) h3.disk h4.disk fun _ _ => ⟨keeps_disk h3.disk h3.fd h3.nextFd, trivial⟩

/-! ## Sequences of steps -/

/-- Whatever the other processes do between the steps, each step is as it is when the process is alone; `Q` holds at the end if the process does not fail. -/
def Safe (c : Cfg) (Q : α → World → Prop) : Thr ε α → World → (Nat → Nat → Prop) → Prop
  | .done r, a, _ => ∀ y, r = .ok y → Q y a
  | .step eff k, a, R => ∀ v, Sim c R a v → k a = k v ∧ ∃ R', Grow R R' a v ∧ Sim c R' (eff a) (eff v) ∧ Others c.writes v.disk (eff v).disk ∧ Safe c Q (k a) (eff a) R'

namespace Safe
variable {Q : α → World → Prop}

theorem mono {Q' : α → World → Prop} (hq : ∀ y w, Q y w → Q' y w) : ∀ {t : Thr ε α} {a : World} {R : Nat → Nat → Prop}, Safe c Q t a R → Safe c Q' t a R := by
  intro t
  induction t with
  | done r => intro a R h y hy; exact hq y a (h y hy)
  | step eff k ih =>
    intro a R h v hs
    obtain ⟨h1, R', h2, h3, h4, h5⟩ := h v hs
    exact ⟨h1, R', h2, h3, h4, ih a h5⟩

theorem bind {f : α → Thr ε β} {Q' : β → World → Prop} : ∀ {t : Thr ε α} {a : World} {R : Nat → Nat → Prop}, Safe c Q t a R → (∀ y w R', Q y w → Safe c Q' (f y) w R') → Safe c Q' (t >>= f) a R := by
  intro t
  rw [Thr.bind_eq]
  induction t with
  | done r =>
    intro a R h hf
    cases r with
    | ok y => exact hf y a R (h y rfl)
    | err e => intro y hy; cases hy
    | abort e => intro y hy; cases hy
  | step eff k ih =>
    intro a R h hf v hs
    obtain ⟨h1, R', h2, h3, h4, h5⟩ := h v hs
    exact ⟨congrArg (·.bind f) h1, R', h2, h3, h4, ih a h5 hf⟩

theorem mapErr {f : ε → ε'} : ∀ {t : Thr ε α} {a : World} {R : Nat → Nat → Prop}, Safe c Q t a R → Safe c Q (t.mapErr f) a R := by
  intro t
  induction t with
  | done r =>
    intro a R h y hy
    cases r with
    | ok y' => cases hy; exact h _ rfl
    | err e => cases hy
    | abort e => cases hy
  | step eff k ih =>
    intro a R h v hs
    obtain ⟨h1, R', h2, h3, h4, h5⟩ := h v hs
    exact ⟨congrArg (·.mapErr f) h1, R', h2, h3, h4, ih a h5⟩

theorem atom {x : Prog ε α} {a : World} {R : Nat → Nat → Prop} (h : ∀ v, Sim c R a v → Good c R x Q a v) : Safe c Q (Thr.atom x) a R := by
  intro v hs
  obtain ⟨h1, R', h2, h3, _, h5, h6⟩ := h v hs
  exact ⟨congrArg Thr.done h1, R', h2, h3, h5, h6⟩

theorem done {r : Res ε α} {a : World} {R : Nat → Nat → Prop} (h : ∀ y, r = .ok y → Q y a) : Safe c Q (.done r) a R := h

theorem pure {y : α} {a : World} {R : Nat → Nat → Prop} (h : Q y a) : Safe c Q (Pure.pure y : Thr ε α) a R := fun _ hy => by cases hy; exact h

theorem err {e : ε} {a : World} {R : Nat → Nat → Prop} : Safe c Q (.done (.err e)) a R := fun _ hy => by cases hy
theorem abort {e : Abort} {a : World} {R : Nat → Nat → Prop} : Safe (ε := ε) c Q (.done (.abort e)) a R := fun _ hy => by cases hy

end Safe

/-- As `Safe`, and no name of a file goes away. -/
abbrev SafeK (c : Cfg) (Q : α → World → Prop) (t : Thr ε α) (a : World) (R : Nat → Nat → Prop) : Prop := Safe c (K a Q) t a R

namespace SafeK
variable {Q : α → World → Prop}

theorem bind {t : Thr ε α} {f : α → Thr ε β} {Q' : β → World → Prop} (h : SafeK c Q t a R) (hf : ∀ y w R', Keeps a w → Q y w → SafeK c Q' (f y) w R') : SafeK c Q' (t >>= f) a R :=
  Safe.bind h fun y w R' hk => (hf y w R' hk.1 hk.2).mono fun _ _ h => ⟨hk.1.trans h.1, h.2⟩

theorem done {r : Res ε α} (h : ∀ y, r = .ok y → Q y a) : SafeK c Q (.done r) a R := fun y hy => ⟨.refl _, h y hy⟩
theorem pure {y : α} (h : Q y a) : SafeK c Q (Pure.pure y : Thr ε α) a R := Safe.pure ⟨.refl _, h⟩
theorem atom {x : Prog ε α} (h : ∀ v, Sim c R a v → Good c R x (K a Q) a v) : SafeK c Q (Thr.atom x) a R := Safe.atom h
theorem mono {Q' : α → World → Prop} {t : Thr ε α} (h : SafeK c Q t a R) (hq : ∀ y w, Q y w → Q' y w) : SafeK c Q' t a R := Safe.mono (fun y w hk => ⟨hk.1, hq y w hk.2⟩) h
theorem mapErr {f : ε → ε'} {t : Thr ε α} (h : SafeK c Q t a R) : SafeK c Q (t.mapErr f) a R := Safe.mapErr h
theorem lift {r : Res ε α} : SafeK c (fun _ _ => True) (.done r) a R := done fun _ _ => trivial
theorem aside {x : Prog ε α} (hx : Aside x) : SafeK c (fun _ _ => True) (Thr.atom x) a R := atom fun _ hs => .aside hs hx

end SafeK

/-! ## The parts of the commands -/

section
open Volaris.Cli

/-- What is known of an entry for a place. -/
def Ent (c : Cfg) (q : Path) (e : Storage.Entry) (w : World) : Prop := (e.isDir = true ↔ c.dirs q) ∧ ∀ h, e.stream = .ok h → Hand c h w

/-- What is known of an entry that was opened for writing. -/
def Out (c : Cfg) (e : Storage.Entry) (w : World) : Prop := ∃ p h, e = .file p h ∧ Wr c h w

theorem Ent.keeps {q : Path} {e : Storage.Entry} {w w' : World} (h : Ent c q e w) (k : Keeps w w') : Ent c q e w' := ⟨h.1, fun x hx => (h.2 x hx).keeps k⟩
theorem Out.keeps {e : Storage.Entry} {w w' : World} (h : Out c e w) (k : Keeps w w') : Out c e w' := by
  obtain ⟨p, x, he, hw⟩ := h; exact ⟨p, x, he, hw.keeps k⟩

theorem safe_read {h : Nat} (hh : Hand c h a) (n : Nat) (f : IoErr → ε) : SafeK c (fun _ _ => True) (Thr.atom ((read h n).mapErr f)) a R := .atom fun _ hs => (good_read hs hh n).mapErr
theorem safe_readUpTo {h : Nat} (hh : Hand c h a) (n : Nat) (f : IoErr → ε) : SafeK c (fun _ _ => True) (Thr.atom ((readUpTo h n).mapErr f)) a R := .atom fun _ hs => (good_readUpTo hs hh n).mapErr
theorem safe_readExact {h : Nat} (hh : Hand c h a) (n : Nat) (f : IoErr → ε) : SafeK c (fun _ _ => True) (Thr.atom ((readExact h n).mapErr f)) a R := .atom fun _ hs => (good_readExact hs hh n).mapErr
theorem safe_readToEnd {h : Nat} (hh : Hand c h a) (f : IoErr → ε) : SafeK c (fun _ _ => True) (Thr.atom ((readToEnd h).mapErr f)) a R := .atom fun _ hs => (good_readToEnd hs hh).mapErr
theorem safe_write {h : Nat} (hh : Wr c h a) (bs : Bytes) (f : IoErr → ε) : SafeK c (fun _ _ => True) (Thr.atom ((write h bs).mapErr f)) a R := .atom fun _ hs => (good_write hs hh bs).mapErr
theorem safe_writeAll {h : Nat} (hh : Wr c h a) (bs : Bytes) (f : IoErr → ε) : SafeK c (fun _ _ => True) (Thr.atom ((writeAll h bs).mapErr f)) a R := .atom fun _ hs => (good_writeAll hs hh bs).mapErr
theorem safe_rewind (h : Nat) (f : IoErr → ε) : SafeK c (fun _ _ => True) (Thr.atom ((rewind h).mapErr f)) a R := .atom fun _ hs => (good_rewind hs h).mapErr
theorem safe_flush (h : Nat) (f : IoErr → ε) : SafeK c (fun _ _ => True) (Thr.atom ((flush h).mapErr f)) a R := .atom fun _ hs => (good_flush hs h).mapErr
theorem safe_openFile {p : PathBuf} {q : Path} (hl : Leads c p q) (hq : c.uses q) (f : IoErr → ε) : SafeK c (fun h w => Hand c h w) (Thr.atom ((openFile p).mapErr f)) a R :=
  .atom fun _ hs => (good_openFile hs hl hq).mapErr

theorem safe_readFile {p : PathBuf} {q : Path} (hl : Leads c p q) (hq : c.uses q) : SafeK c (Ent c q) (Steps.readFile p) a R := by
  unfold Steps.readFile
  refine SafeK.bind (.atom fun _ hs => good_isDir hs hl) fun b w R' hk hb => ?_
  cases b with
  | true => exact SafeK.pure ⟨hb, fun h hh => by cases hh⟩
  | false =>
    refine (safe_openFile hl hq _).bind fun h w' R'' hk' hh => SafeK.pure ⟨?_, fun x hx => by cases hx; exact hh⟩
    exact Iff.intro (fun e => by cases e) fun hd => by have := hb.2 hd; cases this

theorem safe_readInput {p : PathBuf} {q : Path} (hl : Leads c p q) (hq : c.uses q) : SafeK c (Ent c q) (Steps.readInput p) a R := (safe_readFile hl hq).mapErr

theorem createFile_err_keeps {p : PathBuf} {a a' : World} {e : Storage.Error} (h : Storage.createFile p a = (.err e, a')) : Keeps a a' := by
  have sched : ∀ s, Keeps a { a with sched := s } := keeps_sched a
  have at' : ∀ (w w' : World) (e : IoErr), openNewAt p w = (.err e, w') → w' = w := by
    intro w w' e h
    unfold openNewAt at h
    split at h
    · split at h
      · cases h; rfl
      · split at h
        · cases h
        · cases h; rfl
    · cases h; rfl
  have pop : ∃ s, (sysRetry a).2 = { a with sched := s } := by
    unfold sysRetry World.pop
    cases a.sched with
    | nil => exact ⟨a.sched, rfl⟩
    | cons o s => cases o <;> exact ⟨s, rfl⟩
  obtain ⟨s, hs⟩ := pop
  unfold Storage.createFile openNew at h
  simp only [Prog.bind_run, Prog.mapErr_run] at h
  rcases hr : sysRetry a with ⟨r, b⟩
  rw [hr] at h hs
  simp only at hs
  subst hs
  cases r with
  | err e' => cases h; exact sched s
  | abort x => cases h
  | ok u =>
    simp only at h
    rcases ho : openNewAt p { a with sched := s } with ⟨r', b'⟩
    rw [ho] at h
    cases r' with
    | ok y => cases h
    | abort x => cases h
    | err e' => cases h; rw [at' _ _ _ ho]; exact sched s

theorem safe_openOutput {p : PathBuf} {q : Path} (hl : Leads c p q) (hq : c.writes q) : SafeK c (Out c) (Steps.openOutput p) a R := by
  unfold Steps.openOutput Steps.orElse
  refine SafeK.mapErr (SafeK.bind (Q := fun r w => ∀ y, r = .ok y → Out c y w) (.atom fun v hs => ?_) fun r w R' hk hr => ?_)
  · unfold Good
    have : Good c R (Storage.createFile p) (K a (Out c)) a v := (good_openNew hs hl hq).mapErr.bind fun h a' v' R' hs' hk => Good.pure hs' _ ⟨hk.1, p, h, rfl, hk.2⟩
    obtain ⟨h1, R', h2, h3, h4, h5, h6⟩ := this
    unfold Prog.attempt
    rcases ea : Storage.createFile p a with ⟨r, a'⟩
    rcases ev : Storage.createFile p v with ⟨r', v'⟩
    rw [ea, ev] at h1 h3
    rw [ea] at h4 h6
    rw [ev] at h5
    simp only at h1 h3 h4 h5 h6
    subst h1
    cases r with
    | ok y => exact ⟨rfl, R', h2, h3, h4, h5, fun r hr => by cases hr; exact ⟨(h6 y rfl).1, fun y' hy => by cases hy; exact (h6 y rfl).2⟩⟩
    | err e =>
      refine ⟨rfl, R', h2, h3, h4, h5, fun r hr => ?_⟩
      cases hr
      exact ⟨createFile_err_keeps ea, fun y' hy => by cases hy⟩
    | abort e => exact ⟨rfl, R', h2, h3, h4, h5, fun r hr => by cases hr⟩
  · cases r with
    | ok y => exact SafeK.pure (hr y rfl)
    | err e =>
      refine .atom fun v hs => ?_
      exact (good_openTrunc hs hl hq).mapErr.bind fun h a' v' R' hs' hk => Good.pure hs' _ ⟨hk.1, p, h, rfl, hk.2⟩
    | abort e => exact Safe.abort

theorem safe_consent {cwd : Path} {name : List Char} {q : Path} (hl : Leads c (toPath cwd name) q) (hq : c.uses q) (force : ForceMode) : SafeK c (fun _ _ => True) (Steps.consent cwd name force) a R := by
  unfold Steps.consent Steps.overwriteCheck
  refine SafeK.bind (Q := fun _ _ => True) (SafeK.bind (.atom fun _ hs => good_existsAt hs hl hq) fun b w R' hk hb => ?_) fun b w R' hk hb => ?_
  · cases b with
    | true => exact .aside (.getAnswer _ _ _)
    | false => exact .pure trivial
  · cases b with
    | true => exact .pure trivial
    | false => exact Safe.abort

theorem safe_flushFile (e : Storage.Entry) : SafeK c (fun _ _ => True) (Steps.flushFile e) a R := by
  unfold Steps.flushFile
  exact SafeK.lift.bind fun h w R' hk _ => safe_flush h _

theorem safe_flushOpt : ∀ (o : Option Storage.Entry), SafeK c (fun _ _ => True) (Steps.flushOpt o) a R
  | none => .pure trivial
  | some e => (safe_flushFile e).mapErr

theorem safe_getSecret {words : List (List Char)} {cwd : Path} {key : Key} (hk : ∀ n, n ∈ keyFiles key → ∃ q, Leads c (toPath cwd n) q ∧ c.uses q) (state : PasswordState) :
    SafeK c (fun _ _ => True) (Steps.getSecret words cwd key state) a R := by
  unfold Steps.getSecret
  refine SafeK.bind (Q := fun _ _ => True) ?_ fun s w R' hk _ => ?_
  · cases key with
    | keyfile p =>
      unfold Steps.fetch
      simp only
      by_cases hp : p = ['-']
      · rw [if_pos hp]; exact .aside (.fetch _ _ _ fun x hx => by cases hx; rfl)
      · rw [if_neg hp]
        obtain ⟨q, hl, hq⟩ := hk p (by unfold keyFiles; simp only; rw [if_neg hp]; exact List.mem_singleton.2 rfl)
        unfold Steps.readKeyfile
        refine (safe_openFile hl hq _).bind fun h w R' hk hh => (safe_readToEnd hh _).bind fun s w R' hk' _ => ?_
        split
        · exact Safe.err
        · exact .pure trivial
    | env => exact .aside (.fetch _ _ _ fun x hx => by cases hx)
    | user => exact .aside (.fetch _ _ _ fun x hx => by cases hx)
    | generate i => exact .aside (.fetch _ _ _ fun x hx => by cases hx)
  · split
    · exact Safe.err
    · exact .pure trivial

theorem safe_hashLoop (H : HashCmd.Hasher σ) {h : Nat} : ∀ (fuel : Nat) (st : σ) {a : World} {R : Nat → Nat → Prop}, Hand c h a → SafeK c (fun _ _ => True) (Steps.hashLoop H h fuel st) a R := by
  intro fuel
  induction fuel with
  | zero =>
    intro st a R hh
    unfold Steps.hashLoop
    refine (safe_read hh _ _).bind fun b w R' hk _ => ?_
    simp only
    split
    · exact .pure trivial
    · exact Safe.abort
  | succ n ih =>
    intro st a R hh
    unfold Steps.hashLoop
    refine (safe_read hh _ _).bind fun b w R' hk _ => ?_
    simp only
    split
    · exact .pure trivial
    · exact ih _ (hh.keeps hk)

theorem safe_hashExecute (H : HashCmd.Hasher σ) {h : Nat} (hh : Hand c h a) : SafeK c (fun _ _ => True) (Steps.hashExecute H h) a R := by
  unfold Steps.hashExecute
  refine (safe_rewind h _).bind fun _ w R' hk _ => ?_
  have hh := hh.keeps hk
  refine SafeK.bind (Q := fun _ _ => True) (.atom fun v hs => ?_) fun n w' R'' hk' _ => ?_
  · exact Good.of (r := .ok (w.data h).length) rfl (by rw [hs.data hh]) hs (.refl _) (.refl _) fun _ _ => ⟨.refl _, trivial⟩
  · exact (safe_hashLoop H n _ (hh.keeps hk')).bind fun st w R' hk _ => .pure trivial

theorem safe_hashStream (s : Sys σ) : ∀ (files : List (List Char)) {a : World} {R : Nat → Nat → Prop}, (∀ n, n ∈ files → ∃ q, Leads c (toPath s.cwd n) q ∧ c.uses q) →
    SafeK c (fun _ _ => True) (Steps.hashStream s files) a R
  | [], _, _, _ => .pure trivial
  | f :: fs, a, R, hn => by
    unfold Steps.hashStream
    obtain ⟨q, hl, hq⟩ := hn f (List.mem_cons_self ..)
    refine (safe_openFile hl hq _).bind fun h w R' hk hh => (safe_hashExecute s.H hh).mapErr.bind fun d w R' hk' _ => ?_
    refine (SafeK.aside (.say _)).bind fun _ w R' _ _ => ?_
    exact (safe_hashStream s fs fun n h => hn n (List.mem_cons_of_mem _ h)).bind fun ds w R' _ _ => .pure trivial

theorem safe_hashIf (s : Sys σ) (mode : HashMode) {file : List Char} {q : Path} (hl : Leads c (toPath s.cwd file) q) (hq : c.uses q) : SafeK c (fun _ _ => True) (Steps.hashIf s mode file) a R := by
  cases mode with
  | noHash => exact .pure trivial
  | calculateHash => exact (safe_hashStream s [file] fun n hn => by cases List.mem_singleton.1 hn; exact ⟨q, hl, hq⟩).bind fun _ w R' _ _ => .pure trivial

theorem safe_writeBlocks {h : Nat} : ∀ (bs : List Nat) {a : World} {R : Nat → Nat → Prop}, Wr c h a → SafeK c (fun _ _ => True) (Erase.writeBlocks h bs) a R
  | [], _, _, _ => .pure trivial
  | _ :: bs, _, _, hw => by
    unfold Erase.writeBlocks
    exact (SafeK.aside (.genBytes _)).bind fun _ _ _ hk _ => (safe_writeAll (hw.keeps hk) _ _).bind fun _ _ _ hk' _ => safe_writeBlocks bs ((hw.keeps hk).keeps hk')

theorem safe_passes {h : Nat} (cap : Nat) : ∀ (n : Nat) {a : World} {R : Nat → Nat → Prop}, Wr c h a → SafeK c (fun _ _ => True) (Erase.passes h cap n) a R
  | 0, _, _, _ => .pure trivial
  | n + 1, _, _, hw => by
    unfold Erase.passes
    refine (safe_rewind h _).bind fun _ _ _ hk _ => (safe_writeBlocks _ (hw.keeps hk)).bind fun _ _ _ hk' _ => ?_
    exact (safe_flush h _).bind fun _ _ _ hk'' _ => safe_passes cap n (((hw.keeps hk).keeps hk').keeps hk'')

theorem safe_overwrite {h : Nat} (hw : Wr c h a) (cap : Nat) (n : Int) : SafeK c (fun _ _ => True) (Erase.overwrite h cap n) a R := by
  unfold Erase.overwrite
  refine (safe_passes cap _ hw).bind fun _ w R' hk _ => (safe_rewind h _).bind fun _ w R' hk' _ => ?_
  exact (safe_writeAll ((hw.keeps hk).keeps hk') _ _).bind fun _ w R' _ _ => safe_flush h _

theorem safe_removeFile {p : PathBuf} {q : Path} {h : Nat} (hl : Leads c p q) (hq : c.writes q) (hw : Wr c h a) : Safe c (fun _ _ => True) (Erase.removeFile p h) a R := by
  unfold Erase.removeFile
  refine Safe.bind (SafeK.atom (Q := fun _ _ => True) fun v hs => (good_setLen0 hs hw).mapErr) fun _ w R' _ => ?_
  refine Safe.bind (safe_flush h _) fun _ w R' _ => ?_
  exact Safe.atom fun v hs => (good_unlink hs hl hq).mapErr

theorem safe_eraseThread {p : PathBuf} {q : Path} (hl : Leads c p q) (hq : c.writes q) (n : Int) : Safe c (fun _ _ => True) (Erase.thread p n) a R := by
  unfold Erase.thread
  refine Safe.bind (SafeK.atom (Q := fun h w => Wr c h w) fun v hs => (good_openTrunc hs hl hq).mapErr) fun h w R' hw => ?_
  have hw := hw.2
  refine Safe.bind (SafeK.atom (Q := fun _ _ => True) fun v hs => (good_fileLen hs hw.1).mapErr) fun cap w' R'' hk => ?_
  have hw := hw.keeps hk.1
  exact Safe.bind (SafeK.mapErr (safe_overwrite hw _ _)) fun _ w R' hk => Safe.mapErr (safe_removeFile hl hq (hw.keeps hk.1))

theorem safe_secureErase (s : Sys σ) {input : List Char} {q : Path} (hl : Leads c (toPath s.cwd input) q) (hq : c.writes q) (hd : ¬ c.dirs q) (n : Int) (force : ForceMode) :
    Safe c (fun _ _ => True) (Steps.secureErase s input n force) a R := by
  unfold Steps.secureErase
  refine Safe.bind (safe_readInput hl (c.sub q hq)) fun e w R' he => ?_
  rw [if_neg fun h => hd (he.2.1.1 h)]
  exact Safe.mapErr (safe_eraseThread hl hq n)

theorem safe_eraseIf (s : Sys σ) {input : List Char} {q : Path} (hl : Leads c (toPath s.cwd input) q) (mode : EraseMode) (hq : mode ≠ .ignoreFile → c.writes q) (hd : ¬ c.dirs q) (force : ForceMode) :
    Safe c (fun _ _ => True) (Steps.eraseIf s mode force input) a R := by
  cases mode with
  | eraseFile n => exact safe_secureErase s hl (hq (by intro h; cases h)) hd n force
  | ignoreFile => exact Safe.pure trivial

theorem safe_encLoop (C : Crypto) {rh wh : Nat} (aad : Bytes) : ∀ (fuel : Nat) (s : Stream) {a : World} {R : Nat → Nat → Prop}, Hand c rh a → Wr c wh a →
    SafeK c (fun _ _ => True) (Steps.encLoop C rh wh aad fuel s) a R := by
  intro fuel
  induction fuel with
  | zero =>
    intro s a R hr hw
    unfold Steps.encLoop
    refine (safe_read hr _ _).bind fun b w R' hk _ => ?_
    split
    · refine SafeK.lift.bind fun x w' R' hk' _ => ?_
      exact (safe_writeAll ((hw.keeps hk).keeps hk') _ _).bind fun _ w R' _ _ => Safe.abort
    · exact SafeK.lift.bind fun x w' R' hk' _ => safe_writeAll ((hw.keeps hk).keeps hk') _ _
  | succ n ih =>
    intro s a R hr hw
    unfold Steps.encLoop
    refine (safe_read hr _ _).bind fun b w R' hk _ => ?_
    split
    · refine SafeK.lift.bind fun x w' R' hk' _ => ?_
      exact (safe_writeAll ((hw.keeps hk).keeps hk') _ _).bind fun _ w R' hk'' _ => ih _ (((hr.keeps hk).keeps hk').keeps hk'') (((hw.keeps hk).keeps hk').keeps hk'')
    · exact SafeK.lift.bind fun x w' R' hk' _ => safe_writeAll ((hw.keeps hk).keeps hk') _ _

theorem safe_decLoop (C : Crypto) {rh wh : Nat} (aad : Bytes) : ∀ (fuel : Nat) (s : Stream) {a : World} {R : Nat → Nat → Prop}, Hand c rh a → Wr c wh a →
    SafeK c (fun _ _ => True) (Steps.decLoop C rh wh aad fuel s) a R := by
  intro fuel
  induction fuel with
  | zero =>
    intro s a R hr hw
    unfold Steps.decLoop
    refine (safe_read hr _ _).bind fun b w R' hk _ => ?_
    split
    · refine SafeK.lift.bind fun x w' R' hk' _ => ?_
      exact (safe_writeAll ((hw.keeps hk).keeps hk') _ _).bind fun _ w R' _ _ => Safe.abort
    · exact SafeK.lift.bind fun x w' R' hk' _ => safe_writeAll ((hw.keeps hk).keeps hk') _ _
  | succ n ih =>
    intro s a R hr hw
    unfold Steps.decLoop
    refine (safe_read hr _ _).bind fun b w R' hk _ => ?_
    split
    · refine SafeK.lift.bind fun x w' R' hk' _ => ?_
      exact (safe_writeAll ((hw.keeps hk).keeps hk') _ _).bind fun _ w R' hk'' _ => ih _ (((hr.keeps hk).keeps hk').keeps hk'') (((hw.keeps hk).keeps hk').keeps hk'')
    · exact SafeK.lift.bind fun x w' R' hk' _ => safe_writeAll ((hw.keeps hk).keeps hk') _ _

theorem safe_encryptExecute (C : Crypto) {req : Encrypt.Request} (hr : Hand c req.reader a) (hw : Wr c req.writer a) (hh : ∀ h, req.headerWriter = some h → Wr c h a) :
    SafeK c (fun _ _ => True) (Steps.encryptExecute C req) a R := by
  unfold Steps.encryptExecute
  refine (SafeK.aside (.prepare C req)).bind fun x w R' k1 _ => (safe_rewind _ _).bind fun _ w R' k2 _ => ?_
  refine SafeK.bind (Q := fun _ _ => True) ?_ fun _ w R' k3 _ => ?_
  · unfold Steps.writeHeader
    cases h : req.headerWriter with
    | none => exact SafeK.lift.bind fun b w R' k _ => (safe_write (((hw.keeps k1).keeps k2).keeps k) _ _).bind fun _ w R' _ _ => .pure trivial
    | some x =>
      refine (safe_rewind _ _).bind fun _ w R' k3 _ => SafeK.lift.bind fun b w R' k _ => ?_
      exact (safe_write (((((hh x h).keeps k1).keeps k2).keeps k3).keeps k) _ _).bind fun _ w R' _ _ => .pure trivial
  · refine SafeK.lift.bind fun aad w R' k4 _ => (safe_rewind _ _).bind fun _ w R' k5 _ => SafeK.mapErr ?_
    unfold Steps.encryptFile
    exact (safe_encLoop C aad _ _ (((((hr.keeps k1).keeps k2).keeps k3).keeps k4).keeps k5) (((((hw.keeps k1).keeps k2).keeps k3).keeps k4).keeps k5)).bind fun _ w R' _ _ => safe_flush _ _

theorem safe_deserialize {h : Nat} (hh : Hand c h a) : SafeK c (fun _ _ => True) (Steps.deserialize h) a R := by
  unfold Steps.deserialize
  refine (safe_readExact hh _ _).bind fun b w R' k1 _ => ?_
  have hh := hh.keeps k1
  refine SafeK.bind (Q := fun _ _ => True) (.atom fun v hs => (good_seekCur hs hh _).mapErr) fun _ w R' k2 _ => ?_
  split
  · exact Safe.err
  · exact (safe_readExact (hh.keeps k2) _ _).bind fun b w R' _ _ => SafeK.lift

theorem safe_decryptExecute (C : Crypto) {req : Decrypt.Request} (hr : Hand c req.reader a) (hw : Wr c req.writer a) (hh : ∀ h, req.headerReader = some h → Hand c h a) :
    SafeK c (fun _ _ => True) (Steps.decryptExecute C req) a R := by
  unfold Steps.decryptExecute
  refine SafeK.bind (Q := fun _ _ => True) ?_ fun x w R' k _ => ?_
  · unfold Steps.getHeader
    cases h : req.headerReader with
    | none => exact (safe_deserialize hr).mapErr
    | some x =>
      refine (safe_deserialize (hh x h)).mapErr.bind fun y w R' k1 _ => (safe_readUpTo (hr.keeps k1) _ _).bind fun got w R' k2 _ => ?_
      simp only
      split
      · exact (safe_rewind _ _).bind fun _ w R' _ _ => .pure trivial
      · exact .pure trivial
  · have hr := hr.keeps k
    have hw := hw.keeps k
    simp only
    unfold Steps.decryptRest
    split
    · refine (safe_readToEnd hr _).bind fun b w R' k1 _ => SafeK.lift.bind fun mk w R' k2 _ => SafeK.lift.bind fun ci w R' k3 _ => SafeK.lift.bind fun p w R' k4 _ => ?_
      exact safe_writeAll ((((hw.keeps k1).keeps k2).keeps k3).keeps k4) _ _
    · refine SafeK.lift.bind fun mk w R' k1 _ => SafeK.lift.bind fun st w R' k2 _ => SafeK.mapErr ?_
      unfold Steps.decryptFile
      exact (safe_decLoop C _ _ _ ((hr.keeps k1).keeps k2) ((hw.keeps k1).keeps k2)).bind fun _ w R' _ _ => safe_flush _ _

theorem leads_unique (hex : ∃ w : World, ∀ q, w.look q = some .dir ↔ c.dirs q) {p : PathBuf} {q q' : Path} (h : Leads c p q) (h' : Leads c p q') : q = q' := by
  obtain ⟨w, hw⟩ := hex
  have := (h w hw).symm.trans (h' w hw)
  cases this; rfl

theorem safe_encryptMode (s : Sys σ) {input output : List Char} {params : CryptoParams} {algorithm : Algorithm}
    (hex : ∃ w : World, ∀ q, w.look q = some .dir ↔ c.dirs q)
    (hu : ∀ n, n ∈ (Job.encrypt input output params algorithm).reads → ∃ q, Leads c (toPath s.cwd n) q ∧ c.uses q)
    (hw : ∀ n, n ∈ (Job.encrypt input output params algorithm).writes → ∃ q, Leads c (toPath s.cwd n) q ∧ c.writes q) :
    Safe c (fun _ _ => True) (Steps.encryptMode s input output params algorithm) a R := by
  unfold Steps.encryptMode
  split
  · exact Safe.err
  obtain ⟨qo, hlo, hqo⟩ := hw output (by simp [Job.writes])
  obtain ⟨qi, hli, hqi⟩ := hu input (by simp [Job.reads])
  have hkey : ∀ n, n ∈ keyFiles params.key → ∃ q, Leads c (toPath s.cwd n) q ∧ c.uses q := fun n hn => hu n (by simp [Job.reads, hn])
  refine Safe.bind (safe_consent hlo (c.sub _ hqo) _) fun _ w0 R0 _ => ?_
  refine Safe.bind (safe_readInput hli hqi) fun e w R1 he => ?_
  have he := he.2
  cases e with
  | dir p =>
    -- encrypting fails
    refine Safe.bind (safe_getSecret hkey _) fun key w R2 _ => ?_
    refine Safe.bind (safe_openOutput hlo hqo) fun o w R3 _ => ?_
    refine Safe.bind (Q := fun _ _ => True) ?_ fun hd w R4 _ => ?_
    · cases hp : params.header with
      | none => exact Safe.pure trivial
      | some n =>
        obtain ⟨qh, hlh, hqh⟩ := hw n (by simp [Job.writes, hp])
        unfold Steps.openHeader
        exact Safe.bind (safe_consent hlh (c.sub _ hqh) _) fun _ w R _ => Safe.bind (safe_openOutput hlh hqh) fun x w R hx => Safe.pure trivial
    · refine Safe.bind (Q := fun _ _ => False) ?_ fun _ _ _ h => h.elim
      unfold Steps.encryptBody
      refine Safe.bind (Q := fun _ _ => False) ?_ fun _ _ _ h => h.elim
      exact Safe.err
  | file p h =>
    have hnd : ¬ c.dirs qi := fun hd => by have := he.1.2 hd; cases this
    have hh := he.2 h rfl
    refine Safe.bind (safe_getSecret hkey _) fun key w R2 k2 => ?_
    have hh := hh.keeps k2.1
    refine Safe.bind (safe_openOutput hlo hqo) fun o w R3 k3 => ?_
    have hh := hh.keeps k3.1
    have ho := k3.2
    refine Safe.bind (Q := fun o' w => Hand c h w ∧ Out c o w ∧ ∀ x, optStream o' = some x → Wr c x w) ?_ fun hd w R4 k4 => ?_
    · cases hp : params.header with
      | none => exact Safe.pure ⟨hh, ho, fun x hx => by cases hx⟩
      | some n =>
        obtain ⟨qh, hlh, hqh⟩ := hw n (by simp [Job.writes, hp])
        unfold Steps.openHeader
        refine Safe.bind (safe_consent hlh (c.sub _ hqh) _) fun _ w R k5 => Safe.bind (safe_openOutput hlh hqh) fun x w R k6 => Safe.pure ⟨(hh.keeps k5.1).keeps k6.1, (ho.keeps k5.1).keeps k6.1, fun y hy => ?_⟩
        obtain ⟨p', h', rfl, hw'⟩ := k6.2
        cases hy; exact hw'
    · obtain ⟨hh, ⟨p', h', rfl, hw'⟩, hx⟩ := k4
      refine Safe.bind (Q := fun _ _ => True) ?_ fun _ w R _ => ?_
      · unfold Steps.encryptBody
        refine Safe.bind (Q := fun x y => x = h ∧ y = w) (fun y hy => by cases hy; exact ⟨rfl, rfl⟩) fun x y R5 hxy => ?_
        obtain ⟨rfl, rfl⟩ := hxy
        refine Safe.bind (Q := fun x z => x = h' ∧ z = y) (fun y hy => by cases hy; exact ⟨rfl, rfl⟩) fun x z R6 hxy => ?_
        obtain ⟨rfl, rfl⟩ := hxy
        refine Safe.bind (SafeK.mapErr (safe_encryptExecute s.C hh hw' hx)) fun _ w R _ => ?_
        exact Safe.bind (safe_flushOpt _) fun _ w R _ => Safe.mono (fun _ _ _ => trivial) (safe_flushFile _).mapErr
      · refine Safe.bind (safe_hashIf s _ hlo (c.sub _ hqo)) fun _ w R _ => ?_
        refine safe_eraseIf s hli _ (fun hne => ?_) hnd _
        obtain ⟨q', hl', hq'⟩ := hw input (by simp [Job.writes, hne])
        have : q' = qi := leads_unique hex hl' hli
        exact this ▸ hq'

theorem safe_decryptMode (s : Sys σ) {input output : List Char} {params : CryptoParams}
    (hex : ∃ w : World, ∀ q, w.look q = some .dir ↔ c.dirs q)
    (hu : ∀ n, n ∈ (Job.decrypt input output params).reads → ∃ q, Leads c (toPath s.cwd n) q ∧ c.uses q)
    (hw : ∀ n, n ∈ (Job.decrypt input output params).writes → ∃ q, Leads c (toPath s.cwd n) q ∧ c.writes q) :
    Safe c (fun _ _ => True) (Steps.decryptMode s input output params) a R := by
  unfold Steps.decryptMode
  split
  · exact Safe.err
  obtain ⟨qo, hlo, hqo⟩ := hw output (by simp [Job.writes])
  obtain ⟨qi, hli, hqi⟩ := hu input (by simp [Job.reads])
  have hkey : ∀ n, n ∈ keyFiles params.key → ∃ q, Leads c (toPath s.cwd n) q ∧ c.uses q := fun n hn => hu n (by simp [Job.reads, hn])
  refine Safe.bind (safe_consent hlo (c.sub _ hqo) _) fun _ w0 R0 _ => ?_
  refine Safe.bind (safe_readInput hli hqi) fun e w R1 he => ?_
  have he := he.2
  cases e with
  | dir p =>
    refine Safe.bind (Q := fun _ _ => True) ?_ fun hd w R4 _ => ?_
    · cases hp : params.header with
      | none => exact Safe.pure trivial
      | some n =>
        obtain ⟨qh, hlh, hqh⟩ := hu n (by simp [Job.reads, hp])
        unfold Steps.readHeader
        exact Safe.bind (safe_readInput hlh hqh) fun x w R hx => Safe.pure trivial
    · refine Safe.bind (safe_getSecret hkey _) fun key w R2 _ => ?_
      refine Safe.bind (safe_openOutput hlo hqo) fun o w R3 _ => ?_
      refine Safe.bind (Q := fun _ _ => False) ?_ fun _ _ _ h => h.elim
      unfold Steps.decryptBody
      refine Safe.bind (Q := fun _ _ => False) ?_ fun _ _ _ h => h.elim
      exact Safe.err
  | file p h =>
    have hnd : ¬ c.dirs qi := fun hd => by have := he.1.2 hd; cases this
    have hh := he.2 h rfl
    refine Safe.bind (Q := fun o' w => Hand c h w ∧ ∀ x, optStream o' = some x → Hand c x w) ?_ fun hd w R4 k4 => ?_
    · cases hp : params.header with
      | none => exact Safe.pure ⟨hh, fun x hx => by cases hx⟩
      | some n =>
        obtain ⟨qh, hlh, hqh⟩ := hu n (by simp [Job.reads, hp])
        unfold Steps.readHeader
        refine Safe.bind (safe_readInput hlh hqh) fun x w R k6 => Safe.pure ⟨hh.keeps k6.1, fun y hy => ?_⟩
        cases x with
        | dir p => cases hy
        | file p x => cases hy; exact k6.2.2 _ rfl
    · obtain ⟨hh, hx⟩ := k4
      refine Safe.bind (safe_getSecret hkey _) fun key w R2 k2 => ?_
      refine Safe.bind (safe_openOutput hlo hqo) fun o w R3 k3 => ?_
      have hh := (hh.keeps k2.1).keeps k3.1
      have hx := fun x e => ((hx x e).keeps k2.1).keeps k3.1
      obtain ⟨p', h', rfl, hw'⟩ := k3.2
      refine Safe.bind (Q := fun _ _ => True) ?_ fun _ w R _ => ?_
      · unfold Steps.decryptBody
        refine Safe.bind (Q := fun x y => x = h ∧ y = w) (fun y hy => by cases hy; exact ⟨rfl, rfl⟩) fun x y R5 hxy => ?_
        obtain ⟨rfl, rfl⟩ := hxy
        refine Safe.bind (Q := fun x z => x = h' ∧ z = y) (fun y hy => by cases hy; exact ⟨rfl, rfl⟩) fun x z R6 hxy => ?_
        obtain ⟨rfl, rfl⟩ := hxy
        refine Safe.bind (SafeK.mapErr (safe_decryptExecute s.C hh hw' hx)) fun _ w R _ => ?_
        exact Safe.mono (fun _ _ _ => trivial) (safe_flushFile _).mapErr
      · refine Safe.bind (safe_hashIf s _ hli hqi) fun _ w R _ => ?_
        refine safe_eraseIf s hli _ (fun hne => ?_) hnd _
        obtain ⟨q', hl', hq'⟩ := hw input (by simp [Job.writes, hne])
        have : q' = qi := leads_unique hex hl' hli
        exact this ▸ hq'

end

end Volaris.Conc
