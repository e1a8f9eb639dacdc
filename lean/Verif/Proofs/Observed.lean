import Verif.Proofs.DisturbedDecrypt
import Verif.Proofs.Temp
/-!
# Steps on arbitrary disks, with a stage that says how far a command is
-/
namespace Volaris.Dist
open Volaris.Spec Volaris.Cli
variable {ε ε' α β σ S : Type}

/-- Every step on a disk in `D` is one that the stage allows, and `Q` holds at the end. -/
def Obs (D : Disk → Prop) (G : S → Disk → Disk → S → Prop) (Q : α → World → S → Prop) : Thr ε α → World → S → Prop
  | .done r, a, s => ∀ y, r = .ok y → Q y a s
  | .step eff k, a, s => ∀ d, D d → ∃ s', G s d (eff (a.on d)).disk s' ∧ Obs D G Q (k (a.on d)) (eff (a.on d)) s'

variable {D : Disk → Prop} {G : S → Disk → Disk → S → Prop}

namespace Obs
variable {Q : α → World → S → Prop}

theorem mono {Q' : α → World → S → Prop} (hq : ∀ y w s, Q y w s → Q' y w s) : ∀ {t : Thr ε α} {a : World} {s : S}, Obs D G Q t a s → Obs D G Q' t a s := by
  intro t
  induction t with
  | done r => intro a s h y hy; exact hq _ _ _ (h y hy)
  | step eff k ih => intro a s h d hd; obtain ⟨s', h1, h2⟩ := h d hd; exact ⟨s', h1, ih _ h2⟩

theorem bind {f : α → Thr ε β} {Q' : β → World → S → Prop} (hf : ∀ y w s, Q y w s → Obs D G Q' (f y) w s) : ∀ {t : Thr ε α} {a : World} {s : S}, Obs D G Q t a s → Obs D G Q' (t >>= f) a s := by
  intro t
  rw [Thr.bind_eq]
  induction t with
  | done r =>
    intro a s h
    cases r with
    | ok y => exact hf y a s (h y rfl)
    | err e => exact fun _ h => nomatch h
    | abort e => exact fun _ h => nomatch h
  | step eff k ih => intro a s h d hd; obtain ⟨s', h1, h2⟩ := h d hd; exact ⟨s', h1, ih _ h2⟩

theorem mapErr {f : ε → ε'} : ∀ {t : Thr ε α} {a : World} {s : S}, Obs D G Q t a s → Obs D G Q (t.mapErr f) a s := by
  intro t
  induction t with
  | done r => intro a s h y hy; exact h y (by cases r <;> cases hy; rfl)
  | step eff k ih => intro a s h d hd; obtain ⟨s', h1, h2⟩ := h d hd; exact ⟨s', h1, ih _ h2⟩

theorem atomErr {x : Prog ε α} {f : ε → ε'} {a : World} {s : S} (h : Obs D G Q (Thr.atom x) a s) : Obs D G Q (Thr.atom (x.mapErr f)) a s := by
  have e : Thr.atom (x.mapErr f) = (Thr.atom x).mapErr f := by
    unfold Thr.atom Thr.mapErr
    congr 1 <;> funext w
    · rw [Prog.mapErr_run]; rcases x w with ⟨r, w'⟩; cases r <;> rfl
    · unfold Thr.mapErr; rw [Prog.mapErr_run]; rcases x w with ⟨r, w'⟩; cases r <;> rfl
  rw [e]; exact h.mapErr

theorem pure {y : α} {a : World} {s : S} (h : Q y a s) : Obs D G Q (Pure.pure y : Thr ε α) a s := fun _ hy => by cases hy; exact h
theorem done {r : Res ε α} {a : World} {s : S} (h : ∀ y, r = .ok y → Q y a s) : Obs D G Q (.done r) a s := h
theorem fail {e : ε} {a : World} {s : S} : Obs D G Q (.done (.err e)) a s := fun _ h => nomatch h
theorem abort {e : Abort} {a : World} {s : S} : Obs (ε := ε) D G Q (.done (.abort e)) a s := fun _ h => nomatch h

theorem lift {r : Res ε α} {f : α → Thr ε β} {Q' : β → World → S → Prop} {a : World} {s : S} (h : ∀ y, r = .ok y → Obs D G Q' (f y) a s) : Obs D G Q' (.done r >>= f) a s :=
  bind (Q := fun y w s' => r = .ok y ∧ w = a ∧ s' = s) (fun y w s' hy => by obtain ⟨e, rfl, rfl⟩ := hy; exact h y e) (done fun _ hy => ⟨hy, rfl, rfl⟩)

end Obs

/-- At this stage a step that changes no file and no name can always be made. -/
def Still (G : S → Disk → Disk → S → Prop) (s : S) : Prop := ∀ d d', d'.file = d.file → d'.dir = d.dir → G s d d' s

/-- The handles are as they were, what is left of the user's input is a rest of it, and no short transfer was added. -/
structure Kept' (a w : World) : Prop extends Kept a w where
  short : NoShort a.sched → NoShort w.sched

section
variable {a b c : World} {s : S} {ds : List Disk}

theorem Kept'.refl (a : World) : Kept' a a := ⟨.refl a, id⟩
theorem Kept'.trans (h : Kept' a b) (h' : Kept' b c) : Kept' a c := ⟨h.toKept.trans h'.toKept, fun x => h'.short (h.short x)⟩
theorem Kept'.of_looked {d : Disk} {w : World} (h : Looked a.nextFd (a.on d) w) : Kept' a w := ⟨.of_looked h, fun x => h.noShort x⟩

theorem Shrinks.short {x : Prog ε α} (hx : Shrinks x) {w : World} (h : NoShort w.sched) : NoShort (x w).2.sched := fun k hk => h k ((hx w).subset hk)

theorem obs_looks {x : Prog ε α} {P : α → Prop} (hx : ∀ n, Looks n P x) (hs : Still G s) : Obs D G (fun y w s' => s' = s ∧ Kept' a w ∧ P y) (Thr.atom x) a s := fun d _ =>
  have h := hx a.nextFd (a.on d) (Nat.le_refl _)
  ⟨s, hs _ _ h.1.file h.1.dir, fun y hy => ⟨rfl, .of_looked h.1, h.2 y _ (by rw [← hy])⟩⟩

theorem obs_same {x : Prog ε α} (hx : ∀ w, (x w).2 = w) (hs : Still G s) : Obs D G (fun _ w s' => s' = s ∧ Kept' a w) (Thr.atom x) a s := fun d _ => by
  simp only [hx]
  exact ⟨s, hs _ _ rfl rfl, fun _ _ => ⟨rfl, ⟨Nat.le_refl _, fun _ _ => rfl, rfl, List.suffix_refl _, List.suffix_refl _⟩, id⟩⟩

theorem obs_quiet {x : Prog ε α} (hx : ∀ w, (x w).2.file = w.file ∧ (x w).2.dir = w.dir) (hs : Still G s) : Obs D G (fun _ _ s' => s' = s) (Thr.atom x) a s :=
  fun d _ => ⟨s, hs _ _ (hx _).1 (hx _).2, fun _ _ => rfl⟩

/-- A call on handles in `R` only, which changes no file. -/
theorem obs_within {R : List Nat} {x : Prog ε α} (hx : Within R [] x) (hq : Shrinks x) (hs : Still G s) :
    Obs D G (fun _ w s' => s' = s ∧ (∀ h, h ∉ R → w.fd h = a.fd h) ∧ w.nextFd = a.nextFd ∧ w.env = a.env ∧ w.stdin = a.stdin ∧ w.tty = a.tty ∧ (NoShort a.sched → NoShort w.sched)) (Thr.atom x) a s := fun d _ =>
  have h := hx (a.on d)
  ⟨s, hs _ _ (funext fun i => h.files i (by simp)) h.dir, fun _ _ => ⟨rfl, fun y hy => h.fds y hy (by simp), h.nextFd, h.env, h.stdin, h.tty, fun n => Shrinks.short hq (w := a.on d) n⟩⟩

theorem obs_openFile (p : PathBuf) (hs : Still G s) :
    Obs D G (fun h w s' => s' = s ∧ Kept' a w ∧ a.nextFd ≤ h ∧ h < w.nextFd ∧ (w.fd h).pos = 0 ∧ ∃ d q, D d ∧ (a.on d).resolve p = .ok q ∧ lookDisk d q = some (.file (w.fd h).ino)) (Thr.atom (openFile p)) a s := fun d hd => by
  have hsh : NoShort a.sched → NoShort ((openFile p) (a.on d)).2.sched := fun n k hk => n k ((Looks.openFile p (a.on d) (Nat.le_refl _)).1.sched.subset hk)
  obtain ⟨sc, ⟨e, h⟩ | ⟨q, i, hq, hl, h⟩⟩ := openFile_cases p (a.on d) <;> simp only [h] at hsh ⊢
  · exact ⟨s, hs _ _ rfl rfl, fun _ h => nomatch h⟩
  · refine ⟨s, hs _ _ rfl rfl, fun y hy => ?_⟩
    cases hy
    have e : (({ a.on d with sched := sc } : World).opened i).fd (a.on d).nextFd = _ := opened_fd { a.on d with sched := sc } i
    refine ⟨rfl, ⟨.opened (a := a) (w := { a.on d with sched := sc }) rfl rfl rfl rfl rfl i, hsh⟩, Nat.le_refl _, Nat.lt_succ_self _, ?_, d, q, hd, hq, ?_⟩
    · rw [e]
    · rw [e]; exact hl

theorem obs_readInput (p : PathBuf) (hs : Still G s) :
    Obs D G (fun e w s' => s' = s ∧ Kept' a w ∧ ∀ h, e.stream = .ok h → h < w.nextFd ∧ (w.fd h).pos = 0 ∧ ∃ d q, D d ∧ (a.on d).resolve p = .ok q ∧ lookDisk d q = some (.file (w.fd h).ino)) (Steps.readInput p) a s := by
  unfold Steps.readInput Steps.readFile
  refine Obs.mapErr (Obs.bind ?_ (obs_same (fun _ => rfl) hs))
  rintro b w s' ⟨rfl, hk⟩
  cases b with
  | true => exact .pure ⟨rfl, hk, fun _ h => nomatch h⟩
  | false =>
    refine Obs.bind ?_ (Obs.atomErr (obs_openFile p hs))
    rintro h w2 s' ⟨rfl, hk2, -, h1, h2, d, q, hd, hq, hl⟩
    refine .pure ⟨rfl, hk.trans hk2, fun x hx => ?_⟩
    cases hx
    exact ⟨h1, h2, d, q, hd, (World.resolve_congr (w := a.on d) (w' := w.on d) rfl p).symm.trans hq, hl⟩

theorem obs_consent (cwd : Path) (name : List Char) (force : ForceMode) (hs : Still G s) : Obs D G (fun _ w s' => s' = s ∧ Kept' a w) (Steps.consent cwd name force) a s := by
  unfold Steps.consent Steps.overwriteCheck
  refine Obs.bind (Q := fun _ w s' => s' = s ∧ Kept' a w) ?_ (Obs.bind ?_ (obs_same (fun _ => rfl) hs))
  · rintro b w s' ⟨rfl, hk⟩
    cases b with
    | true => exact .pure ⟨rfl, hk⟩
    | false => exact .abort
  · rintro b w s' ⟨rfl, hk⟩
    cases b with
    | true => exact (obs_looks (fun n => getAnswer_looks n _ _ _) hs).mono fun _ _ _ h => ⟨h.1, hk.trans h.2.1⟩
    | false => exact .pure ⟨rfl, hk⟩

theorem confirmed_mem {l rest : List Bytes} {y : Bytes} (h : FirstConfirmed l y rest) : y ∈ l := by
  induction h with
  | here _ => exact List.mem_cons_self ..
  | later _ _ ih => exact List.mem_cons_of_mem _ (List.mem_cons_of_mem _ ih)

theorem obs_fetchAside {words : List (List Char)} {cwd : Path} {state : PasswordState} {key : Key} (hk : ∀ p, key = .keyfile p → p = ['-']) (hs : Still G s) :
    Obs (· ∈ ds) G (fun pw w s' => s' = s ∧ Kept' a w ∧ MaySupply key a ds pw) (Thr.atom (Cli.fetch words cwd state key)) a s := fun d hd => by
  have h := fetch_looks a.nextFd words cwd state key (a.on d) (Nat.le_refl _)
  refine ⟨s, hs _ _ h.1.file h.1.dir, fun y hy => ⟨rfl, .of_looked h.1, ?_⟩⟩
  have hsup := fetch_ok (words := words) (cwd := cwd) (state := state) (key := key) (w := a.on d) (x := y) (w' := _) (by rw [← hy])
  unfold Supplies at hsup
  unfold MaySupply
  cases key with
  | keyfile p =>
    have := hk p rfl
    subst this
    simp only [if_true] at hsup ⊢
    exact ⟨_, List.suffix_refl _, hsup⟩
  | env => exact hsup
  | user =>
    have h : y ∈ a.tty := by
      cases state with
      | direct =>
        obtain ⟨rest, h⟩ := hsup
        have h : a.tty = y :: rest := h
        rw [h]; exact List.mem_cons_self ..
      | validate =>
        obtain ⟨rest, h⟩ := hsup
        have h : FirstConfirmed a.tty y rest := h
        exact confirmed_mem h
    exact h
  | generate n => trivial

theorem obs_getSecret (words : List (List Char)) (cwd : Path) (key : Key) (state : PasswordState) (hs : Still G s) :
    Obs (· ∈ ds) G (fun pw w s' => s' = s ∧ Kept' a w ∧ MaySupply key a ds pw) (Steps.getSecret words cwd key state) a s := by
  unfold Steps.getSecret
  refine Obs.bind (Q := fun pw w s' => s' = s ∧ Kept' a w ∧ MaySupply key a ds pw) ?_ ?_
  · rintro pw w s' h
    split
    · exact .fail
    · exact .pure h
  · cases key with
    | keyfile p =>
      unfold Steps.fetch
      simp only
      by_cases hp : p = ['-']
      · subst hp
        rw [if_pos rfl]
        exact obs_fetchAside (fun q hq => by cases hq; rfl) hs
      · rw [if_neg hp]
        unfold Steps.readKeyfile
        refine Obs.bind ?_ (Obs.atomErr (obs_openFile _ hs))
        rintro h w s' ⟨rfl, hk, hlt, hlt', hpos, -⟩
        refine Obs.bind (Q := fun pw w s'' => s'' = s' ∧ Kept' a w ∧ ∃ d ∈ ds, ∃ i, pw = d.file i) ?_ (Obs.atomErr fun d hd => ?_)
        · rintro pw w s' ⟨rfl, hk, hp'⟩
          split
          · exact .fail
          · refine .pure ⟨rfl, hk, ?_⟩
            unfold MaySupply
            simp only
            rw [if_neg hp]
            exact hp'
        · have ht : Within [h] [] (readToEnd h) := .readToEnd (by simp)
          have ht := ht (w.on d)
          refine ⟨s', hs _ _ (funext fun i => ht.files i (by simp)) ht.dir, fun y hy => ⟨rfl, ⟨⟨?_, fun x hx => ?_, ?_, ?_, ?_⟩, fun n => Shrinks.short (.readToEnd h) (w := w.on d) (hk.short n)⟩, d, hd, (w.fd h).ino, ?_⟩⟩
          · rw [ht.nextFd]; exact hk.fds
          · rw [ht.fds x (by simp; omega) (by simp)]; exact hk.fd x hx
          · rw [ht.env]; exact hk.env
          · rw [ht.stdin]; exact hk.stdin
          · rw [ht.tty]; exact hk.tty
          · rw [readToEnd_ok (w := w.on d) (w' := _) (h := h) (b := y) (by rw [← hy])]
            show (d.file (w.fd h).ino).drop (w.fd h).pos = _
            rw [hpos]; rfl
    | env => exact obs_fetchAside (fun _ h => by cases h) hs
    | user => exact obs_fetchAside (fun _ h => by cases h) hs
    | generate n => exact obs_fetchAside (fun _ h => by cases h) hs

theorem obs_hashLoop (H : HashCmd.Hasher σ) (h : Nat) (hs : Still G s) : ∀ (fuel : Nat) (st : σ) {a : World}, Obs D G (fun _ _ s' => s' = s) (Steps.hashLoop H h fuel st) a s := by
  intro fuel
  have hread : ∀ {a : World}, Obs D G (fun _ _ s' => s' = s) (Thr.atom ((read h BLOCK_SIZE).mapErr fun _ => HashCmd.Error.readData)) a s := fun {a} =>
    Obs.atomErr ((obs_within (a := a) (R := [h]) (.read _ (by simp)) (.read _ _) hs).mono fun _ _ _ h => h.1)
  induction fuel with
  | zero =>
    intro st a
    unfold Steps.hashLoop
    refine Obs.bind ?_ hread
    rintro b w s' rfl
    simp only
    split
    · exact .pure rfl
    · exact .abort
  | succ n ih =>
    intro st a
    unfold Steps.hashLoop
    refine Obs.bind ?_ hread
    rintro b w s' rfl
    simp only
    split
    · exact .pure rfl
    · exact ih _

theorem obs_hashIf (sys : Sys σ) (mode : HashMode) (file : List Char) (hs : Still G s) : Obs D G (fun _ _ s' => s' = s) (Steps.hashIf sys mode file) a s := by
  have one : ∀ (files : List (List Char)) {a : World}, Obs D G (fun _ _ s' => s' = s) (Steps.hashStream sys files) a s := by
    intro files
    induction files with
    | nil => intro a; exact .pure rfl
    | cons f fs ih =>
      intro a
      unfold Steps.hashStream Steps.hashExecute
      refine Obs.bind ?_ (Obs.atomErr (obs_openFile _ hs))
      rintro h w s' ⟨rfl, -⟩
      refine Obs.bind (Q := fun _ _ s'' => s'' = s') ?_ (Obs.mapErr (Obs.bind ?_ (Obs.atomErr (obs_within (R := [h]) (.rewind (by simp)) (.rewind _) hs))))
      · rintro _ w s' rfl
        refine Obs.bind ?_ (obs_quiet (fun _ => ⟨rfl, rfl⟩) hs)
        rintro _ w s' rfl
        refine Obs.bind ?_ ih
        rintro _ w s' rfl
        exact .pure rfl
      · rintro _ w s' ⟨rfl, -⟩
        refine Obs.bind ?_ (obs_quiet (fun _ => ⟨rfl, rfl⟩) hs)
        rintro n w s' rfl
        refine Obs.bind ?_ (obs_hashLoop sys.H h hs n _)
        rintro _ w s' rfl
        exact .pure rfl
  cases mode with
  | noHash => exact .pure rfl
  | calculateHash =>
    refine Obs.bind ?_ (one [file])
    rintro _ w s' rfl
    exact .pure rfl

end

end Volaris.Dist
