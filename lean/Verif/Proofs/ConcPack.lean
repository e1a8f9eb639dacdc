import Verif.Proofs.ConcCmd
import Verif.Proofs.Draws
import Verif.Proofs.PackFaults
import Verif.Proofs.PackSession
/-!
# Packing, made by a process alone and among others
-/
namespace Volaris.Conc
open Volaris.Spec Volaris.Cli
variable {c : Cfg} {R : Nat → Nat → Prop} {a v : World} {ε ε' α β σ : Type}

/-! ## What every run does, even one that fails -/

/-- Every step, whatever comes between the steps. -/
def Always (P : World → World → Prop) : Thr ε α → Prop
  | .done _ => True
  | .step eff k => ∀ w, P w (eff w) ∧ Always P (k w)

namespace Always
variable {P : World → World → Prop}

theorem atom {x : Prog ε α} (h : Each P x) : Always P (Thr.atom x) := fun w => ⟨h w, trivial⟩
theorem pure (y : α) : Always P (Pure.pure y : Thr ε α) := trivial
theorem done (r : Res ε α) : Always P (Thr.done r) := trivial

theorem bind {f : α → Thr ε β} (hf : ∀ y, Always P (f y)) : ∀ {t : Thr ε α}, Always P t → Always P (t >>= f) := by
  intro t
  rw [Thr.bind_eq]
  induction t with
  | done r =>
    intro _
    cases r with
    | ok y => exact hf y
    | err e => trivial
    | abort e => trivial
  | step eff k ih => intro h w; exact ⟨(h w).1, ih w (h w).2⟩

theorem mapErr (f : ε → ε') : ∀ {t : Thr ε α}, Always P t → Always P (t.mapErr f) := by
  intro t
  induction t with
  | done r => intro _; trivial
  | step eff k ih => intro h w; exact ⟨(h w).1, ih w (h w).2⟩

theorem attempt : ∀ {t : Thr ε α}, Always P t → Always P (Steps.attempt (ε' := ε') t) := by
  intro t
  induction t with
  | done r => intro _; cases r <;> trivial
  | step eff k ih => intro h w; exact ⟨(h w).1, ih w (h w).2⟩

end Always

namespace Safe
variable {Q : α → World → Prop} {P : World → World → Prop}

/-- What holds along every run holds at the end. -/
theorem along (hP : Along P) : ∀ {t : Thr ε α} {a : World} {R : Nat → Nat → Prop}, Safe c Q t a R → Always P t → Safe c (fun y w => Q y w ∧ P a w) t a R := by
  intro t
  induction t with
  | done r => intro a R h _ y hy; exact ⟨h y hy, hP.refl a⟩
  | step eff k ih =>
    intro a R h hA v hs
    obtain ⟨h1, R', h2, h3, h4, h5⟩ := h v hs
    exact ⟨h1, R', h2, h3, h4, (ih a h5 (hA a).2).mono fun y w hq => ⟨hq.1, hP.trans (hA a).1 hq.2⟩⟩

/-- Failing is not the end. -/
theorem attempt (hP : Along P) : ∀ {t : Thr ε α} {a : World} {R : Nat → Nat → Prop}, Safe c Q t a R → Always P t → Safe c (fun r w => P a w ∧ ∀ y, r = .ok y → Q y w) (Steps.attempt (ε' := ε') t) a R := by
  intro t
  induction t with
  | done r =>
    intro a R h _
    cases r with
    | ok y => exact fun y' hy => by cases hy; exact ⟨hP.refl a, fun z hz => by cases hz; exact h _ rfl⟩
    | err e => exact fun y' hy => by cases hy; exact ⟨hP.refl a, fun z hz => by cases hz⟩
    | abort e => exact fun y' hy => by cases hy
  | step eff k ih =>
    intro a R h hA v hs
    obtain ⟨h1, R', h2, h3, h4, h5⟩ := h v hs
    exact ⟨congrArg Steps.attempt h1, R', h2, h3, h4, (ih a h5 (hA a).2).mono fun y w hq => ⟨hP.trans (hA a).1 hq.1, hq.2⟩⟩

end Safe

/-! ### The system calls keep names and handles -/

theorem along_keeps : Along Keeps := ⟨Keeps.refl, Keeps.trans⟩

namespace Each

theorem kread (h n : Nat) : Each Keeps (read h n) := by
  intro w
  obtain ⟨o, s, e⟩ := pop_world w
  unfold read
  rw [e]
  cases o <;> first | exact (keeps_sched w s).trans (keeps_setPos ..) | exact keeps_sched w s

theorem kwrite (h : Nat) (bs : Bytes) : Each Keeps (write h bs) := by
  intro w
  obtain ⟨o, s, e⟩ := pop_world w
  unfold write
  rw [e]
  cases o <;> first | exact (keeps_sched w s).trans (keeps_put ..) | exact keeps_sched w s

theorem krewind (h : Nat) : Each Keeps (rewind h) := by
  intro w
  obtain ⟨o, s, e⟩ := pop_world w
  unfold rewind seekStart
  rw [e]
  cases o <;> first | exact (keeps_sched w s).trans (keeps_setPos ..) | exact keeps_sched w s

theorem kflush (h : Nat) : Each Keeps (flush h) := by
  intro w
  obtain ⟨o, s, e⟩ := pop_world w
  unfold flush
  rw [e]
  cases o <;> exact keeps_sched w s

theorem ksysRetry : Each Keeps sysRetry := by
  intro w
  obtain ⟨o, s, e⟩ := pop_world w
  unfold sysRetry
  rw [e]
  cases o <;> exact keeps_sched w s

theorem kaside {x : Prog ε α} (h : Aside x) : Each Keeps x := fun w =>
  have := (h w w ⟨rfl, rfl, rfl, rfl, rfl, rfl, rfl⟩).2.2.1
  keeps_disk this.disk this.fd this.nextFd

theorem kwriteLoop (h : Nat) : ∀ (s : List Io) (bs : Bytes), Each Keeps (writeLoop h s bs) := by
  intro s
  induction s with
  | nil =>
    intro bs w
    unfold writeLoop
    split
    · exact keeps_sched _ _
    · exact (keeps_put ..).trans (keeps_sched _ _)
  | cons o s ih =>
    intro bs w
    unfold writeLoop
    split
    · exact keeps_sched _ _
    · cases o with
      | full => exact (keeps_put ..).trans (keeps_sched _ _)
      | short k =>
        simp only
        split
        · exact keeps_sched _ _
        · exact (keeps_put ..).trans (ih _ _)
      | intr => exact ih bs w
      | fail => exact keeps_sched _ _

theorem kwriteAll (h : Nat) (bs : Bytes) : Each Keeps (writeAll h bs) := fun w => kwriteLoop h w.sched bs w

end Each

/-- What a step did is what it does. -/
theorem Good.ran {x : Prog ε α} {Q : α → World → Prop} (h : Good c R x Q a v) : Good c R x (fun r w => Q r w ∧ x a = (.ok r, w)) a v := by
  obtain ⟨h1, R', h2, h3, h4, h5, h6⟩ := h
  exact ⟨h1, R', h2, h3, h4, h5, fun r hr => ⟨h6 r hr, Prod.ext hr rfl⟩⟩

/-! ### The threads that may fail and go on -/

theorem always_any (t : Thr ε α) : Always (fun _ _ => True) t := by
  induction t with
  | done r => trivial
  | step eff k ih => exact fun w => ⟨trivial, ih w⟩

theorem along_any : Along fun _ _ => True := ⟨fun _ => trivial, fun _ _ => trivial⟩

namespace Always

theorem archiveLoop (h : Nat) : ∀ (fuel : Nat) (got : Bytes), Always Keeps (Steps.archiveLoop h fuel got)
  | 0, got => by
    unfold Steps.archiveLoop
    refine bind (fun b => bind (fun _ => ?_) (atom (Each.ksysRetry.mapErr _))) (atom ((Each.kread h _).mapErr _))
    simp only; split
    · exact pure _
    · exact done _
  | n + 1, got => by
    unfold Steps.archiveLoop
    refine bind (fun b => bind (fun _ => ?_) (atom (Each.ksysRetry.mapErr _))) (atom ((Each.kread h _).mapErr _))
    simp only; split
    · exact pure _
    · exact archiveLoop h n _

theorem kstartEntry (z : Zip) (l : List ZipEntry) (name : List Char) : Each Keeps (Pack.startEntry z l name) := by
  unfold Pack.startEntry
  split
  · exact Each.throw along_keeps _
  · exact Each.ksysRetry.mapErr _

theorem addEntry (z : Zip) (l : List ZipEntry) (f : Storage.Entry) : Always Keeps (Steps.addEntry z l f) := by
  unfold Steps.addEntry
  cases f with
  | dir p => exact bind (fun _ => pure _) (atom ((kstartEntry _ _ _).mapErr _))
  | file p h =>
    refine bind (fun _ => bind (fun _ => pure _) (mapErr _ ?_)) (atom ((kstartEntry _ _ _).mapErr _))
    unfold Steps.archiveFile
    exact bind (fun n => archiveLoop h n []) (atom fun w => .refl w)

theorem addAll (z : Zip) : ∀ (fs : List Storage.Entry) (l : List ZipEntry), Always Keeps (Steps.addAll z fs l)
  | [], l => pure _
  | f :: fs, l => by unfold Steps.addAll; exact bind (fun l => addAll z fs l) (addEntry z l f)

theorem encLoop (C : Crypto) (rh wh : Nat) (aad : Bytes) : ∀ (fuel : Nat) (s : Stream), Always Keeps (Steps.encLoop C rh wh aad fuel s)
  | 0, s => by
    unfold Steps.encLoop
    refine bind (fun b => ?_) (atom ((Each.kread rh _).mapErr _))
    split
    · exact bind (fun x => bind (fun _ => done _) (atom ((Each.kwriteAll wh _).mapErr _))) (done _)
    · exact bind (fun x => atom ((Each.kwriteAll wh _).mapErr _)) (done _)
  | n + 1, s => by
    unfold Steps.encLoop
    refine bind (fun b => ?_) (atom ((Each.kread rh _).mapErr _))
    split
    · exact bind (fun x => bind (fun _ => encLoop C rh wh aad n _) (atom ((Each.kwriteAll wh _).mapErr _))) (done _)
    · exact bind (fun x => atom ((Each.kwriteAll wh _).mapErr _)) (done _)

theorem encryptExecute (C : Crypto) (req : Encrypt.Request) : Always Keeps (Steps.encryptExecute C req) := by
  unfold Steps.encryptExecute
  refine bind (fun x => bind (fun _ => bind (fun _ => bind (fun aad => bind (fun _ => mapErr _ ?_) (atom ((Each.krewind _).mapErr _))) (done _)) ?_) (atom ((Each.krewind _).mapErr _))) (atom (Each.kaside (.prepare C req)))
  · unfold Steps.encryptFile
    exact bind (fun _ => atom ((Each.kflush _).mapErr _)) (encLoop ..)
  · unfold Steps.writeHeader
    split
    · exact bind (fun _ => bind (fun _ => pure _) (atom ((Each.kwrite _ _).mapErr _))) (done _)
    · exact bind (fun _ => bind (fun _ => bind (fun _ => pure _) (atom ((Each.kwrite _ _).mapErr _))) (done _)) (atom ((Each.krewind _).mapErr _))

theorem writeBlocks (h : Nat) : ∀ bs, Always Keeps (Erase.writeBlocks h bs)
  | [] => pure _
  | _ :: bs => by unfold Erase.writeBlocks; exact bind (fun _ => bind (fun _ => writeBlocks h bs) (atom ((Each.kwriteAll _ _).mapErr _))) (atom (Each.kaside (.genBytes _)))

theorem passes (h cap : Nat) : ∀ n, Always Keeps (Erase.passes h cap n)
  | 0 => pure _
  | n + 1 => by
    unfold Erase.passes
    exact bind (fun _ => bind (fun _ => bind (fun _ => passes h cap n) (atom ((Each.kflush _).mapErr _))) (writeBlocks h _)) (atom ((Each.krewind _).mapErr _))

theorem overwrite (h cap : Nat) (n : Int) : Always Keeps (Erase.overwrite h cap n) := by
  unfold Erase.overwrite
  exact bind (fun _ => bind (fun _ => bind (fun _ => atom ((Each.kflush _).mapErr _)) (atom ((Each.kwriteAll _ _).mapErr _))) (atom ((Each.krewind _).mapErr _))) (passes ..)

/-! ### The threads before the name of the temporary file is drawn -/

theorem ranyFile : ∀ ps, Always Rng (Steps.anyFile ps : Thr ε Bool)
  | [] => pure _
  | p :: ps => by
    unfold Steps.anyFile
    refine bind (fun b => ?_) (atom (Each.ranyFile _))
    cases b with
    | true => exact pure _
    | false => exact ranyFile ps

theorem rreadFile (p : PathBuf) : Always Rng (Steps.readFile p) := by
  unfold Steps.readFile
  refine bind (fun b => ?_) (atom (Each.risDir _))
  cases b with
  | true => exact pure _
  | false => exact bind (fun _ => pure _) (atom ((Each.ropenFile p).mapErr _))

theorem rreadInputs (s : Sys σ) : ∀ fs, Always Rng (Steps.readInputs s fs)
  | [] => pure _
  | f :: fs => by unfold Steps.readInputs; exact bind (fun _ => bind (fun _ => pure _) (rreadInputs s fs)) (mapErr _ (rreadFile _))

theorem rreadEntries : ∀ ps, Always Rng (Steps.readEntries ps)
  | [] => pure _
  | p :: ps => by unfold Steps.readEntries; exact bind (fun _ => bind (fun _ => bind (fun _ => pure _) (rreadEntries ps)) (rreadFile p)) (atom (Each.rsys.mapErr _))

theorem rexpand : ∀ es, Always Rng (Steps.expand es)
  | [] => pure _
  | e :: es => by
    unfold Steps.expand
    refine bind (fun _ => bind (fun _ => pure _) (rexpand es)) ?_
    cases e with
    | dir p => exact mapErr _ (bind (fun ps => rreadEntries ps) (atom fun _ => rfl))
    | file p h => exact pure _

theorem rconsent (cwd : Path) (name : List Char) (force : ForceMode) : Always Rng (Steps.consent cwd name force) := by
  unfold Steps.consent Steps.overwriteCheck
  refine bind (fun b => ?_) (bind (fun b => ?_) (atom (Each.rexists _)))
  · cases b with
    | true => exact pure _
    | false => exact done _
  · cases b with
    | true => exact atom (Each.rgetAnswer _ _ _)
    | false => exact pure _

theorem ropenOutput (p : PathBuf) : Always Rng (Steps.openOutput p) := by
  unfold Steps.openOutput Steps.orElse
  refine mapErr _ (bind (fun r => ?_) (atom (Each.attempt ?_)))
  · cases r with
    | ok y => exact pure _
    | err e => exact atom (Each.bind along_rng ((Each.ropenTrunc p).mapErr _) fun _ => Each.pure along_rng _)
    | abort e => exact done _
  · exact Each.bind along_rng ((Each.ropenNew p).mapErr _) fun _ => Each.pure along_rng _

theorem ropenHeader (s : Sys σ) (force : ForceMode) : ∀ o, Always Rng (Steps.openHeader s force o)
  | none => pure _
  | some n => by unfold Steps.openHeader; exact bind (fun _ => bind (fun _ => pure _) (ropenOutput _)) (rconsent _ _ _)

theorem rgetSecret (words : List (List Char)) (cwd : Path) {key : Key} (hk : ∀ n, key ≠ .generate n) (state : PasswordState) : Always Rng (Steps.getSecret words cwd key state) := by
  unfold Steps.getSecret
  refine bind (fun s => ?_) ?_
  · split
    · exact done _
    · exact pure _
  · cases key with
    | keyfile p =>
      unfold Steps.fetch
      simp only
      split
      · refine atom ?_
        unfold Cli.fetch
        simp only [if_true]
        refine Each.bind along_rng Each.rreadStdin fun s => ?_
        split
        · exact Each.throw along_rng _
        · exact Each.pure along_rng _
      · unfold Steps.readKeyfile
        refine bind (fun h => bind (fun s => ?_) (atom ((Each.rreadToEnd h).mapErr _))) (atom ((Each.ropenFile _).mapErr _))
        split
        · exact done _
        · exact pure _
    | env => exact atom Each.rreadEnv
    | user => exact atom (Each.rgetPassword state)
    | generate i => exact absurd rfl (hk i)

end Always

theorem Safe.ran {Q : α → World → Prop} : ∀ {t : Thr ε α} {a : World} {R : Nat → Nat → Prop}, Safe c Q t a R → Safe c (fun y w => Q y w ∧ t.run a = (.ok y, w)) t a R := by
  intro t
  induction t with
  | done r => intro a R h y hy; exact ⟨h y hy, by rw [hy]; rfl⟩
  | step eff k ih =>
    intro a R h v hs
    obtain ⟨h1, R', h2, h3, h4, h5⟩ := h v hs
    exact ⟨h1, R', h2, h3, h4, ih a h5⟩

theorem safe_getSecret_drew {words : List (List Char)} {cwd : Path} {key : Key} (hk : ∀ n, n ∈ keyFiles key → ∃ q, Leads c (toPath cwd n) q ∧ c.uses q) (state : PasswordState) :
    SafeK c (fun _ w => ∀ i, w.rng i = a.rng (keyDraws key + i)) (Steps.getSecret words cwd key state) a R := by
  have hs : SafeK c (fun _ _ => True) (Steps.getSecret words cwd key state) a R := safe_getSecret hk state
  by_cases hg : ∃ n, key = .generate n
  · obtain ⟨n, rfl⟩ := hg
    refine Safe.mono (fun y w h => ⟨h.1.1, fun i => ?_⟩) (Safe.ran hs)
    have hr := h.2
    rw [Steps.getSecret_run] at hr
    unfold getSecret at hr
    obtain ⟨s, w1, h1, h2⟩ := Pack.bind_eq_ok hr
    have hw : w = w1 := by split at h2 <;> cases h2; rfl
    subst hw
    unfold fetch generatePassphrase at h1
    simp only at h1
    obtain ⟨p, w2, h3, h4⟩ := Pack.bind_eq_ok h1
    have : w.rng = w2.rng := by cases h4; rfl
    rw [this]
    exact passphrase_drew words _ _ h3 i
  · have hg : ∀ n, key ≠ .generate n := fun n e => hg ⟨n, e⟩
    have h0 : keyDraws key = 0 := by cases key <;> first | rfl | exact absurd rfl (hg _)
    refine Safe.mono (fun y w h => ⟨h.1.1, fun i => ?_⟩) (hs.along along_rng (Always.rgetSecret words cwd hg state))
    rw [h.2, h0, Nat.zero_add]

/-! ## Listing -/

/-- The path leads nowhere, whatever files come and go. -/
def Stuck (c : Cfg) (p : PathBuf) : Prop := ∀ w : World, (∀ q, w.look q = some .dir ↔ c.dirs q) → ∃ e, w.resolve p = .error e

theorem Stuck.of {w : World} {p : PathBuf} {e : IoErr} (hd : ∀ q, w.look q = some .dir ↔ c.dirs q) (h : w.resolve p = .error e) : Stuck c p := fun w' hd' => by
  cases h' : w'.resolve p with
  | error e' => exact ⟨e', rfl⟩
  | ok q =>
    have : w.resolve p = .ok q := walk_dirs (fun q => (hd q).trans (hd' q).symm) _ _ _ h'
    rw [h] at this; cases this

/-- The process uses the place, or there is none. -/
def Place (c : Cfg) (p : PathBuf) : Prop := (∃ q, Leads c p q ∧ c.uses q) ∨ Stuck c p

/-- What is known of the entry for a path. -/
def Got (c : Cfg) (p : PathBuf) (e : Storage.Entry) (w : World) : Prop := e = .dir p ∨ ∃ h, e = .file p h ∧ Hand c h w

theorem Got.keeps {p : PathBuf} {e : Storage.Entry} {w w' : World} (h : Got c p e w) (k : Keeps w w') : Got c p e w' := by
  rcases h with h | ⟨x, h, hh⟩
  · exact .inl h
  · exact .inr ⟨x, h, hh.keeps k⟩

theorem Stuck.isDir {p : PathBuf} (h : Stuck c p) {w : World} (hd : ∀ q, w.look q = some .dir ↔ c.dirs q) : w.isDirAt p = false := by
  obtain ⟨e, he⟩ := h w hd
  unfold World.isDirAt
  rw [he]

theorem Stuck.openAt {p : PathBuf} (h : Stuck c p) {w : World} (hd : ∀ q, w.look q = some .dir ↔ c.dirs q) : ∃ e, Volaris.openAt p w = (.err e, w) := by
  obtain ⟨e, he⟩ := h w hd
  exact ⟨e, by unfold Volaris.openAt; rw [he]⟩

theorem safe_readPlace {p : PathBuf} (hp : Place c p) : SafeK c (Got c p) (Steps.readFile p) a R := by
  unfold Steps.readFile
  rcases hp with ⟨q, hl, hq⟩ | hst
  · refine SafeK.bind (.atom fun _ hs => good_isDir hs hl) fun b w R' hk hb => ?_
    cases b with
    | true => exact SafeK.pure (.inl rfl)
    | false => exact (safe_openFile hl hq _).bind fun h w' R'' hk' hh => SafeK.pure (.inr ⟨h, rfl, hh⟩)
  · refine SafeK.bind (Q := fun b _ => b = false) (.atom fun v hs => ?_) fun b w R' hk hb => ?_
    · exact Good.of (r := .ok false) (by unfold isDir; rw [hst.isDir hs.dira]) (by unfold isDir; rw [hst.isDir hs.dirv]) hs (.refl _) (.refl _) fun y hy => by cases hy; exact ⟨.refl _, rfl⟩
    · subst hb
      refine SafeK.bind (Q := fun _ _ => False) (.atom fun v hs => ?_) fun _ _ _ _ h => h.elim
      have e : ∀ w, ((openFile p).mapErr fun _ => Storage.Error.openFile .read) w = ((sysRetry.mapErr fun _ => Storage.Error.openFile .read) >>= fun _ => (openAt p).mapErr fun _ => Storage.Error.openFile .read) w := by
        intro w
        unfold openFile
        simp only [Prog.mapErr_run, Prog.bind_run]
        rcases sysRetry w with ⟨r, w'⟩
        cases r <;> rfl
      have : Good c R' ((sysRetry.mapErr fun _ => Storage.Error.openFile .read) >>= fun _ => (openAt p).mapErr fun _ => Storage.Error.openFile .read) (K w fun _ _ => False) w v := by
        refine (good_sysRetry hs).mapErr.bind fun _ a' v' R'' hs' hk => ?_
        obtain ⟨e1, h1⟩ := hst.openAt hs'.dira
        obtain ⟨e2, h2⟩ := hst.openAt hs'.dirv
        exact Good.of (r := .err (.openFile .read)) (by rw [Prog.mapErr_run, h1]) (by rw [Prog.mapErr_run, h2]) hs' (.refl _) (.refl _) fun _ h => by cases h
      unfold Good at this ⊢
      rw [e, e]
      exact this

/-- All the entries that are files are open. -/
def Ents (c : Cfg) (es : List Storage.Entry) (w : World) : Prop := ∀ e ∈ es, ∀ h, e.stream = .ok h → Hand c h w

theorem Ents.keeps {es : List Storage.Entry} {w w' : World} (h : Ents c es w) (k : Keeps w w') : Ents c es w' := fun e he x hx => (h e he x hx).keeps k

theorem Ents.cons {p : PathBuf} {e : Storage.Entry} {es : List Storage.Entry} {w : World} (h : Got c p e w) (hs : Ents c es w) : Ents c (e :: es) w := by
  intro e' he' x hx
  rcases List.mem_cons.1 he' with rfl | he'
  · rcases h with h | ⟨y, h, hh⟩
    · subst h; cases hx
    · subst h; cases hx; exact hh
  · exact hs e' he' x hx

theorem safe_readEntries : ∀ (ps : List PathBuf) {a : World} {R : Nat → Nat → Prop}, (∀ p ∈ ps, Place c p) → SafeK c (Ents c) (Steps.readEntries ps) a R
  | [], _, _, _ => SafeK.pure fun _ h => by cases h
  | p :: ps, a, R, hp => by
    unfold Steps.readEntries
    refine SafeK.bind (Q := fun _ _ => True) (.atom fun _ hs => (good_sys hs).mapErr) fun _ w R' hk _ => ?_
    refine (safe_readPlace (hp p (List.mem_cons_self ..))).bind fun e w R' hk he => ?_
    exact (safe_readEntries ps fun p h => hp p (List.mem_cons_of_mem _ h)).bind fun es w R' hk hes => SafeK.pure (Ents.cons (he.keeps hk) hes)

/-- The whole of a directory is for the process to use. -/
def Tree (c : Cfg) (p : PathBuf) : Prop := ∃ q, Leads c p q ∧ ∀ q', q <+: q' → c.uses q'

theorem Tree.place {p : PathBuf} (h : Tree c p) : Place c p := by
  obtain ⟨q, hl, hq⟩ := h
  exact .inl ⟨q, hl, hq q (List.prefix_refl q)⟩

theorem Tree.below {p : PathBuf} (h : Tree c p) {w : World} (hd : ∀ q, w.look q = some .dir ↔ c.dirs q) : ∀ p' ∈ Storage.World.below w p, Place c p' := by
  intro p' hp'
  have hpl := h.place
  obtain ⟨q, hl, hq⟩ := h
  unfold Storage.World.below at hp'
  rw [hl w hd] at hp'
  simp only [List.mem_cons, List.mem_map, List.mem_filter] at hp'
  rcases hp' with rfl | ⟨k, ⟨_, hk⟩, rfl⟩
  · exact hpl
  · cases hr : w.resolve (p.push ((k.drop q.length).map .name)) with
    | error e => exact .inr (Stuck.of hd hr)
    | ok q' =>
      refine .inl ⟨q', Leads.of hd hr, hq q' ?_⟩
      have hr' : w.walk p.start (p.comps ++ (k.drop q.length).map .name) = .ok q' := hr
      rw [World.walk_append, show w.walk p.start p.comps = .ok q from hl w hd] at hr'
      rw [walk_names_ok _ _ _ hr']
      exact List.prefix_append ..

theorem safe_walkDir {p : PathBuf} (h : Tree c p) : SafeK c (Ents c) (Steps.walkDir p) a R := by
  unfold Steps.walkDir
  refine SafeK.bind (Q := fun ps _ => ∀ p' ∈ ps, Place c p') (.atom fun v hs => ?_) fun ps w R' hk hp => safe_readEntries ps hp
  have e : Storage.World.below v p = Storage.World.below a p := by
    obtain ⟨q, hl, hq⟩ := h
    unfold Storage.World.below
    rw [hs.la hl, hs.lv hl]
    simp only
    rw [hs.list (fun k => q.isPrefixOf k && k ≠ q) fun k hk => hq k (by simp at hk; exact hk.1)]
  exact Good.of (r := .ok (Storage.World.below a p)) rfl (by rw [e]) hs (.refl _) (.refl _) fun y hy => by cases hy; exact ⟨.refl _, h.below hs.dira⟩

/-- What is known of the inputs. -/
def Inps (c : Cfg) (es : List Storage.Entry) (w : World) : Prop := ∀ e ∈ es, ∃ p, Tree c p ∧ Got c p e w

theorem Inps.keeps {es : List Storage.Entry} {w w' : World} (h : Inps c es w) (k : Keeps w w') : Inps c es w' := fun e he => by
  obtain ⟨p, hp, hg⟩ := h e he
  exact ⟨p, hp, hg.keeps k⟩

theorem safe_readInputs (s : Sys σ) : ∀ (fs : List (List Char)) {a : World} {R : Nat → Nat → Prop}, (∀ n, n ∈ fs → Tree c (toPath s.cwd n)) → SafeK c (Inps c) (Steps.readInputs s fs) a R
  | [], _, _, _ => SafeK.pure fun _ h => by cases h
  | f :: fs, a, R, hn => by
    unfold Steps.readInputs
    have hf := hn f (List.mem_cons_self ..)
    refine SafeK.bind (safe_readPlace hf.place).mapErr fun e w R' hk he => ?_
    refine (safe_readInputs s fs fun n h => hn n (List.mem_cons_of_mem _ h)).bind fun es w R' hk hes => SafeK.pure fun e' he' => ?_
    rcases List.mem_cons.1 he' with rfl | he'
    · exact ⟨_, hf, he.keeps hk⟩
    · exact hes e' he'

theorem safe_expand : ∀ (es : List Storage.Entry) {a : World} {R : Nat → Nat → Prop}, Inps c es a → SafeK c (Ents c) (Steps.expand es) a R
  | [], _, _, _ => SafeK.pure fun _ h => by cases h
  | e :: es, a, R, hi => by
    unfold Steps.expand
    refine SafeK.bind (Q := Ents c) ?_ fun files w R' hk hf => ?_
    · obtain ⟨p, ht, hg⟩ := hi e (List.mem_cons_self ..)
      rcases hg with rfl | ⟨h, rfl, hh⟩
      · exact (safe_walkDir ht).mapErr
      · exact SafeK.pure (Ents.cons (.inr ⟨h, rfl, hh⟩) fun _ h => by cases h)
    · refine (safe_expand es (Inps.keeps (fun e he => hi e (List.mem_cons_of_mem _ he)) hk)).bind fun rest w R' hk hr => SafeK.pure fun e' he' => ?_
      rcases List.mem_append.1 he' with h | h
      · exact (hf.keeps hk) e' h
      · exact hr e' h

/-! ## The archive -/

theorem safe_archiveLoop {h : Nat} : ∀ (fuel : Nat) (got : Bytes) {a : World} {R : Nat → Nat → Prop}, Hand c h a → SafeK c (fun _ _ => True) (Steps.archiveLoop h fuel got) a R
  | 0, got, a, R, hh => by
    unfold Steps.archiveLoop
    refine (safe_read hh _ _).bind fun b w R' hk _ => (SafeK.aside (Aside.sysRetry.mapErr _)).bind fun _ w R' hk' _ => ?_
    simp only; split
    · exact .pure trivial
    · exact Safe.abort
  | n + 1, got, a, R, hh => by
    unfold Steps.archiveLoop
    refine (safe_read hh _ _).bind fun b w R' hk _ => (SafeK.aside (Aside.sysRetry.mapErr _)).bind fun _ w R' hk' _ => ?_
    simp only; split
    · exact .pure trivial
    · exact safe_archiveLoop n _ ((hh.keeps hk).keeps hk')

theorem safe_addEntry (z : Zip) (l : List ZipEntry) {f : Storage.Entry} (hf : ∀ h, f.stream = .ok h → Hand c h a) : SafeK c (fun _ _ => True) (Steps.addEntry z l f) a R := by
  have hst (name : List Char) : Aside (Pack.startEntry z l name) := by
    unfold Pack.startEntry
    split
    · exact .throw _
    · exact Aside.sysRetry.mapErr _
  unfold Steps.addEntry
  cases f with
  | dir p => exact (SafeK.aside ((hst _).mapErr _)).bind fun _ w R' _ _ => .pure trivial
  | file p h =>
    refine (SafeK.aside ((hst _).mapErr _)).bind fun _ w R' hk _ => ?_
    have hh := (hf h rfl).keeps hk
    refine SafeK.bind (Q := fun _ _ => True) (SafeK.mapErr ?_) fun _ w R' _ _ => .pure trivial
    unfold Steps.archiveFile
    refine SafeK.bind (Q := fun _ _ => True) (.atom fun v hs => ?_) fun n w R' hk _ => safe_archiveLoop n [] (hh.keeps hk)
    exact Good.of (r := .ok (w.data h).length) rfl (by rw [hs.data hh]) hs (.refl _) (.refl _) fun _ _ => ⟨.refl _, trivial⟩

theorem safe_addAll (z : Zip) : ∀ (fs : List Storage.Entry) (l : List ZipEntry) {a : World} {R : Nat → Nat → Prop}, Ents c fs a → SafeK c (fun _ _ => True) (Steps.addAll z fs l) a R
  | [], _, _, _, _ => .pure trivial
  | f :: fs, l, a, R, hf => by
    unfold Steps.addAll
    exact (safe_addEntry z l fun h hh => hf f (List.mem_cons_self ..) h hh).bind fun l w R' hk _ => safe_addAll z fs l (Ents.keeps (fun e he => hf e (List.mem_cons_of_mem _ he)) hk)

theorem safe_writeArchive (z : Zip) {t : Nat} {fs : List Storage.Entry} (hf : Ents c fs a) (hw : Wr c t a) : SafeK c (fun _ _ => True) (Steps.writeArchive z t fs) a R := by
  unfold Steps.writeArchive
  refine SafeK.bind (Q := fun _ _ => True) (Safe.mono (fun _ _ h => ⟨h.1, trivial⟩) ((safe_addAll z fs [] hf).attempt along_keeps (Always.addAll z fs []))) fun r w R' hk _ => ?_
  have hw := hw.keeps hk
  cases r with
  | ok l => exact safe_writeAll hw _ _
  | err e =>
    obtain ⟨e, l⟩ := e
    exact Safe.bind (Safe.atom fun v hs => (good_writeAll hs hw _).attempt) fun _ _ _ _ => Safe.err
  | abort e => exact Safe.abort

theorem safe_createTempFile {tmp : PathBuf} {q : Path} (hl : Leads c (tmp.push [.name ((List.range 16).map fun i => Storage.alphanumeric (a.rng i))]) q) (hq : c.writes q) :
    SafeK c (fun e w => ∃ p h, e = .file p h ∧ Leads c p q ∧ Wr c h w) (Steps.createTempFile tmp) a R := by
  unfold Steps.createTempFile
  refine SafeK.bind (Q := fun bs _ => bs = (List.range 16).map a.rng) (.atom fun v hs => ?_) fun bs w R' hk hb => ?_
  · refine (Good.aside hs (Aside.genBytes 16)).ran.mono fun bs w h => ⟨h.1.1, ?_⟩
    have := h.2
    unfold genBytes at this
    cases this; rfl
  · subst hb
    rw [List.map_map]
    refine .atom fun v hs => ?_
    exact (good_openNew hs hl hq).mapErr.bind fun h a' v' R' hs' hk => Good.pure hs' _ ⟨hk.1, _, h, rfl, hl, hk.2⟩

theorem safe_packExecute (C : Crypto) (z : Zip) {tmp : PathBuf} {req : Pack.Request} {q : Path} (hl : Leads c (tmp.push [.name ((List.range 16).map fun i => Storage.alphanumeric (a.rng i))]) q) (hq : c.writes q)
    (hf : Ents c req.compressFiles a) (hw : Wr c req.writer a) (hh : ∀ h, req.headerWriter = some h → Wr c h a) : Safe c (fun _ _ => True) (Steps.packExecute C z tmp req) a R := by
  unfold Steps.packExecute
  refine Safe.bind (safe_createTempFile hl hq).mapErr fun e w R' h => ?_
  obtain ⟨k, p, t, rfl, hlp, hwt⟩ := h
  have hf := hf.keeps k
  have hw := hw.keeps k
  have hh := fun x e => (hh x e).keeps k
  refine Safe.bind (Q := fun x y => x = t ∧ y = w) (fun y hy => by cases hy; exact ⟨rfl, rfl⟩) fun x y R5 hxy => ?_
  obtain ⟨rfl, rfl⟩ := hxy
  refine Safe.bind (safe_writeArchive z hf hwt) fun _ w R' k => ?_
  have hw := hw.keeps k.1
  have hh := fun x e => (hh x e).keeps k.1
  have hwt := hwt.keeps k.1
  refine Safe.bind (Q := K w fun _ _ => True) (SafeK.mapErr ?_) fun n w' R' k => ?_
  · unfold Steps.fileLen
    exact Safe.bind (Q := fun y z => y = x ∧ z = w) (fun y hy => by cases hy; exact ⟨rfl, rfl⟩) fun y z R hxy => by
      obtain ⟨rfl, rfl⟩ := hxy
      exact SafeK.atom fun v hs => (good_fileLen hs hwt.1).mapErr
  have hw := hw.keeps k.1
  have hh := fun x e => (hh x e).keeps k.1
  have hwt := hwt.keeps k.1
  refine Safe.bind (Safe.attempt along_keeps (SafeK.mapErr (safe_encryptExecute C hwt.1 hw hh)) (Always.mapErr _ (Always.encryptExecute C _))) fun r w R' k => ?_
  have hwt := hwt.keeps k.1
  refine Safe.bind (Safe.attempt along_keeps (safe_overwrite hwt n 2) (Always.overwrite ..)) fun _ w R' k => ?_
  have hwt := hwt.keeps k.1
  exact Safe.bind (Safe.attempt along_any (safe_removeFile hlp hq hwt) (always_any _)) fun _ w R' _ => Safe.done fun _ _ => trivial

theorem safe_packMode (s : Sys σ) {inputs : List (List Char)} {output : List Char} {packParams : PackParams} {params : CryptoParams} {algorithm : Algorithm}
    (hu : ∀ n, n ∈ keyFiles params.key → ∃ q, Leads c (toPath s.cwd n) q ∧ c.uses q)
    (hw : ∀ n, n ∈ output :: params.header.toList → ∃ q, Leads c (toPath s.cwd n) q ∧ c.writes q)
    (ht : ∀ n, n ∈ inputs → Tree c (toPath s.cwd n))
    (htmp : ∃ q, Leads c (s.tmp.push [.name ((List.range 16).map fun i => Storage.alphanumeric (a.rng (keyDraws params.key + i)))]) q ∧ c.writes q)
    (hk : packParams.eraseSource = false) :
    Safe c (fun _ _ => True) (Steps.packMode s inputs output packParams params algorithm) a R := by
  unfold Steps.packMode
  split
  · exact Safe.err
  obtain ⟨qo, hlo, hqo⟩ := hw output (List.mem_cons_self ..)
  have hany : SafeK c (fun _ _ => True) (Steps.anyFile (inputs.map (toPath s.cwd)) : Thr Cli.Error Bool) a R := by
    have : ∀ (ps : List PathBuf) {a : World} {R : Nat → Nat → Prop}, (∀ p ∈ ps, Tree c p) → SafeK c (fun _ _ => True) (Steps.anyFile ps : Thr Cli.Error Bool) a R := by
      intro ps
      induction ps with
      | nil => intro a R _; exact .pure trivial
      | cons p ps ih =>
        intro a R h
        unfold Steps.anyFile
        refine SafeK.bind (Q := fun _ _ => True) (.atom fun v hs => ?_) fun b w R' _ _ => ?_
        · obtain ⟨q, hl, hq⟩ := h p (List.mem_cons_self ..)
          have hq := hq q (List.prefix_refl q)
          have e : ∀ w : World, w.resolve p = .ok q → anyFile (ε := Cli.Error) [p] w = (.ok (match w.look q with | some (.file _) => true | _ => false), w) := by
            intro w hw
            unfold anyFile
            simp only [List.any_cons, List.any_nil, Bool.or_false]
            rw [hw]
            rfl
          rcases hs.at hq with ⟨h1, h2⟩ | ⟨h1, h2⟩ | ⟨i, j, h1, h2, _⟩
          · exact Good.of (r := .ok false) (by rw [e _ (hs.la hl), h1]) (by rw [e _ (hs.lv hl), h2]) hs (.refl _) (.refl _) fun _ _ => ⟨.refl _, trivial⟩
          · exact Good.of (r := .ok false) (by rw [e _ (hs.la hl), h1]) (by rw [e _ (hs.lv hl), h2]) hs (.refl _) (.refl _) fun _ _ => ⟨.refl _, trivial⟩
          · exact Good.of (r := .ok true) (by rw [e _ (hs.la hl), h1]) (by rw [e _ (hs.lv hl), h2]) hs (.refl _) (.refl _) fun _ _ => ⟨.refl _, trivial⟩
        · cases b with
          | true => exact .pure trivial
          | false => exact ih fun p hp => h p (List.mem_cons_of_mem _ hp)
    exact this _ fun p hp => by
      obtain ⟨n, hn, rfl⟩ := List.mem_map.1 hp
      exact ht n hn
  refine Safe.bind (Safe.along along_rng hany (Always.ranyFile _)) fun b w R' k1 => ?_
  have r1 : w.rng = a.rng := k1.2
  cases b with
  | true => exact Safe.err
  | false =>
    simp only [Bool.false_eq_true, if_false]
    refine Safe.bind (Safe.along along_rng (safe_consent hlo (c.sub _ hqo) _) (Always.rconsent _ _ _)) fun _ w R' k => ?_
    have r2 : w.rng = a.rng := k.2.trans r1
    refine Safe.bind (Safe.along along_rng (safe_readInputs s inputs ht) (Always.rreadInputs ..)) fun es w R' k => ?_
    have r3 : w.rng = a.rng := Eq.trans k.2 r2
    have hes := k.1.2
    refine Safe.bind (safe_getSecret_drew hu _) fun key w R' k => ?_
    have r4 : ∀ i, w.rng i = a.rng (keyDraws params.key + i) := fun i => by rw [k.2 i, r3]
    have hes := hes.keeps k.1
    refine Safe.bind (Safe.along along_rng (safe_openOutput hlo hqo) (Always.ropenOutput _)) fun o w' R' k => ?_
    have r5 : w'.rng = w.rng := k.2
    have hes := hes.keeps k.1.1
    have ho := k.1.2
    refine Safe.bind (Q := fun o' x => (K w' (fun o' w => ∀ x, optStream o' = some x → Wr c x w) o' x) ∧ Rng w' x) (Safe.along along_rng ?_ (Always.ropenHeader ..)) fun hd w'' R4 k => ?_
    · cases hp : params.header with
      | none => exact SafeK.pure fun x hx => by cases hx
      | some n =>
        obtain ⟨qh, hlh, hqh⟩ := hw n (by simp [hp])
        unfold Steps.openHeader
        refine SafeK.bind (safe_consent hlh (c.sub _ hqh) _) fun _ w R k5 _ => SafeK.bind (safe_openOutput hlh hqh) fun x w R k6 hx => SafeK.pure fun y hy => ?_
        obtain ⟨p', h', rfl, hw'⟩ := hx
        cases hy; exact hw'
    have r6 : w''.rng = w.rng := Eq.trans k.2 r5
    have hes := hes.keeps k.1.1
    have ho := ho.keeps k.1.1
    have hx := k.1.2
    obtain ⟨p', h', rfl, hw'⟩ := ho
    refine Safe.bind (Q := fun _ _ => True) ?_ fun _ w R _ => ?_
    · unfold Steps.packBody
      refine Safe.bind (Safe.along along_rng (safe_expand es hes) (Always.rexpand es)) fun files v R' k => ?_
      have r7 : v.rng = w.rng := Eq.trans k.2 r6
      have hf := k.1.2
      have hw' := hw'.keeps k.1.1
      have hx := fun x e => (hx x e).keeps k.1.1
      refine Safe.bind (Q := fun x z => x = h' ∧ z = v) (fun y hy => by cases hy; exact ⟨rfl, rfl⟩) fun x z R6 hxy => ?_
      obtain ⟨rfl, rfl⟩ := hxy
      obtain ⟨q, hlq, hq⟩ := htmp
      have hlq : Leads c (s.tmp.push [.name ((List.range 16).map fun i => Storage.alphanumeric (z.rng i))]) q := by
        have : (fun i => Storage.alphanumeric (z.rng i)) = fun i => Storage.alphanumeric (a.rng (keyDraws params.key + i)) := by
          funext i; rw [r7, r4]
        rw [this]; exact hlq
      refine Safe.bind (Safe.mapErr (safe_packExecute s.C s.z hlq hq hf hw' hx)) fun _ w R _ => ?_
      exact Safe.bind (safe_flushOpt _) fun _ w R _ => Safe.mono (fun _ _ _ => trivial) (safe_flushFile _).mapErr
    · refine Safe.bind (safe_hashIf s _ hlo (c.sub _ hqo)) fun _ w R _ => ?_
      rw [hk]
      exact Safe.pure trivial

end Volaris.Conc
