import Verif.Spec.Together
import Verif.Proofs.DisturbedEncrypt
import Verif.Proofs.DisturbedUnpack
/-!
# Several commands encrypt and erase one file at the same time
-/
namespace Volaris.Dist
open Volaris.Spec Volaris.Cli
variable {σ ε α β γ : Type}

theorem thr_assoc (t : Thr ε α) (f : α → Thr ε β) (g : β → Thr ε γ) : (t >>= f) >>= g = t >>= fun y => f y >>= g := by
  simp only [Thr.bind_eq]
  induction t with
  | done r => cases r <;> rfl
  | step eff k ih =>
    show Thr.step eff _ = Thr.step eff _
    congr 1
    funext w
    exact ih w

/-- Encrypting, and then erasing. -/
theorem encryptMode_split (s : Sys σ) (input output : List Char) (params : CryptoParams) (algorithm : Algorithm) :
    Steps.encryptMode s input output params algorithm =
      (Steps.encryptMode s input output { params with erase := .ignoreFile } algorithm >>= fun _ => Steps.eraseIf s params.erase params.force input) := by
  unfold Steps.encryptMode
  split
  · rfl
  · simp only [thr_assoc]
    rfl

/-! ## All commands -/

section
variable {cs : List (Started σ)} {M : List (Disk × Disk)} {m : Machine}

/-- Every process is the command with its number, after some steps in which it met only what it met in `M`. -/
def Gen (cs : List (Started σ)) (M : List (Disk × Disk)) (m : Machine) : Prop :=
  GoodDisk m.disk ∧ ∀ (k : Nat) (p : Proc), m.procs[k]? = some p → ∃ c : Started σ, cs[k]? = some c ∧ ∃ I, FrT c.Given p.rest p.self I ∧ ∀ j, I j → ∃ st ∈ M, c.Met st j

theorem gen_start {d : Disk} (hd : GoodDisk d) : Gen cs M (startAll cs d) := by
  refine ⟨hd, fun k p hp => ?_⟩
  unfold startAll at hp
  simp only [List.getElem?_map, Option.map_eq_some_iff] at hp
  obtain ⟨c, hc, rfl⟩ := hp
  exact ⟨c, hc, _, fr_job c, fun _ h => h.elim⟩

/-- What a step of process `k` does to the other processes. -/
theorem step_cases (m : Machine) (k : Nat) : m.step k = m ∨ ∃ self eff kk, m.procs[k]? = some ⟨self, .step eff kk⟩ ∧
    m.step k = ⟨(eff (self.on m.disk)).disk, m.procs.set k ⟨eff (self.on m.disk), kk (self.on m.disk)⟩⟩ := by
  unfold Machine.step
  split
  · next self eff kk h => exact .inr ⟨self, eff, kk, h, rfl⟩
  · exact .inl rfl

theorem step_other {k k' : Nat} (h : k' ≠ k) : (m.step k).procs[k']? = m.procs[k']? := by
  rcases step_cases m k with e | ⟨self, eff, kk, -, e⟩ <;> rw [e]
  exact List.getElem?_set_ne (Ne.symm h)

theorem gen_step (hm : Gen cs M m) (k : Nat) (hM : (m.disk, (m.step k).disk) ∈ M) :
    Gen cs M (m.step k) ∧ (m.step k = m ∨ ∃ c : Started σ, cs[k]? = some c ∧ (∀ q, lookDisk (m.step k).disk q ≠ lookDisk m.disk q → c.Given m.disk q) ∧
      ∀ j, j < m.disk.nextIno → (m.step k).disk.file j ≠ m.disk.file j → ∃ st ∈ M, c.Met st j) := by
  rcases step_cases m k with e | ⟨self, eff, kk, hp, e⟩
  · rw [e]; exact ⟨hm, .inl rfl⟩
  · rw [e] at hM ⊢
    obtain ⟨c, hc, I, hI, hmet⟩ := hm.2 k _ hp
    have h := hI m.disk hm.1
    refine ⟨⟨h.1.good hm.1, fun k' p hp' => ?_⟩, .inr ⟨c, hc, h.1.look, fun j hj hn => (h.1.file j hj hn).elim (hmet j) fun hs => ⟨_, hM, hs⟩⟩⟩
    simp only at hp'
    by_cases hk : k = k'
    · subst hk
      rw [List.getElem?_set_self (List.getElem?_eq_some_iff.1 hp).1] at hp'
      cases hp'
      exact ⟨c, hc, _, h.2, fun j hj => hj.elim (hmet j) fun hs => ⟨_, hM, hs⟩⟩
    · rw [List.getElem?_set_ne hk] at hp'
      exact hm.2 k' p hp'

/-- What a command has nothing to do with it leaves alone. -/
theorem foreign_step (hm : Gen cs M m) (k : Nat) (hM : (m.disk, (m.step k).disk) ∈ M) {p : Path} {o : Nat} {y : Bytes} (hf : ∀ c, cs[k]? = some c → c.Foreign M p o) (h : HasAt m.disk p o y) : HasAt (m.step k).disk p o y := by
  rcases (gen_step hm k hM).2 with e | ⟨c, hc, h1, h2⟩
  · rw [e]; exact h
  · have hl : lookDisk (m.step k).disk p = lookDisk m.disk p := Classical.byContradiction fun hn => (hf c hc _ hM).1 (h1 p hn)
    refine ⟨hl.trans h.1, Eq.trans (Classical.byContradiction fun hn => ?_) h.2⟩
    obtain ⟨st, hs, hmet⟩ := h2 o (hm.1.allocated p o h.1) hn
    exact (hf c hc st hs).2 hmet

end

/-! ## One command that writes an output and then erases its input -/

section
variable {c : Started σ} {M : List (Disk × Disk)} {i : Nat} {output : List Char} {header : Option (List Char)} {er : Prop} {complete : Bytes → Prop}

/-- What the files of a command hold at each stage. -/
def Link (c : Started σ) (M : List (Disk × Disk)) (output : List Char) (header : Option (List Char)) : Sealing → Disk → Prop
  | .opening E, d => ∀ e ∈ E, e.1 ∈ output :: header.toList ∧ ∃ st ∈ M, ∃ p, c.LedTo e.1 st p e.2 ∧ HasAt d p e.2 []
  | .body oh hb o start b, d => match header with
    | none => oh = o ∧ start = hb.length ∧ ∃ st ∈ M, ∃ p, c.LedTo output st p o ∧ HasAt d p o (hb ++ b)
    | some name => start = 0 ∧ (∃ st ∈ M, ∃ p, c.LedTo output st p o ∧ HasAt d p o b) ∧ ∃ st ∈ M, ∃ p, c.LedTo name st p oh ∧ HasAt d p oh hb
  | .erasing, _ => False

theorem Link.keep {d d' : Disk} (hk : ∀ name ∈ output :: header.toList, ∀ st ∈ M, ∀ p o y, c.LedTo name st p o → HasAt d p o y → HasAt d' p o y) : ∀ {s : Sealing}, Link c M output header s d → Link c M output header s d'
  | .opening E, h => fun e he => by
    obtain ⟨h1, st, hs, p, h2, h3⟩ := h e he
    exact ⟨h1, st, hs, p, h2, hk _ h1 st hs p _ _ h2 h3⟩
  | .body oh hb o start b, h => by
    unfold Link at h ⊢
    cases header with
    | none =>
      obtain ⟨h1, h2, st, hs, p, h3, h4⟩ := h
      exact ⟨h1, h2, st, hs, p, h3, hk _ (by simp) st hs p _ _ h3 h4⟩
    | some name =>
      obtain ⟨h1, ⟨st, hs, p, h3, h4⟩, st', hs', p', h5, h6⟩ := h
      exact ⟨h1, ⟨st, hs, p, h3, hk _ (by simp) st hs p _ _ h3 h4⟩, st', hs', p', h5, hk _ (by simp) st' hs' p' _ _ h5 h6⟩
  | .erasing, h => h

theorem writeAt_nil (b : Bytes) : writeAt [] 0 b = b := by
  unfold writeAt
  split
  · next h => exact h.symm
  · simp

theorem writeAt_end (x b : Bytes) : writeAt x x.length b = x ++ b := by
  unfold writeAt
  split
  · next h => rw [h]; simp
  · simp

theorem _root_.Volaris.Spec.HasAt.keep {d d' : Disk} {p : Path} {o : Nat} {y : Bytes} (h : HasAt d p o y) (hn : KeepsNames (d, d')) (hf : d'.file o = d.file o) : HasAt d' p o y := ⟨hn p _ h.1, hf.trans h.2⟩
theorem _root_.Volaris.Spec.HasAt.to {d d' : Disk} {p : Path} {o : Nat} {y z : Bytes} (h : HasAt d p o y) (hn : KeepsNames (d, d')) (hf : d'.file o = z) : HasAt d' p o z := ⟨hn p _ h.1, hf⟩

/-- Its own steps. -/
theorem Link.step (hhead : ∀ name ∈ header.toList, ∀ st ∈ M, ∀ st' ∈ M, ∀ p p' o, c.LedTo output st p o → ¬ c.LedTo name st' p' o) (her : ¬ er) {d d' : Disk} (hM : (d, d') ∈ M) {s s' : Sealing}
    (hg : Puts (header ≠ none) er (Leads c.self c.s.cwd) output (header.getD output) complete s d d' s') (h : Link c M output header s d) : Link c M output header s' d' := by
  have hhdr : header.getD output ∈ output :: header.toList := by cases header <;> simp
  cases hg with
  | opening hn hf =>
    intro e he
    obtain ⟨h1, st, hs, p, h2, h3⟩ := h e he
    exact ⟨h1, st, hs, p, h2, h3.keep hn (by rw [hf])⟩
  | @emptied _ _ E name j hn hf hj hl hname =>
    intro e he
    rcases List.mem_cons.1 he with rfl | he
    · obtain ⟨p, hp, hl⟩ := hl
      refine ⟨?_, (d, d'), hM, p, ⟨hp, hl⟩, hl, hj⟩
      rcases hname with rfl | rfl
      · exact List.mem_cons_self ..
      · exact hhdr
    · obtain ⟨h1, st, hs, p, h2, h3⟩ := h e he
      refine ⟨h1, st, hs, p, h2, h3.to hn ?_⟩
      by_cases e' : e.2 = j
      · rw [e']; exact hj
      · rw [hf _ e']; exact h3.2
  | @header _ _ E oh o start hb hn he1 he2 hs1 hs2 hw hf =>
    obtain ⟨h1, st, hs, p, h2, h3⟩ := h _ he1
    obtain ⟨g1, st', hs', p', g2, g3⟩ := h _ he2
    have hho : d'.file oh = hb := by rw [hw, h3.2, writeAt_nil]
    unfold Link
    cases hh : header with
    | none =>
      rw [hh] at hs1
      obtain ⟨rfl, rfl⟩ := hs1 (fun h => h rfl)
      exact ⟨rfl, rfl, st', hs', p', g2, g3.to hn (by rw [List.append_nil]; exact hho)⟩
    | some name =>
      have e : header.getD output = name := by rw [hh]; rfl
      rw [e] at h2
      have hne : o ≠ oh := fun e' => by
        subst e'
        exact hhead name (by rw [hh]; simp) st' hs' st hs p' p _ g2 h2
      exact ⟨hs2 (by rw [hh]; exact fun h => nomatch h), ⟨st', hs', p', g2, g3.keep hn (hf o hne)⟩, st, hs, p, h2, h3.to hn hho⟩
  | idle hn hf => exact Link.keep (s := .body _ _ _ _ _) (fun _ _ _ _ p o y _ hy => hy.keep hn (by rw [hf])) h
  | @put _ _ oh o start hb b b' hn hw hf =>
    unfold Link at h ⊢
    cases hh : header with
    | none =>
      rw [hh] at h
      obtain ⟨rfl, rfl, st, hs, p, h3, h4⟩ := h
      refine ⟨rfl, rfl, st, hs, p, h3, h4.to hn ?_⟩
      rw [hw, h4.2, ← List.length_append, writeAt_end, List.append_assoc]
    | some name =>
      rw [hh] at h
      obtain ⟨rfl, ⟨st, hs, p, h3, h4⟩, st', hs', p', h5, h6⟩ := h
      have hne : oh ≠ o := fun e' => by
        subst e'
        exact hhead name (by rw [hh]; simp) st hs st' hs' p p' _ h3 h5
      refine ⟨rfl, ⟨st, hs, p, h3, h4.to hn ?_⟩, st', hs', p', h5, h6.keep hn (hf _ hne)⟩
      rw [hw, h4.2, Nat.zero_add, writeAt_end]
  | last he => exact absurd he her
  | erasing => exact h

/-- They leave the input alone. -/
theorem input_kept (hapart : ∀ name ∈ output :: header.toList, ∀ st ∈ M, ∀ p, ¬ c.LedTo name st p i) (her : ¬ er) {d d' : Disk} (hM : (d, d') ∈ M) {s s' : Sealing} {q : Path} {x : Bytes}
    (hg : Puts (header ≠ none) er (Leads c.self c.s.cwd) output (header.getD output) complete s d d' s') (h : Link c M output header s d) (hx : HasAt d q i x) : HasAt d' q i x := by
  have hhdr : header.getD output ∈ output :: header.toList := by cases header <;> simp
  cases hg with
  | opening hn hf => exact hx.keep hn (by rw [hf])
  | @emptied _ _ E name j hn hf hj hl hname =>
    refine hx.keep hn (hf i fun e => ?_)
    subst e
    obtain ⟨p, hp⟩ := hl
    refine hapart name ?_ (d, d') hM p hp
    rcases hname with rfl | rfl
    · exact List.mem_cons_self ..
    · exact hhdr
  | @header _ _ E oh o start hb hn he1 he2 hs1 hs2 hw hf =>
    obtain ⟨h1, st, hs, p, h2, h3⟩ := h _ he1
    refine hx.keep hn (hf i fun e => ?_)
    subst e
    exact hapart _ h1 st hs p h2
  | idle hn hf => exact hx.keep hn (by rw [hf])
  | @put _ _ oh o start hb b b' hn hw hf =>
    refine hx.keep hn (hf i fun e => ?_)
    subst e
    unfold Link at h
    cases hh : header with
    | none =>
      rw [hh] at h
      obtain ⟨rfl, rfl, st, hs, p, h3, h4⟩ := h
      exact hapart _ (List.mem_cons_self ..) st hs p h3
    | some name =>
      rw [hh] at h
      obtain ⟨rfl, ⟨st, hs, p, h3, h4⟩, -⟩ := h
      exact hapart _ (List.mem_cons_self ..) st hs p h3
  | last he => exact absurd he her
  | erasing => exact h.elim

end

/-! ## The machine -/

section
variable {cs : List (Started σ)} {M : List (Disk × Disk)} {m : Machine} {q : Path} {i k : Nat} {x : Bytes} {P : Disk → Prop} {c : Started σ}

open Classical in
/-- The disks on which file `i` is still there with its content. -/
noncomputable def before (M : List (Disk × Disk)) (q : Path) (i : Nat) (x : Bytes) : List Disk := (M.map (·.1)).filter fun d => decide (GoodDisk d ∧ HasAt d q i x)

theorem mem_before {d : Disk} : d ∈ before M q i x ↔ (∃ st ∈ M, st.1 = d) ∧ GoodDisk d ∧ HasAt d q i x := by
  classical
  unfold before
  rw [List.mem_filter, List.mem_map, decide_eq_true_iff]

/-- A command, the one with number `k`, that makes something of file `i`, which it leaves alone until then, and goes on then, perhaps to erase the file.  What it makes gives `P`; how far it is agrees with what is on the disk, and nobody disturbs that. -/
structure Work (cs : List (Started σ)) (M : List (Disk × Disk)) (q : Path) (i : Nat) (x : Bytes) (P : Disk → Prop) (k : Nat) (c : Started σ) where
  S : Type
  G : S → Disk → Disk → S → Prop
  start : S
  link : S → Disk → Prop
  ready : S → Prop
  first : Thr Error Unit
  last : Thr Error Unit
  spot : Disk → Path → Prop
  steps : c.cmd.steps c.s = (first >>= fun _ => last)
  obs : Obs (· ∈ before M q i x) G (fun _ _ s => ready s) first c.self start
  erases : ∀ a, FrT spot last a (fun _ => False)
  init : ∀ d, link start d
  own : ∀ d d' s s', (d, d') ∈ M → GoodDisk d → HasAt d q i x → G s d d' s' → link s d → link s' d' ∧ HasAt d' q i x
  others : ∀ d d' s, (∀ p o y, (∀ k' c', cs[k']? = some c' → k' ≠ k → c'.Foreign M p o) → HasAt d p o y → HasAt d' p o y) → link s d → link s d'
  later : ∀ d d' s, ready s → (∀ p o y, (∀ st ∈ M, ∀ p', spot st.1 p' → p' ≠ p ∧ lookDisk st.1 p' ≠ some (.file o) ∧ lookDisk st.2 p' ≠ some (.file o)) → HasAt d p o y → HasAt d' p o y) → link s d → link s d'
  gives : ∀ d s, ready s → link s d → P d

variable (W : Work cs M q i x P k c)

/-- The process is still at it, or has just finished. -/
def Busy (W : Work cs M q i x P k c) (p : Proc) (d : Disk) : Prop :=
  ∃ (t : Thr Error Unit) (s : W.S), p.rest = (t >>= fun _ => W.last) ∧ W.link s d ∧ Obs (· ∈ before M q i x) W.G (fun _ _ s => W.ready s) t p.self s

/-- The process has finished that and does the rest. -/
def Finished (W : Work cs M q i x P k c) (p : Proc) (d : Disk) : Prop :=
  (∃ I, FrT W.spot p.rest p.self I ∧ ∀ j, I j → ∃ st ∈ M, Seen W.spot st.1 st.2 j) ∧ ∃ s, W.ready s ∧ W.link s d

theorem busy_start (d : Disk) : Busy W ⟨c.self, c.cmd.steps c.s⟩ d := ⟨W.first, W.start, W.steps, W.init d, W.obs⟩

/-- A process that has finished. -/
theorem busy_done {p : Proc} {d : Disk} {t : Thr Error Unit} {s : W.S} (hr : p.rest = (t >>= fun _ => W.last)) (hl : W.link s d) (ht : t = .done (.ok ())) (ho : W.ready s) : Finished W p d := by
  refine ⟨⟨fun _ => False, ?_, fun _ h => h.elim⟩, s, ho, hl⟩
  rw [hr, ht]
  exact W.erases _

/-- Either the file has its content and all commands for it are still at work, or one of them has finished. -/
def Inv (cs : List (Started σ)) (M : List (Disk × Disk)) (q : Path) (i : Nat) (x : Bytes) (P : Disk → Prop) (m : Machine) : Prop :=
  Gen cs M m ∧ ((HasAt m.disk q i x ∧ ∀ (k : Nat) (c : Started σ), cs[k]? = some c → ∀ W : Work cs M q i x P k c, ∃ p, m.procs[k]? = some p ∧ Busy W p m.disk) ∨
    ∃ (k : Nat) (c : Started σ) (W : Work cs M q i x P k c), cs[k]? = some c ∧ ∃ p, m.procs[k]? = some p ∧ Finished W p m.disk)

theorem inv_start {d : Disk} (hd : GoodDisk d) (hx : HasAt d q i x) : Inv cs M q i x P (startAll cs d) :=
  ⟨gen_start hd, .inl ⟨hx, fun k c hc W => ⟨⟨c.self, c.cmd.steps c.s⟩, by unfold startAll; simp [hc], busy_start W _⟩⟩⟩

/-- The steps of other processes. -/
theorem link_other (hm : Gen cs M m) {k' : Nat} (hk : k' ≠ k) (hM : (m.disk, (m.step k').disk) ∈ M) {s : W.S} (h : W.link s m.disk) : W.link s (m.step k').disk :=
  W.others _ _ _ (fun _ _ _ hf hy => foreign_step hm k' hM (fun c' hc' => hf k' c' hc' hk) hy) h

theorem finished_step (hm : Gen cs M m) {k' : Nat} (hM : (m.disk, (m.step k').disk) ∈ M) {p : Proc} (hp : m.procs[k]? = some p) (h : Finished W p m.disk) : ∃ p', (m.step k').procs[k]? = some p' ∧ Finished W p' (m.step k').disk := by
  obtain ⟨⟨I, hI, hmet⟩, s, hs, hl⟩ := h
  by_cases hk : k' = k
  · subst hk
    rcases step_cases m k' with e | ⟨self, eff, kk, hp', e⟩
    · rw [e]; exact ⟨p, hp, ⟨I, hI, hmet⟩, s, hs, hl⟩
    · rw [hp] at hp'
      cases hp'
      rw [e] at hM ⊢
      have hmv := hI m.disk hm.1
      refine ⟨_, List.getElem?_set_self (List.getElem?_eq_some_iff.1 hp).1, ⟨_, hmv.2, fun j hj => hj.elim (hmet j) fun h => ⟨_, hM, h⟩⟩, s, hs, ?_⟩
      refine W.later _ _ _ hs (fun p o y hoff hy => ?_) hl
      have hno : ∀ st' ∈ M, ¬ Seen W.spot st'.1 st'.2 o := by
        rintro st' hs' ⟨q', hsp, hh⟩
        obtain ⟨-, g1, g2⟩ := hoff st' hs' q' hsp
        exact hh.elim g1 g2
      refine ⟨Eq.trans (Classical.byContradiction fun hn' => ?_) hy.1, Eq.trans (Classical.byContradiction fun hn' => ?_) hy.2⟩
      · exact (hoff _ hM p (hmv.1.look p hn')).1 rfl
      · rcases hmv.1.file o (hm.1.allocated p o hy.1) hn' with h | h
        · obtain ⟨st', hs', h⟩ := hmet o h
          exact hno st' hs' h
        · exact hno _ hM h
  · exact ⟨p, by rw [step_other (fun e => hk e.symm)]; exact hp, ⟨I, hI, hmet⟩, s, hs, link_other W hm hk hM hl⟩

/-- A step of the process itself. -/
theorem busy_step (hm : Gen cs M m) (hM : (m.disk, (m.step k).disk) ∈ M) (hx : HasAt m.disk q i x) {p : Proc} (hp : m.procs[k]? = some p) (h : Busy W p m.disk) :
    ∃ p', (m.step k).procs[k]? = some p' ∧ (Finished W p' (m.step k).disk ∨ HasAt (m.step k).disk q i x ∧ Busy W p' (m.step k).disk) := by
  have h0 := h
  obtain ⟨t, s, h1, h2, h3⟩ := h
  rcases step_cases m k with e | ⟨self, eff, kk, hp', e⟩
  · rw [e]; exact ⟨p, hp, .inr ⟨hx, h0⟩⟩
  · rw [hp] at hp'
    cases hp'
    cases t with
    | done r =>
      cases r with
      | ok y =>
        obtain ⟨p', g1, g2⟩ := finished_step W hm hM hp (busy_done W h1 h2 rfl (h3 () rfl))
        exact ⟨p', g1, .inl g2⟩
      | err e => cases h1
      | abort e => cases h1
    | step eff' kk' =>
      have h1 : Thr.step eff kk = Thr.step eff' fun w => (kk' w).bind fun _ => W.last := h1
      cases h1
      obtain ⟨s', hg, h3⟩ := h3 m.disk (mem_before.2 ⟨⟨_, hM, rfl⟩, hm.1, hx⟩)
      have hd : (m.step k).disk = (eff (self.on m.disk)).disk := by rw [e]
      rw [← hd] at hg
      obtain ⟨g1, g2⟩ := W.own _ _ _ _ hM hm.1 hx hg h2
      exact ⟨_, by rw [e]; exact List.getElem?_set_self (List.getElem?_eq_some_iff.1 hp).1, .inr ⟨g2, kk' (self.on m.disk), s', rfl, g1, h3⟩⟩

theorem inv_step (hcs : ∀ (k : Nat) (c : Started σ), cs[k]? = some c → c.Foreign M q i ∨ Nonempty (Work cs M q i x P k c)) (h : Inv cs M q i x P m) (k : Nat) (hM : (m.disk, (m.step k).disk) ∈ M) : Inv cs M q i x P (m.step k) := by
  obtain ⟨hm, h⟩ := h
  have hm' := (gen_step hm k hM).1
  refine ⟨hm', ?_⟩
  rcases h with ⟨hx, hall⟩ | ⟨k', c, W, hc, p, hp, hs⟩
  · by_cases hfin : ∃ (k' : Nat) (c : Started σ) (W : Work cs M q i x P k' c), cs[k']? = some c ∧ ∃ p, (m.step k).procs[k']? = some p ∧ Finished W p (m.step k).disk
    · exact .inr hfin
    · have all : ∀ (k' : Nat) (c : Started σ), cs[k']? = some c → ∀ W : Work cs M q i x P k' c, (∃ p, (m.step k).procs[k']? = some p ∧ Busy W p (m.step k).disk) ∧ (k' = k → HasAt (m.step k).disk q i x) := by
        intro k' c hc W
        obtain ⟨p, hp, hb⟩ := hall k' c hc W
        by_cases hk : k' = k
        · subst hk
          obtain ⟨p', g1, g2 | ⟨g2, g3⟩⟩ := busy_step W hm hM hx hp hb
          · exact absurd ⟨k', c, W, hc, p', g1, g2⟩ hfin
          · exact ⟨⟨p', g1, g3⟩, fun _ => g2⟩
        · obtain ⟨t, s, h1, h2, h3⟩ := hb
          exact ⟨⟨p, by rw [step_other hk]; exact hp, t, s, h1, link_other W hm (fun e => hk e.symm) hM h2, h3⟩, fun e => absurd e hk⟩
      refine .inl ⟨?_, fun k' c hc W => (all k' c hc W).1⟩
      by_cases hW : ∃ c, cs[k]? = some c ∧ Nonempty (Work cs M q i x P k c)
      · obtain ⟨c, hc, ⟨W⟩⟩ := hW
        exact (all k c hc W).2 rfl
      · exact foreign_step hm k hM (fun c hc => (hcs k c hc).resolve_right fun hn => hW ⟨c, hc, hn⟩) hx
  · exact .inr ⟨k', c, W, hc, finished_step W hm hM hp hs⟩

theorem inv_run (hcs : ∀ (k : Nat) (c : Started σ), cs[k]? = some c → c.Foreign M q i ∨ Nonempty (Work cs M q i x P k c)) :
    ∀ (order : List Nat) {m : Machine}, (∀ st ∈ m.moves order, st ∈ M) → Inv cs M q i x P m → Inv cs M q i x P (m.run order)
  | [], _, _, h => h
  | k :: order, _, hM, h => inv_run hcs order (fun st hs => hM st (List.mem_cons_of_mem _ hs)) (inv_step hcs h k (hM _ (List.mem_cons_self ..)))

/-- When every command has nothing to do with the file or is one that keeps what it makes: the file is still there, or something complete is. -/
theorem kept_or_made (hcs : ∀ (k : Nat) (c : Started σ), cs[k]? = some c → c.Foreign M q i ∨ Nonempty (Work cs M q i x P k c)) {d : Disk} (hd : GoodDisk d) (hx : HasAt d q i x) (order : List Nat) (hM : ∀ st ∈ (startAll cs d).moves order, st ∈ M) :
    HasAt ((startAll cs d).run order).disk q i x ∨ P ((startAll cs d).run order).disk := by
  rcases (inv_run hcs order hM (inv_start hd hx)).2 with ⟨h, _⟩ | ⟨_, _, W, _, _, _, _, s, hs, hl⟩
  · exact .inl h
  · exact .inr (W.gives _ s hs hl)

end

section
variable {M : List (Disk × Disk)} {i : Nat} {x : Bytes} {c : Started σ} {input output : List Char} {params : CryptoParams} {algorithm : Algorithm}

theorem supply_more {key : Key} {self : World} {ds ds' : List Disk} {pw : Bytes} (hs : ∀ d ∈ ds, d ∈ ds') (h : MaySupply key self ds pw) : MaySupply key self ds' pw := by
  unfold MaySupply at h ⊢
  cases key with
  | keyfile path =>
    simp only at h ⊢
    split at h
    · next e => rw [if_pos e]; exact h
    · next e =>
      rw [if_neg e]
      obtain ⟨d, hd, j, e⟩ := h
      exact ⟨d, hs d hd, j, e⟩
  | env => exact h
  | user => exact h
  | generate n => trivial

/-- A command with a single input and the stages of encryption. -/
def sealWork {cs : List (Started σ)} {k : Nat} {P : Disk → Prop} {q : Path} {header : Option (List Char)} {erase : EraseMode} {force : ForceMode} {complete : Bytes → Prop} {first : Thr Error Unit}
    (steps : c.cmd.steps c.s = (first >>= fun _ => Steps.eraseIf c.s erase force input))
    (obs : Obs (· ∈ before M q i x) (Puts (header ≠ none) False (Leads c.self c.s.cwd) output (header.getD output) complete) (fun _ _ s => s.Complete complete) first c.self (.opening []))
    (apart : ∀ name ∈ output :: header.toList, ∀ st ∈ M, ∀ p, ¬ c.LedTo name st p i)
    (headerApart : ∀ name ∈ header.toList, ∀ st ∈ M, ∀ st' ∈ M, ∀ p p' o, c.LedTo output st p o → ¬ c.LedTo name st' p' o)
    (own : erase ≠ .ignoreFile → ∀ name ∈ output :: header.toList, ∀ st ∈ M, ∀ p o, c.LedTo name st p o →
      ∀ st' ∈ M, ∀ top, (c.self.on st'.1).resolve (toPath c.s.cwd input) = .ok top → ¬ top <+: p ∧ ∀ p', top <+: p' → lookDisk st'.1 p' ≠ some (.file o) ∧ lookDisk st'.2 p' ≠ some (.file o))
    (alone : c.Undisturbed cs k M output header)
    (gives : ∀ d oh hb o start b, Link c M output header (.body oh hb o start b) d → complete (hb ++ b) → P d) : Work cs M q i x P k c where
  S := Sealing
  G := Puts (header ≠ none) False (Leads c.self c.s.cwd) output (header.getD output) complete
  start := .opening []
  link := Link c M output header
  ready := fun s => s.Complete complete
  first := first
  last := Steps.eraseIf c.s erase force input
  spot := fun d q => erase ≠ .ignoreFile ∧ ∃ top, (c.self.on d).resolve (toPath c.s.cwd input) = .ok top ∧ top <+: q
  steps := steps
  obs := obs
  erases := fun a => fr_eraseIf c.s force fun hne w top q' hq hp => ⟨hne, top, (World.resolve_congr (w := w) (w' := c.self.on w.disk) rfl _).trans hq, hp⟩
  init := fun _ _ h => (nomatch h)
  own := fun _ _ _ _ hM _ hx hg hl => ⟨Link.step headerApart id hM hg hl, input_kept apart id hM hg hl hx⟩
  others := fun _ _ _ hk hl => hl.keep fun name hn st hs p o y hled hy => hk p o y (fun k' c' hc' hne => alone k' c' hc' hne name hn st hs p o hled) hy
  later := fun _ _ _ _ hk hl => hl.keep fun name hn st hst p o y hled hy => hk p o y (fun st' hs' p' => by
    rintro ⟨hne, top, ht, hpre⟩
    obtain ⟨g1, g2⟩ := own hne name hn st hst p o hled st' hs' top ht
    exact ⟨fun e => g1 (e ▸ hpre), g2 p' hpre⟩) hy
  gives := fun d s hs hl => by
    cases s with
    | opening E => exact hs.elim
    | body oh hb o start b => exact gives d oh hb o start b hl hs
    | erasing => exact hl.elim

/-- Encryption. -/
def encryptWork {cs : List (Started σ)} {k : Nat} {P : Disk → Prop} (hc : c.Encrypts M i input output params algorithm) (hu : c.Undisturbed cs k M output params.header) {q : Path} (hP : ∀ d, c.HasSealed M output params x d → P d) : Work cs M q i x P k c :=
  sealWork (complete := Captures c.s c.self (before M q i x) input params.key) (first := Steps.encryptMode c.s input output { params with erase := .ignoreFile } algorithm) (by rw [hc.cmd]; exact encryptMode_split ..)
    (by simpa using obs_encryptMode (ds := before M q i x) (params := { params with erase := .ignoreFile }) hc.lawful hc.noShort) hc.apart hc.header hc.own hu <| by
    rintro d oh hb o start b hl ⟨i', pw, y, ⟨d', hd', p', hp', hl'⟩, hseen, hsup, hdec⟩
    refine hP d ?_
    have hsub : ∀ d ∈ before M q i x, d ∈ M.map (·.1) := fun d hd => List.mem_map.2 (mem_before.1 hd).1
    have hi : i' = i := by
      obtain ⟨st, hst, rfl⟩ := List.mem_map.1 (hsub d' hd')
      have := hc.named st hst p' _ hp' hl'
      cases this
      rfl
    subst hi
    have hy : y = x := seen_unchanged hseen fun d hd => (mem_before.1 hd).2.2.2
    subst hy
    unfold Link at hl
    unfold Started.HasSealed
    cases hh : params.header with
    | none =>
      rw [hh] at hl
      obtain ⟨-, -, st, hst, p, h1, h2⟩ := hl
      exact ⟨st, hst, p, o, pw, h1, h2.1, supply_more hsub hsup, by rw [h2.2]; exact hdec⟩
    | some name =>
      rw [hh] at hl
      obtain ⟨-, ⟨st, hst, p, h1, h2⟩, st', hst', p', h3, h4⟩ := hl
      exact ⟨st, hst, p, o, pw, h1, h2.1, supply_more hsub hsup, st', hst', p', oh, h3, h4.1, by rw [h2.2, h4.2]; exact hdec⟩

end

end Volaris.Dist
