import Verif.Proofs.ConcPack
import Verif.Proofs.ConcKeys
import Verif.Proofs.Steps
/-!
# The machine: every process does what it does alone
-/
namespace Volaris.Conc
open Volaris.Spec Volaris.Cli
variable {σ : Type}

theorem on_look (w : World) (d : Disk) (q : Path) : (w.on d).look q = lookDisk d q := rfl
theorem on_disk (w : World) (d : Disk) : (w.on d).disk = d := rfl
theorem on_self (w : World) : w.on w.disk = w := rfl

/-- What a command may use and write, from its command line. -/
def cfg (c : Started σ) (d : Disk) : Cfg where
  base := c.self.nextFd
  uses := c.Uses d
  writes := c.Writes d
  dirs q := lookDisk d q = some .dir
  sub _ := .inl

/-- At the start every file belongs to itself. -/
def start (c : Started σ) (d : Disk) (i j : Nat) : Prop := i = j ∧ ∃ q, c.Uses d q ∧ lookDisk d q = some (.file j)

theorem sim_start (c : Started σ) {d : Disk} (hd : Disk.Allocated d) : Sim (cfg c d) (start c d) (c.self.on d) (c.self.on d) where
  priv := ⟨rfl, rfl, rfl, rfl, rfl, rfl, rfl⟩
  nextFd := rfl
  base := Nat.le_refl _
  hand h h1 h2 := absurd h1 (Nat.not_le.2 h2)
  inj i j i' j' h h' := by rw [h.1, h'.1]
  file i j h := by rw [h.1]
  olda i j h := by obtain ⟨rfl, q, _, hq⟩ := h; exact hd q _ hq
  oldv i j h := by obtain ⟨rfl, q, _, hq⟩ := h; exact hd q _ hq
  alla := hd
  allv := hd
  dira _ := Iff.rfl
  dirv _ := Iff.rfl
  names q hq := by
    rw [on_look]
    cases h : lookDisk d q with
    | none => trivial
    | some n => cases n with
      | dir => trivial
      | file i => exact ⟨rfl, q, hq, h⟩
  list _ _ := rfl

theorem safe_command (c : Started σ) {d : Disk} (hf : c.Fits d) : Safe (cfg c d) (fun _ _ => True) (c.cmd.steps c.s) (c.self.on d) (start c d) := by
  have hex : ∃ w : World, ∀ q, w.look q = some .dir ↔ (cfg c d).dirs q := ⟨c.self.on d, fun _ => Iff.rfl⟩
  have hr : ∀ n, n ∈ c.cmd.reads → ∃ q, Leads (cfg c d) (toPath c.s.cwd n) q ∧ (cfg c d).uses q := fun n hn => by
    obtain ⟨q, hq⟩ := hf.leads n (.inr (.inl hn))
    exact ⟨q, Leads.of (w := c.self.on d) (fun _ => Iff.rfl) hq, .inr (.inl ⟨n, hn, hq⟩)⟩
  have hw : ∀ n, n ∈ c.cmd.writes → ∃ q, Leads (cfg c d) (toPath c.s.cwd n) q ∧ (cfg c d).writes q := fun n hn => by
    obtain ⟨q, hq⟩ := hf.leads n (.inl hn)
    exact ⟨q, Leads.of (w := c.self.on d) (fun _ => Iff.rfl) hq, .inl ⟨n, hn, hq⟩⟩
  have ht : ∀ n, n ∈ c.cmd.trees → Tree (cfg c d) (toPath c.s.cwd n) := fun n hn => by
    obtain ⟨q, hq⟩ := hf.leads n (.inr (.inr hn))
    exact ⟨q, Leads.of (w := c.self.on d) (fun _ => Iff.rfl) hq, fun q' hp => .inr (.inr ⟨n, q, hn, hq, hp⟩)⟩
  have htmp : ∀ p, p ∈ c.temporary → ∃ q, Leads (cfg c d) p q ∧ (cfg c d).writes q := fun p hp => by
    obtain ⟨q, hq⟩ := hf.tmp p hp
    exact ⟨q, Leads.of (w := c.self.on d) (fun _ => Iff.rfl) hq, .inr ⟨p, hp, hq⟩⟩
  have hfile := hf.file
  have hkeeps := hf.keeps
  have hfills := hf.fills
  rcases c with ⟨s, cmd, self⟩
  cases cmd with
  | encrypt input output params algorithm => exact safe_encryptMode s hex hr hw
  | decrypt input output params => exact safe_decryptMode s hex hr hw
  | hash files => exact Safe.bind (safe_hashStream s files hr) fun _ _ _ _ => Safe.pure trivial
  | erase input passes force =>
    obtain ⟨q, hl, hq⟩ := hw input (by simp [Job.writes])
    exact safe_secureErase s hl hq (hfile input passes force q rfl (hl (self.on d) fun _ => Iff.rfl)) passes force
  | pack inputs output packParams params algorithm =>
    exact safe_packMode s hr hw ht (htmp _ (List.mem_singleton.2 rfl)) hkeeps
  | unpack input output verbose params => exact nomatch hfills
  | keyAdd input params => exact safe_keyAdd s hr hw
  | keyChange input params => exact safe_keyChange s hr hw
  | keyDelete input key => exact safe_keyDelete s hr hw
  | keyVerify input key => exact safe_keyVerify s hr
  | headerDump input output force => exact safe_headerDump s hr hw
  | headerRestore input output => exact safe_headerRestore s hr hw
  | headerStrip input => exact safe_headerStrip s hw
  | headerDetails input =>
    obtain ⟨q, hl, hq⟩ := hr input (by simp [Job.reads])
    exact Safe.bind (safe_headerDetails s hl hq) fun _ _ _ _ => Safe.pure trivial

/-- A machine with one process, which has come so far. -/
def IsAlone (t : Thr Cli.Error Unit) (a : World) (m : Machine) : Prop := m.disk = a.disk ∧ ∃ w, m.procs = [⟨w, t⟩] ∧ w.on a.disk = a

theorem IsAlone.step {eff : World → World} {k : World → Thr Cli.Error Unit} {a : World} {m : Machine} (h : IsAlone (.step eff k) a m) : IsAlone (k a) (eff a) (m.step 0) := by
  obtain ⟨h1, w, h2, h3⟩ := h
  unfold Machine.step
  rw [h2]
  simp only [List.getElem?_cons_zero, List.set_cons_zero]
  rw [h1, h3]
  exact ⟨rfl, _, rfl, rfl⟩

theorem IsAlone.done {r : Res Cli.Error Unit} {a : World} {m : Machine} (h : IsAlone (.done r) a m) : m.step 0 = m := by
  obtain ⟨h1, w, h2, h3⟩ := h
  unfold Machine.step
  rw [h2]
  rfl

theorem run_append (xs ys : List Nat) : ∀ m : Machine, m.run (xs ++ ys) = (m.run xs).run ys := by
  induction xs with
  | nil => intro m; rfl
  | cons x xs ih => intro m; exact ih (m.step x)

/-- The command alone, after `n` steps. -/
def solo (c : Started σ) (d : Disk) (n : Nat) : Machine := (startAll [c] d).run (List.replicate n 0)

theorem solo_succ (c : Started σ) (d : Disk) (n : Nat) : solo c d (n + 1) = (solo c d n).step 0 := by
  unfold solo
  rw [List.replicate_succ', run_append]
  rfl

/-- See the theorem `inv_step`. -/
structure Inv (cs : List (Started σ)) (d : Disk) (n : Nat → Nat) (m : Machine) : Prop where
  length : m.procs.length = cs.length
  others : Others (fun q => ∃ c ∈ cs, c.Writes d q) d m.disk
  each : ∀ (i : Nat) (c : Started σ) (p : Proc), cs[i]? = some c → m.procs[i]? = some p → ∃ (a : World) (R : Nat → Nat → Prop),
    IsAlone p.rest a (solo c d (n i)) ∧ Sim (cfg c d) R a (p.self.on m.disk) ∧ Safe (cfg c d) (fun _ _ => True) p.rest a R ∧
    ∀ (l : Nat) (c' : Started σ), l ≠ i → cs[l]? = some c' → ∀ (x j : Nat) (q : Path), R x j → c'.Writes d q → lookDisk m.disk q ≠ some (.file j)

theorem inv_start {cs : List (Started σ)} {d : Disk} (hd : Disk.Allocated d) (hf : ∀ c ∈ cs, c.Fits d)
    (hs : Independent d cs) : Inv cs d (fun _ => 0) (startAll cs d) where
  length := by simp [startAll]
  others := .refl _
  each i c p hc hp := by
    simp only [startAll, List.getElem?_map, hc, Option.map_some, Option.some.injEq] at hp
    subst hp
    refine ⟨c.self.on d, start c d, ⟨rfl, c.self, rfl, rfl⟩, sim_start c hd, safe_command c (hf c (List.mem_of_getElem? hc)), fun l c' hl hc' x j q hr hw h => ?_⟩
    obtain ⟨rfl, q', hq', hx⟩ := hr
    exact (hs l i c' c hl hc' hc q q' hw hq').2 x h hx

/-- Another process has done something. -/
theorem Sim.others {c : Cfg} {R : Nat → Nat → Prop} {a w : World} {d d' : Disk} {F : Path → Prop} (hs : Sim c R a (w.on d)) (ho : Others F d d')
    (hF : ∀ q, F q → ¬ c.uses q) (hsep : ∀ x j q, R x j → F q → lookDisk d q ≠ some (.file j)) (hall : ∀ q i, lookDisk d' q = some (.file i) → i < d'.nextIno) : Sim c R a (w.on d') where
  priv := ⟨hs.priv.sched, hs.priv.rng, hs.priv.stdin, hs.priv.tty, hs.priv.env, hs.priv.out, hs.priv.log⟩
  nextFd := hs.nextFd
  base := hs.base
  hand := hs.hand
  inj := hs.inj
  file i j h := by
    rw [hs.file i j h]
    show d.file j = d'.file j
    refine Classical.byContradiction fun hne => ?_
    obtain ⟨q, hq, hl⟩ := ho.file j (hs.oldv i j h) (fun e => hne e.symm)
    exact hsep i j q h hq hl
  olda := hs.olda
  oldv i j h := Nat.lt_of_lt_of_le (hs.oldv i j h) ho.mono
  alla := hs.alla
  allv := hall
  dira := hs.dira
  dirv q := (ho.dirs q).trans (hs.dirv q)
  names q hq := by
    have := hs.names q hq
    rw [on_look] at this ⊢
    rw [ho.look q fun h => hF q h hq]
    exact this
  list P hP := (hs.list P hP).trans (ho.list P fun q hq => by
    cases h : P q with
    | false => rfl
    | true => exact absurd (hP q h) (hF q hq)).symm

theorem inv_step {cs : List (Started σ)} {d : Disk} (hs : Independent d cs)
    {n : Nat → Nat} {m : Machine} (h : Inv cs d n m) (i : Nat) : Inv cs d (fun j => if j = i then n j + 1 else n j) (m.step i) := by
  cases hp : m.procs[i]? with
  | none =>
    have : m.step i = m := by unfold Machine.step; rw [hp]
    rw [this]
    refine ⟨h.length, h.others, fun j c p hc hj => ?_⟩
    have hne : j ≠ i := fun e => by rw [e, hp] at hj; cases hj
    simp only [if_neg hne]
    exact h.each j c p hc hj
  | some p =>
    have hi : i < cs.length := by rw [← h.length]; exact (List.getElem?_eq_some_iff.1 hp).1
    have hc : cs[i]? = some cs[i] := List.getElem?_eq_getElem hi
    obtain ⟨a, R, h1, h2, h3, h4⟩ := h.each i _ p hc hp
    rcases p with ⟨self, rest⟩
    cases rest with
    | done r =>
      have : m.step i = m := by unfold Machine.step; rw [hp]
      rw [this]
      refine ⟨h.length, h.others, fun j c p hc' hj => ?_⟩
      by_cases hne : j = i
      · subst hne
        rw [hp] at hj; cases hj
        rw [hc] at hc'; cases hc'
        simp only [if_true]
        refine ⟨a, R, ?_, h2, h3, h4⟩
        rw [solo_succ, h1.done]
        exact h1
      · simp only [if_neg hne]
        exact h.each j c p hc' hj
    | step eff k =>
      have hm : m.step i = ⟨(eff (self.on m.disk)).disk, m.procs.set i ⟨eff (self.on m.disk), k (self.on m.disk)⟩⟩ := by unfold Machine.step; rw [hp]
      obtain ⟨g1, R', g2, g3, g4, g5⟩ := h3 _ h2
      rw [hm]
      have hall : ∀ q i, lookDisk (eff (self.on m.disk)).disk q = some (.file i) → i < (eff (self.on m.disk)).disk.nextIno := g3.allv
      have g4' : Others (fun q => cs[i].Writes d q) m.disk (eff (self.on m.disk)).disk := g4
      refine ⟨by simp [h.length], h.others.trans ⟨g4'.mono, g4'.dirs, fun q hq => g4'.look q fun hw => hq ⟨_, List.mem_of_getElem? hc, hw⟩, g4'.old, fun j hj hne => ?_, fun P hP => g4'.list P fun q hq => hP q ⟨_, List.mem_of_getElem? hc, hq⟩⟩, fun j c p hc' hj => ?_⟩
      · obtain ⟨q, hq, hl⟩ := g4'.file j hj hne
        exact ⟨q, ⟨_, List.mem_of_getElem? hc, hq⟩, hl⟩
      · by_cases hne : j = i
        · subst hne
          rw [hc] at hc'; cases hc'
          rw [List.getElem?_set_self (by rw [h.length]; exact hi)] at hj
          cases hj
          simp only [if_true]
          refine ⟨eff a, R', ?_, g3, ?_, fun l c' hl hl' x y q hr hw he => ?_⟩
          · rw [solo_succ, ← g1]
            exact h1.step
          · rw [← g1]; exact g5
          · have hsim := g3
            rcases g4'.old q y he with h5 | h5
            · rcases g2.2 x y hr with h6 | ⟨_, h6⟩
              · exact h4 l c' hl hl' x y q h6 hw h5
              · have := h2.allv q y h5
                exact absurd this (Nat.not_lt.2 h6)
            · have hq : ¬ cs[j].Writes d q := fun hw' => (hs l j c' _ hl hl' hc q q hw ((cfg _ d).sub q hw')).1 rfl
              have he' : lookDisk m.disk q = some (.file y) := by rw [← g4'.look q hq]; exact he
              exact absurd (h2.allv q y he') (Nat.not_lt.2 h5)
        · simp only [if_neg hne]
          rw [List.getElem?_set_ne (fun e => hne e.symm)] at hj
          obtain ⟨b, S, k1, k2, k3, k4⟩ := h.each j c p hc' hj
          refine ⟨b, S, k1, k2.others g4' (fun q hw hu => (hs i j _ c (fun e => hne e.symm) hc hc' q q hw hu).1 rfl) (fun x y q hr hw => k4 i _ (fun e => hne e.symm) hc x y q hr hw) hall, k3, fun l c' hl hl' x y q hr hw he => ?_⟩
          rcases g4'.old q y he with h5 | h5
          · exact k4 l c' hl hl' x y q hr hw h5
          · exact absurd (k2.oldv x y hr) (Nat.not_lt.2 h5)

theorem inv_run {cs : List (Started σ)} {d : Disk} (hs : Independent d cs) :
    ∀ (order : List Nat) {n : Nat → Nat} {m : Machine}, Inv cs d n m → Inv cs d (fun j => n j + order.count j) (m.run order)
  | [], _, _, h => h
  | i :: order, n, m, h => by
    have := inv_run hs order (inv_step hs h i)
    have e : (fun j => (if j = i then n j + 1 else n j) + order.count j) = fun j => n j + (i :: order).count j := by
      funext j
      rw [List.count_cons]
      by_cases hj : j = i
      · subst hj; simp; omega
      · simp [hj]; exact fun e => hj e.symm
    rw [e] at this
    exact this

/-- The same at a place. -/
theorem Sim.same_content {c : Cfg} {R : Nat → Nat → Prop} {a v : World} (hs : Sim c R a v) {q : Path} (hq : c.uses q) : contentAt v.disk q = contentAt a.disk q := by
  have ea : lookDisk a.disk q = a.look q := rfl
  have ev : lookDisk v.disk q = v.look q := rfl
  unfold contentAt
  rw [ea, ev]
  rcases hs.at hq with ⟨h1, h2⟩ | ⟨h1, h2⟩ | ⟨i, j, h1, h2, h3⟩
  · rw [h1, h2]
  · rw [h1, h2]
  · rw [h1, h2]
    show some (some (v.file j)) = some (some (a.file i))
    rw [hs.file i j h3]

/-- Running to the end, step by step. -/
theorem solo_ends (c : Started σ) (d : Disk) : ∀ (t : Thr Cli.Error Unit) (a : World) (n : Nat), IsAlone t a (solo c d n) → ∃ N, ∀ k, N ≤ k → IsAlone (.done (t.run a).1) (t.run a).2 (solo c d k) := by
  intro t
  induction t with
  | done r =>
    intro a n h
    refine ⟨n, fun k hk => ?_⟩
    induction k with
    | zero => have : n = 0 := by omega
              subst this; exact h
    | succ k ih =>
      rcases Nat.lt_or_ge k n with h' | h'
      · have : n = k + 1 := by omega
        subst this; exact h
      · rw [solo_succ, (ih h').done]; exact ih h'
  | step eff k ih =>
    intro a n h
    have h' : IsAlone (k a) (eff a) (solo c d (n + 1)) := by rw [solo_succ]; exact h.step
    exact ih a (eff a) (n + 1) h'

/-- Once it is done, it is as in the program without steps. -/
theorem solo_result (c : Started σ) (d : Disk) : ∀ (n : Nat) (t : Thr Cli.Error Unit) (a : World), IsAlone t a (solo c d n) → t.run a = (c.cmd.steps c.s).run (c.self.on d)
  | 0, t, a, h => by
    obtain ⟨h1, w, h2, h3⟩ := h
    have h2 : [(⟨c.self, c.cmd.steps c.s⟩ : Proc)] = [⟨w, t⟩] := h2
    have h1 : d = a.disk := h1
    cases h2
    rw [h1, h3]
  | n + 1, t, a, h => by
    -- the step before
    obtain ⟨t', a', hp⟩ : ∃ t' a', IsAlone t' a' (solo c d n) := by
      have hl : ∃ p, (solo c d n).procs = [p] := by
        have : ∀ (k : Nat) (m : Machine), (∃ p, m.procs = [p]) → ∃ p, (m.run (List.replicate k 0)).procs = [p] := by
          intro k
          induction k with
          | zero => intro m hm; exact hm
          | succ k ih =>
            intro m ⟨p, hm⟩
            refine ih _ ?_
            unfold Machine.step
            rw [hm]
            rcases p with ⟨self, rest⟩
            cases rest with
            | done r => exact ⟨_, hm⟩
            | step eff k => exact ⟨_, rfl⟩
        exact this n _ ⟨_, rfl⟩
      obtain ⟨⟨w, t'⟩, hl⟩ := hl
      exact ⟨t', w.on (solo c d n).disk, rfl, w, hl, rfl⟩
    have ih := solo_result c d n t' a' hp
    rw [solo_succ] at h
    cases t' with
    | done r =>
      rw [hp.done] at h
      obtain ⟨x1, w, x2, x3⟩ := h
      obtain ⟨y1, w', y2, y3⟩ := hp
      rw [x2] at y2; cases y2
      rw [← ih, ← x3, ← y3, ← x1, ← y1]
    | step eff k =>
      have hp := hp.step
      obtain ⟨x1, w, x2, x3⟩ := h
      obtain ⟨y1, w', y2, y3⟩ := hp
      rw [x2] at y2; cases y2
      have : a = eff a' := by rw [← x3, ← y3, ← x1, ← y1]
      rw [← ih, this]
      rfl

theorem command_run (s : Sys σ) (cmd : Job) : (cmd.steps s).run = cmd.prog s := by
  cases cmd with
  | encrypt input output params algorithm => exact Steps.encryptMode_run ..
  | decrypt input output params => exact Steps.decryptMode_run ..
  | hash files =>
    show (Steps.hashStream s files >>= fun _ => pure ()).run = _
    rw [Thr.run_bind, Steps.hashStream_run]
    rfl
  | erase input passes force => exact Steps.secureErase_run ..
  | pack inputs output packParams params algorithm => exact Steps.packMode_run ..
  | unpack input output verbose params => exact Steps.unpackMode_run ..
  | keyAdd input params => exact Steps.keyAdd_run ..
  | keyChange input params => exact Steps.keyChange_run ..
  | keyDelete input key => exact Steps.keyDelete_run ..
  | keyVerify input key => exact Steps.keyVerify_run ..
  | headerDump input output force => exact Steps.headerDump_run ..
  | headerRestore input output => exact Steps.headerRestore_run ..
  | headerStrip input => exact Steps.headerStrip_run ..
  | headerDetails input =>
    show (Steps.headerDetails s input >>= fun _ => pure ()).run = _
    rw [Thr.run_bind, Steps.headerDetails_run]
    rfl

end Volaris.Conc
