import Verif.Proofs.ConcKeyOps
/-!
# Key operations on one file at the same time: the machine
-/
namespace Volaris.ConcKeys
open Volaris.Spec Volaris.KeyOps

/-- The file, seen by one of the calls. -/
def Ctx.call (x : Ctx) (c : KeyCall) : Ctx := { x with h := c.handle, cmd := c.cmd, self := c.self }

theorem Ctx.Holds.call {x : Ctx} {l : List Bytes} {b : Bytes} (h : x.Holds l b) (c : KeyCall) : (x.call c).Holds l b := ⟨h.sub, h.body, h.file⟩
theorem Ctx.Holds.base {x : Ctx} {c : KeyCall} {l : List Bytes} {b : Bytes} (h : (x.call c).Holds l b) : x.Holds l b := ⟨h.sub, h.body, h.file⟩

theorem holds_iff {x : Ctx} {l : List Bytes} {b : Bytes} : x.Holds l b ↔ KeysAre x.C x.t x.nonce x.aad x.key x.body x.U l b := by
  constructor
  · intro ⟨h1, h2, hd, ps, h3, h4, h5, h6, h7⟩
    refine ⟨h1, h2, hd, ps.map Prod.snd, h3, h4, h5, by rw [← h6]; simp, ?_⟩
    rw [← h6, List.zip_map', List.map_id'']
    · exact h7
    · intro _; rfl
  · intro ⟨h1, h2, hd, ks, h3, h4, h5, h6, h7⟩
    have e1 : (l.zip ks).map Prod.fst = l := List.map_fst_zip (Nat.le_of_eq h6)
    have e2 : (l.zip ks).map Prod.snd = ks := List.map_snd_zip (Nat.le_of_eq h6.symm)
    exact ⟨h1, h2, hd, l.zip ks, by rw [e2]; exact h3, h4, h5, e1, h7⟩

theorem Ctx.Holds.opened {x : Ctx} (hC : x.C.Lawful) {l : List Bytes} {b p : Bytes} (h : x.Holds l b) (hb : ∀ hd : Header, hd.headerType = x.t → hd.nonce = x.nonce → BodyOf x.C hd x.key x.aad p x.body) :
    OpenedBy x.C x.U l b p := by
  have hi : KeyInv x.C x.t x.nonce x.aad x.key x.body x.U 0 l { x.self with file := fun _ => b } := ⟨h.sub, h.body, h.file⟩
  exact hi.decides hC hb

/-! ### Lists -/

theorem onListAll_append (cs : List KeyCmd) (c : KeyCmd) : ∀ l, onListAll (cs ++ [c]) l = ((onListAll cs l).1 ++ [(c.onList (onListAll cs l).2).1], (c.onList (onListAll cs l).2).2) := by
  induction cs with
  | nil => intro l; rfl
  | cons a cs ih => intro l; simp only [List.cons_append, onListAll, ih]

theorem chosen_append {cs : List KeyCall} {js : List Nat} {j : Nat} {c : KeyCall} (h : cs[j]? = some c) : chosen cs (js ++ [j]) = chosen cs js ++ [c.cmd] := by
  unfold chosen
  rw [List.filterMap_append]
  simp [h]

/-- `js` are calls that have written, and on the list they lead to `l'`. -/
structure Chain (cs : List KeyCall) (l : List Bytes) (phs : Nat → Phase) (js : List Nat) (l' : List Bytes) : Prop where
  once : js.Nodup
  wrote : ∀ j ∈ js, phs j = .wrote
  succeed : ∀ r ∈ (onListAll (chosen cs js) l).1, r = .ok ()
  list : (onListAll (chosen cs js) l).2 = l'

def setPh (phs : Nat → Phase) (j : Nat) (ph : Phase) : Nat → Phase := fun k => if k = j then ph else phs k

theorem Chain.mono {cs : List KeyCall} {l l' : List Bytes} {phs : Nat → Phase} {js : List Nat} {j : Nat} {ph : Phase} (h : Chain cs l phs js l') (hw : phs j = .wrote → ph = .wrote) : Chain cs l (setPh phs j ph) js l' :=
  ⟨h.once, fun k hk => by unfold setPh; split; · next e => exact hw (e ▸ h.wrote k hk)
                          · exact h.wrote k hk, h.succeed, h.list⟩

theorem Chain.push {cs : List KeyCall} {l l' : List Bytes} {phs : Nat → Phase} {js : List Nat} {j : Nat} {c : KeyCall} (h : Chain cs l phs js l') (hc : cs[j]? = some c) (hw : phs j ≠ .wrote) (hok : (c.cmd.onList l').1 = .ok ()) :
    Chain cs l (setPh phs j .wrote) (js ++ [j]) (c.cmd.onList l').2 where
  once := by
    rw [List.nodup_append]
    refine ⟨h.once, by simp, fun a ha b hb e => ?_⟩
    rw [List.mem_singleton.1 hb] at e
    exact hw (e ▸ h.wrote a ha)
  wrote k hk := by
    unfold setPh
    split
    · rfl
    · next hne => rcases List.mem_append.1 hk with hk | hk
                  · exact h.wrote k hk
                  · exact absurd (List.mem_singleton.1 hk) hne
  succeed := by
    rw [chosen_append hc, onListAll_append]
    intro r hr
    rcases List.mem_append.1 hr with hr | hr
    · exact h.succeed r hr
    · rw [List.mem_singleton.1 hr, h.list, hok]
  list := by rw [chosen_append hc, onListAll_append, h.list]

/-! ### The invariant -/

structure Inv (x : Ctx) (cs : List KeyCall) (l : List Bytes) (d : Disk) (phs : Nat → Phase) (m : Machine) : Prop where
  length : m.procs.length = cs.length
  tame : ∀ j c p, cs[j]? = some c → m.procs[j]? = some p → Tame (x.call c) (Outcome (x.call c)) p.rest p.self (phs j)
  known : ∀ j, phs j ≠ .fresh → j < cs.length
  now : ∃ js l', Chain cs l phs js l' ∧ x.Holds l' (m.disk.file x.ino)
  then_ : ∀ j l', phs j = .read l' → ∃ js, Chain cs l phs js l'
  did : ∀ j c, cs[j]? = some c → phs j = .wrote → ∃ js l', Chain cs l phs js l' ∧ (c.cmd.onList l').1 = .ok ()
  dir : m.disk.dir = d.dir
  nextIno : m.disk.nextIno = d.nextIno
  others : ∀ i, i ≠ x.ino → m.disk.file i = d.file i

theorem run_append (xs ys : List Nat) : ∀ m : Machine, m.run (xs ++ ys) = (m.run xs).run ys := by
  induction xs with
  | nil => intro m; rfl
  | cons x xs ih => intro m; exact ih (m.step x)

theorem tame_start {x : Ctx} {c : KeyCall} (hC : x.C.Lawful) (hf : c.Fits x.C x.t.algorithm x.key x.U x.ino) :
    Tame (x.call c) (Outcome (x.call c)) ((c.cmd.steps x.C c.handle).mapErr Cli.Error.key) c.self .fresh :=
  .mapErr (tame_call (x := x.call c) ⟨hC, hf.known, hf.apart⟩ ⟨hf.fd, hf.short, fun i => by rw [Nat.zero_add]; rfl⟩)

theorem inv_start {x : Ctx} {cs : List KeyCall} {l : List Bytes} {d : Disk} (hC : x.C.Lawful) (hf : ∀ c ∈ cs, c.Fits x.C x.t.algorithm x.key x.U x.ino) (hh : x.Holds l (d.file x.ino)) :
    Inv x cs l d (fun _ => .fresh) (startKeys x.C cs d) where
  length := by simp [startKeys]
  tame j c p hc hp := by
    simp only [startKeys, List.getElem?_map, hc, Option.map_some, Option.some.injEq] at hp
    subst hp
    exact tame_start hC (hf c (List.mem_of_getElem? hc))
  known j h := absurd rfl h
  now := ⟨[], l, ⟨.nil, by simp, by simp [chosen, onListAll], rfl⟩, hh⟩
  then_ j l' h := by cases h
  did j c _ h := by cases h
  dir := rfl
  nextIno := rfl
  others _ _ := rfl

/-- Nothing happens, or one process makes a step. -/
theorem step_cases (m : Machine) (j : Nat) : m.step j = m ∨ ∃ self eff k, m.procs[j]? = some ⟨self, .step eff k⟩ ∧
    m.step j = ⟨(eff (self.on m.disk)).disk, m.procs.set j ⟨eff (self.on m.disk), k (self.on m.disk)⟩⟩ := by
  unfold Machine.step
  cases h : m.procs[j]? with
  | none => exact .inl rfl
  | some p =>
    rcases p with ⟨self, rest⟩
    cases rest with
    | done r => exact .inl rfl
    | step eff k => exact .inr ⟨self, eff, k, rfl, rfl⟩

/-- What a step of process `j` does to the phases: the file stays as it is, or the process writes the version that follows from the one it has read. -/
theorem inv_step {x : Ctx} {cs : List KeyCall} {l : List Bytes} {d : Disk} {phs : Nat → Phase} {m : Machine} (hi : Inv x cs l d phs m) (j : Nat) :
    ∃ phs', Inv x cs l d phs' (m.step j) ∧ (∀ k, k ≠ j → phs' k = phs k) ∧ (∀ k, phs k = .wrote → phs' k = .wrote) ∧
      (((m.step j).disk = m.disk ∧ (phs' j = .wrote → phs j = .wrote)) ∨
        (∃ self eff k, m.procs[j]? = some ⟨self, .step eff k⟩) ∧ ∃ c l1 js, cs[j]? = some c ∧ ¬ c.cmd.looksOnly ∧ phs j = .read l1 ∧ phs' j = .wrote ∧ (c.cmd.onList l1).1 = .ok () ∧ Chain cs l phs js l1 ∧ Chain cs l phs' (js ++ [j]) (c.cmd.onList l1).2 ∧
          x.Holds (c.cmd.onList l1).2 ((m.step j).disk.file x.ino)) := by
  rcases step_cases m j with he | ⟨self, eff, k, hp, he⟩
  · rw [he]; exact ⟨phs, hi, fun _ _ => rfl, fun _ h => h, .inl ⟨rfl, id⟩⟩
  have hj : j < cs.length := by rw [← hi.length]; exact (List.getElem?_eq_some_iff.1 hp).1
  have hc : cs[j]? = some cs[j] := List.getElem?_eq_getElem hj
  generalize hcj : cs[j] = c at hc
  obtain ⟨js, l', hch, hh⟩ := hi.now
  obtain ⟨hne, hstep⟩ := hi.tame j c _ hc hp
  obtain ⟨ph', htr, htame⟩ := hstep m.disk l' (hh.call c)
  have htame' : ∀ i c' p, cs[i]? = some c' → (m.procs.set j ⟨eff (self.on m.disk), k (self.on m.disk)⟩)[i]? = some p → Tame (x.call c') (Outcome (x.call c')) p.rest p.self (setPh phs j ph' i) := by
    intro i c' p hc' hp'
    by_cases hij : j = i
    · subst hij
      rw [List.getElem?_set_self (by rw [hi.length]; exact hj)] at hp'
      cases hp'
      rw [hc] at hc'; cases hc'
      unfold setPh; rw [if_pos rfl]
      exact htame
    · rw [List.getElem?_set_ne hij] at hp'
      unfold setPh; rw [if_neg fun e => hij e.symm]
      exact hi.tame i c' p hc' hp'
  have hknown : ∀ i, setPh phs j ph' i ≠ .fresh → i < cs.length := fun i => by
    unfold setPh
    split
    · next e => intro _; rw [e]; exact hj
    · exact hi.known i
  have hoth : ∀ k, k ≠ j → setPh phs j ph' k = phs k := fun k hk => if_neg hk
  have hself : setPh phs j ph' j = ph' := if_pos rfl
  have hw : phs j = .wrote → ph' = .wrote := fun h => absurd h hne
  have hmono : ∀ k, phs k = .wrote → setPh phs j ph' k = .wrote := fun k hk => by
    by_cases e : k = j
    · subst e; exact absurd hk hne
    · rw [hoth k e]; exact hk
  have hdid : ∀ i, i ≠ j → ∀ c', cs[i]? = some c' → setPh phs j ph' i = .wrote → ∃ js l', Chain cs l (setPh phs j ph') js l' ∧ (c'.cmd.onList l').1 = .ok () := fun i hij c' hc' h => by
    rw [hoth i hij] at h
    obtain ⟨js', l2, h1, h2⟩ := hi.did i c' hc' h
    exact ⟨js', l2, h1.mono hw, h2⟩
  refine ⟨setPh phs j ph', ?_⟩
  rw [he]
  rcases htr with ⟨hd, hph⟩ | ⟨l1, hlk, hr, hw', hok, hdir, hnext, hfile, hnew⟩
  · have hd : (eff (self.on m.disk)).disk = m.disk := hd
    refine ⟨⟨by rw [List.length_set]; exact hi.length, htame', hknown, ⟨js, l', hch.mono hw, by rw [hd]; exact hh⟩, fun i l2 hi2 => ?_, fun i c' hc' h => ?_, by rw [hd]; exact hi.dir, by rw [hd]; exact hi.nextIno, fun i hne' => by rw [hd]; exact hi.others i hne'⟩,
      hoth, hmono, .inl ⟨hd, fun h => ?_⟩⟩
    · by_cases hij : i = j
      · subst hij
        rw [hself] at hi2
        rcases hph with e | ⟨_, e⟩
        · obtain ⟨js', h⟩ := hi.then_ i l2 (e ▸ hi2)
          exact ⟨js', h.mono hw⟩
        · rw [e] at hi2; cases hi2
          exact ⟨js, hch.mono hw⟩
      · rw [hoth i hij] at hi2
        obtain ⟨js', h⟩ := hi.then_ i l2 hi2
        exact ⟨js', h.mono hw⟩
    · by_cases hij : i = j
      · subst hij
        rw [hself] at h
        rcases hph with e | ⟨_, e⟩
        · exact absurd (e ▸ h) hne
        · rw [e] at h; cases h
      · exact hdid i hij c' hc' h
    · rw [hself] at h
      rcases hph with e | ⟨_, e⟩
      · rw [← e]; exact h
      · rw [e] at h; cases h
  · subst hw'
    obtain ⟨jsj, hjs⟩ := hi.then_ j l1 hr
    have hpush := hjs.push hc hne hok
    refine ⟨⟨by rw [List.length_set]; exact hi.length, htame', hknown, ⟨jsj ++ [j], _, hpush, hnew.base⟩, fun i l2 hi2 => ?_, fun i c' hc' h => ?_, hdir.trans hi.dir, hnext.trans hi.nextIno, fun i hne' => (hfile i hne').trans (hi.others i hne')⟩,
      hoth, hmono, .inr ⟨⟨self, eff, k, hp⟩, c, l1, jsj, hc, hlk, hr, hself, hok, hjs, hpush, hnew.base⟩⟩
    · by_cases hij : i = j
      · subst hij; rw [hself] at hi2; cases hi2
      · rw [hoth i hij] at hi2
        obtain ⟨js', h⟩ := hi.then_ i l2 hi2
        exact ⟨js', h.mono hw⟩
    · by_cases hij : i = j
      · subst hij
        rw [hc] at hc'; cases hc'
        exact ⟨jsj, l1, hjs.mono hw, hok⟩
      · exact hdid i hij c' hc' h

theorem inv_run {x : Ctx} {cs : List KeyCall} {l : List Bytes} {d : Disk} (order : List Nat) : ∀ {phs : Nat → Phase} {m : Machine}, Inv x cs l d phs m → ∃ phs', Inv x cs l d phs' (m.run order) := by
  induction order with
  | nil => exact fun h => ⟨_, h⟩
  | cons j order ih =>
    intro phs m h
    obtain ⟨phs', h', _⟩ := inv_step h j
    exact ih h'

section
variable {x : Ctx} {cs : List KeyCall} {l : List Bytes} {d : Disk} {phs : Nat → Phase} {m : Machine}

theorem Inv.get (hi : Inv x cs l d phs m) {j : Nat} {c : KeyCall} (hc : cs[j]? = some c) : ∃ p, m.procs[j]? = some p :=
  ⟨_, List.getElem?_eq_getElem (by rw [hi.length]; exact (List.getElem?_eq_some_iff.1 hc).1)⟩

/-- Who has written has returned `Ok`. -/
theorem Inv.returned (hi : Inv x cs l d phs m) {j : Nat} (hw : phs j = .wrote) : KeyReturned m j (.ok ()) := by
  have hj := hi.known j (by rw [hw]; simp)
  have hc : cs[j]? = some cs[j] := List.getElem?_eq_getElem hj
  obtain ⟨p, hp⟩ := hi.get hc
  have ht := hi.tame j _ p hc hp
  rw [hw] at ht
  refine ⟨p, hp, ?_⟩
  cases h : p.rest with
  | step eff k => rw [h] at ht; exact absurd rfl ht.1
  | done r =>
    rw [h] at ht
    obtain ⟨⟨⟩, hy⟩ := ht.2.2 rfl
    rw [hy]

theorem Inv.selection (hi : Inv x cs l d phs m) {js : List Nat} {l' : List Bytes} (h : Chain cs l phs js l') : Selection cs l m js :=
  ⟨h.once, fun j hj => hi.returned (h.wrote j hj), h.succeed⟩

/-- Who has returned `Ok` has written, or has only looked. -/
theorem Inv.outcome (hi : Inv x cs l d phs m) {j : Nat} {c : KeyCall} {r : Res Cli.Error Unit} (hc : cs[j]? = some c) (hr : KeyReturned m j r) :
    (∀ a, r ≠ .abort a) ∧ (r = .ok () → phs j = .wrote ∨ ∃ l1 pw, c.cmd = .verify pw ∧ phs j = .read l1 ∧ (c.cmd.onList l1).1 = .ok ()) := by
  obtain ⟨p, hp, he⟩ := hr
  have ht := hi.tame j c p hc hp
  rw [he] at ht
  exact ⟨ht.2.1, fun e => ht.1 () e⟩

end

/-! ### A call in whose time nobody else writes -/

/-- From the first step of call `j` on the file has been as it is in `m0`. -/
theorem undisturbed {x : Ctx} {cs : List KeyCall} {d : Disk} {l l' : List Bytes} {j : Nat} {c : KeyCall} (hc : cs[j]? = some c) (order : List Nat) : ∀ {phs : Nat → Phase} {m : Machine}, Inv x cs l d phs m →
    x.Holds l' (m.disk.file x.ino) → (∃ p ph, m.procs[j]? = some p ∧ Tame (x.call c) (Outcome (x.call c)) p.rest p.self ph ∧ (ph = .fresh ∨ ph = .read l')) →
    (∀ xs ys, order = xs ++ ys → (m.run xs).disk.file x.ino = m.disk.file x.ino) → ¬ KeyReturned (m.run order) j (.ok ()) →
    ∃ p ph, (m.run order).procs[j]? = some p ∧ Tame (x.call c) (Outcome (x.call c)) p.rest p.self ph ∧ (ph = .fresh ∨ ph = .read l') := by
  induction order with
  | nil => exact fun _ _ h _ _ => h
  | cons i order ih =>
    intro phs m hi hh ⟨p, ph, hp, ht, hph⟩ hsame hnr
    obtain ⟨phs', hi', _⟩ := inv_step hi i
    have hsame1 : (m.step i).disk.file x.ino = m.disk.file x.ino := hsame [i] order rfl
    refine ih hi' (by rw [hsame1]; exact hh) ?_ (fun xs ys e => by rw [hsame1]; exact hsame (i :: xs) ys (by rw [e]; rfl)) hnr
    rcases step_cases m i with he | ⟨self, eff, k, hpi, he⟩
    · rw [he]; exact ⟨p, ph, hp, ht, hph⟩
    · have hlt := (List.getElem?_eq_some_iff.1 hpi).1
      by_cases hij : i = j
      · subst hij
        rw [hp] at hpi; cases hpi
        obtain ⟨hne, hstep⟩ := ht
        obtain ⟨ph', htr, ht'⟩ := hstep m.disk l' (hh.call c)
        rw [he]
        refine ⟨_, ph', List.getElem?_set_self hlt, ht', ?_⟩
        rcases htr with ⟨_, e | ⟨_, e⟩⟩ | ⟨l1, _, _, hw, _⟩
        · rw [e]; exact hph
        · exact .inr e
        · -- it has written, so it has returned
          exfalso
          apply hnr
          have : ∀ (o : List Nat) (m' : Machine), KeyReturned m' i (.ok ()) → KeyReturned (m'.run o) i (.ok ()) := by
            intro o
            induction o with
            | nil => exact fun _ h => h
            | cons a o iho =>
              intro m' ⟨q, hq, hqr⟩
              refine iho (m'.step a) ?_
              rcases step_cases m' a with e | ⟨s', f', k', h1, e⟩
              · rw [e]; exact ⟨q, hq, hqr⟩
              · rw [e]
                refine ⟨q, ?_, hqr⟩
                by_cases hai : a = i
                · subst hai; rw [hq] at h1; cases h1; cases hqr
                · show (m'.procs.set a _)[i]? = _
                  rw [List.getElem?_set_ne hai]; exact hq
          refine this order (m.step i) ?_
          rw [he]
          refine ⟨_, List.getElem?_set_self hlt, ?_⟩
          rw [hw] at ht'
          show k (self.on m.disk) = _
          cases h : k (self.on m.disk) with
          | step f g => rw [h] at ht'; exact absurd rfl ht'.1
          | done r => rw [h] at ht'; obtain ⟨⟨⟩, hy⟩ := ht'.2.2 rfl; rw [hy]
      · rw [he]
        refine ⟨p, ph, ?_, ht, hph⟩
        show (m.procs.set i _)[j]? = _
        rw [List.getElem?_set_ne hij]; exact hp

theorem run_untouched {order : List Nat} {j : Nat} (h : j ∉ order) : ∀ m : Machine, (m.run order).procs[j]? = m.procs[j]? := by
  induction order with
  | nil => intro m; rfl
  | cons i order ih =>
    intro m
    have := ih (fun e => h (List.mem_cons_of_mem _ e)) (m.step i)
    refine this.trans ?_
    rcases step_cases m i with e | ⟨s, f, k, h1, e⟩
    · rw [e]
    · rw [e]
      exact List.getElem?_set_ne (fun e' => h (by rw [e']; exact List.mem_cons_self ..))

/-! ### Every call ends -/

/-- At most `n` steps. -/
def Within {ε α : Type} : Nat → Thr ε α → Prop
  | _, .done _ => True
  | 0, .step _ _ => False
  | n + 1, .step _ k => ∀ w, Within n (k w)

section
variable {ε ε' α β : Type}

theorem Within.mono : ∀ {t : Thr ε α} {n k : Nat}, Within n t → n ≤ k → Within k t := by
  intro t
  induction t with
  | done r => intro n k _ _; cases k <;> trivial
  | step eff f ih =>
    intro n k h hk
    cases n with
    | zero => cases h
    | succ n => cases k with
      | zero => omega
      | succ k => exact fun w => ih w (h w) (by omega)

theorem Within.bind {f : α → Thr ε β} {k : Nat} (hf : ∀ y, Within k (f y)) : ∀ {t : Thr ε α} {n : Nat}, Within n t → Within (n + k) (t >>= f) := by
  intro t
  rw [Thr.bind_eq]
  induction t with
  | done r =>
    intro n _
    cases r with
    | ok y => exact (hf y).mono (by omega)
    | err e => cases n + k <;> trivial
    | abort a => cases n + k <;> trivial
  | step eff g ih =>
    intro n h
    cases n with
    | zero => cases h
    | succ n => rw [Nat.succ_add]; exact fun w => ih w (h w)

theorem Within.mapErr {g : ε → ε'} : ∀ {t : Thr ε α} {n : Nat}, Within n t → Within n (t.mapErr g) := by
  intro t
  induction t with
  | done r => intro n _; cases n <;> trivial
  | step eff f ih =>
    intro n h
    cases n with
    | zero => cases h
    | succ n => exact fun w => ih w (h w)

theorem Within.atom (p : Prog ε α) : Within 1 (Thr.atom p) := fun _ => trivial
theorem Within.done (r : Res ε α) (n : Nat) : Within n (.done r : Thr ε α) := by cases n <;> trivial
end

theorem within_deserialize (h : Nat) : Within 3 (Cli.Steps.deserialize h) := by
  unfold Cli.Steps.deserialize
  refine Within.bind (n := 1) (k := 2) (fun b => Within.bind (n := 1) (k := 1) (fun _ => ?_) (.atom _)) (.atom _)
  split
  · exact .done _ _
  · exact Within.bind (n := 1) (k := 0) (fun _ => .done _ _) (.atom _)

theorem within_load (h : Nat) : Within 4 (Cli.Steps.keyLoad h) := by
  unfold Cli.Steps.keyLoad
  refine Within.bind (n := 3) (k := 1) (fun ⟨hd, aad⟩ => ?_) (.mapErr (within_deserialize h))
  simp only
  split
  · exact .done _ _
  · refine Within.bind (n := 1) (k := 0) (fun _ => ?_) (.atom _)
    split <;> exact .done _ _

theorem within_store (h : Nat) (hd : Header) (ks : List Keyslot) : Within 1 (Cli.Steps.keyStore h hd ks) := by
  unfold Cli.Steps.keyStore Cli.Steps.headerWrite
  refine .mapErr (Within.bind (n := 0) (k := 1) (fun bs => Within.bind (n := 1) (k := 0) (fun _ => .done _ _) (.atom _)) (.done _ _))

theorem within_call (C : Crypto) (h : Nat) (c : KeyCmd) : Within 7 (c.steps C h) := by
  cases c with
  | add old new hash =>
    refine Within.bind (n := 4) (k := 3) (fun y => Within.bind (n := 0) (k := 3) (fun ⟨mk, i⟩ => ?_) (.done _ _)) (within_load h)
    simp only
    split
    · exact .done _ _
    · exact Within.bind (n := 1) (k := 2) (fun _ => Within.bind (n := 1) (k := 1) (fun _ => Within.bind (n := 0) (k := 1) (fun _ => Within.bind (n := 0) (k := 1) (fun _ => within_store _ _ _) (.done _ _)) (.done _ _)) (.atom _)) (.atom _)
  | change old new hash =>
    refine Within.bind (n := 4) (k := 3) (fun y => Within.bind (n := 0) (k := 3) (fun ⟨mk, i⟩ => ?_) (.done _ _)) (within_load h)
    refine Within.bind (n := 1) (k := 2) (fun _ => Within.bind (n := 0) (k := 2) (fun _ => Within.bind (n := 1) (k := 1) (fun _ => Within.bind (n := 0) (k := 1) (fun _ => ?_) (.done _ _)) (.atom _)) (.done _ _)) (.atom _)
    split
    · exact within_store _ _ _
    · exact .done _ _
  | delete pw =>
    refine (Within.bind (n := 4) (k := 1) (fun y => Within.bind (n := 0) (k := 1) (fun ⟨mk, i⟩ => ?_) (.done _ _)) (within_load h)).mono (by omega)
    simp only
    split
    · exact within_store _ _ _
    · exact .done _ _
  | verify pw =>
    refine (Within.bind (n := 3) (k := 0) (fun ⟨hd, aad⟩ => ?_) (.mapErr (within_deserialize h))).mono (by omega)
    simp only
    split
    · exact .done _ _
    · split
      · exact .done _ _
      · exact Within.bind (n := 0) (k := 0) (fun _ => .done _ _) (.done _ _)

theorem within_run {j : Nat} (order : List Nat) : ∀ {m : Machine} {n : Nat}, (∃ p, m.procs[j]? = some p ∧ Within n p.rest) → ∃ p, (m.run order).procs[j]? = some p ∧ Within (n - order.count j) p.rest := by
  induction order with
  | nil => intro m n h; simpa [Machine.run] using h
  | cons i order ih =>
    intro m n ⟨p, hp, hw⟩
    have key : ∃ q, (m.step i).procs[j]? = some q ∧ Within (n - if i = j then 1 else 0) q.rest := by
      rcases step_cases m i with e | ⟨s, f, k, h1, e⟩
      · rw [e]
        refine ⟨p, hp, ?_⟩
        by_cases hij : i = j
        · subst hij
          rw [if_pos rfl]
          unfold Machine.step at e
          rw [hp] at e
          rcases p with ⟨s, r⟩
          cases r with
          | done r => exact .done _ _
          | step f k =>
            cases n with
            | zero => cases hw
            | succ n =>
              have := congrArg Machine.procs e
              simp only at this
              have h2 : (m.procs.set i ⟨f (s.on m.disk), k (s.on m.disk)⟩)[i]? = m.procs[i]? := by rw [this]
              rw [List.getElem?_set_self (List.getElem?_eq_some_iff.1 hp).1, hp] at h2
              have h3 : k (s.on m.disk) = .step f k := congrArg Proc.rest (Option.some.inj h2)
              have h4 := hw (s.on m.disk)
              rw [h3] at h4
              exact h4
        · rw [if_neg hij]; exact hw
      · rw [e]
        by_cases hij : i = j
        · subst hij
          rw [hp] at h1; cases h1
          refine ⟨_, List.getElem?_set_self (List.getElem?_eq_some_iff.1 hp).1, ?_⟩
          rw [if_pos rfl]
          cases n with
          | zero => cases hw
          | succ n => exact hw _
        · refine ⟨p, ?_, by rw [if_neg hij]; exact hw⟩
          show (m.procs.set i _)[j]? = _
          rw [List.getElem?_set_ne hij]; exact hp
    obtain ⟨q, hq, hwq⟩ := ih key
    refine ⟨q, hq, ?_⟩
    rw [List.count_cons]
    have : n - (if i = j then 1 else 0) - order.count j = n - (order.count j + if (i == j) = true then 1 else 0) := by
      by_cases hij : i = j <;> simp [hij] <;> omega
    rw [← this]; exact hwq

end Volaris.ConcKeys
