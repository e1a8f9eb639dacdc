import Verif.Proofs.ConcLook
/-!
# Reading a file while its keys are changed: the machine
-/
namespace Volaris.ConcLook
open Volaris.Spec
open Volaris.ConcKeys (Inv Chain Phase)

/-- The file as a reading call sees it. -/
def ctx (i : Nat) (c : LookCall) (h : c.Fits i) : Ctx := ⟨i, c.output, c.reader, c.writer, versionCode .v5, h.files, h.handles⟩

/-- On some disk with content `b` of the file, on which the call would have got to where it is, it goes on as it does. -/
def Twin (C : Crypto) (i : Nat) (c : LookCall) (d : Disk) (out : Bytes) (p : Proc) (b : Bytes) : Prop :=
  ∃ e : Disk, e.file i = b ∧ e.file c.output = out ∧ c.what.prog C c.reader c.writer (c.self.on (withFile d i b)) = p.rest.run (p.self.on e)

/-- How far a reading call is; the content it has seen is one with `T`. -/
structure Reading (x : ConcKeys.Ctx) (d : Disk) (out : Bytes) (c : LookCall) (h : c.Fits x.ino) (T : Bytes → Prop) (p : Proc) (seen : Bool) : Prop where
  looks : Looks (ctx x.ino c h) (fun _ _ _ => True) p.rest seen p.self
  early : seen = false → ∀ b, b.drop 416 = x.body → 416 ≤ b.length → b.take 2 = versionCode .v5 → Twin x.C x.ino c d out p b
  late : seen = true → ∃ l' b, T b ∧ x.Holds l' b ∧ Twin x.C x.ino c d out p b

/-- The key operations do not see more of the machine. -/
def keysOf (n : Nat) (m : Machine) : Machine := ⟨m.disk, m.procs.take n⟩

structure MInv (x : ConcKeys.Ctx) (cs : List KeyCall) (ls : List LookCall) (l : List Bytes) (d : Disk) (T : Nat → Bytes → Prop) (phs : Nat → Phase) (m : Machine) : Prop where
  keys : ∃ d', Inv x cs l d' phs (keysOf cs.length m) ∧ d'.dir = d.dir ∧ d'.nextIno = d.nextIno ∧ ∀ j, (∀ c ∈ ls, j ≠ c.output) → d'.file j = d.file j
  length : m.procs.length = cs.length + ls.length
  fits : ∀ c ∈ ls, c.Fits x.ino
  apart : ls.Pairwise fun a b => a.output ≠ b.output
  reads : ∀ a c p (h : c.Fits x.ino), ls[a]? = some c → m.procs[cs.length + a]? = some p → ∃ seen, Reading x d (m.disk.file c.output) c h (T a) p seen

theorem look_run (C : Crypto) (r w : Nat) (what : Look) : (what.steps C r w).run = what.prog C r w := by
  cases what with
  | decrypt pw => unfold Look.steps Look.prog; rw [Thr.run_mapErr, Cli.Steps.decryptExecute_run]
  | dump => unfold Look.steps Look.prog; rw [Thr.run_mapErr, Cli.Steps.dumpExecute_run]

theorem holds_valid {x : ConcKeys.Ctx} {l : List Bytes} {b : Bytes} (h : x.Holds l b) : b.drop 416 = x.body ∧ 416 ≤ b.length ∧ b.take 2 = versionCode .v5 := by
  obtain ⟨h1, h2⟩ := ConcKeys.holds_size h
  exact ⟨h.body, h1, (parseVersion_iff _ _).1 h2⟩

theorem minv_start {x : ConcKeys.Ctx} {cs : List KeyCall} {ls : List LookCall} {l : List Bytes} {d : Disk} {T : Nat → Bytes → Prop} (hC : x.C.Lawful) (hf : ∀ c ∈ cs, c.Fits x.C x.t.algorithm x.key x.U x.ino)
    (hls : ∀ c ∈ ls, c.Fits x.ino) (hap : ls.Pairwise fun a b => a.output ≠ b.output) (hh : x.Holds l (d.file x.ino)) : MInv x cs ls l d T (fun _ => .fresh) (startBoth x.C cs ls d) where
  keys := ⟨d, by
    have : keysOf cs.length (startBoth x.C cs ls d) = startKeys x.C cs d := by
      unfold keysOf startBoth
      rw [List.take_left' (by simp [startKeys])]
      rfl
    rw [this]
    exact ConcKeys.inv_start hC hf hh, rfl, rfl, fun _ _ => rfl⟩
  length := by simp [startBoth, startKeys]
  fits := hls
  apart := hap
  reads a c p h hc hp := by
    have hp : ((startKeys x.C cs d).procs ++ ls.map fun c => (⟨c.self, c.what.steps x.C c.reader c.writer⟩ : Proc))[cs.length + a]? = some p := hp
    rw [List.getElem?_append_right (by simp [startKeys])] at hp
    simp only [startKeys, List.length_map, Nat.add_sub_cancel_left, List.getElem?_map, hc, Option.map_some, Option.some.injEq] at hp
    subst hp
    refine ⟨false, looks_call x.C c.what (x := ctx x.ino c h) ((parseVersion_iff _ _).2 rfl) ⟨h.fd, rfl⟩, fun _ b _ _ _ => ?_, fun e => (by cases e)⟩
    refine ⟨withFile d x.ino b, if_pos rfl, if_neg h.files, ?_⟩
    rw [look_run]

theorem keysOf_step {m : Machine} {n j : Nat} (hj : j < n) : keysOf n (m.step j) = (keysOf n m).step j := by
  unfold Machine.step keysOf
  simp only
  rw [List.getElem?_take_of_lt hj]
  cases m.procs[j]? with
  | none => rfl
  | some p =>
    rcases p with ⟨self, rest⟩
    cases rest with
    | done r => rfl
    | step eff k =>
      simp only
      rw [List.take_set]

theorem step_other {m : Machine} {j k : Nat} (h : k ≠ j) : (m.step j).procs[k]? = m.procs[k]? := by
  rcases ConcKeys.step_cases m j with e | ⟨s, f, g, _, e⟩
  · rw [e]
  · rw [e]; exact List.getElem?_set_ne h.symm

theorem step_length (m : Machine) (j : Nat) : (m.step j).procs.length = m.procs.length := by
  rcases ConcKeys.step_cases m j with e | ⟨s, f, g, _, e⟩
  · rw [e]
  · rw [e]; exact List.length_set

/-- A reading call makes a step: nothing but its output changes. -/
theorem reading_step {x : ConcKeys.Ctx} {d D : Disk} {T : Bytes → Prop} {c : LookCall} {h : c.Fits x.ino} {self : World} {eff : World → World} {k : World → Thr Cli.Error Unit} {seen : Bool}
    (hr : Reading x d (D.file c.output) c h T ⟨self, .step eff k⟩ seen) {l' : List Bytes} (hh : x.Holds l' (D.file x.ino)) (hT : T (D.file x.ino)) :
    Kept (ctx x.ino c h) D (eff (self.on D)).disk ∧ ∃ seen', Reading x d ((eff (self.on D)).disk.file c.output) c h T ⟨eff (self.on D), k (self.on D)⟩ seen' := by
  obtain ⟨v1, v2, v3⟩ := holds_valid hh
  have hD : Valid (ctx x.ino c h) D := ⟨v2, v3⟩
  -- one step on both disks
  have hstep : ∀ (b : Bytes) (seen' : Bool), Twin x.C x.ino c d (D.file c.output) ⟨self, .step eff k⟩ b →
      (∀ e : Disk, e.file x.ino = b → e.file c.output = D.file c.output → k (self.on D) = k (self.on e) ∧ Both (ctx x.ino c h) D e (eff (self.on D)) (eff (self.on e)) fun v => Looks (ctx x.ino c h) (fun _ _ _ => True) (k (self.on D)) seen' v) →
      Kept (ctx x.ino c h) D (eff (self.on D)).disk ∧ Looks (ctx x.ino c h) (fun _ _ _ => True) (k (self.on D)) seen' (eff (self.on D)) ∧ Twin x.C x.ino c d ((eff (self.on D)).disk.file c.output) ⟨eff (self.on D), k (self.on D)⟩ b := by
    intro b seen' ⟨e, he, ho, hrun⟩ hb
    obtain ⟨hk, v, e1, e2, h1, h2, h3, h4, h5, h6⟩ := hb e he ho
    refine ⟨by rw [h1]; exact h3, by rw [h1]; exact h6 e1, e2, ?_, ?_, ?_⟩
    · rw [h4.file _ h.files.symm]; exact he
    · rw [h1]; exact h5.symm
    · rw [hrun]
      show (k (self.on e)).run (eff (self.on e)) = (k (self.on D)).run ((eff (self.on D)).on e2)
      rw [hk, h1, h2]; rfl
  cases seen with
  | true =>
    obtain ⟨l2, b, hc2, hb2, hT2⟩ := hr.late rfl
    have hb := holds_valid hb2
    obtain ⟨s1, s2, s3⟩ := hstep b true hT2 fun e he ho => hr.looks D e ⟨ho.symm, by rw [show e.file (ctx x.ino c h).i = b from he]; exact v1.trans hb.1.symm⟩
    exact ⟨s1, true, s2, fun e => (by cases e), fun _ => ⟨l2, b, hc2, hb2, s3⟩⟩
  | false =>
    rcases hr.looks with hl | hl
    · have hgo : ∀ b : Bytes, b.drop 416 = x.body → 416 ≤ b.length → b.take 2 = versionCode .v5 → _ := fun b b1 b2 b3 =>
        hstep b false (hr.early rfl b b1 b2 b3) fun e he ho => hl D e hD ⟨by rw [show e.file (ctx x.ino c h).i = b from he]; exact b2, by rw [show e.file (ctx x.ino c h).i = b from he]; exact b3⟩
          ⟨ho.symm, by rw [show e.file (ctx x.ino c h).i = b from he]; exact v1.trans b1.symm⟩
      obtain ⟨s1, s2, _⟩ := hgo _ v1 v2 v3
      exact ⟨s1, false, s2, fun _ b b1 b2 b3 => (hgo b b1 b2 b3).2.2, fun e => (by cases e)⟩
    · obtain ⟨s1, s2, s3⟩ := hstep (D.file x.ino) true (hr.early rfl _ v1 v2 v3) fun e he ho => by
        have he : e.file (ctx x.ino c h).i = D.file (ctx x.ino c h).i := he
        exact hl D e hD ⟨by rw [he]; exact v2, by rw [he]; exact v3⟩ ⟨ho.symm, by rw [he]⟩ he.symm
      exact ⟨s1, true, s2, fun e => (by cases e), fun _ => ⟨l', _, hT, hh, s3⟩⟩

theorem apart_of {ls : List LookCall} (h : ls.Pairwise fun a b => a.output ≠ b.output) {i j : Nat} {a b : LookCall} (ha : ls[i]? = some a) (hb : ls[j]? = some b) (hne : i ≠ j) : a.output ≠ b.output := by
  obtain ⟨hi, rfl⟩ := List.getElem?_eq_some_iff.1 ha
  obtain ⟨hj, rfl⟩ := List.getElem?_eq_some_iff.1 hb
  rcases Nat.lt_or_gt_of_ne hne with hlt | hlt
  · exact List.pairwise_iff_getElem.1 h i j hi hj hlt
  · exact (List.pairwise_iff_getElem.1 h j i hj hi hlt).symm

theorem minv_step {x : ConcKeys.Ctx} {cs : List KeyCall} {ls : List LookCall} {l : List Bytes} {d : Disk} {T : Nat → Bytes → Prop} {phs : Nat → Phase} {m : Machine} (hi : MInv x cs ls l d T phs m) (j : Nat) (hT : ∀ a, j = cs.length + a → T a (m.disk.file x.ino)) :
    ∃ phs', MInv x cs ls l d T phs' (m.step j) := by
  obtain ⟨d', hk, hd1, hd2, hd3⟩ := hi.keys
  by_cases hj : j < cs.length
  · obtain ⟨phs', hk', _⟩ := ConcKeys.inv_step hk j
    rw [← keysOf_step hj] at hk'
    refine ⟨phs', ⟨d', hk', hd1, hd2, hd3⟩, by rw [step_length]; exact hi.length, hi.fits, hi.apart, fun a c p h hc hp => ?_⟩
    rw [step_other (by omega)] at hp
    obtain ⟨seen, hr⟩ := hi.reads a c p h hc hp
    have : (m.step j).disk.file c.output = m.disk.file c.output := (hk'.others _ h.files).trans (hk.others _ h.files).symm
    rw [this]
    exact ⟨seen, hr⟩
  · rcases ConcKeys.step_cases m j with e | ⟨self, eff, k, hp, e⟩
    · rw [e]; exact ⟨phs, hi⟩
    obtain ⟨a, rfl⟩ := Nat.exists_eq_add_of_le (Nat.le_of_not_lt hj)
    have hlt : a < ls.length := by
      have := (List.getElem?_eq_some_iff.1 hp).1
      rw [hi.length] at this; omega
    have hc : ls[a]? = some ls[a] := List.getElem?_eq_getElem hlt
    generalize ls[a] = c at hc
    have hmem : c ∈ ls := List.mem_of_getElem? hc
    have h := hi.fits c hmem
    obtain ⟨seen, hr⟩ := hi.reads a c _ h hc hp
    obtain ⟨hkept, seen', hr'⟩ := reading_step hr hk.now.choose_spec.choose_spec.2 (hT a rfl)
    have hdisk : (m.step (cs.length + a)).disk = (eff (self.on m.disk)).disk := by rw [e]
    have hproc : (m.step (cs.length + a)).procs[cs.length + a]? = some ⟨eff (self.on m.disk), k (self.on m.disk)⟩ := by
      rw [e]; exact List.getElem?_set_self (List.getElem?_eq_some_iff.1 hp).1
    refine ⟨phs, ⟨{ d' with file := fun i => if i = c.output then (m.step (cs.length + a)).disk.file i else d'.file i }, ?_, hd1, hd2, fun i hi' => ?_⟩, by rw [step_length]; exact hi.length, hi.fits, hi.apart, fun b c' p h' hc' hp' => ?_⟩
    · have hpr : (keysOf cs.length (m.step (cs.length + a))).procs = (keysOf cs.length m).procs := by
        show (m.step (cs.length + a)).procs.take cs.length = m.procs.take cs.length
        rw [e]
        show (m.procs.set (cs.length + a) _).take cs.length = _
        rw [List.take_set, List.set_eq_of_length_le (by rw [List.length_take]; omega)]
      have hdk : (keysOf cs.length (m.step (cs.length + a))).disk = (eff (self.on m.disk)).disk := hdisk
      refine ⟨by rw [hpr]; exact hk.length, fun i c' p h1 h2 => hk.tame i c' p h1 (by rw [← hpr]; exact h2), hk.known, ?_, hk.then_, hk.did, ?_, ?_, fun i hne => ?_⟩
      · obtain ⟨js, l', h1, h2⟩ := hk.now
        refine ⟨js, l', h1, ?_⟩
        rw [hdk, hkept.file _ h.files.symm]; exact h2
      · rw [hdk, hkept.dir]; exact hk.dir
      · rw [hdk, hkept.nextIno]; exact hk.nextIno
      · rw [hdk]
        show _ = if i = c.output then (m.step (cs.length + a)).disk.file i else d'.file i
        split
        · rw [hdisk]
        · next hne' => rw [hkept.file i hne']; exact hk.others i hne
    · show (if i = c.output then _ else d'.file i) = _
      rw [if_neg (hi' c hmem)]; exact hd3 i hi'
    · by_cases hab : b = a
      · subst hab
        rw [hc] at hc'; cases hc'
        rw [hproc] at hp'; cases hp'
        rw [hdisk]
        exact ⟨seen', hr'⟩
      · rw [step_other (by omega)] at hp'
        obtain ⟨s2, hr2⟩ := hi.reads b c' p h' hc' hp'
        rw [hdisk, hkept.file _ (apart_of hi.apart hc' hc hab)]
        exact ⟨s2, hr2⟩

theorem minv_run {x : ConcKeys.Ctx} {cs : List KeyCall} {ls : List LookCall} {l : List Bytes} {d : Disk} {T : Nat → Bytes → Prop} {m0 : Machine} {whole : List Nat}
    (hT : ∀ a xs ys, whole = xs ++ (cs.length + a) :: ys → T a ((m0.run xs).disk.file x.ino)) (after : List Nat) :
    ∀ before {phs : Nat → Phase}, whole = before ++ after → MInv x cs ls l d T phs (m0.run before) → ∃ phs', MInv x cs ls l d T phs' (m0.run whole) := by
  induction after with
  | nil => intro before phs e h; rw [List.append_nil] at e; subst e; exact ⟨_, h⟩
  | cons j after ih =>
    intro before phs e h
    obtain ⟨phs', h'⟩ := minv_step h j fun a ha => hT a before after (by rw [e, ha])
    refine ih (before ++ [j]) (by rw [e]; simp) (phs := phs') ?_
    rw [ConcKeys.run_append]; exact h'

theorem selection_of {x : ConcKeys.Ctx} {cs : List KeyCall} {l l' : List Bytes} {d : Disk} {phs : Nat → Phase} {m : Machine} (hk : Inv x cs l d phs (keysOf cs.length m)) {js : List Nat} (h : Chain cs l phs js l') : Selection cs l m js := by
  refine ⟨h.once, fun j hj => ?_, h.succeed⟩
  obtain ⟨p, hp, hr⟩ := hk.returned (h.wrote j hj)
  refine ⟨p, ?_, hr⟩
  have hlt := hk.known j (by rw [h.wrote j hj]; simp)
  have hp : (m.procs.take cs.length)[j]? = some p := hp
  rwa [List.getElem?_take_of_lt hlt] at hp

theorem look_begins (C : Crypto) (r w : Nat) (what : Look) : ∃ eff k, what.steps C r w = .step eff k := by
  cases what <;> exact ⟨_, _, rfl⟩

theorem not_begun {m : Machine} {j : Nat} (order : List Nat) (hj : j ∉ order) : (m.run order).procs[j]? = m.procs[j]? := ConcKeys.run_untouched hj m

/-- The file at some moment of a run. -/
theorem holds_run {x : ConcKeys.Ctx} {cs : List KeyCall} {ls : List LookCall} {l : List Bytes} {d : Disk} (hC : x.C.Lawful) (hf : ∀ c ∈ cs, c.Fits x.C x.t.algorithm x.key x.U x.ino)
    (hls : ∀ c ∈ ls, c.Fits x.ino) (hap : ls.Pairwise fun a b => a.output ≠ b.output) (hh : x.Holds l (d.file x.ino)) (order : List Nat) :
    ∃ js, Selection cs l ((startBoth x.C cs ls d).run order) js ∧ x.Holds (onListAll (chosen cs js) l).2 (((startBoth x.C cs ls d).run order).disk.file x.ino) := by
  obtain ⟨phs, hi⟩ := minv_run (T := fun _ _ => True) (m0 := startBoth x.C cs ls d) (whole := order) (fun _ _ _ _ => trivial) order [] rfl (minv_start (T := fun _ _ => True) hC hf hls hap hh)
  obtain ⟨d', hk, _⟩ := hi.keys
  obtain ⟨js, l', h1, h2⟩ := hk.now
  exact ⟨js, selection_of hk h1, by rw [h1.list]; exact h2⟩

/-- A call that has returned has done what it does alone on the file as it was at one moment of the call. -/
theorem result {x : ConcKeys.Ctx} {cs : List KeyCall} {ls : List LookCall} {l : List Bytes} {d : Disk} (hC : x.C.Lawful) (hf : ∀ c ∈ cs, c.Fits x.C x.t.algorithm x.key x.U x.ino)
    (hls : ∀ c ∈ ls, c.Fits x.ino) (hap : ls.Pairwise fun a b => a.output ≠ b.output) (hh : x.Holds l (d.file x.ino)) (order : List Nat) {a : Nat} {c : LookCall}
    (hc : ls[a]? = some c) {r : Res Cli.Error Unit} (hr : KeyReturned ((startBoth x.C cs ls d).run order) (cs.length + a) r) :
    ∃ xs ys v, order = xs ++ (cs.length + a) :: ys ∧ c.what.prog x.C c.reader c.writer (c.self.on (withFile d x.ino (((startBoth x.C cs ls d).run xs).disk.file x.ino))) = (r, v) ∧
      v.file c.output = ((startBoth x.C cs ls d).run order).disk.file c.output := by
  let T : Nat → Bytes → Prop := fun a b => ∃ xs ys, order = xs ++ (cs.length + a) :: ys ∧ b = ((startBoth x.C cs ls d).run xs).disk.file x.ino
  obtain ⟨phs, hi⟩ := minv_run (T := T) (m0 := startBoth x.C cs ls d) (whole := order) (fun a xs ys e => ⟨xs, ys, e, rfl⟩) order [] rfl (minv_start (T := T) hC hf hls hap hh)
  obtain ⟨p, hp, hdone⟩ := hr
  have h := hi.fits c (List.mem_of_getElem? hc)
  obtain ⟨seen, hrd⟩ := hi.reads a c p h hc hp
  have hfin : ∀ b, Twin x.C x.ino c d (((startBoth x.C cs ls d).run order).disk.file c.output) p b →
      ∃ v, c.what.prog x.C c.reader c.writer (c.self.on (withFile d x.ino b)) = (r, v) ∧ v.file c.output = ((startBoth x.C cs ls d).run order).disk.file c.output := by
    intro b ⟨e, _, ho, hrun⟩
    rw [hdone] at hrun
    exact ⟨_, hrun, ho⟩
  cases seen with
  | true =>
    obtain ⟨l', b, ⟨xs, ys, e, rfl⟩, hb, hT⟩ := hrd.late rfl
    obtain ⟨v, h1, h2⟩ := hfin _ hT
    exact ⟨xs, ys, v, e, h1, h2⟩
  | false =>
    have hin : cs.length + a ∈ order := by
      refine Classical.byContradiction fun hn => ?_
      rw [not_begun order hn] at hp
      have hp : ((startKeys x.C cs d).procs ++ ls.map fun c => (⟨c.self, c.what.steps x.C c.reader c.writer⟩ : Proc))[cs.length + a]? = some p := hp
      rw [List.getElem?_append_right (by simp [startKeys])] at hp
      simp only [startKeys, List.length_map, Nat.add_sub_cancel_left, List.getElem?_map, hc, Option.map_some, Option.some.injEq] at hp
      subst hp
      obtain ⟨eff, k, e⟩ := look_begins x.C c.reader c.writer c.what
      simp only [e] at hdone
      cases hdone
    obtain ⟨xs, ys, e⟩ := List.append_of_mem hin
    obtain ⟨js, _, hv⟩ := holds_run hC hf hls hap hh xs
    obtain ⟨b1, b2, b3⟩ := holds_valid hv
    obtain ⟨v, h1, h2⟩ := hfin _ (hrd.early rfl _ b1 b2 b3)
    exact ⟨xs, ys, v, e, h1, h2⟩

/-! ### Which passwords stay -/

theorem onList_keeps {c : KeyCmd} {pw : Bytes} (hc : ¬ c.takes pw) {l : List Bytes} (h : pw ∈ l) : pw ∈ (c.onList l).2 := by
  cases c with
  | add old new hash => simp only [KeyCmd.onList]; split <;> (try split) <;> (try split) <;> simp [h]
  | change old new hash =>
    simp only [KeyCmd.onList]; split <;> (try split) <;> (try exact h)
    have hne : ¬ old = pw := hc
    clear hc
    induction l with
    | nil => exact h
    | cons a l ih =>
      rw [List.replace_cons]
      split
      · next e =>
        have e := eq_of_beq e
        simp only [List.mem_cons] at h ⊢
        rcases h with rfl | h
        · exact absurd e hne
        · exact .inr h
      · next e =>
        simp only [List.mem_cons] at h ⊢
        rcases h with rfl | h
        · exact .inl rfl
        · by_cases ho : old ∈ l
          · exact .inr (ih h (by simpa using ho) )
          · refine .inr ?_
            rw [List.replace_of_not_mem (by simpa using ho)]; exact h
  | delete old =>
    simp only [KeyCmd.onList]; split
    · exact h
    · exact (List.mem_erase_of_ne fun e => hc e.symm).2 h
  | verify old => simp only [KeyCmd.onList]; split <;> exact h

theorem onList_no_more {c : KeyCmd} {pw : Bytes} (hc : ¬ c.gives pw) {l : List Bytes} (h : pw ∉ l) : pw ∉ (c.onList l).2 := by
  cases c with
  | add old new hash =>
    have hne : ¬ new = pw := hc
    simp only [KeyCmd.onList]; split <;> (try split) <;> (try split) <;> simp [h]
    exact fun e => hne e.symm
  | change old new hash =>
    have hne : ¬ new = pw := hc
    simp only [KeyCmd.onList]; split <;> (try split) <;> (try exact h)
    intro hm
    clear hc
    induction l with
    | nil => exact h hm
    | cons a l ih =>
      simp only [List.mem_cons, not_or] at h
      rw [List.replace_cons] at hm
      split at hm
      · rcases List.mem_cons.1 hm with e | hm
        · exact hne e.symm
        · exact h.2 hm
      · rcases List.mem_cons.1 hm with e | hm
        · exact h.1 e
        · by_cases ho : old ∈ l
          · exact ih h.2 (by simpa using ho) hm
          · rw [List.replace_of_not_mem (by simpa using ho)] at hm; exact h.2 hm
  | delete old =>
    simp only [KeyCmd.onList]; split
    · exact h
    · exact fun hm => h (List.mem_of_mem_erase hm)
  | verify old => simp only [KeyCmd.onList]; split <;> exact h

theorem all_keeps {pw : Bytes} (cs : List KeyCmd) : ∀ l : List Bytes, (∀ c ∈ cs, ¬ c.takes pw) → pw ∈ l → pw ∈ (onListAll cs l).2 := by
  induction cs with
  | nil => intro l _ h; exact h
  | cons c cs ih => intro l hc h; exact ih _ (fun c' h' => hc c' (List.mem_cons_of_mem _ h')) (onList_keeps (hc c List.mem_cons_self) h)

theorem all_no_more {pw : Bytes} (cs : List KeyCmd) : ∀ l : List Bytes, (∀ c ∈ cs, ¬ c.gives pw) → pw ∉ l → pw ∉ (onListAll cs l).2 := by
  induction cs with
  | nil => intro l _ h; exact h
  | cons c cs ih => intro l hc h; exact ih _ (fun c' h' => hc c' (List.mem_cons_of_mem _ h')) (onList_no_more (hc c List.mem_cons_self) h)

theorem chosen_mem {cs : List KeyCall} {js : List Nat} {c : KeyCmd} (h : c ∈ chosen cs js) : ∃ k ∈ cs, k.cmd = c := by
  obtain ⟨j, _, hj⟩ := List.mem_filterMap.1 h
  cases hc : cs[j]? with
  | none => rw [hc] at hj; cases hj
  | some k => rw [hc] at hj; exact ⟨k, List.mem_of_getElem? hc, by simpa using hj⟩

/-- What a password decrypts without faults is what it decrypts, if at all, when calls fail or are interrupted. -/
theorem only_of_decryptsTo {C : Crypto} (hC : C.Lawful) {pw content p : Bytes} (h : DecryptsTo C pw content p) : OnlyDecryptsTo C pw content p := by
  let req : Decrypt.Request := { reader := 0, headerReader := none, writer := 1, rawKey := pw }
  let v : World := Example.world fun i => if i = 0 then content else []
  have ha : Asks req v pw content := ⟨rfl, rfl, Nat.zero_ne_one, Nat.zero_ne_one, rfl⟩
  obtain ⟨v', h1, h2, _⟩ := h req v ha rfl
  obtain ⟨p', hf, hw⟩ := decrypt_ok_fileOf hC ha (by intro k hk; cases hk) h1
  have e : writeAt [] 0 p = writeAt [] 0 p' := h2.content.symm.trans hw.content
  have e : p = p' := by simpa [writeAt_zero] using e
  rw [e]; exact hf.only hC

end Volaris.ConcLook
