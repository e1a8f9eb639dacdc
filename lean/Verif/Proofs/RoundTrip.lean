import Verif.Proofs.Pack
import Verif.Proofs.ZipName
import Verif.Proofs.EraseDir
import Verif.Props.Unpack
/-!
# Helper lemmas: unpacking what was packed
-/
open Volaris.Spec
namespace Volaris.Unpack


theorem lexical_names : ∀ (ns : List Name) (T : Path), lexical T (ns.map .name) = T ++ ns
  | [], T => by simp [lexical]
  | n :: ns, T => by rw [List.map_cons, lexical, lexical_names ns]; simp

theorem onPaper_push (out : PathBuf) (ns : List Name) : onPaper (out.push (ns.map .name)) = onPaper out ++ ns := by
  show lexical out.start (out.comps ++ ns.map .name) = _
  rw [lexical_append, lexical_names]
  rfl

/-- The entity made of a member, if any. -/
def pick (out : PathBuf) (o : Option (List ZipMember)) (i : Nat) : Option Entity :=
  (o.bind (·[i]?)).bind fun m => if m.opens then (ZipName.enclosed m.name).map fun cs => (out.push cs, i, ZipName.isDir m.name) else none

/-- If everything is accepted and there are no faults, everything that can be is chosen. -/
theorem entities_yes (z : Zip) (t : Nat) (out : PathBuf) (cb : Option (PathBuf → Prog Error Bool)) (hcb : OnlyTalks (ask cb)) (hyes : AcceptsNew out (ask cb)) :
    ∀ (is : List Nat) (w : World), w.sched = [] → (∀ ms, ms ≠ [] → w.look (onPaper out ++ ms) = none) →
      (∀ i ∈ is, ∀ e, pick out (z.decode (w.data t)) i = some e → ∃ ns, ns ≠ [] ∧ e.1 = out.push (ns.map .name)) → ∃ w', entities z t out cb is w = (.ok (is.filterMap (pick out (z.decode (w.data t)))), w') ∧ SameFs w w' := by
  intro is
  induction is with
  | nil => intro w _ _ _; exact ⟨w, rfl, .refl w⟩
  | cons i is ih =>
    intro w hs hbel hnm
    have hnm' := fun j hj => hnm j (List.mem_cons_of_mem _ hj)
    rw [entities_cons, List.filterMap_cons]
    rcases byIndex_cases z t i w with ⟨m, s, hss, he, hm, ho⟩ | ⟨x, s, hss, he, hno⟩
    · have hs0 := List.suffix_nil.1 (hs ▸ hss)
      subst hs0
      rw [World.with_sched_nil w hs] at he
      rw [Prog.bind_ok (Pack.attempt_of he (by simp))]
      have hp : pick out (z.decode (w.data t)) i = (ZipName.enclosed m.name).map fun cs => (out.push cs, i, ZipName.isDir m.name) := by
        unfold pick
        rw [hm]
        exact if_pos ho
      rw [hp]
      dsimp only
      cases hen : ZipName.enclosed m.name with
      | none => exact ih w hs hbel hnm'
      | some cs =>
        dsimp only [Option.map]
        rcases ha : ask cb (out.push cs) w with ⟨r, w1⟩
        have hsf : SameFs w w1 := by
          have h1 := hcb.file (out.push cs) w
          have h2 := hcb.dir (out.push cs) w
          have h3 := hcb.fd (out.push cs) w
          have h4 := hcb.nextIno (out.push cs) w
          have h5 := hcb.nextFd (out.push cs) w
          have h6 := hcb.sched (out.push cs) w
          rw [ha] at h1 h2 h3 h4 h5 h6
          exact ⟨h1, h2, h3, h4, h5, h6⟩
        obtain ⟨ns, hns, hpn⟩ := hnm i List.mem_cons_self (out.push cs, i, ZipName.isDir m.name) (by rw [hp, hen]; rfl)
        have hr := hyes ns w hns hbel
        rw [← show out.push cs = out.push (ns.map .name) from hpn, ha] at hr
        change r = _ at hr
        subst hr
        rw [Prog.bind_ok ha]
        have hd : w1.data t = w.data t := by unfold World.data; rw [hsf.file, hsf.fd]
        obtain ⟨w2, h2, h3⟩ := ih w1 (List.suffix_nil.1 (hs ▸ hsf.sched)) (fun ms hms => by rw [World.look_congr hsf.dir]; exact hbel ms hms) (by rw [hd]; exact hnm')
        rw [hd] at h2
        exact ⟨w2, (Prog.bind_ok h2).trans rfl, hsf.trans h3⟩
    · have hs0 := List.suffix_nil.1 (hs ▸ hss)
      subst hs0
      rw [World.with_sched_nil w hs] at he
      rw [Prog.bind_ok (Pack.attempt_of he (by simp))]
      have hp : pick out (z.decode (w.data t)) i = none := by
        unfold pick
        cases hm : (z.decode (w.data t)).bind (·[i]?) with
        | none => rfl
        | some m => rcases hno with h | h
                    · exact absurd hs h
                    · show (if m.opens then _ else _) = _
                      rw [h m hm]; rfl
      rw [hp]
      exact ih w hs hbel hnm'

/-- One file extracted to a free place. -/
theorem extract_yes (z : Zip) (t : Nat) (e : Entity) {q : Path} {m : ZipMember} {u : World} (hs : u.sched = []) (hr : u.resolve e.1 = .ok q) (hl : u.look q = none)
    (hd : u.look q.dropLast = some .dir) (hm : (z.decode (u.data t)).bind (·[e.2.1]?) = some m) (ho : m.opens = true) (hsd : m.sound = true) :
    ∃ u', extract z t e u = (.ok (), u') ∧ u'.sched = [] ∧ u'.look q = some (.file u.nextIno) ∧ (∀ x, x ≠ q → u'.look x = u.look x) ∧
      u'.file u.nextIno = m.content ∧ (∀ j, j ≠ u.nextIno → u'.file j = u.file j) ∧ (∀ h, h ≠ u.nextFd → u'.fd h = u.fd h) ∧
      u'.nextIno = u.nextIno + 1 ∧ u'.nextFd = u.nextFd + 1 := by
  have hq : q ≠ [] := by rintro rfl; rw [World.look_nil] at hl; cases hl
  unfold extract
  rcases byIndex_cases z t e.2.1 u with ⟨m', s, hss, he, hm', -⟩ | ⟨x, s, hss, he, hno⟩
  · rw [hm] at hm'
    cases hm'
    have hs0 := List.suffix_nil.1 (hs ▸ hss)
    subst hs0
    rw [World.with_sched_nil u hs] at he
    rw [Prog.bind_ok (Prog.mapErr_ok he)]
    rcases openNew_cases e.1 u with ⟨q', s, hss, hr', hl', hd', he'⟩ | ⟨x, s, hss, he', hno⟩
    · rw [hr] at hr'
      cases hr'
      have hs0 := List.suffix_nil.1 (hs ▸ hss)
      subst hs0
      rw [World.with_sched_nil u hs] at he'
      have hc : orElse (Storage.createFile e.1) (Storage.writeFile e.1) u = (.ok (.file e.1 u.nextFd), (u.created q).opened u.nextIno) := by
        unfold orElse Storage.createFile
        rw [Prog.bind_ok (Prog.mapErr_ok he')]
        rfl
      rw [Prog.bind_ok (Prog.mapErr_ok hc)]
      have e1 : ∀ v, (Prog.lift ((Storage.Entry.file e.1 u.nextFd).stream.mapErr Error.storage) : Prog Error Nat) v = (.ok u.nextFd, v) := fun _ => rfl
      rw [Prog.bind_ok (e1 _)]
      unfold copy
      have hs1 : ((u.created q).opened u.nextIno).sched = [] := hs
      rw [Prog.bind_ok (Prog.mapErr_ok (sysRetry_nil hs1))]
      obtain ⟨u2, h1, h2, h3⟩ := writeAll_nil' hs1 u.nextFd m.content
      rw [Prog.bind_ok (Prog.mapErr_ok h1), if_pos hsd]
      have hfd : ((u.created q).opened u.nextIno).fd u.nextFd = { ino := u.nextIno, pos := 0 } := if_pos rfl
      have hf0 : ((u.created q).opened u.nextIno).file u.nextIno = [] := if_pos rfl
      have hlook : ∀ x, u2.look x = (u.created q).look x := fun x => (World.look_congr (World.dir_of_core h2) x).trans (by rfl)
      refine ⟨u2, rfl, h3, ?_, fun x hx => ?_, ?_, fun j hj => ?_, fun h hh => ?_, ?_, ?_⟩
      · rw [hlook, World.look_created, if_neg hq, if_pos rfl]
      · rw [hlook, World.look_created]
        split
        · next h => rw [h, World.look_nil]
        · rfl
      · rw [World.file_of_core h2]
        have := World.put_file_same ((u.created q).opened u.nextIno) u.nextFd m.content
        rw [hfd] at this
        simp only [hf0, writeAt_zero] at this
        rw [this]; simp
      · rw [World.file_of_core h2, World.put_file_ne _ _ (by rw [hfd]; exact hj)]
        exact if_neg hj
      · rw [World.fd_of_core h2]
        show (if h = u.nextFd then _ else (if h = u.nextFd then _ else u.fd h)) = _
        rw [if_neg hh, if_neg hh]
      · exact (World.nextIno_of_core h2).trans rfl
      · exact (World.nextFd_of_core h2).trans rfl
    · rcases hno with h | h
      · exact absurd hs h
      · exact absurd hd (h q hr hl)
  · rcases hno with h | h
    · exact absurd hs h
    · rw [h m hm] at ho; cases ho

/-- All files extracted to free places. -/
theorem extractAll_yes (z : Zip) (t : Nat) (out : PathBuf) : ∀ (es : List Entity) (u : World), u.sched = [] → u.resolve out = .ok (onPaper out) → t < u.nextFd → (u.fd t).ino < u.nextIno →
    (∀ e ∈ es, ∃ ns m, ns ≠ [] ∧ e.1 = out.push (ns.map .name) ∧ (∀ j, j < ns.length → u.look (onPaper out ++ ns.take j) = some .dir) ∧ u.look (onPaper out ++ ns) = none ∧
      (z.decode (u.data t)).bind (·[e.2.1]?) = some m ∧ m.opens = true ∧ m.sound = true) →
    (es.map (·.1)).Nodup →
    ∃ u', extractAll z t es u = (.ok (), u') ∧ u'.sched = [] ∧ (∀ q, (∀ e ∈ es, q ≠ onPaper e.1) → u'.look q = u.look q) ∧
      (∀ e ∈ es, ∀ m, (z.decode (u.data t)).bind (·[e.2.1]?) = some m → ∃ j, u.nextIno ≤ j ∧ u'.look (onPaper e.1) = some (.file j) ∧ u'.file j = m.content) ∧
      (∀ j, j < u.nextIno → u'.file j = u.file j) ∧ (∀ h, h < u.nextFd → u'.fd h = u.fd h) := by
  intro es
  induction es with
  | nil =>
    intro u hs _ _ _ _ _
    exact ⟨u, rfl, hs, fun _ _ => rfl, by simp, fun _ _ => rfl, fun _ _ => rfl⟩
  | cons e es ih =>
    intro u hs hout ht hti hes hn
    obtain ⟨ns, m, hns, hp, hdirs, hfree, hm, ho, hsd⟩ := hes e List.mem_cons_self
    have hr : u.resolve e.1 = .ok (onPaper out ++ ns) := by
      rw [hp]
      show u.walk out.start (out.comps ++ ns.map .name) = _
      rw [World.walk_append, show u.walk out.start out.comps = .ok (onPaper out) from hout]
      exact u.walk_names ns _ hdirs
    have hpar : u.look (onPaper out ++ ns).dropLast = some .dir := by
      have hlen : ns.length - 1 < ns.length := by
        have := List.length_pos_iff.2 hns
        omega
      rw [List.dropLast_append_of_ne_nil hns, List.dropLast_eq_take]
      exact hdirs _ hlen
    obtain ⟨u1, h1, h2, h3, h4, h5, h6, h7, h8, h9⟩ := extract_yes z t e hs hr hfree hpar hm ho hsd
    have hkeepd : ∀ d, u.look d = some .dir → u1.look d = some .dir := by
      intro d hd
      rw [h4 d (by rintro rfl; rw [hfree] at hd; cases hd)]
      exact hd
    have hdata : u1.data t = u.data t := by
      unfold World.data
      rw [h7 t (Nat.ne_of_lt ht), h6 _ (Nat.ne_of_lt hti)]
    rw [List.map_cons, List.nodup_cons] at hn
    have hdiff : ∀ e' ∈ es, onPaper e'.1 ≠ onPaper out ++ ns := by
      intro e' he' heq
      obtain ⟨ns', -, -, hp', -⟩ := hes e' (List.mem_cons_of_mem _ he')
      rw [hp', onPaper_push, List.append_cancel_left_eq] at heq
      subst heq
      exact hn.1 (List.mem_map.2 ⟨e', he', hp'.trans hp.symm⟩)
    obtain ⟨u', g1, g2, g3, g4, g5, g6⟩ := ih u1 h2 (World.resolve_mono (w := u) hkeepd hout) (by rw [h9]; exact Nat.lt_succ_of_lt ht)
      (by rw [h7 t (Nat.ne_of_lt ht), h8]; exact Nat.lt_succ_of_lt hti)
      (by
        intro e' he'
        obtain ⟨ns', m', hns', hp', hdirs', hfree', hm', ho', hsd'⟩ := hes e' (List.mem_cons_of_mem _ he')
        refine ⟨ns', m', hns', hp', fun j hj => hkeepd _ (hdirs' j hj), ?_, by rw [hdata]; exact hm', ho', hsd'⟩
        have := hdiff e' he'
        rw [hp', onPaper_push] at this
        rw [h4 _ this]
        exact hfree')
      hn.2
    refine ⟨u', ?_, g2, fun q hq => ?_, ?_, fun j hj => ?_, fun h hh => ?_⟩
    · unfold extractAll
      rw [Prog.bind_ok h1]; exact g1
    · rw [g3 q fun e' he' => hq e' (List.mem_cons_of_mem _ he')]
      refine h4 q ?_
      have := hq e List.mem_cons_self
      rw [hp, onPaper_push] at this
      exact this
    · intro e' he' m' hm'
      rcases List.mem_cons.1 he' with rfl | he'
      · rw [hm] at hm'
        cases hm'
        refine ⟨u.nextIno, Nat.le_refl _, ?_, ?_⟩
        · rw [hp, onPaper_push, g3 _ fun e' he' => (hdiff e' he').symm]
          exact h3
        · rw [g5 _ (by rw [h8]; exact Nat.lt_succ_self _)]
          exact h5
      · obtain ⟨j, hj, hl, hf⟩ := g4 e' he' m' (by rw [hdata]; exact hm')
        exact ⟨j, by rw [h8] at hj; omega, hl, hf⟩
    · rw [g5 j (by rw [h8]; omega)]
      exact h6 j (Nat.ne_of_lt hj)
    · rw [g6 h (by rw [h9]; omega)]
      exact h7 h (Nat.ne_of_lt hh)

theorem eq_of_nodup_map {α β : Type} (f : α → β) : ∀ {l : List α}, (l.map f).Nodup → ∀ {a b : α}, a ∈ l → b ∈ l → f a = f b → a = b := by
  intro l
  induction l with
  | nil => intro _ a b ha; cases ha
  | cons x l ih =>
    intro h a b ha hb hab
    rw [List.map_cons, List.nodup_cons] at h
    rcases List.mem_cons.1 ha with ha' | ha' <;> rcases List.mem_cons.1 hb with hb' | hb'
    · rw [ha', hb']
    · subst ha'
      exact absurd (List.mem_map.2 ⟨b, hb', hab.symm⟩) h.1
    · subst hb'
      exact absurd (List.mem_map.2 ⟨a, ha', hab⟩) h.1
    · exact ih h.2 ha' hb' hab

theorem push_inj {out : PathBuf} {ns ns' : List Name} (h : out.push (ns.map .name) = out.push (ns'.map .name)) : ns = ns' := by
  have := congrArg PathBuf.comps h
  change out.comps ++ _ = out.comps ++ _ at this
  rw [List.append_cancel_left_eq] at this
  exact List.map_inj_right (fun _ _ h => Comp.name.inj h) |>.1 this

/-- Chosen members whose paths consist of names, no two with the same path, each file with its parent among them and not on the way to a directory. -/
structure Tree (out : PathBuf) (ms : List ZipMember) (es : List Entity) : Prop where
  names : ∀ e ∈ es, ∃ ns m, ns ≠ [] ∧ e.1 = out.push (ns.map .name) ∧ ms[e.2.1]? = some m ∧ m.opens = true ∧ m.sound = true
  nodup : (es.map (·.1)).Nodup
  parent : ∀ e ∈ es, e.2.2 = false → ∀ ns n, e.1 = out.push ((ns ++ [n]).map .name) → ns ≠ [] → ∃ i, (out.push (ns.map .name), i, true) ∈ es
  apart : ∀ ns i ms' k, (out.push (ns.map .name), i, false) ∈ es → (out.push (ms'.map .name), k, true) ∈ es → ¬ ns <+: ms'

/-- Recovering a tree. -/
theorem recover_yes (z : Zip) (order : List Nat) (t : Nat) (req : Request) (hcb : OnlyTalks (ask req.onZipFile)) (hyes : AcceptsNew req.outputDir (ask req.onZipFile))
    (w : World) (hs : w.sched = []) (hp : ParentsOk w) (hT : FreshTarget w req.outputDir) (ht : t < w.nextFd) (hti : (w.fd t).ino < w.nextIno) {ms : List ZipMember}
    (hms : z.decode (w.data t) = some ms) {es : List Entity} (hes : (List.range ms.length).filterMap (pick req.outputDir (some ms)) = es) (htree : Tree req.outputDir ms es) :
    ∃ w', recover z order t req w = (.ok (), w') ∧ w'.sched = [] ∧
      (∀ ns i, (req.outputDir.push (ns.map .name), i, true) ∈ es → w'.look (onPaper req.outputDir ++ ns) = some .dir) ∧
      (∀ ns i m, (req.outputDir.push (ns.map .name), i, false) ∈ es → ms[i]? = some m →
        ∃ j, w.nextIno ≤ j ∧ w'.look (onPaper req.outputDir ++ ns) = some (.file j) ∧ w'.file j = m.content) ∧
      (∀ ns, ns ≠ [] → w'.look (onPaper req.outputDir ++ ns) ≠ none → ∃ ms' i b, (req.outputDir.push (ms'.map .name), i, b) ∈ es ∧ ns <+: ms') ∧
      w'.look (onPaper req.outputDir) = some .dir ∧
      (∀ q n, w.look q = some n → w'.look q = some n) ∧ (∀ j, j < w.nextIno → w'.file j = w.file j) ∧ (w'.fd t).ino = (w.fd t).ino := by
  unfold recover
  have hrw := rewind_nil hs t
  rw [Prog.bind_ok (Prog.mapErr_ok hrw)]
  generalize hw1 : w.setPos t 0 = w1
  have h1s : w1.sched = [] := by subst hw1; exact hs
  have h1l : ∀ q, w1.look q = w.look q := by subst hw1; intro q; exact World.look_congr (by rfl) q
  have h1f : w1.file = w.file := by subst hw1; rfl
  have h1i : ∀ h, (w1.fd h).ino = (w.fd h).ino := by subst hw1; intro h; exact World.setPos_ino _ _ _ _
  have h1n : w1.nextIno = w.nextIno := by subst hw1; rfl
  have h1m : w1.nextFd = w.nextFd := by subst hw1; rfl
  have h1d : w1.data t = w.data t := by unfold World.data; rw [h1f, h1i]
  rcases openArchive_cases z t w1 with ⟨ms', s, hss, hms', he⟩ | ⟨s, hss, he, hno⟩
  · rw [h1d, hms] at hms'
    cases hms'
    have hs0 := List.suffix_nil.1 (h1s ▸ hss)
    subst hs0
    rw [World.with_sched_nil w1 h1s] at he
    rw [Prog.bind_ok he]
    obtain ⟨w2, he2, hsf⟩ := entities_yes z t req.outputDir req.onZipFile hcb hyes (List.range ms.length) w1 h1s (fun ns hns => by rw [h1l]; exact hT.below ns hns) (by
      rw [h1d, hms]
      intro i hi e he
      obtain ⟨ns, m, h1, h2, -⟩ := htree.names e (hes ▸ List.mem_filterMap.2 ⟨i, hi, he⟩)
      exact ⟨ns, h1, h2⟩)
    rw [h1d, hms, hes] at he2
    rw [Prog.bind_ok he2]
    have h2l : ∀ q, w2.look q = w.look q := fun q => (World.look_congr hsf.dir q).trans (h1l q)
    have h2s : w2.sched = [] := List.suffix_nil.1 (h1s ▸ hsf.sched)
    have hp2 : ParentsOk w2 := by intro k hk; rw [h2l, h2l]; exact hp k hk
    generalize hT' : req.outputDir = out at *
    let S : Path → Prop := fun q => ∃ p ∈ (es.filter (·.2.2)).map (·.1) ++ [out], OnTheWay p q
    -- where directories are made
    have hS : ∀ q, S q → OnTheWay out q ∨ ∃ ns ms' i, ns ≠ [] ∧ (out.push (ms'.map .name), i, true) ∈ es ∧ ns <+: ms' ∧ q = onPaper out ++ ns := by
      rintro q ⟨p, hpm, pre, hpre, rfl⟩
      rcases List.mem_append.1 hpm with hpm | hpm
      · obtain ⟨e, he, rfl⟩ := List.mem_map.1 hpm
        obtain ⟨he, hb⟩ := List.mem_filter.1 he
        obtain ⟨p, i, b⟩ := e
        have hb : b = true := hb
        subst hb
        obtain ⟨ns, m, hns, rfl, -⟩ := htree.names _ he
        change pre <+: out.comps ++ ns.map .name at hpre
        rcases List.prefix_or_prefix_of_prefix hpre (List.prefix_append out.comps (ns.map .name)) with h | ⟨l, rfl⟩
        · exact .inl ⟨pre, h, rfl⟩
        · have hl := (List.prefix_append_right_inj _).1 hpre
          rw [List.prefix_iff_eq_take, ← List.map_take] at hl
          by_cases h0 : l = []
          · subst h0
            exact .inl ⟨out.comps, List.prefix_refl _, by rw [List.append_nil]; rfl⟩
          · have hlen : l.length = (ns.take l.length).length := by
              have := congrArg List.length hl
              simpa using this
            have hq : lexical (out.push (ns.map .name)).start (out.comps ++ l) = onPaper out ++ ns.take l.length := by
              rw [hl, ← onPaper_push, List.length_map, ← hlen]; rfl
            refine .inr ⟨ns.take l.length, ns, i, ?_, he, List.take_prefix _ _, hq⟩
            intro h
            rw [h] at hlen
            exact h0 (List.length_eq_zero_iff.1 hlen)
      · cases List.mem_singleton.1 hpm
        exact .inl ⟨pre, hpre, rfl⟩
    have hstart : ∀ p ∈ (es.filter (·.2.2)).map (·.1) ++ [out], w2.look p.start = some .dir := by
      intro p hpm
      rw [h2l]
      rcases List.mem_append.1 hpm with hpm | hpm
      · obtain ⟨e, he, rfl⟩ := List.mem_map.1 hpm
        obtain ⟨ns, m, hns, hpe, -⟩ := htree.names _ (List.mem_filter.1 he).1
        rw [hpe]; exact hT.start
      · cases List.mem_singleton.1 hpm
        exact hT.start
    obtain ⟨r3, w3, he3, hg, hr3⟩ := Storage.mkdirThreads_cases (S := S) order ((es.filter (·.2.2)).map (·.1) ++ [out]) Error.storage
      (fun p hpm q hq => ⟨p, hpm, hq⟩) w2 hstart
    have hclear : Clear S w2 := ⟨h2s, hp2, fun q i hq hl => by
      rw [h2l] at hl
      rcases hS q hq with h | ⟨ns, -, -, hns, -, -, rfl⟩
      · exact hT.way q i h hl
      · rw [hT.below ns hns] at hl; cases hl⟩
    rcases hr3 with ⟨rfl, hmade⟩ | ⟨-, h⟩
    · rw [Prog.bind_ok (show spawnJoin order (dirThreads out es) w2 = _ from he3)]
      have h3s : w3.sched = [] := List.suffix_nil.1 (h2s ▸ hg.sched)
      have h3keep : ∀ q n, w.look q = some n → w3.look q = some n := by
        intro q n hq
        rcases hg.look q with h | ⟨h, -⟩
        · rw [h, h2l, hq]
        · rw [h2l, hq] at h; cases h
      have h3d : w3.data t = w.data t := by
        unfold World.data
        rw [hg.files, hg.fd, hsf.file, hsf.fd]; exact h1d
      have hmo : w3.resolve out = .ok (onPaper out) ∧ w3.look (onPaper out) = some .dir := by
        obtain ⟨q, h1, h2⟩ := hmade out (List.mem_append_right _ (List.mem_singleton.2 rfl))
        have := World.walk_lexical h1
        subst this
        exact ⟨h1, h2⟩
      have hmd : ∀ ns ms' i, (out.push (ms'.map .name), i, true) ∈ es → ns <+: ms' → w3.look (onPaper out ++ ns) = some .dir := by
        intro ns ms' i he hpre
        have := (hmade _ (List.mem_append_left _ (List.mem_map.2 ⟨_, List.mem_filter.2 ⟨he, rfl⟩, rfl⟩))).onTheWay (q := onPaper out ++ ns)
          ⟨out.comps ++ ns.map .name, (List.prefix_append_right_inj _).2 (hpre.map _), by rw [← onPaper_push]; rfl⟩
        exact this
      have honly : ∀ ns, ns ≠ [] → w3.look (onPaper out ++ ns) ≠ none → ∃ ms' i, (out.push (ms'.map .name), i, true) ∈ es ∧ ns <+: ms' := by
        intro ns hns hl
        rcases hg.look (onPaper out ++ ns) with h | ⟨-, -, h⟩
        · rw [h, h2l, hT.below ns hns] at hl; exact absurd rfl hl
        · rcases hS _ h with h | ⟨ns', ms', i, -, hi, hpre, h⟩
          · exact absurd rfl (hT.inward _ h ns hns)
          · rw [List.append_cancel_left_eq] at h
            subst h
            exact ⟨ms', i, hi, hpre⟩
      obtain ⟨w4, he4, h4s, h4l, h4f, h4o, h4d⟩ := extractAll_yes z t out (es.filter (!·.2.2)) w3 h3s hmo.1 (by rw [hg.nextFd, hsf.nextFd, h1m]; exact ht)
        (by rw [hg.fd, hsf.fd, h1i, hg.nextIno, hsf.nextIno, h1n]; exact hti)
        (by
          intro e hem
          obtain ⟨hem, hb⟩ := List.mem_filter.1 hem
          obtain ⟨ns, m, hns, hpe, hm, ho, hsd⟩ := htree.names e hem
          refine ⟨ns, m, hns, hpe, fun j hj => ?_, ?_, by rw [h3d, hms]; exact hm, ho, hsd⟩
          · by_cases h0 : j = 0
            · subst h0
              rw [List.take_zero, List.append_nil]; exact hmo.2
            · obtain ⟨pre, n, rfl⟩ : ∃ pre n, ns = pre ++ [n] := ⟨ns.dropLast, ns.getLast hns, (List.dropLast_concat_getLast hns).symm⟩
              have hle : j ≤ pre.length := by
                rw [List.length_append] at hj
                exact Nat.le_of_lt_succ hj
              obtain ⟨i, hi⟩ := htree.parent e hem (by simpa using hb) pre n hpe (by
                rintro rfl
                exact h0 (Nat.le_zero.1 hle))
              rw [List.take_append_of_le_length hle]
              exact hmd _ _ i hi (List.take_prefix _ _)
          · refine Classical.byContradiction fun hl => ?_
            obtain ⟨ms', i, hi, hpre⟩ := honly ns hns hl
            obtain ⟨p, k, b⟩ := e
            have hb : b = false := by simpa using hb
            subst hb
            exact htree.apart ns k ms' i (hpe ▸ hem) hi hpre)
        (by
          have := htree.nodup
          exact this.sublist (List.filter_sublist.map _))
      refine ⟨w4, he4, h4s, ?_, ?_, ?_, ?_, ?_, ?_, ?_⟩
      · intro ns i he
        rw [h4l _ ?_]
        · exact hmd ns ns i he (List.prefix_refl _)
        · intro e hem heq
          obtain ⟨hem, hb⟩ := List.mem_filter.1 hem
          obtain ⟨ns', m, hns, hpe, -⟩ := htree.names e hem
          rw [hpe, onPaper_push, List.append_cancel_left_eq] at heq
          subst heq
          have := eq_of_nodup_map _ htree.nodup he hem hpe.symm
          rw [← this] at hb
          cases hb
      · intro ns i m he hm
        obtain ⟨j, hj, hl, hf⟩ := h4f _ (List.mem_filter.2 ⟨he, rfl⟩) m (by rw [h3d, hms]; exact hm)
        rw [hg.nextIno, hsf.nextIno, h1n] at hj
        rw [onPaper_push] at hl
        exact ⟨j, hj, hl, hf⟩
      · intro ns hns hl
        by_cases hfile : ∃ e ∈ es.filter (!·.2.2), onPaper out ++ ns = onPaper e.1
        · obtain ⟨e, hem, heq⟩ := hfile
          obtain ⟨hem, -⟩ := List.mem_filter.1 hem
          obtain ⟨ns', m, -, hpe, -⟩ := htree.names e hem
          rw [hpe, onPaper_push, List.append_cancel_left_eq] at heq
          subst heq
          exact ⟨ns, e.2.1, e.2.2, hpe ▸ hem, List.prefix_refl _⟩
        · rw [h4l _ fun e hem heq => hfile ⟨e, hem, heq⟩] at hl
          obtain ⟨ms', i, hi, hpre⟩ := honly ns hns hl
          exact ⟨ms', i, true, hi, hpre⟩
      · rw [h4l _ ?_]
        · exact hmo.2
        · intro e hem heq
          obtain ⟨ns', m, hns, hpe, -⟩ := htree.names e (List.mem_filter.1 hem).1
          rw [hpe, onPaper_push] at heq
          exact hns (List.self_eq_append_right.1 heq)
      · intro q n hq
        rw [h4l q ?_]
        · exact h3keep q n hq
        · rintro e hem rfl
          obtain ⟨ns', m, hns, hpe, -⟩ := htree.names e (List.mem_filter.1 hem).1
          rw [hpe, onPaper_push, hT.below ns' hns] at hq
          cases hq
      · intro j hj
        rw [h4o j (by rw [hg.nextIno, hsf.nextIno, h1n]; exact hj), hg.files, hsf.file, h1f]
      · rw [h4d t (by rw [hg.nextFd, hsf.nextFd, h1m]; exact ht), hg.fd, hsf.fd, h1i]
    · exact absurd hclear h
  · rcases hno with h | h
    · exact absurd h1s h
    · rw [h1d, hms] at h; cases h

end Volaris.Unpack

namespace Volaris
open Spec

/-- What the archive has for an entry. -/
def packed (w : World) (f : Storage.Entry) : ZipMember := { name := (Pack.stored w f).name, opens := true, content := (Pack.stored w f).content, sound := true }

def entryIsDir : Storage.Entry → Bool
  | .file _ _ => false
  | .dir _ => true

theorem stored_name (w : World) {f : Storage.Entry} (hp : PlainPath (pathOf f)) :
    ZipName.comps (Pack.stored w f).name = (pathOf f).comps ∧ ((Pack.stored w f).name.head? = some '/' ↔ (pathOf f).abs = true) ∧ '\x00' ∉ (Pack.stored w f).name := by
  cases f with
  | file p h => exact ⟨ZipName.comps_ofPath hp, ZipName.ofPath_head hp, ZipName.nul_ofPath hp⟩
  | dir p =>
    refine ⟨ZipName.comps_dirName hp, ZipName.dirName_head hp, ?_⟩
    show '\x00' ∉ Pack.dirName (ZipName.ofPath p)
    rw [ZipName.dirName_ofPath (p := p) hp, List.mem_append]
    rintro (h | h)
    · exact ZipName.nul_ofPath hp h
    · revert h; decide

theorem stored_nodup {w : World} {fs : List Storage.Entry} (h : Packable w fs) (v : World) : ((fs.map (Pack.stored v)).map (·.name)).Nodup := by
  have hd := h.distinct
  unfold List.Nodup at hd ⊢
  rw [List.map_map, List.pairwise_map]
  rw [List.pairwise_map] at hd
  refine hd.imp_of_mem fun {a b} ha hb hne heq => hne ?_
  obtain ⟨a1, a2, -⟩ := stored_name v (h.plain a ha)
  obtain ⟨b1, b2, -⟩ := stored_name v (h.plain b hb)
  have heq : (Pack.stored v a).name = (Pack.stored v b).name := heq
  rw [heq] at a1 a2
  have h1 : (pathOf a).abs = true ↔ (pathOf b).abs = true := a2.symm.trans b2
  rw [Prod.mk.injEq]
  exact ⟨Bool.eq_iff_iff.2 h1, a1.symm.trans b1⟩

theorem enclosed_stored {w : World} {fs : List Storage.Entry} (h : Packable w fs) {f : Storage.Entry} (hf : f ∈ fs) :
    (∀ ns, Named f ns → ZipName.enclosed (Pack.stored w f).name = some (ns.map .name) ∧ ZipName.isDir (Pack.stored w f).name = entryIsDir f) ∧
    ((¬ ∃ ns, Named f ns) → ZipName.enclosed (Pack.stored w f).name = none) := by
  obtain ⟨h1, h2, h3⟩ := stored_name w (h.plain f hf)
  constructor
  · intro ns hn
    constructor
    · unfold ZipName.enclosed
      rw [if_neg, h1, hn.2, if_pos (ZipName.depthOk_names ns 0)]
      rintro (h | h)
      · exact h3 h
      · have := hn.1
        rw [h2.1 h] at this; cases this
    · cases f with
      | dir p =>
        show ZipName.isDir (Pack.dirName (ZipName.ofPath p)) = true
        rw [ZipName.dirName_ofPath (p := p) (h.plain _ hf)]
        simp [ZipName.isDir]
      | file p hh =>
        show ZipName.isDir (ZipName.ofPath p) = false
        have hp := h.plain _ hf
        have hns : ns ≠ [] := by rintro rfl; exact hp.1 hn.2
        obtain ⟨pre, n, rfl⟩ : ∃ pre n, ns = pre ++ [n] := ⟨ns.dropLast, ns.getLast hns, (List.dropLast_concat_getLast hns).symm⟩
        have hb := h.backslash p hh hf pre n hn
        have hl := ZipName.ofPath_last hp (cs := pre.map .name) (c := .name n) (by rw [hn.2]; simp)
        have hs := ZipName.ofPath_last_slash hp
        unfold ZipName.isDir
        change (ZipName.ofPath p).getLast? = n.getLast? at hl
        change (ZipName.ofPath p).getLast? ≠ _ at hs
        rw [← hl] at hb
        simp [hs, hb]
  · intro hno
    rcases h.kind f hf with ha | hc | hn
    · unfold ZipName.enclosed
      rw [if_pos (.inr (h2.2 ha))]
    · unfold ZipName.enclosed
      split
      · rfl
      · rw [h1, if_neg]
        obtain ⟨pre, hp, hlt⟩ := hc
        rw [Bool.not_eq_true, ZipName.depthOk_iff]
        exact ⟨pre, hp, by omega⟩
    · exact absurd hn hno

/-- The members chosen from a packed archive. -/
theorem pick_packed {w : World} {fs : List Storage.Entry} (h : Packable w fs) (out : PathBuf) (i : Nat) (e : Unpack.Entity) :
    Unpack.pick out (some (fs.map (packed w))) i = some e ↔ ∃ f ns, fs[i]? = some f ∧ Named f ns ∧ e = (out.push (ns.map .name), i, entryIsDir f) := by
  unfold Unpack.pick
  simp only [Option.bind_some, List.getElem?_map]
  cases hf : fs[i]? with
  | none => simp
  | some f =>
    obtain ⟨h1, h2⟩ := enclosed_stored h (List.mem_of_getElem? hf)
    change (ZipName.enclosed (Pack.stored w f).name).map (fun cs => (out.push cs, i, ZipName.isDir (Pack.stored w f).name)) = some e ↔ _
    by_cases hn : ∃ ns, Named f ns
    · obtain ⟨ns, hn⟩ := hn
      rw [(h1 ns hn).1, (h1 ns hn).2]
      constructor
      · intro h; exact ⟨f, ns, rfl, hn, (Option.some.inj h).symm⟩
      · rintro ⟨f', ns', hf', hn', rfl⟩
        cases hf'
        have : ns'.map Comp.name = ns.map Comp.name := hn'.2.symm.trans hn.2
        rw [this]; rfl
    · rw [h2 hn]
      constructor
      · intro h; cases h
      · rintro ⟨f', ns', hf', hn', -⟩
        cases hf'
        exact absurd ⟨ns', hn'⟩ hn

theorem mem_chosen {w : World} {fs : List Storage.Entry} (h : Packable w fs) (out : PathBuf) (p : PathBuf) (i : Nat) (b : Bool) :
    (p, i, b) ∈ (List.range (fs.map (packed w)).length).filterMap (Unpack.pick out (some (fs.map (packed w)))) ↔
      ∃ f ns, fs[i]? = some f ∧ Named f ns ∧ p = out.push (ns.map .name) ∧ b = entryIsDir f := by
  rw [List.mem_filterMap]
  constructor
  · rintro ⟨j, -, hj⟩
    obtain ⟨f, ns, hf, hn, he⟩ := (pick_packed h out j _).1 hj
    simp only [Prod.mk.injEq] at he
    obtain ⟨rfl, rfl, rfl⟩ := he
    exact ⟨f, ns, hf, hn, rfl, rfl⟩
  · rintro ⟨f, ns, hf, hn, rfl, rfl⟩
    refine ⟨i, ?_, (pick_packed h out i _).2 ⟨f, ns, hf, hn, rfl⟩⟩
    rw [List.mem_range, List.length_map]
    exact (List.getElem?_eq_some_iff.1 hf).1

theorem tree_packed {w : World} {fs : List Storage.Entry} (h : Packable w fs) (out : PathBuf) :
    Unpack.Tree out (fs.map (packed w)) ((List.range (fs.map (packed w)).length).filterMap (Unpack.pick out (some (fs.map (packed w))))) where
  names := by
    rintro ⟨p, i, b⟩ he
    obtain ⟨f, ns, hf, hn, rfl, rfl⟩ := (mem_chosen h out p i b).1 he
    refine ⟨ns, packed w f, ?_, rfl, by simp [hf], rfl, rfl⟩
    rintro rfl
    exact (h.plain f (List.mem_of_getElem? hf)).1 hn.2
  nodup := by
    unfold List.Nodup
    rw [List.pairwise_map, List.pairwise_filterMap]
    refine List.pairwise_lt_range.imp fun {i j} hlt e he e' he' heq => ?_
    obtain ⟨f, ns, hf, hn, rfl⟩ := (pick_packed h out i e).1 he
    obtain ⟨f', ns', hf', hn', rfl⟩ := (pick_packed h out j e').1 he'
    have := Unpack.push_inj heq
    subst this
    have hd := List.pairwise_iff_getElem.1 h.distinct
    obtain ⟨hi, hi'⟩ := List.getElem?_eq_some_iff.1 hf
    obtain ⟨hj, hj'⟩ := List.getElem?_eq_some_iff.1 hf'
    refine hd i j (by simpa using hi) (by simpa using hj) hlt ?_
    simp only [List.getElem_map, hi', hj', Prod.mk.injEq]
    exact ⟨hn.1.trans hn'.1.symm, hn.2.trans hn'.2.symm⟩
  parent := by
    rintro ⟨p, i, b⟩ he hb ns n hp hns
    obtain ⟨f, ns', hf, hn, rfl, rfl⟩ := (mem_chosen h out p i b).1 he
    have := Unpack.push_inj hp
    subst this
    cases f with
    | dir q => cases hb
    | file q hd =>
      obtain ⟨p, hm, hn'⟩ := h.parent q hd (List.mem_of_getElem? hf) ns n hn hns
      obtain ⟨j, hj⟩ := List.getElem?_of_mem hm
      exact ⟨j, (mem_chosen h out _ _ _).2 ⟨_, ns, hj, hn', rfl, rfl⟩⟩
  apart := by
    intro ns i ms k h1 h2
    obtain ⟨f, ns', hf, hn, hp, hb⟩ := (mem_chosen h out _ i _).1 h1
    obtain ⟨f', ms', hf', hn', hp', hb'⟩ := (mem_chosen h out _ k _).1 h2
    have := Unpack.push_inj hp
    subst this
    have := Unpack.push_inj hp'
    subst this
    cases f with
    | dir q => cases hb
    | file q hd =>
      cases f' with
      | file q' hd' => cases hb'
      | dir q' => exact h.apart q hd q' (List.mem_of_getElem? hf) (List.mem_of_getElem? hf') ns ms hn hn'

namespace Pack

/-- Packing without faults. -/
theorem execute_ok {C : Crypto} (hC : C.Lawful) (z : Zip) (tmp : PathBuf) (req : Request) (w : World) (hs : w.sched = []) (hcc : CanCreate w (tempPath tmp w))
    (hfs : Packable w req.compressFiles) (hst : ∀ f ∈ req.compressFiles, z.storable (stored w f).name) (hw : OpenHandle w req.writer) (hwd : w.data req.writer = [])
    (hh : req.headerWriter = none) (hv : req.headerType.version = .v5 ∨ (req.headerType.version = .v4 ∧ req.hashingAlgorithm = .blake3Balloon 4))
    (hm : req.headerType.mode = .streamMode) (hp : PrimitivesWork C req.headerType.algorithm req.hashingAlgorithm req.rawKey)
    (hlim : (z.encode (req.compressFiles.map (stored w))).length / 2 ^ 20 ≤ C.ctrMax) :
    ∃ w', execute C z tmp req w = (.ok (), w') ∧ DecryptsTo C req.rawKey (w'.file (w.fd req.writer).ino) (z.encode (req.compressFiles.map (stored w))) ∧
      OnlyDecryptsTo C req.rawKey (w'.file (w.fd req.writer).ino) (z.encode (req.compressFiles.map (stored w))) := by
  rcases execute_split C z tmp req w with ⟨s, hss, hr, hl, he⟩ | ⟨s, hss, he, hno⟩
  · have hs0 := List.suffix_nil.1 (hs ▸ hss)
    subst hs0
    rcases hrun : execute C z tmp req w with ⟨r, w'⟩
    rw [hrun] at he
    have hne : onPaper (tempPath tmp w) ≠ [] := by intro h; rw [h, World.look_nil] at hl; cases hl
    have hl0 : (Unpack.withTemp tmp w []).look (onPaper (tempPath tmp w)) = some (.file w.nextIno) := by
      show ((({ w.draw 16 with sched := [] } : World).created (onPaper (tempPath tmp w))).opened w.nextIno).look _ = _
      rw [World.look_opened, World.look_created, if_neg hne, if_pos rfl]
      rfl
    have hr0 : (Unpack.withTemp tmp w []).resolve (tempPath tmp w) = .ok (onPaper (tempPath tmp w)) := by
      refine World.resolve_mono (w := w) (fun d hd => ?_) hr
      show ((({ w.draw 16 with sched := [] } : World).created (onPaper (tempPath tmp w))).opened w.nextIno).look _ = _
      rw [World.look_opened, World.look_created]
      split
      · rfl
      · split
        · next h => subst h; rw [hl] at hd; cases hd
        · exact hd
    have hfd : ∀ h, OpenHandle w h → (Unpack.withTemp tmp w []).fd h = w.fd h := fun h hh => if_neg (Nat.ne_of_lt hh.1)
    have hfdt : (Unpack.withTemp tmp w []).fd w.nextFd = { ino := w.nextIno, pos := 0 } := if_pos rfl
    have hrest : ∀ h, OpenHandle w h → (Unpack.withTemp tmp w []).rest h = w.rest h := by
      intro h hh
      unfold World.rest World.data
      rw [hfd h hh, show (Unpack.withTemp tmp w []).file (w.fd h).ino = w.file (w.fd h).ino from if_neg (Nat.ne_of_lt hh.2)]
    have hsto : req.compressFiles.map (stored (Unpack.withTemp tmp w [])) = req.compressFiles.map (stored w) := by
      apply List.map_congr_left
      intro f hf
      cases f with
      | dir p => rfl
      | file p h =>
        show ({ name := _, content := _ } : ZipEntry) = { name := _, content := _ }
        rw [hrest h (hfs.opened p h hf).1]
    have ht : w.nextFd ∉ handles req.compressFiles := by
      intro hm
      obtain ⟨p, hp⟩ := mem_handles.1 hm
      exact Nat.lt_irrefl _ (hfs.opened p _ hp).1.1
    have hhn : (handles req.compressFiles).Nodup := hfs.handles
    obtain ⟨wa, hadd, -⟩ := addAll_nil z req.compressFiles [] (Unpack.withTemp tmp w []) rfl hhn
      (by rw [List.nil_append]; exact stored_nodup hfs _)
      (by
        intro f hf
        have := hst f hf
        cases f with
        | dir p => exact this
        | file p h => exact this)
    rw [List.nil_append, hsto] at hadd
    obtain ⟨l, h⟩ := afterTemp_nil C z req (v := Unpack.withTemp tmp w []) rfl hr0 hl0 hfdt (if_pos rfl) ht (by
        intro h hh'
        have : h = req.writer := by
          unfold packWriters at hh'
          rw [hh] at hh'
          exact List.mem_singleton.1 hh'
        rw [this, hfd _ hw]
        exact Nat.ne_of_lt hw.2) he.symm
    rcases h with ⟨e, -, -, -, h4, -⟩ | ⟨h1, v2, er, v3, h2, h3, h4, h5, h6⟩
    · rw [hadd] at h4; cases h4
    · rw [hadd] at h1
      cases h1
      have hinow : (v2.fd req.writer).ino = (w.fd req.writer).ino := by rw [h4.inos, hfd _ hw]
      have hinot : (v2.fd w.nextFd).ino = w.nextIno := by rw [h4.inos, hfdt]
      have hne2 : w.nextFd ≠ req.writer := Nat.ne_of_gt hw.1
      have hino : (v2.fd w.nextFd).ino ≠ (v2.fd req.writer).ino := by rw [hinow, hinot]; exact Nat.ne_of_gt hw.2
      obtain ⟨v3', hok, -⟩ := encrypt_nil hC (encryptRequest req w.nextFd) hne2 h2 hino (by intro x hx; change req.headerWriter = some x at hx; rw [hh] at hx; cases hx)
        (hv.elim .inr fun h => .inl h.1) hm hp (by show (v2.data w.nextFd).length / _ ≤ _; rw [h3]; exact hlim)
      rw [hok] at h5
      obtain ⟨rfl, rfl⟩ := Prod.mk.inj h5
      have hempty : v2.data req.writer = [] := by
        unfold World.data at hwd ⊢
        rw [hinow, h4.files _ (by
          intro h hh'
          rw [List.mem_singleton.1 hh', hfdt]
          exact Nat.ne_of_gt hw.2)]
        rw [show (Unpack.withTemp tmp w []).file (w.fd req.writer).ino = w.file (w.fd req.writer).ino from if_neg (Nat.ne_of_lt hw.2)]
        exact hwd
      have hdec := Props.C14_success_means_decryptable C hC (encryptRequest req w.nextFd) v2 v3' (hv.imp id (·.2)) hh hne2 hino (by rw [h2]; simp) hempty hok
      rcases h6 with ⟨a, h, -⟩ | ⟨-, rfl, -, -, -, h7, -⟩
      · cases h
      · refine ⟨w', rfl, ?_⟩
        rw [h7 _ (Nat.ne_of_lt hw.2)]
        rw [← h3, ← hinow]
        exact hdec
  · rcases hno with h | h
    · exact absurd hs h
    · obtain ⟨q, h1, h2, h3⟩ := hcc
      exact absurd h3 (h q h1 h2)

end Pack

namespace Unpack

/-- Unpacking a packed tree. -/
theorem execute_yes (C : Crypto) {z : Zip} (hz : z.Lawful) (tmp : PathBuf) (order : List Nat) (req : Request) (w : World) (hs : w.sched = []) (htree : TreeOk w)
    (hcb : OnlyTalks (ask req.onZipFile)) (hyes : AcceptsNew req.outputDir (ask req.onZipFile)) (hcc : CanCreate w (tempPath tmp w))
    (hT : FreshTarget w req.outputDir) (htmp : ¬ onPaper req.outputDir <+: onPaper (tempPath tmp w) ∧ ¬ OnTheWay req.outputDir (onPaper (tempPath tmp w)))
    (hh : req.headerReader = none) (ho : OpenHandle w req.reader) {u : World} {fs : List Storage.Entry} (hfs : Packable u fs)
    (hst : ∀ f ∈ fs, z.storable (Pack.stored u f).name) (hP : DecryptsTo C req.rawKey (w.rest req.reader) (z.encode (fs.map (Pack.stored u)))) :
    ∃ w', execute C z tmp order req w = (.ok (), w') ∧ Restored fs u (onPaper req.outputDir) w' ∧ w'.look (onPaper req.outputDir) = some .dir ∧
      w'.sched = [] ∧ ∀ q n, w.look q = some n → w'.look q = some n := by
  unfold execute
  rcases createTempFile_cases tmp w with ⟨s, hss, hr, hl, he0⟩ | ⟨s, hss, he0, hno⟩
  · have hss := List.suffix_nil.1 (hs ▸ hss)
    subst hss
    rw [Prog.bind_ok (Prog.mapErr_ok he0)]
    have e1 : ∀ v, (Prog.lift (expectStream (Storage.Entry.file (tempPath tmp w) w.nextFd)) : Prog Error Nat) v = (.ok w.nextFd, v) := fun _ => rfl
    rw [Prog.bind_ok (e1 _)]
    have hne : onPaper (tempPath tmp w) ≠ [] := by intro h; rw [h, World.look_nil] at hl; cases hl
    have hl0 : (withTemp tmp w []).look (onPaper (tempPath tmp w)) = some (.file w.nextIno) := by
      show ((({ w.draw 16 with sched := [] } : World).created (onPaper (tempPath tmp w))).opened w.nextIno).look _ = _
      rw [World.look_opened, World.look_created, if_neg hne, if_pos rfl]
      rfl
    have hlo : ∀ q, q ≠ onPaper (tempPath tmp w) → (withTemp tmp w []).look q = w.look q := by
      intro q hq
      show ((({ w.draw 16 with sched := [] } : World).created (onPaper (tempPath tmp w))).opened w.nextIno).look _ = _
      rw [World.look_opened, World.look_created]
      split
      · next h => rw [h, World.look_nil]
      · rfl
    have hr0 : (withTemp tmp w []).resolve (tempPath tmp w) = .ok (onPaper (tempPath tmp w)) := by
      refine World.resolve_mono (w := w) (fun d hd => ?_) hr
      rw [hlo d (by rintro rfl; rw [hl] at hd; cases hd)]
      exact hd
    have hpar : w.look (onPaper (tempPath tmp w)).dropLast = some .dir := by
      obtain ⟨q, h1, h2, h3⟩ := hcc
      rw [hr] at h1
      cases h1
      exact h3
    have hdl : (onPaper (tempPath tmp w)).dropLast ≠ onPaper (tempPath tmp w) := by intro h; rw [h, hl] at hpar; cases hpar
    have hfdr : (withTemp tmp w []).fd req.reader = w.fd req.reader := if_neg (Nat.ne_of_lt ho.1)
    have hfdt : (withTemp tmp w []).fd w.nextFd = { ino := w.nextIno, pos := 0 } := if_pos rfl
    have hfi : (withTemp tmp w []).file (w.fd req.reader).ino = w.file (w.fd req.reader).ino := if_neg (Nat.ne_of_lt ho.2)
    have hask : Asks (decryptRequest req w.nextFd) (withTemp tmp w []) req.rawKey (w.rest req.reader) := by
      refine ⟨hh, rfl, Nat.ne_of_lt ho.1, ?_, ?_⟩
      · show ((withTemp tmp w []).fd req.reader).ino ≠ ((withTemp tmp w []).fd w.nextFd).ino
        rw [hfdr, hfdt]
        exact Nat.ne_of_lt ho.2
      · show (withTemp tmp w []).rest req.reader = _
        unfold World.rest World.data
        rw [hfdr, hfi]
    obtain ⟨v', hd, hw, ht⟩ := hP _ _ hask rfl
    have hsv : v'.sched = [] := by
      have := Shrinks.decrypt C (decryptRequest req w.nextFd) (withTemp tmp w [])
      rw [hd] at this
      exact List.suffix_nil.1 this
    have hdat : v'.data w.nextFd = z.encode (fs.map (Pack.stored u)) := by
      have := hw.content
      change v'.file ((withTemp tmp w []).fd w.nextFd).ino = writeAt ((withTemp tmp w []).file ((withTemp tmp w []).fd w.nextFd).ino) ((withTemp tmp w []).fd w.nextFd).pos _ at this
      rw [hfdt] at this
      have hf0 : (withTemp tmp w []).file w.nextIno = [] := if_pos rfl
      simp only [hf0, writeAt_zero] at this
      unfold World.data
      rw [ht.inos, hfdt, this]
      simp
    have hlv : ∀ q, v'.look q = (withTemp tmp w []).look q := World.look_congr ht.dir
    change ∃ w', ((Decrypt.execute C (decryptRequest req w.nextFd)).mapErr Error.decrypt >>= _) (withTemp tmp w []) = _ ∧ _
    rw [Prog.bind_ok (Prog.mapErr_ok hd)]
    have hfl : (Storage.fileLen (.file (tempPath tmp w) w.nextFd)) v' = (.ok (v'.data w.nextFd).length, v') := by
      have e2 : (Prog.lift (Storage.Entry.file (tempPath tmp w) w.nextFd).stream : Prog Storage.Error Nat) v' = (.ok w.nextFd, v') := rfl
      unfold Storage.fileLen
      rw [Prog.bind_ok e2]
      refine Prog.mapErr_ok ?_
      unfold Volaris.fileLen
      rw [Prog.bind_ok (sys_nil hsv)]; rfl
    rw [Prog.bind_ok (Prog.mapErr_ok hfl)]
    have hms : z.decode (v'.data w.nextFd) = some (fs.map (packed u)) := by
      rw [hdat, hz.decode_encode _ (stored_nodup hfs u) (by
        intro e he
        obtain ⟨f, hf, rfl⟩ := List.mem_map.1 he
        exact hst f hf), List.map_map]
      rfl
    have hTv : FreshTarget v' req.outputDir := by
      refine ⟨?_, ?_, ?_, hT.inward⟩
      · rw [hlv, hlo _ (by intro h; have := hT.start; rw [h, hl] at this; cases this)]; exact hT.start
      · intro q i hq
        rw [hlv, hlo q (by rintro rfl; exact htmp.2 hq)]
        exact hT.way q i hq
      · intro ns hns
        rw [hlv, hlo _ (by intro h; exact htmp.1 ⟨ns, h⟩)]
        exact hT.below ns hns
    have hpv : ParentsOk v' := by
      intro k hk hsome
      rw [hlv] at hsome ⊢
      by_cases hkt : k = onPaper (tempPath tmp w)
      · subst hkt
        rw [hlo _ hdl]; exact hpar
      · rw [hlo k hkt] at hsome
        have := htree.parentsOk k hk hsome
        rw [hlo _ (by intro h; rw [h, hl] at this; cases this)]
        exact this
    obtain ⟨w3, he3, hs3, hdirs, hfiles, honly, hroot, hkeep, hcont, hino⟩ := recover_yes z order w.nextFd req hcb hyes v' hsv hpv hTv
      (by rw [ht.nextFd]; exact Nat.lt_succ_self _) (by rw [ht.inos, hfdt, ht.nextIno]; exact Nat.lt_succ_self _) hms rfl (tree_packed hfs req.outputDir)
    rw [Prog.bind_ok he3]
    have hl3 : w3.look (onPaper (tempPath tmp w)) = some (.file w.nextIno) := hkeep _ _ (by rw [hlv]; exact hl0)
    have hr3 : w3.resolve (tempPath tmp w) = .ok (onPaper (tempPath tmp w)) := by
      refine World.resolve_mono (w := withTemp tmp w []) (fun d hd => ?_) hr0
      exact hkeep d _ (by rw [hlv]; exact hd)
    obtain ⟨r1, r2, w4, w5, h1, h2, h3, h4, h5, h6, h7, -⟩ := cleanup_nil (ε := Error) (t := w.nextFd) (v'.data w.nextFd).length 1 hs3 hr3 hl3 (by rw [hino, ht.inos, hfdt])
    rw [Prog.bind_ok h1, Prog.bind_ok h2]
    have hout : ∀ ns, onPaper req.outputDir ++ ns ≠ onPaper (tempPath tmp w) := fun ns h => htmp.1 ⟨ns, h⟩
    refine ⟨w5, rfl, ⟨?_, ?_, ?_⟩, ?_, h7, fun q n hq => ?_⟩
    · intro p ns hp hn
      obtain ⟨i, hi⟩ := List.getElem?_of_mem hp
      rw [h4 _ (hout ns)]
      exact hdirs ns i ((mem_chosen hfs _ _ _ _).2 ⟨_, ns, hi, hn, rfl, rfl⟩)
    · intro p h ns hp hn
      obtain ⟨i, hi⟩ := List.getElem?_of_mem hp
      obtain ⟨j, hj, hl, hc⟩ := hfiles ns i (packed u (.file p h)) ((mem_chosen hfs _ _ _ _).2 ⟨_, ns, hi, hn, rfl, rfl⟩) (by simp [hi])
      refine ⟨j, by rw [h4 _ (hout ns)]; exact hl, ?_⟩
      have hjn : w.nextIno < j := by rw [ht.nextIno] at hj; exact hj
      rw [h6 j (Nat.ne_of_gt hjn), hc]
      show u.rest h = u.data h
      unfold World.rest
      rw [(hfs.opened p h hp).2, List.drop_zero]
    · intro ns hns hl
      rw [h4 _ (hout ns)] at hl
      obtain ⟨ms', i, b, hm, hpre⟩ := honly ns hns hl
      obtain ⟨f, ns', hf, hn, hp, -⟩ := (mem_chosen hfs _ _ _ _).1 hm
      have := push_inj hp
      subst this
      exact ⟨f, List.mem_of_getElem? hf, ms', hn, hpre⟩
    · have := hout []
      rw [List.append_nil] at this
      rw [h4 _ this]; exact hroot
    · have hqt : q ≠ onPaper (tempPath tmp w) := by rintro rfl; rw [hl] at hq; cases hq
      rw [h4 _ hqt]
      exact hkeep _ _ (by rw [hlv, hlo _ hqt]; exact hq)
  · rcases hno with h | h
    · exact absurd hs h
    · obtain ⟨q, h1, h2, h3⟩ := hcc
      exact absurd h3 (h q h1 h2)

end Unpack
end Volaris
