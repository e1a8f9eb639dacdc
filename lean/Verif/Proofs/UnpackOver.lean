import Verif.Proofs.TreeCmd
import Verif.Spec.UnpackOver
/-!
# Helper lemmas: unpacking over what is already there
-/
open Volaris.Spec
namespace Volaris.Unpack

/-- If everything is accepted and there are no faults, everything that can be is chosen. -/
theorem entities_over (z : Zip) (t : Nat) (out : PathBuf) (cb : Option (PathBuf → Prog Error Bool)) (hcb : OnlyTalks (ask cb)) (hyes : AcceptsAll out (ask cb)) :
    ∀ (is : List Nat) (w : World), w.sched = [] →
      (∀ i ∈ is, ∀ e, pick out (z.decode (w.data t)) i = some e → ∃ ns, ns ≠ [] ∧ e.1 = out.push (ns.map .name)) → ∃ w', entities z t out cb is w = (.ok (is.filterMap (pick out (z.decode (w.data t)))), w') ∧ SameFs w w' := by
  intro is
  induction is with
  | nil => intro w _ _; exact ⟨w, rfl, .refl w⟩
  | cons i is ih =>
    intro w hs hnm
    have hnm' := fun j hj => hnm j (List.mem_cons_of_mem _ hj)
    rw [entities_cons, List.filterMap_cons]
    rcases byIndex_cases z t i w with ⟨m, s, hss, he, hm, ho⟩ | ⟨x, s, hss, he, hno⟩
    · have hs0 := List.suffix_nil.1 (hs ▸ hss)
      subst hs0
      rw [World.with_sched_nil w hs] at he
      rw [Prog.bind_ok (Pack.attempt_of he (by simp))]
      have hp : pick out (z.decode (w.data t)) i = (ZipName.enclosed m.name).map fun cs => (out.push cs, i, ZipName.isDir m.name) := by
        unfold pick
        rw [hm]
        exact if_pos ho
      rw [hp]
      dsimp only
      cases hen : ZipName.enclosed m.name with
      | none => exact ih w hs hnm'
      | some cs =>
        dsimp only [Option.map]
        rcases ha : ask cb (out.push cs) w with ⟨r, w1⟩
        have hsf : SameFs w w1 := by
          have h1 := hcb.file (out.push cs) w
          have h2 := hcb.dir (out.push cs) w
          have h3 := hcb.fd (out.push cs) w
          have h4 := hcb.nextIno (out.push cs) w
          have h5 := hcb.nextFd (out.push cs) w
          have h6 := hcb.sched (out.push cs) w
          rw [ha] at h1 h2 h3 h4 h5 h6
          exact ⟨h1, h2, h3, h4, h5, h6⟩
        obtain ⟨ns, hns, hpn⟩ := hnm i List.mem_cons_self (out.push cs, i, ZipName.isDir m.name) (by rw [hp, hen]; rfl)
        have hr := hyes ns w hns
        rw [← show out.push cs = out.push (ns.map .name) from hpn, ha] at hr
        change r = _ at hr
        subst hr
        rw [Prog.bind_ok ha]
        have hd : w1.data t = w.data t := by unfold World.data; rw [hsf.file, hsf.fd]
        obtain ⟨w2, h2, h3⟩ := ih w1 (List.suffix_nil.1 (hs ▸ hsf.sched)) (by rw [hd]; exact hnm')
        rw [hd] at h2
        exact ⟨w2, (Prog.bind_ok h2).trans rfl, hsf.trans h3⟩
    · have hs0 := List.suffix_nil.1 (hs ▸ hss)
      subst hs0
      rw [World.with_sched_nil w hs] at he
      rw [Prog.bind_ok (Pack.attempt_of he (by simp))]
      have hp : pick out (z.decode (w.data t)) i = none := by
        unfold pick
        cases hm : (z.decode (w.data t)).bind (·[i]?) with
        | none => rfl
        | some m => rcases hno with h | h
                    · exact absurd hs h
                    · show (if m.opens then _ else _) = _
                      rw [h m hm]; rfl
      rw [hp]
      exact ih w hs hnm'

/-- One file extracted to a place where there is nothing or a file. -/
theorem extract_over (z : Zip) (t : Nat) (e : Entity) {q : Path} {m : ZipMember} {u : World} (hs : u.sched = []) (hr : u.resolve e.1 = .ok q) (hl : u.look q ≠ some .dir)
    (hd : u.look q.dropLast = some .dir) (hm : (z.decode (u.data t)).bind (·[e.2.1]?) = some m) (ho : m.opens = true) (hsd : m.sound = true) :
    ∃ u' j, extract z t e u = (.ok (), u') ∧ u'.sched = [] ∧ u'.look q = some (.file j) ∧ (u.look q = some (.file j) ∨ (u.look q = none ∧ j = u.nextIno)) ∧ (∀ x, x ≠ q → u'.look x = u.look x) ∧
      u'.file j = m.content ∧ (∀ k, k ≠ j → u'.file k = u.file k) ∧ (∀ h, h ≠ u.nextFd → u'.fd h = u.fd h) ∧
      u.nextIno ≤ u'.nextIno ∧ (u.look q = none → j < u'.nextIno) ∧ u'.nextFd = u.nextFd + 1 := by
  cases hq : u.look q with
  | none =>
    obtain ⟨u', h1, h2, h3, h4, h5, h6, h7, h8, h9⟩ := extract_yes z t e hs hr hq hd hm ho hsd
    exact ⟨u', u.nextIno, h1, h2, h3, .inr ⟨rfl, rfl⟩, h4, h5, h6, h7, by rw [h8]; exact Nat.le_succ _, fun _ => by rw [h8]; exact Nat.lt_succ_self _, h9⟩
  | some n =>
    cases n with
    | dir => exact absurd hq hl
    | file i =>
      unfold extract
      rcases byIndex_cases z t e.2.1 u with ⟨m', s, hss, he, hm', -⟩ | ⟨x, s, hss, he, hno⟩
      · rw [hm] at hm'
        cases hm'
        have hs0 := List.suffix_nil.1 (hs ▸ hss)
        subst hs0
        rw [World.with_sched_nil u hs] at he
        rw [Prog.bind_ok (Prog.mapErr_ok he)]
        rcases openNew_cases e.1 u with ⟨q', s, hss, hr', hl', hd', he'⟩ | ⟨x, s, hss, he', hno⟩
        · rw [hr] at hr'
          cases hr'
          rw [hq] at hl'
          cases hl'
        · have hs0 := List.suffix_nil.1 (hs ▸ hss)
          subst hs0
          rw [World.with_sched_nil u hs] at he'
          rcases openTrunc_cases hr hq with ⟨s, hss, he2⟩ | ⟨s, e2, hss, hn, -⟩
          · have hs0 := List.suffix_nil.1 (hs ▸ hss)
            subst hs0
            rw [World.with_sched_nil u hs] at he2
            have hc : orElse (Storage.createFile e.1) (Storage.writeFile e.1) u = (.ok (.file e.1 u.nextFd), (u.opened i).truncated i) := by
              unfold orElse
              have e1 : Storage.createFile e.1 u = (.err .createFile, u) := by
                unfold Storage.createFile
                rw [Prog.bind_err (Prog.mapErr_err he')]
              rw [e1]
              show Storage.writeFile e.1 u = _
              unfold Storage.writeFile
              rw [Prog.bind_ok (Prog.mapErr_ok he2)]
              rfl
            rw [Prog.bind_ok (Prog.mapErr_ok hc)]
            have e1 : ∀ v, (Prog.lift ((Storage.Entry.file e.1 u.nextFd).stream.mapErr Error.storage) : Prog Error Nat) v = (.ok u.nextFd, v) := fun _ => rfl
            rw [Prog.bind_ok (e1 _)]
            unfold copy
            have hs1 : ((u.opened i).truncated i).sched = [] := hs
            rw [Prog.bind_ok (Prog.mapErr_ok (sysRetry_nil hs1))]
            obtain ⟨u2, h1, h2, h3⟩ := writeAll_nil' hs1 u.nextFd m.content
            rw [Prog.bind_ok (Prog.mapErr_ok h1), if_pos hsd]
            have hfd : ((u.opened i).truncated i).fd u.nextFd = { ino := i, pos := 0 } := if_pos rfl
            have hf0 : ((u.opened i).truncated i).file i = [] := if_pos rfl
            have hlook : ∀ x, u2.look x = u.look x := fun x => (World.look_congr (World.dir_of_core h2) x).trans (by rfl)
            refine ⟨u2, i, rfl, h3, by rw [hlook]; exact hq, .inl rfl, fun x _ => hlook x, ?_, fun j hj => ?_, fun h hh => ?_, ?_, ?_, ?_⟩
            · rw [World.file_of_core h2]
              have := World.put_file_same ((u.opened i).truncated i) u.nextFd m.content
              rw [hfd] at this
              simp only [hf0, writeAt_zero] at this
              rw [this]; simp
            · rw [World.file_of_core h2, World.put_file_ne _ _ (by rw [hfd]; exact hj)]
              exact if_neg hj
            · rw [World.fd_of_core h2]
              show (if h = u.nextFd then _ else (if h = u.nextFd then _ else u.fd h)) = _
              rw [if_neg hh, if_neg hh]
            · exact Nat.le_of_eq ((World.nextIno_of_core h2).trans rfl).symm
            · intro h; cases h
            · exact (World.nextFd_of_core h2).trans rfl
          · exact absurd hs hn
      · rcases hno with h | h
        · exact absurd hs h
        · rw [h m hm] at ho; cases ho

/-- All files extracted, over those that are there. -/
theorem extractAll_over (z : Zip) (t : Nat) (out : PathBuf) : ∀ (es : List Entity) (u : World), u.sched = [] → u.resolve out = .ok (onPaper out) → t < u.nextFd → (u.fd t).ino < u.nextIno →
    (∀ e ∈ es, ∃ ns m, ns ≠ [] ∧ e.1 = out.push (ns.map .name) ∧ (∀ j, j < ns.length → u.look (onPaper out ++ ns.take j) = some .dir) ∧ u.look (onPaper out ++ ns) ≠ some .dir ∧
      (∀ k, u.look (onPaper out ++ ns) = some (.file k) → k < u.nextIno ∧ k ≠ (u.fd t).ino) ∧
      (z.decode (u.data t)).bind (·[e.2.1]?) = some m ∧ m.opens = true ∧ m.sound = true) →
    (∀ e ∈ es, ∀ e' ∈ es, e.1 ≠ e'.1 → ∀ k, u.look (onPaper e.1) = some (.file k) → u.look (onPaper e'.1) ≠ some (.file k)) →
    (es.map (·.1)).Nodup →
    ∃ u', extractAll z t es u = (.ok (), u') ∧ u'.sched = [] ∧ (∀ q, (∀ e ∈ es, q ≠ onPaper e.1) → u'.look q = u.look q) ∧
      (∀ e ∈ es, ∀ m, (z.decode (u.data t)).bind (·[e.2.1]?) = some m → ∃ j, (u.look (onPaper e.1) = some (.file j) ∨ (u.look (onPaper e.1) = none ∧ u.nextIno ≤ j)) ∧
        u'.look (onPaper e.1) = some (.file j) ∧ u'.file j = m.content) ∧
      (∀ j, j < u.nextIno → (∀ e ∈ es, u.look (onPaper e.1) ≠ some (.file j)) → u'.file j = u.file j) ∧ (∀ h, h < u.nextFd → u'.fd h = u.fd h) := by
  intro es
  induction es with
  | nil =>
    intro u hs _ _ _ _ _ _
    exact ⟨u, rfl, hs, fun _ _ => rfl, by simp, fun _ _ _ => rfl, fun _ _ => rfl⟩
  | cons e es ih =>
    intro u hs hout ht hti hes hal hn
    obtain ⟨ns, m, hns, hp, hdirs, hnd, hknown, hm, ho, hsd⟩ := hes e List.mem_cons_self
    have hr : u.resolve e.1 = .ok (onPaper out ++ ns) := by
      rw [hp]
      show u.walk out.start (out.comps ++ ns.map .name) = _
      rw [World.walk_append, show u.walk out.start out.comps = .ok (onPaper out) from hout]
      exact u.walk_names ns _ hdirs
    have hpar : u.look (onPaper out ++ ns).dropLast = some .dir := by
      have hlen : ns.length - 1 < ns.length := by
        have := List.length_pos_iff.2 hns
        omega
      rw [List.dropLast_append_of_ne_nil hns, List.dropLast_eq_take]
      exact hdirs _ hlen
    have hpe : onPaper e.1 = onPaper out ++ ns := by rw [hp, onPaper_push]
    obtain ⟨u1, j, h1, h2, h3, hj, h4, h5, h6, h7, h8, h8', h9⟩ := extract_over z t e hs hr hnd hpar hm ho hsd
    have hjt : j ≠ (u.fd t).ino := by
      rcases hj with hj | ⟨-, rfl⟩
      · exact (hknown _ hj).2
      · exact Nat.ne_of_gt hti
    have hjn : j < u1.nextIno := by
      rcases hj with hj | ⟨hj, -⟩
      · exact Nat.lt_of_lt_of_le (hknown _ hj).1 h8
      · exact h8' hj
    have hkeepd : ∀ d, u.look d = some .dir → u1.look d = some .dir := by
      intro d hd
      rw [h4 d (by rintro rfl; exact hnd hd)]
      exact hd
    have hdata : u1.data t = u.data t := by
      unfold World.data
      rw [h7 t (Nat.ne_of_lt ht), h6 _ hjt.symm]
    rw [List.map_cons, List.nodup_cons] at hn
    have hne : ∀ e' ∈ es, e.1 ≠ e'.1 := fun e' he' heq => hn.1 (List.mem_map.2 ⟨e', he', heq.symm⟩)
    have hdiff : ∀ e' ∈ es, onPaper e'.1 ≠ onPaper out ++ ns := by
      intro e' he' heq
      obtain ⟨ns', -, -, hp', -⟩ := hes e' (List.mem_cons_of_mem _ he')
      rw [hp', onPaper_push, List.append_cancel_left_eq] at heq
      subst heq
      exact hne e' he' (hp.trans hp'.symm)
    have hsame : ∀ e' ∈ es, u1.look (onPaper e'.1) = u.look (onPaper e'.1) := fun e' he' => h4 _ (hdiff e' he')
    -- the file just written is none of the others
    have hother : ∀ e' ∈ es, u.look (onPaper e'.1) ≠ some (.file j) := by
      intro e' he' hl
      rcases hj with hj | ⟨-, rfl⟩
      · exact hal e List.mem_cons_self e' (List.mem_cons_of_mem _ he') (hne e' he') j (by rw [hpe]; exact hj) hl
      · obtain ⟨ns', m', -, hp', -, -, hk', -⟩ := hes e' (List.mem_cons_of_mem _ he')
        rw [hp', onPaper_push] at hl
        exact Nat.lt_irrefl _ (hk' _ hl).1
    obtain ⟨u', g1, g2, g3, g4, g5, g6⟩ := ih u1 h2 (World.resolve_mono (w := u) hkeepd hout) (by rw [h9]; exact Nat.lt_succ_of_lt ht)
      (by rw [h7 t (Nat.ne_of_lt ht)]; exact Nat.lt_of_lt_of_le hti h8)
      (by
        intro e' he'
        obtain ⟨ns', m', hns', hp', hdirs', hnd', hknown', hm', ho', hsd'⟩ := hes e' (List.mem_cons_of_mem _ he')
        have hs' := hsame e' he'
        rw [hp', onPaper_push] at hs'
        refine ⟨ns', m', hns', hp', fun j hj => hkeepd _ (hdirs' j hj), by rw [hs']; exact hnd', fun k hk => ?_, by rw [hdata]; exact hm', ho', hsd'⟩
        rw [hs'] at hk
        rw [h7 t (Nat.ne_of_lt ht)]
        exact ⟨Nat.lt_of_lt_of_le (hknown' k hk).1 h8, (hknown' k hk).2⟩)
      (by
        intro a ha b hb hab k
        rw [hsame a ha, hsame b hb]
        exact hal a (List.mem_cons_of_mem _ ha) b (List.mem_cons_of_mem _ hb) hab k)
      hn.2
    refine ⟨u', ?_, g2, fun q hq => ?_, ?_, fun k hk hno => ?_, fun h hh => ?_⟩
    · unfold extractAll
      rw [Prog.bind_ok h1]; exact g1
    · rw [g3 q fun e' he' => hq e' (List.mem_cons_of_mem _ he')]
      refine h4 q ?_
      have := hq e List.mem_cons_self
      rw [hpe] at this
      exact this
    · intro e' he' m' hm'
      rcases List.mem_cons.1 he' with rfl | he'
      · rw [hm] at hm'
        cases hm'
        refine ⟨j, ?_, ?_, ?_⟩
        · rw [hpe]
          exact hj.imp id fun h => ⟨h.1, Nat.le_of_eq h.2.symm⟩
        · rw [hpe, g3 _ fun e' he' => (hdiff e' he').symm]
          exact h3
        · rw [g5 _ hjn fun e'' he'' => by rw [hsame e'' he'']; exact hother e'' he'']
          exact h5
      · obtain ⟨k, hk, hl, hf⟩ := g4 e' he' m' (by rw [hdata]; exact hm')
        rw [hsame e' he'] at hk
        exact ⟨k, hk.imp id fun h => ⟨h.1, Nat.le_trans h8 h.2⟩, hl, hf⟩
    · rw [g5 k (Nat.lt_of_lt_of_le hk h8) fun e' he' => by rw [hsame e' he']; exact hno e' (List.mem_cons_of_mem _ he')]
      refine h6 k ?_
      rintro rfl
      rcases hj with hj | ⟨-, rfl⟩
      · exact hno e List.mem_cons_self (by rw [hpe]; exact hj)
      · exact Nat.lt_irrefl _ hk
    · rw [g6 h (by rw [h9]; omega)]
      exact h7 h (Nat.ne_of_lt hh)

/-- What is there does not clash with the chosen members. -/
structure Over (out : PathBuf) (es : List Entity) (t : Nat) (w : World) : Prop where
  start : w.look out.start = some .dir
  way : ∀ q i, OnTheWay out q → w.look q ≠ some (.file i)
  inward : ∀ q, OnTheWay out q → ∀ ns, ns ≠ [] → q ≠ onPaper out ++ ns
  dirs : ∀ ns i, (out.push (ns.map .name), i, true) ∈ es → ∀ ms k, ms <+: ns → w.look (onPaper out ++ ms) ≠ some (.file k)
  files : ∀ ns i, (out.push (ns.map .name), i, false) ∈ es → w.look (onPaper out ++ ns) ≠ some .dir
  alone : ∀ ns i ns' i', (out.push (ns.map .name), i, false) ∈ es → (out.push (ns'.map .name), i', false) ∈ es → ns ≠ ns' → ∀ k, w.look (onPaper out ++ ns) = some (.file k) →
    w.look (onPaper out ++ ns') ≠ some (.file k)
  known : ∀ ns i, (out.push (ns.map .name), i, false) ∈ es → ∀ k, w.look (onPaper out ++ ns) = some (.file k) → k < w.nextIno ∧ k ≠ (w.fd t).ino

/-- Recovering a tree over what is there. -/
theorem recover_over (z : Zip) (order : List Nat) (t : Nat) (req : Request) (hcb : OnlyTalks (ask req.onZipFile)) (hyes : AcceptsAll req.outputDir (ask req.onZipFile))
    (w : World) (hs : w.sched = []) (hp : ParentsOk w) (ht : t < w.nextFd) (hti : (w.fd t).ino < w.nextIno) {ms : List ZipMember}
    (hms : z.decode (w.data t) = some ms) {es : List Entity} (hes : (List.range ms.length).filterMap (pick req.outputDir (some ms)) = es) (htree : Tree req.outputDir ms es) (hT : Over req.outputDir es t w) :
    ∃ w', recover z order t req w = (.ok (), w') ∧ w'.sched = [] ∧
      (∀ ns i, (req.outputDir.push (ns.map .name), i, true) ∈ es → w'.look (onPaper req.outputDir ++ ns) = some .dir) ∧
      (∀ ns i m, (req.outputDir.push (ns.map .name), i, false) ∈ es → ms[i]? = some m →
        ∃ j, (w.look (onPaper req.outputDir ++ ns) = some (.file j) ∨ (w.look (onPaper req.outputDir ++ ns) = none ∧ w.nextIno ≤ j)) ∧ w'.look (onPaper req.outputDir ++ ns) = some (.file j) ∧ w'.file j = m.content) ∧
      (∀ q, w'.look q = w.look q ∨ OnTheWay req.outputDir q ∨ ∃ ns ms' i b, q = onPaper req.outputDir ++ ns ∧ ns ≠ [] ∧ (req.outputDir.push (ms'.map .name), i, b) ∈ es ∧ ns <+: ms') ∧
      (∀ q, OnTheWay req.outputDir q → w'.look q = some .dir) ∧
      (∀ q n, w.look q = some n → w'.look q = some n) ∧ (∀ j, j < w.nextIno → (∀ ns i, (req.outputDir.push (ns.map .name), i, false) ∈ es → w.look (onPaper req.outputDir ++ ns) ≠ some (.file j)) → w'.file j = w.file j) ∧ (w'.fd t).ino = (w.fd t).ino := by
  unfold recover
  have hrw := rewind_nil hs t
  rw [Prog.bind_ok (Prog.mapErr_ok hrw)]
  generalize hw1 : w.setPos t 0 = w1
  have h1s : w1.sched = [] := by subst hw1; exact hs
  have h1l : ∀ q, w1.look q = w.look q := by subst hw1; intro q; exact World.look_congr (by rfl) q
  have h1f : w1.file = w.file := by subst hw1; rfl
  have h1i : ∀ h, (w1.fd h).ino = (w.fd h).ino := by subst hw1; intro h; exact World.setPos_ino _ _ _ _
  have h1n : w1.nextIno = w.nextIno := by subst hw1; rfl
  have h1m : w1.nextFd = w.nextFd := by subst hw1; rfl
  have h1d : w1.data t = w.data t := by unfold World.data; rw [h1f, h1i]
  rcases openArchive_cases z t w1 with ⟨ms', s, hss, hms', he⟩ | ⟨s, hss, he, hno⟩
  · rw [h1d, hms] at hms'
    cases hms'
    have hs0 := List.suffix_nil.1 (h1s ▸ hss)
    subst hs0
    rw [World.with_sched_nil w1 h1s] at he
    rw [Prog.bind_ok he]
    obtain ⟨w2, he2, hsf⟩ := entities_over z t req.outputDir req.onZipFile hcb hyes (List.range ms.length) w1 h1s (by
      rw [h1d, hms]
      intro i hi e he
      obtain ⟨ns, m, h1, h2, -⟩ := htree.names e (hes ▸ List.mem_filterMap.2 ⟨i, hi, he⟩)
      exact ⟨ns, h1, h2⟩)
    rw [h1d, hms, hes] at he2
    rw [Prog.bind_ok he2]
    have h2l : ∀ q, w2.look q = w.look q := fun q => (World.look_congr hsf.dir q).trans (h1l q)
    have h2s : w2.sched = [] := List.suffix_nil.1 (h1s ▸ hsf.sched)
    have hp2 : ParentsOk w2 := by intro k hk; rw [h2l, h2l]; exact hp k hk
    generalize hT' : req.outputDir = out at *
    let S : Path → Prop := fun q => ∃ p ∈ (es.filter (·.2.2)).map (·.1) ++ [out], OnTheWay p q
    -- where directories are made
    have hS : ∀ q, S q → OnTheWay out q ∨ ∃ ns ms' i, ns ≠ [] ∧ (out.push (ms'.map .name), i, true) ∈ es ∧ ns <+: ms' ∧ q = onPaper out ++ ns := by
      rintro q ⟨p, hpm, pre, hpre, rfl⟩
      rcases List.mem_append.1 hpm with hpm | hpm
      · obtain ⟨e, he, rfl⟩ := List.mem_map.1 hpm
        obtain ⟨he, hb⟩ := List.mem_filter.1 he
        obtain ⟨p, i, b⟩ := e
        have hb : b = true := hb
        subst hb
        obtain ⟨ns, m, hns, rfl, -⟩ := htree.names _ he
        change pre <+: out.comps ++ ns.map .name at hpre
        rcases List.prefix_or_prefix_of_prefix hpre (List.prefix_append out.comps (ns.map .name)) with h | ⟨l, rfl⟩
        · exact .inl ⟨pre, h, rfl⟩
        · have hl := (List.prefix_append_right_inj _).1 hpre
          rw [List.prefix_iff_eq_take, ← List.map_take] at hl
          by_cases h0 : l = []
          · subst h0
            exact .inl ⟨out.comps, List.prefix_refl _, by rw [List.append_nil]; rfl⟩
          · have hlen : l.length = (ns.take l.length).length := by
              have := congrArg List.length hl
              simpa using this
            have hq : lexical (out.push (ns.map .name)).start (out.comps ++ l) = onPaper out ++ ns.take l.length := by
              rw [hl, ← onPaper_push, List.length_map, ← hlen]; rfl
            refine .inr ⟨ns.take l.length, ns, i, ?_, he, List.take_prefix _ _, hq⟩
            intro h
            rw [h] at hlen
            exact h0 (List.length_eq_zero_iff.1 hlen)
      · cases List.mem_singleton.1 hpm
        exact .inl ⟨pre, hpre, rfl⟩
    have hstart : ∀ p ∈ (es.filter (·.2.2)).map (·.1) ++ [out], w2.look p.start = some .dir := by
      intro p hpm
      rw [h2l]
      rcases List.mem_append.1 hpm with hpm | hpm
      · obtain ⟨e, he, rfl⟩ := List.mem_map.1 hpm
        obtain ⟨ns, m, hns, hpe, -⟩ := htree.names _ (List.mem_filter.1 he).1
        rw [hpe]; exact hT.start
      · cases List.mem_singleton.1 hpm
        exact hT.start
    obtain ⟨r3, w3, he3, hg, hr3⟩ := Storage.mkdirThreads_cases (S := S) order ((es.filter (·.2.2)).map (·.1) ++ [out]) Error.storage
      (fun p hpm q hq => ⟨p, hpm, hq⟩) w2 hstart
    have hclear : Clear S w2 := ⟨h2s, hp2, fun q i hq hl => by
      rw [h2l] at hl
      rcases hS q hq with h | ⟨ns, ms', i', -, hi, hpre, rfl⟩
      · exact hT.way q i h hl
      · exact hT.dirs ms' i' hi ns i hpre hl⟩
    rcases hr3 with ⟨rfl, hmade⟩ | ⟨-, h⟩
    · rw [Prog.bind_ok (show spawnJoin order (dirThreads out es) w2 = _ from he3)]
      have h3s : w3.sched = [] := List.suffix_nil.1 (h2s ▸ hg.sched)
      have h3keep : ∀ q n, w.look q = some n → w3.look q = some n := by
        intro q n hq
        rcases hg.look q with h | ⟨h, -⟩
        · rw [h, h2l, hq]
        · rw [h2l, hq] at h; cases h
      have h3d : w3.data t = w.data t := by
        unfold World.data
        rw [hg.files, hg.fd, hsf.file, hsf.fd]; exact h1d
      have hmo : w3.resolve out = .ok (onPaper out) ∧ w3.look (onPaper out) = some .dir := by
        obtain ⟨q, h1, h2⟩ := hmade out (List.mem_append_right _ (List.mem_singleton.2 rfl))
        have := World.walk_lexical h1
        subst this
        exact ⟨h1, h2⟩
      have hmd : ∀ ns ms' i, (out.push (ms'.map .name), i, true) ∈ es → ns <+: ms' → w3.look (onPaper out ++ ns) = some .dir := by
        intro ns ms' i he hpre
        have := (hmade _ (List.mem_append_left _ (List.mem_map.2 ⟨_, List.mem_filter.2 ⟨he, rfl⟩, rfl⟩))).onTheWay (q := onPaper out ++ ns)
          ⟨out.comps ++ ns.map .name, (List.prefix_append_right_inj _).2 (hpre.map _), by rw [← onPaper_push]; rfl⟩
        exact this
      have h3new : ∀ q, w3.look q = w.look q ∨ (w.look q = none ∧ w3.look q = some .dir ∧ S q) := by
        intro q
        rcases hg.look q with h | ⟨h, h', h''⟩
        · exact .inl (h.trans (h2l q))
        · exact .inr ⟨(h2l q).symm.trans h, h', h''⟩
      have h3file : ∀ ns i, (out.push (ns.map .name), i, false) ∈ es → ns ≠ [] → w3.look (onPaper out ++ ns) = w.look (onPaper out ++ ns) := by
        intro ns i hi hns
        rcases h3new (onPaper out ++ ns) with h | ⟨-, -, h⟩
        · exact h
        · rcases hS _ h with h | ⟨ns', ms', k, -, hk, hpre, h⟩
          · exact absurd rfl (hT.inward _ h ns hns)
          · rw [List.append_cancel_left_eq] at h
            subst h
            exact absurd hpre (htree.apart ns i ms' k hi hk)
      have hfe : ∀ e ∈ es.filter (!·.2.2), ∃ ns, ns ≠ [] ∧ e.1 = out.push (ns.map .name) ∧ (out.push (ns.map .name), e.2.1, false) ∈ es := by
        intro e hem
        obtain ⟨hem, hb⟩ := List.mem_filter.1 hem
        obtain ⟨ns, m, hns, hpe, -⟩ := htree.names e hem
        refine ⟨ns, hns, hpe, ?_⟩
        obtain ⟨p, k, b⟩ := e
        have hb : b = false := by simpa using hb
        subst hb
        change p = _ at hpe
        subst hpe
        exact hem
      obtain ⟨w4, he4, h4s, h4l, h4f, h4o, h4d⟩ := extractAll_over z t out (es.filter (!·.2.2)) w3 h3s hmo.1 (by rw [hg.nextFd, hsf.nextFd, h1m]; exact ht)
        (by rw [hg.fd, hsf.fd, h1i, hg.nextIno, hsf.nextIno, h1n]; exact hti)
        (by
          intro e hem
          obtain ⟨hem, hb⟩ := List.mem_filter.1 hem
          obtain ⟨ns, m, hns, hpe, hm, ho, hsd⟩ := htree.names e hem
          have hfile : (out.push (ns.map .name), e.2.1, false) ∈ es := by
            obtain ⟨p, k, b⟩ := e
            have hb : b = false := by simpa using hb
            subst hb
            change p = _ at hpe
            subst hpe
            exact hem
          refine ⟨ns, m, hns, hpe, fun j hj => ?_, ?_, fun k hk => ?_, by rw [h3d, hms]; exact hm, ho, hsd⟩
          · by_cases h0 : j = 0
            · subst h0
              rw [List.take_zero, List.append_nil]; exact hmo.2
            · obtain ⟨pre, n, rfl⟩ : ∃ pre n, ns = pre ++ [n] := ⟨ns.dropLast, ns.getLast hns, (List.dropLast_concat_getLast hns).symm⟩
              have hle : j ≤ pre.length := by
                rw [List.length_append] at hj
                exact Nat.le_of_lt_succ hj
              obtain ⟨i, hi⟩ := htree.parent e hem (by simpa using hb) pre n hpe (by
                rintro rfl
                exact h0 (Nat.le_zero.1 hle))
              rw [List.take_append_of_le_length hle]
              exact hmd _ _ i hi (List.take_prefix _ _)
          · rw [h3file ns _ hfile hns]
            exact hT.files ns _ hfile
          · rw [h3file ns _ hfile hns] at hk
            have := hT.known ns _ hfile k hk
            rw [hg.fd, hsf.fd, h1i, hg.nextIno, hsf.nextIno, h1n]
            exact this)
        (by
          intro a ha b hb hab k
          obtain ⟨ns, hns, hpa, hma⟩ := hfe a ha
          obtain ⟨ns', hns', hpb, hmb⟩ := hfe b hb
          rw [hpa, hpb, onPaper_push, onPaper_push, h3file ns _ hma hns, h3file ns' _ hmb hns']
          exact hT.alone ns _ ns' _ hma hmb (fun h => hab (by rw [hpa, hpb, h])) k)
        (by
          have := htree.nodup
          exact this.sublist (List.filter_sublist.map _))
      refine ⟨w4, he4, h4s, ?_, ?_, ?_, ?_, ?_, ?_, ?_⟩
      · intro ns i he
        rw [h4l _ ?_]
        · exact hmd ns ns i he (List.prefix_refl _)
        · intro e hem heq
          obtain ⟨hem, hb⟩ := List.mem_filter.1 hem
          obtain ⟨ns', m, hns, hpe, -⟩ := htree.names e hem
          rw [hpe, onPaper_push, List.append_cancel_left_eq] at heq
          subst heq
          have := eq_of_nodup_map _ htree.nodup he hem hpe.symm
          rw [← this] at hb
          cases hb
      · intro ns i m he hm
        obtain ⟨j, hj, hl, hf⟩ := h4f _ (List.mem_filter.2 ⟨he, rfl⟩) m (by rw [h3d, hms]; exact hm)
        obtain ⟨ns', hns', hp', -⟩ := hfe _ (List.mem_filter.2 ⟨he, rfl⟩)
        have := push_inj hp'
        subst this
        rw [hg.nextIno, hsf.nextIno, h1n, onPaper_push, h3file ns i he hns'] at hj
        rw [onPaper_push] at hl
        exact ⟨j, hj, hl, hf⟩
      · intro q
        by_cases hfile : ∃ e ∈ es.filter (!·.2.2), q = onPaper e.1
        · obtain ⟨e, hem, rfl⟩ := hfile
          obtain ⟨ns, hns, hpe, hmem⟩ := hfe e hem
          rw [hpe, onPaper_push]
          exact .inr (.inr ⟨ns, ns, e.2.1, false, rfl, hns, hmem, List.prefix_refl _⟩)
        · rw [h4l _ fun e hem heq => hfile ⟨e, hem, heq⟩]
          rcases h3new q with h | ⟨-, -, h⟩
          · exact .inl h
          · rcases hS _ h with h | ⟨ns, ms', i, hns, hi, hpre, rfl⟩
            · exact .inr (.inl h)
            · exact .inr (.inr ⟨ns, ms', i, true, rfl, hns, hi, hpre⟩)
      · intro q hq
        rw [h4l _ ?_]
        · exact (hmade out (List.mem_append_right _ (List.mem_singleton.2 rfl))).onTheWay hq
        · intro e hem heq
          obtain ⟨ns', m, hns, hpe, -⟩ := htree.names e (List.mem_filter.1 hem).1
          rw [hpe, onPaper_push] at heq
          exact hT.inward q hq ns' hns heq
      · intro q n hq
        by_cases hfile : ∃ e ∈ es.filter (!·.2.2), q = onPaper e.1
        · obtain ⟨e, hem, rfl⟩ := hfile
          obtain ⟨ns, hns, hpe, hmem⟩ := hfe e hem
          obtain ⟨_, m, _, _, hm, -⟩ := htree.names e (List.mem_filter.1 hem).1
          obtain ⟨j, hj, hl, -⟩ := h4f e hem m (by rw [h3d, hms]; exact hm)
          have h3 := h3file ns _ hmem hns
          rw [← onPaper_push, ← hpe, hq] at h3
          rw [h3] at hj
          rcases hj with hj | ⟨hj, -⟩
          · rw [hl, hj]
          · cases hj
        · rw [h4l q fun e hem heq => hfile ⟨e, hem, heq⟩]
          exact h3keep q n hq
      · intro j hj hno
        rw [h4o j (by rw [hg.nextIno, hsf.nextIno, h1n]; exact hj) ?_, hg.files, hsf.file, h1f]
        intro e hem
        obtain ⟨ns, hns, hpe, hmem⟩ := hfe e hem
        rw [hpe, onPaper_push, h3file ns _ hmem hns]
        exact hno ns _ hmem
      · rw [h4d t (by rw [hg.nextFd, hsf.nextFd, h1m]; exact ht), hg.fd, hsf.fd, h1i]
    · exact absurd hclear h
  · rcases hno with h | h
    · exact absurd h1s h
    · rw [h1d, hms] at h; cases h

end Volaris.Unpack

namespace Volaris.Unpack

/-- What is there does not clash with the entries. -/
structure OverEntries (fs : List Storage.Entry) (out : PathBuf) (w : World) : Prop where
  start : w.look out.start = some .dir
  way : ∀ q i, OnTheWay out q → w.look q ≠ some (.file i)
  inward : ∀ q, OnTheWay out q → ∀ ns, ns ≠ [] → q ≠ onPaper out ++ ns
  dirs : ∀ p ns, Storage.Entry.dir p ∈ fs → Named (.dir p) ns → ∀ ms k, ms <+: ns → w.look (onPaper out ++ ms) ≠ some (.file k)
  files : ∀ p h ns, Storage.Entry.file p h ∈ fs → Named (.file p h) ns → w.look (onPaper out ++ ns) ≠ some .dir
  alone : ∀ p h ns p' h' ns', Storage.Entry.file p h ∈ fs → Named (.file p h) ns → Storage.Entry.file p' h' ∈ fs → Named (.file p' h') ns' → ns ≠ ns' → ∀ k, w.look (onPaper out ++ ns) = some (.file k) →
    w.look (onPaper out ++ ns') ≠ some (.file k)

/-- Unpacking a packed tree over what is there. -/
theorem execute_over (C : Crypto) {z : Zip} (hz : z.Lawful) (tmp : PathBuf) (order : List Nat) (req : Request) (w : World) (hs : w.sched = []) (htree : TreeOk w)
    (hcb : OnlyTalks (ask req.onZipFile)) (hyes : AcceptsAll req.outputDir (ask req.onZipFile)) (hcc : CanCreate w (tempPath tmp w))
    (hal : Allocated w) (htmp : ¬ onPaper req.outputDir <+: onPaper (tempPath tmp w) ∧ ¬ OnTheWay req.outputDir (onPaper (tempPath tmp w)))
    (hh : req.headerReader = none) (ho : OpenHandle w req.reader) {u : World} {fs : List Storage.Entry} (hfs : Packable u fs) (hT : OverEntries fs req.outputDir w)
    (hst : ∀ f ∈ fs, z.storable (Pack.stored u f).name) (hP : DecryptsTo C req.rawKey (w.rest req.reader) (z.encode (fs.map (Pack.stored u)))) :
    ∃ w', execute C z tmp order req w = (.ok (), w') ∧ (∀ p ns, Storage.Entry.dir p ∈ fs → Named (.dir p) ns → w'.look (onPaper req.outputDir ++ ns) = some .dir) ∧
      (∀ p h ns, Storage.Entry.file p h ∈ fs → Named (.file p h) ns → ∃ j, w'.look (onPaper req.outputDir ++ ns) = some (.file j) ∧ w'.file j = u.data h) ∧
      (∀ q, w'.look q = w.look q ∨ OnTheWay req.outputDir q ∨ ∃ ns ms, q = onPaper req.outputDir ++ ns ∧ (∃ f ∈ fs, Named f ms) ∧ ns <+: ms) ∧
      (∀ j, j < w.nextIno → (∀ p h ns, Storage.Entry.file p h ∈ fs → Named (.file p h) ns → w.look (onPaper req.outputDir ++ ns) ≠ some (.file j)) → w'.file j = w.file j) ∧ (∀ q, OnTheWay req.outputDir q → w'.look q = some .dir) ∧
      w'.sched = [] ∧ ∀ q n, w.look q = some n → w'.look q = some n := by
  unfold execute
  rcases createTempFile_cases tmp w with ⟨s, hss, hr, hl, he0⟩ | ⟨s, hss, he0, hno⟩
  · have hss := List.suffix_nil.1 (hs ▸ hss)
    subst hss
    rw [Prog.bind_ok (Prog.mapErr_ok he0)]
    have e1 : ∀ v, (Prog.lift (expectStream (Storage.Entry.file (tempPath tmp w) w.nextFd)) : Prog Error Nat) v = (.ok w.nextFd, v) := fun _ => rfl
    rw [Prog.bind_ok (e1 _)]
    have hne : onPaper (tempPath tmp w) ≠ [] := by intro h; rw [h, World.look_nil] at hl; cases hl
    have hl0 : (withTemp tmp w []).look (onPaper (tempPath tmp w)) = some (.file w.nextIno) := by
      show ((({ w.draw 16 with sched := [] } : World).created (onPaper (tempPath tmp w))).opened w.nextIno).look _ = _
      rw [World.look_opened, World.look_created, if_neg hne, if_pos rfl]
      rfl
    have hlo : ∀ q, q ≠ onPaper (tempPath tmp w) → (withTemp tmp w []).look q = w.look q := by
      intro q hq
      show ((({ w.draw 16 with sched := [] } : World).created (onPaper (tempPath tmp w))).opened w.nextIno).look _ = _
      rw [World.look_opened, World.look_created]
      split
      · next h => rw [h, World.look_nil]
      · rfl
    have hr0 : (withTemp tmp w []).resolve (tempPath tmp w) = .ok (onPaper (tempPath tmp w)) := by
      refine World.resolve_mono (w := w) (fun d hd => ?_) hr
      rw [hlo d (by rintro rfl; rw [hl] at hd; cases hd)]
      exact hd
    have hpar : w.look (onPaper (tempPath tmp w)).dropLast = some .dir := by
      obtain ⟨q, h1, h2, h3⟩ := hcc
      rw [hr] at h1
      cases h1
      exact h3
    have hdl : (onPaper (tempPath tmp w)).dropLast ≠ onPaper (tempPath tmp w) := by intro h; rw [h, hl] at hpar; cases hpar
    have hfdr : (withTemp tmp w []).fd req.reader = w.fd req.reader := if_neg (Nat.ne_of_lt ho.1)
    have hfdt : (withTemp tmp w []).fd w.nextFd = { ino := w.nextIno, pos := 0 } := if_pos rfl
    have hfi : (withTemp tmp w []).file (w.fd req.reader).ino = w.file (w.fd req.reader).ino := if_neg (Nat.ne_of_lt ho.2)
    have hask : Asks (decryptRequest req w.nextFd) (withTemp tmp w []) req.rawKey (w.rest req.reader) := by
      refine ⟨hh, rfl, Nat.ne_of_lt ho.1, ?_, ?_⟩
      · show ((withTemp tmp w []).fd req.reader).ino ≠ ((withTemp tmp w []).fd w.nextFd).ino
        rw [hfdr, hfdt]
        exact Nat.ne_of_lt ho.2
      · show (withTemp tmp w []).rest req.reader = _
        unfold World.rest World.data
        rw [hfdr, hfi]
    obtain ⟨v', hd, hw, ht⟩ := hP _ _ hask rfl
    have hsv : v'.sched = [] := by
      have := Shrinks.decrypt C (decryptRequest req w.nextFd) (withTemp tmp w [])
      rw [hd] at this
      exact List.suffix_nil.1 this
    have hdat : v'.data w.nextFd = z.encode (fs.map (Pack.stored u)) := by
      have := hw.content
      change v'.file ((withTemp tmp w []).fd w.nextFd).ino = writeAt ((withTemp tmp w []).file ((withTemp tmp w []).fd w.nextFd).ino) ((withTemp tmp w []).fd w.nextFd).pos _ at this
      rw [hfdt] at this
      have hf0 : (withTemp tmp w []).file w.nextIno = [] := if_pos rfl
      simp only [hf0, writeAt_zero] at this
      unfold World.data
      rw [ht.inos, hfdt, this]
      simp
    have hlv : ∀ q, v'.look q = (withTemp tmp w []).look q := World.look_congr ht.dir
    change ∃ w', ((Decrypt.execute C (decryptRequest req w.nextFd)).mapErr Error.decrypt >>= _) (withTemp tmp w []) = _ ∧ _
    rw [Prog.bind_ok (Prog.mapErr_ok hd)]
    have hfl : (Storage.fileLen (.file (tempPath tmp w) w.nextFd)) v' = (.ok (v'.data w.nextFd).length, v') := by
      have e2 : (Prog.lift (Storage.Entry.file (tempPath tmp w) w.nextFd).stream : Prog Storage.Error Nat) v' = (.ok w.nextFd, v') := rfl
      unfold Storage.fileLen
      rw [Prog.bind_ok e2]
      refine Prog.mapErr_ok ?_
      unfold Volaris.fileLen
      rw [Prog.bind_ok (sys_nil hsv)]; rfl
    rw [Prog.bind_ok (Prog.mapErr_ok hfl)]
    have hms : z.decode (v'.data w.nextFd) = some (fs.map (packed u)) := by
      rw [hdat, hz.decode_encode _ (stored_nodup hfs u) (by
        intro e he
        obtain ⟨f, hf, rfl⟩ := List.mem_map.1 he
        exact hst f hf), List.map_map]
      rfl
    have hout : ∀ ns, onPaper req.outputDir ++ ns ≠ onPaper (tempPath tmp w) := fun ns h => htmp.1 ⟨ns, h⟩
    have hlT : ∀ ns, v'.look (onPaper req.outputDir ++ ns) = w.look (onPaper req.outputDir ++ ns) := fun ns => by rw [hlv, hlo _ (hout ns)]
    have hch : ∀ ns i b, (req.outputDir.push (ns.map .name), i, b) ∈ (List.range (fs.map (packed u)).length).filterMap (pick req.outputDir (some (fs.map (packed u)))) →
        ∃ f ∈ fs, Named f ns ∧ b = entryIsDir f := by
      intro ns i b hm
      obtain ⟨f, ns', hf, hn, hp, hb⟩ := (mem_chosen hfs _ _ _ _).1 hm
      have := push_inj hp
      subst this
      exact ⟨f, List.mem_of_getElem? hf, hn, hb⟩
    have hTv : Over req.outputDir ((List.range (fs.map (packed u)).length).filterMap (pick req.outputDir (some (fs.map (packed u))))) w.nextFd v' := by
      refine ⟨?_, ?_, hT.inward, ?_, ?_, ?_, ?_⟩
      · rw [hlv, hlo _ (by intro h; have := hT.start; rw [h, hl] at this; cases this)]; exact hT.start
      · intro q i hq
        rw [hlv, hlo q (by rintro rfl; exact htmp.2 hq)]
        exact hT.way q i hq
      · intro ns i hm ms k hpre
        rw [hlT]
        obtain ⟨f, hf, hn, hb⟩ := hch ns i _ hm
        cases f with
        | file p h => cases hb
        | dir p => exact hT.dirs p ns hf hn ms k hpre
      · intro ns i hm
        rw [hlT]
        obtain ⟨f, hf, hn, hb⟩ := hch ns i _ hm
        cases f with
        | dir p => cases hb
        | file p h => exact hT.files p h ns hf hn
      · intro ns i ns' i' hm hm' hne k
        rw [hlT, hlT]
        obtain ⟨f, hf, hn, hb⟩ := hch ns i _ hm
        obtain ⟨f', hf', hn', hb'⟩ := hch ns' i' _ hm'
        cases f with
        | dir p => cases hb
        | file p h =>
          cases f' with
          | dir p => cases hb'
          | file p' h' => exact hT.alone p h ns p' h' ns' hf hn hf' hn' hne k
      · intro ns i hm k hk
        rw [hlT] at hk
        have := hal _ _ hk
        rw [ht.nextIno, ht.inos, hfdt]
        exact ⟨Nat.lt_succ_of_lt this, Nat.ne_of_lt this⟩
    have hpv : ParentsOk v' := by
      intro k hk hsome
      rw [hlv] at hsome ⊢
      by_cases hkt : k = onPaper (tempPath tmp w)
      · subst hkt
        rw [hlo _ hdl]; exact hpar
      · rw [hlo k hkt] at hsome
        have := htree.parentsOk k hk hsome
        rw [hlo _ (by intro h; rw [h, hl] at this; cases this)]
        exact this
    obtain ⟨w3, he3, hs3, hdirs, hfiles, honly, hroot, hkeep, hcont, hino⟩ := recover_over z order w.nextFd req hcb hyes v' hsv hpv
      (by rw [ht.nextFd]; exact Nat.lt_succ_self _) (by rw [ht.inos, hfdt, ht.nextIno]; exact Nat.lt_succ_self _) hms rfl (tree_packed hfs req.outputDir) hTv
    rw [Prog.bind_ok he3]
    have hl3 : w3.look (onPaper (tempPath tmp w)) = some (.file w.nextIno) := hkeep _ _ (by rw [hlv]; exact hl0)
    have hr3 : w3.resolve (tempPath tmp w) = .ok (onPaper (tempPath tmp w)) := by
      refine World.resolve_mono (w := withTemp tmp w []) (fun d hd => ?_) hr0
      exact hkeep d _ (by rw [hlv]; exact hd)
    obtain ⟨r1, r2, w4, w5, h1, h2, h3, h4, h5, h6, h7, -⟩ := cleanup_nil (ε := Error) (t := w.nextFd) (v'.data w.nextFd).length 1 hs3 hr3 hl3 (by rw [hino, ht.inos, hfdt])
    rw [Prog.bind_ok h1, Prog.bind_ok h2]
    refine ⟨w5, rfl, ?_, ?_, fun q => ?_, fun j hj hno => ?_, ?_, h7, fun q n hq => ?_⟩
    · intro p ns hp hn
      obtain ⟨i, hi⟩ := List.getElem?_of_mem hp
      rw [h4 _ (hout ns)]
      exact hdirs ns i ((mem_chosen hfs _ _ _ _).2 ⟨_, ns, hi, hn, rfl, rfl⟩)
    · intro p h ns hp hn
      obtain ⟨i, hi⟩ := List.getElem?_of_mem hp
      obtain ⟨j, hj, hl, hc⟩ := hfiles ns i (packed u (.file p h)) ((mem_chosen hfs _ _ _ _).2 ⟨_, ns, hi, hn, rfl, rfl⟩) (by simp [hi])
      refine ⟨j, by rw [h4 _ (hout ns)]; exact hl, ?_⟩
      have hjn : j ≠ w.nextIno := by
        rcases hj with hj | ⟨-, hj⟩
        · rw [hlT] at hj
          exact Nat.ne_of_lt (hal _ _ hj)
        · rw [ht.nextIno] at hj; exact Nat.ne_of_gt hj
      rw [h6 j hjn, hc]
      show u.rest h = u.data h
      unfold World.rest
      rw [(hfs.opened p h hp).2, List.drop_zero]
    · by_cases hqt : q = onPaper (tempPath tmp w)
      · subst hqt
        exact .inl (h3.trans hl.symm)
      · rw [h4 _ hqt]
        rcases honly q with h | h | ⟨ns, ms, i, b, rfl, -, hm, hpre⟩
        · exact .inl (by rw [h, hlv, hlo _ hqt])
        · exact .inr (.inl h)
        · obtain ⟨f, hf, hn, -⟩ := hch ms i b hm
          exact .inr (.inr ⟨ns, ms, rfl, ⟨f, hf, hn⟩, hpre⟩)
    · rw [h6 j (Nat.ne_of_lt hj), hcont j (by rw [ht.nextIno]; exact Nat.lt_succ_of_lt hj) ?_, ht.files j ?_]
      · exact if_neg (Nat.ne_of_lt hj)
      · intro h hh
        rcases List.mem_singleton.1 hh with rfl
        show ((withTemp tmp w []).fd w.nextFd).ino ≠ j
        rw [hfdt]
        exact Nat.ne_of_gt hj
      · intro ns i hm
        rw [hlT]
        obtain ⟨f, hf, hn, hb⟩ := hch ns i _ hm
        cases f with
        | dir p => cases hb
        | file p h => exact hno p h ns hf hn
    · intro q hq
      have : q ≠ onPaper (tempPath tmp w) := by rintro rfl; exact htmp.2 hq
      rw [h4 _ this]; exact hroot q hq
    · have hqt : q ≠ onPaper (tempPath tmp w) := by rintro rfl; rw [hl] at hq; cases hq
      rw [h4 _ hqt]
      exact hkeep _ _ (by rw [hlv, hlo _ hqt]; exact hq)
  · rcases hno with h | h
    · exact absurd hs h
    · obtain ⟨q, h1, h2, h3⟩ := hcc
      exact absurd h3 (h q h1 h2)


end Volaris.Unpack

namespace Volaris.Cli
open Volaris.Pack
variable {σ : Type}

/-- Told to overwrite, the callback of the command accepts everything. -/
theorem onZipFile_forced (verbose : Bool) (out : PathBuf) : AcceptsAll out (Unpack.ask (some (onZipFile .forced verbose))) := by
  intro ns v hns
  show (onZipFile .forced verbose (out.push (ns.map .name)) v).1 = _
  obtain ⟨n, hf⟩ : ∃ n, fileName (out.push (ns.map .name)) = some n := by
    obtain ⟨ms, n, rfl⟩ : ∃ ms n, ns = ms ++ [n] := ⟨ns.dropLast, ns.getLast hns, (List.dropLast_concat_getLast hns).symm⟩
    refine ⟨n, fileName_iff.2 ?_⟩
    show (out.comps ++ (ms ++ [n]).map Comp.name).getLast? = _
    simp
  rw [onZipFile_eq hf]
  have e1 : (do if ← existsAt (out.push (ns.map .name)) then expect (getAnswer (overwritePrompt n) true .forced) else pure true : Prog Unpack.Error Bool) v = (.ok true, v) := by
    rcases existsAt_iff (ε := Unpack.Error) (out.push (ns.map .name)) v with ⟨h, -⟩ | ⟨h, -⟩ <;> rw [Prog.bind_ok h] <;> rfl
  rw [Prog.bind_ok e1]
  cases verbose <;> rfl

/-- The unpack command without faults, on an archive of entries, over what is there. -/
theorem unpackMode_over (s : Sys σ) (hz : s.z.Lawful) (cwd : Path) (inputs : List (List Char)) (w : World) (input output : List Char) (verbose : Bool) (params : CryptoParams) (secret c : Bytes) {v u : World}
    (h : OverReady s cwd inputs w input output params secret c v) {fs : List Storage.Entry} (hlist : Listing cwd inputs w u fs) (hsrc : ∀ f ∈ inputs, ∃ ns, Plainly cwd f ns)
    (hfs : Packable u fs) (hst : ∀ f ∈ fs, s.z.storable (stored u f).name) (hP : DecryptsTo s.C secret c (s.z.encode (fs.map (stored u)))) :
    ∃ v', unpackMode s input output verbose params v = (.ok (), v') ∧ Overlaid (fun _ => False) cwd inputs w (toPath s.cwd output) v v' := by
  have named : ∀ {f ns ms} (e : Storage.Entry), Plainly cwd f ns → pathOf e = (toPath cwd f).push (ms.map .name) → Named e (ns ++ ms) := by
    intro f ns ms e hp he
    refine ⟨by rw [he]; exact hp.relative, ?_⟩
    rw [he]
    show (toPath cwd f).comps ++ _ = _
    rw [hp.names, List.map_append]
  have from_ : ∀ (e : Storage.Entry) x, e ∈ fs → Named e x → (e = .dir (pathOf e) ∧ PackedAs cwd inputs w .dir x) ∨ ∃ h i, e = .file (pathOf e) h ∧ PackedAs cwd inputs w (.file i) x := by
    intro e x he hn
    obtain ⟨f, hf, D, zs, hD, hpe, hk⟩ := hlist.only e he
    obtain ⟨ns, hp⟩ := hsrc f hf
    have hx : x = ns ++ zs := by
      have := (named e hp hpe).2
      rw [hn.2] at this
      exact List.map_inj_right (fun _ _ h => Comp.name.inj h) |>.1 this
    rcases hk with ⟨h1, h2⟩ | ⟨hd, i, h1, h2, -⟩
    · exact .inl ⟨h1, f, hf, ns, D, zs, hp, hD, h2, hx⟩
    · exact .inr ⟨hd, i, h1, f, hf, ns, D, zs, hp, hD, h2, hx⟩
  have fromDir : ∀ p x, Storage.Entry.dir p ∈ fs → Named (.dir p) x → PackedAs cwd inputs w .dir x := by
    intro p x he hn
    rcases from_ _ x he hn with h | ⟨_, _, h, -⟩
    · exact h.2
    · cases h
  have fromFile : ∀ p g x, Storage.Entry.file p g ∈ fs → Named (.file p g) x → ∃ i, PackedAs cwd inputs w (.file i) x := by
    intro p g x he hn
    rcases from_ _ x he hn with h | ⟨_, i, -, h⟩
    · cases h.1
    · exact ⟨i, h⟩
  obtain ⟨q, i, hq, rfl⟩ := h.source
  have e1 := readInput_nil h.faultless hq
  obtain ⟨w3, e3⟩ := getSecret_nil (w := v.opened i) h.faultless h.key.1 (Supplies.congr (w := v) rfl rfl rfl rfl rfl rfl h.key.2)
  have l3 := (getSecret_looks (v.opened i).nextFd s.words s.cwd params.key .direct (v.opened i) (Nat.le_refl _)).1
  rw [e3] at l3
  replace l3 : Looked (v.opened i).nextFd (v.opened i) w3 := l3
  have hs3 : w3.sched = [] := List.suffix_nil.1 ((show (v.opened i).sched = [] from h.faultless) ▸ l3.sched)
  have hd3 : w3.dir = v.dir := l3.dir
  have hf3 : w3.file = v.file := l3.file
  have hn3 : w3.nextIno = v.nextIno := l3.nextIno
  have hfd3 : w3.fd v.nextFd = { ino := i, pos := 0 } := by
    rw [l3.fds _ (Nat.lt_succ_self _)]; exact opened_fd v i
  have hlt3 : v.nextFd < w3.nextFd := Nat.lt_of_lt_of_le (Nat.lt_succ_self _) l3.nextFd
  have hlook : ∀ x, w3.look x = v.look x := World.look_congr hd3
  have hname : tempPath s.tmp w3 = tempFile s params.key v := by
    unfold tempPath tempFile tape
    rw [List.map_map]
    congr 3
    refine List.map_congr_left fun k _ => ?_
    show Storage.alphanumeric (w3.rng (0 + k)) = _
    rw [Conc.getSecret_drew e3, Nat.zero_add]
    rfl
  obtain ⟨t, ht1, ht2, ht3⟩ := h.temp.1
  obtain ⟨v4, e4, hdirs, hfiles, hnew, hcont, hroot, hs4, hkeep⟩ := Unpack.execute_over s.C hz s.tmp s.order
    { reader := v.nextFd, headerReader := none, rawKey := secret, outputDir := toPath s.cwd output, onZipFile := some (onZipFile params.force verbose) } w3 hs3 (h.tree.congr hd3)
    (onZipFile_talks params.force verbose) (by rw [h.forced]; exact onZipFile_forced verbose _)
    (by rw [hname]; exact ⟨t, by rw [World.resolve_congr hd3]; exact ht1, by rw [hlook]; exact ht2, by rw [hlook]; exact ht3⟩)
    (fun x k hx => by rw [hn3]; exact h.allocated x k (by rw [← hlook]; exact hx))
    (by rw [hname]; exact h.temp.2) rfl ⟨hlt3, by rw [hfd3, hn3]; exact h.allocated _ _ hq.look⟩ hfs
    { start := by rw [hlook]; exact h.target.start
      way := fun x k hx => by rw [hlook]; exact h.target.way x k hx
      inward := h.target.inward
      dirs := fun p ns hp hn ms k hpre => by rw [hlook]; exact h.target.dirs ns (fromDir p ns hp hn) ms k hpre
      files := fun p g ns hp hn => by
        obtain ⟨i, hi⟩ := fromFile p g ns hp hn
        rw [hlook]; exact h.target.files ns i hi
      alone := fun p g ns p' g' ns' hp hn hp' hn' hne k => by
        obtain ⟨i, hi⟩ := fromFile p g ns hp hn
        obtain ⟨i', hi'⟩ := fromFile p' g' ns' hp' hn'
        rw [hlook, hlook]; exact h.target.alone ns i ns' i' hi hi' hne k }
    hst (by
      show DecryptsTo s.C secret ((w3.file (w3.fd v.nextFd).ino).drop (w3.fd v.nextFd).pos) _
      rw [hfd3, hf3]; exact hP)
  have hin4 : LeadsToFile v4 (toPath s.cwd input) q i :=
    ⟨World.resolve_mono (w := v) (fun d hd => hkeep d _ (by rw [hlook]; exact hd)) hq.resolve, hkeep _ _ (by rw [hlook]; exact hq.look)⟩
  obtain ⟨v5, e5⟩ := hashIf_nil s params.hashMode hs4 hin4
  have l5 := (hashIf_looks s v4.nextFd params.hashMode input v4 (Nat.le_refl _)).1
  rw [e5] at l5
  replace l5 : Looked v4.nextFd v4 v5 := l5
  have hway : ∀ q, OnTheWay (toPath s.cwd output) q → v5.look q = some .dir := fun q hq => by rw [l5.look]; exact hroot q hq
  refine ⟨v5, ?_, hway _ ⟨_, List.prefix_refl _, rfl⟩, hway, ?_, ?_, ?_, ?_, ?_⟩
  · unfold unpackMode
    rw [Prog.bind_ok e1, h.header, Prog.bind_ok (show readHeader s none (v.opened i) = (.ok none, v.opened i) from rfl), Prog.bind_ok e3, Prog.bind_ok (streamOf_file _ _ w3)]
    change ((Unpack.execute s.C s.z s.tmp s.order
      { reader := v.nextFd, headerReader := none, rawKey := secret, outputDir := toPath s.cwd output, onZipFile := some (onZipFile params.force verbose) }).mapErr Error.unpack >>= _) w3 = _
    rw [Prog.bind_ok (Prog.mapErr_ok e4)]
    exact e5
  · rintro x ⟨f, hf, ns, D, ms, hp, hD, hl, rfl⟩
    rw [l5.look]
    exact hdirs _ _ (hlist.dirs f hf D hD ms hl) (named _ hp rfl)
  · rintro x k ⟨f, hf, ns, D, ms, hp, hD, hl, rfl⟩
    obtain ⟨g, h1, h2, h3⟩ := hlist.files f hf D hD ms k hl
    obtain ⟨j, h4, h5⟩ := hfiles _ _ _ h1 (named _ hp rfl)
    refine ⟨j, by rw [l5.look]; exact h4, ?_⟩
    rw [l5.file, h5]
    unfold World.data
    rw [h2, h3]
  · intro x n hx
    rw [l5.look]
    exact hkeep x n (by rw [hlook]; exact hx)
  · intro x hx
    rw [l5.look, ← hlook] at hx
    rcases hnew x with h | h | ⟨y, z, rfl, ⟨e, he, hn⟩, hpre⟩
    · exact absurd h hx
    · exact .inl h
    · refine .inr (.inl ?_)
      rcases from_ e z he hn with ⟨-, h⟩ | ⟨_, k, -, h⟩
      · exact ⟨y, z, _, rfl, h, hpre⟩
      · exact ⟨y, z, _, rfl, h, hpre⟩
  · intro k hk hno
    rw [l5.file, hcont k (by rw [hn3]; exact hk) ?_, hf3]
    intro p g ns hp hn
    obtain ⟨i', hi⟩ := fromFile p g ns hp hn
    rw [hlook]
    exact hno ns i' hi

end Volaris.Cli
