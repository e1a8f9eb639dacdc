import Verif.Proofs.Retry
import Verif.Props.TreeCmd
import Verif.Proofs.PackSession
/-!
# Packing that is killed and started again
-/
namespace Volaris.Cli
open Volaris.Spec Volaris.Props
variable {σ : Type}

/-- Any number of attempts: what every attempt keeps, unless it gets to the point `Q`, is kept. -/
theorem killed_keeps {cmd : ForceMode → Prog Error Unit} {Q : World → World → Prop} (I : World → Prop) (hd : ∀ w v : World, v.disk = w.disk → I w → I v)
    (hc : ∀ force (w v : World), I w → (∀ k, Io.short k ∉ w.sched) → StoppedAt (cmd force) w v → I v ∨ Q w v) {w v : World} (hk : Killed cmd w v) :
    I w → I v ∨ OneOfThem cmd w v Q := by
  induction hk with
  | never h => exact fun hi => .inl (hd _ _ h hi)
  | @again w u v force hns h hn ih =>
    intro hi
    rcases hc force w u hi hns h with h1 | h1
    · rcases ih h1 with h2 | ⟨f, x, y, h2, h3, h4, h5⟩
      · exact .inl h2
      · exact .inr ⟨f, x, y, .again force hns h h2, h3, h4, h5⟩
    · exact .inr ⟨force, w, u, .never rfl, h, hn, h1⟩

/-- Where packing may write at all. -/
def AnyPackTarget (s : Sys σ) (output : List Char) (w : World) (q : Path) : Prop := AnyTarget s.cwd output none w q ∨ (TempPlace s.tmp q ∧ w.look q = none)

theorem After.packTarget {F : Path → Prop} {s : Sys σ} {output : List Char} {w v : World} (h : After F w v) (q : Path) (hq : AnyPackTarget s output v q) : AnyPackTarget s output w q := by
  rcases hq with hq | ⟨h1, h2⟩
  · exact .inl ((h.target _ _ _ _).1 hq)
  · refine .inr ⟨h1, ?_⟩
    cases hl : w.look q with
    | none => rfl
    | some n => rw [h.keeps hl] at h2; cases h2

section
variable {s : Sys σ} {inputs : List (List Char)} {output : List Char} {w v : World}

theorem After.leadsDir {F : Path → Prop} (h : After F w v) (p : PathBuf) (T : Path) : LeadsToDir v p T ↔ LeadsToDir w p T :=
  ⟨fun g => ⟨(h.resolves _ _).1 g.resolve, (h.dir_iff _).1 g.look⟩, fun g => ⟨(h.resolves _ _).2 g.resolve, (h.dir_iff _).2 g.look⟩⟩

theorem After.inSource {F : Path → Prop} (h : After F w v) (cwd : Path) (inputs : List (List Char)) (x : Path) : InSource cwd inputs v x ↔ InSource cwd inputs w x := by
  unfold InSource
  simp only [h.leadsDir]

variable (g : PackGround s inputs output w) (h : After (AnyPackTarget s output w) w v)
include g h

theorem _root_.Volaris.Spec.PackGround.look {x : Path} (hx : InSource s.cwd inputs w x) : v.look x = w.look x := by
  rcases h.look x with e | ⟨-, e, -⟩
  · exact e
  · rcases e with (e | ⟨_, e, _⟩) | ⟨e, e'⟩
    · exact absurd hx (g.outside.out x e).1
    · cases e
    · exact absurd hx (g.temps x e e')

theorem _root_.Volaris.Spec.PackGround.file {x : Path} {i : Nat} (hx : InSource s.cwd inputs w x) (hl : w.look x = some (.file i)) : v.file i = w.file i := by
  refine h.files i (g.outside.allocated x i hl) ?_
  rintro q ((e | ⟨_, e, _⟩) | ⟨-, e⟩) hq
  · exact (g.outside.out q e).2 i hq x hx hl
  · cases e
  · rw [e] at hq; cases hq

theorem _root_.Volaris.Spec.PackGround.archives (l : List ZipEntry) : Archives s.cwd inputs v l ↔ Archives s.cwd inputs w l := by
  have hin : ∀ f ∈ inputs, ∀ T, LeadsToDir w (toPath s.cwd f) T → ∀ ns, InSource s.cwd inputs w (T ++ ns) := fun f hf T hT ns => ⟨f, hf, T, hT, List.prefix_append _ _⟩
  constructor
  · intro a
    refine ⟨fun f hf T hT ns i hi => ?_, fun f hf T hT ns hi => ?_, fun e he => ?_⟩
    · have hs := hin f hf T hT ns
      rw [← g.file h hs hi]
      exact a.files f hf T ((h.leadsDir _ _).2 hT) ns i ((g.look h hs).trans hi)
    · exact a.dirs f hf T ((h.leadsDir _ _).2 hT) ns ((g.look h (hin f hf T hT ns)).trans hi)
    · obtain ⟨f, hf, T, hT, ns, hk⟩ := a.only e he
      have hT := (h.leadsDir _ _).1 hT
      have hs := hin f hf T hT ns
      rw [g.look h hs] at hk
      refine ⟨f, hf, T, hT, ns, hk.imp (fun ⟨i, h1, h2⟩ => ⟨i, h1, ?_⟩) id⟩
      rw [← g.file h hs h1]
      exact h2
  · intro a
    refine ⟨fun f hf T hT ns i hi => ?_, fun f hf T hT ns hi => ?_, fun e he => ?_⟩
    · have hT := (h.leadsDir _ _).1 hT
      have hs := hin f hf T hT ns
      rw [g.look h hs] at hi
      rw [g.file h hs hi]
      exact a.files f hf T hT ns i hi
    · have hT := (h.leadsDir _ _).1 hT
      rw [g.look h (hin f hf T hT ns)] at hi
      exact a.dirs f hf T hT ns hi
    · obtain ⟨f, hf, T, hT, ns, hk⟩ := a.only e he
      have hs := hin f hf T hT ns
      refine ⟨f, hf, T, (h.leadsDir _ _).2 hT, ns, ?_⟩
      rw [g.look h hs]
      refine hk.imp (fun ⟨i, h1, h2⟩ => ⟨i, h1, ?_⟩) id
      rw [g.file h hs h1]
      exact h2

theorem _root_.Volaris.Spec.PackGround.out : Outside s.cwd inputs output none v where
  allocated := h.allocated
  out q hq := by
    have hq := (h.resolves _ _).1 hq
    obtain ⟨h1, h2⟩ := g.outside.out q hq
    refine ⟨fun hi => h1 ((h.inSource _ _ _).1 hi), fun i hi x hx hl => ?_⟩
    have hx := (h.inSource _ _ _).1 hx
    obtain ⟨k1, k2⟩ := h.unshared q x i (by rintro rfl; exact h1 hx) hi hl
    exact h2 i k1 x hx k2
  hdr hd e := by cases e

/-- The ground is still good after attempts that did not get to erasing. -/
theorem _root_.Volaris.Spec.PackGround.after (ht : TreeOk v) : PackGround s inputs output v where
  tree := ht
  sources f hf := ⟨(g.sources f hf).1, (g.sources f hf).2.imp fun T hT => (h.leadsDir _ _).2 hT⟩
  disjoint := g.disjoint
  below := by
    refine ⟨fun f hf T hT ns hl => ?_, fun f hf T hT ns n i hl => ?_⟩
    · have hT := (h.leadsDir _ _).1 hT
      rw [g.look h ⟨f, hf, T, hT, List.prefix_append _ _⟩] at hl
      exact g.below.plain f hf T hT ns hl
    · have hT := (h.leadsDir _ _).1 hT
      rw [g.look h ⟨f, hf, T, hT, by rw [List.append_assoc]; exact List.prefix_append _ _⟩] at hl
      exact g.below.backslash f hf T hT ns n i hl
  outside := g.out h
  temps q hq hn hi := by
    have hi := (h.inSource _ _ _).1 hi
    exact g.temps q hq (by rw [← g.look h hi]; exact hn) hi
  target := h.canHold g.target
  storable l hl := g.storable l ((g.archives h l).1 hl)
  size l hl := g.size l ((g.archives h l).1 hl)

end

theorem After.kept {F : Path → Prop} {C : Crypto} {cwd : Path} {inputs : List (List Char)} {output : List Char} {secret p : Bytes} {w x u : World} (h : After F w x)
    (hk : Spec.Keeps C cwd inputs output none secret p x u) : Spec.Keeps C cwd inputs output none secret p w u := by
  obtain ⟨j, ⟨q, h1, h2, h3, h4⟩, h5⟩ := hk
  exact ⟨j, ⟨q, (h.resolves _ _).1 h1, fun hi => h2 ((h.inSource _ _ _).2 hi), h3, fun y hy => h4 y ((h.inSource _ _ _).2 hy)⟩, h5⟩

theorem pack_after (s : Sys σ) (inputs : List (List Char)) (output : List Char) (params : CryptoParams) (a : Algorithm) (hh : params.header = none) {w v : World} (hal : Allocated w) (ht : TreeOk w)
    (hv : StoppedAt (packMode s inputs output ⟨false⟩ params a) w v) : After (AnyPackTarget s output w) w v ∧ TreeOk v := by
  constructor
  · refine .stopped (packMode_crashes _ _ _ _ _ _) hal hv fun sc r w' he => ?_
    have hwp := packMode_wp s inputs output ⟨false⟩ params a (w.withSched sc) (treeOk_withSched sc ht)
    unfold wp at hwp
    rw [he] at hwp
    have ht : Trail (PackTargets s output params (w.withSched sc)) (w.withSched sc) w' := by
      rcases hwp with ⟨h, -⟩ | ⟨u, secret, h, -, -, -, -, e⟩
      · exact h
      · cases e; exact h
    refine ht.mono fun q hq => ?_
    rcases hq with (⟨_, h⟩ | ⟨hd, e, _⟩) | ⟨h1, h2⟩
    · exact .inl ((anyTarget_withSched sc q).1 (.inl h))
    · rw [hh] at e; cases e
    · exact .inr ⟨h1, h2⟩
  · obtain ⟨sc, r, w', he, hd⟩ := (packMode_crashes s inputs output ⟨false⟩ params a).stopped hv
    have := (packMode_crashes s inputs output ⟨false⟩ params a (w.withSched sc)).tree (treeOk_withSched sc ht)
    rw [he] at this
    exact this.congr (disk_dir hd)

/-- An attempt to pack that was killed: before it came to erasing, or the archive is complete. -/
theorem pack_killed (s : Sys σ) (hC : s.C.Lawful) (inputs : List (List Char)) (output : List Char) (pp : PackParams) (params : CryptoParams) (a : Algorithm) (hh : params.header = none) {w v : World}
    (hns : ∀ k, Io.short k ∉ w.sched) (ht : TreeOk w) (ho : Outside s.cwd inputs output none w) (hv : StoppedAt (packMode s inputs output pp params a) w v) :
    (After (AnyPackTarget s output w) w v ∧ TreeOk v) ∨
      (pp.eraseSource = true ∧ ∃ secret l, SuppliedTo s .validate params.key w secret ∧ Archives s.cwd inputs w l ∧ Readable s.z l ∧ Spec.Keeps s.C s.cwd inputs output none secret (s.z.encode l) w v) := by
  rcases pp with ⟨_ | _⟩
  · exact .inl (pack_after s inputs output params a hh ho.allocated ht hv)
  · rw [packMode_split] at hv
    rcases Crashes.stopped_bind (packMode_crashes _ _ _ _ _ _) (fun _ => eraseInputs_crashes _ _ _) hv with hv | ⟨_, u, hu, hv⟩
    · exact .inl (pack_after s inputs output params a hh ho.allocated ht hv)
    · have hwp := packMode_wp s inputs output ⟨false⟩ params a w ht
      unfold wp at hwp
      rw [hu] at hwp
      rcases hwp with ⟨_, h⟩ | ⟨u', secret, h1, h2, h3, h4, h5, h6⟩
      · exact absurd rfl h
      · cases h6
        obtain ⟨sc, r, w', he, hd⟩ := (eraseInputs_crashes _ _ _).stopped hv
        have hnf : ∀ f ∈ inputs, ∀ q i, ¬ LeadsToFile (u.withSched sc) (toPath s.cwd f) q i := by
          intro f hf q i hq
          have hq := (leads_withSched u sc _ _ _).1 hq
          obtain ⟨T, hT⟩ := h3 f hf
          have hr := (h1.resolves _ _).1 hq.resolve
          rw [hT.resolve] at hr; cases hr
          have := trail_dir h1 hT.look
          rw [hq.look] at this; cases this
        obtain ⟨r2, w2, e1, e2, e3, _⟩ := eraseInputs_cases s params.force inputs _ (treeOk_withSched sc h2) hnf
        rw [he] at e1
        cases e1
        obtain ⟨l, hl, hr, hk⟩ := h5 hC hns (by rw [hh]; exact ho)
        rw [hh] at hk
        refine .inr ⟨rfl, secret, l, h4, hl, hr, keeps_disk hd ?_⟩
        rw [inSource_withSched] at e2
        exact keeps_erased (keeps_disk (World.withSched_disk u sc) hk) (e2.mono fun x => (inSource_trail h1 x).1)

/-- Packing without faults and without questions, with or without erasing. -/
theorem pack_ran (s : Sys σ) (hC : s.C.Lawful) (inputs : List (List Char)) (output : List Char) (pp : PackParams) (params : CryptoParams) (a : Algorithm) (secret : Bytes) {w : World}
    (hforce : params.force = .forced) (h : PackReady s inputs output params a secret w) :
    ∃ w' l, packMode s inputs output pp params a w = (.ok (), w') ∧ Archives s.cwd inputs w l ∧ Readable s.z l ∧ Spec.Keeps s.C s.cwd inputs output none secret (s.z.encode l) w w' := by
  obtain ⟨u, c, u0, fs, h1, ⟨q, j, hq, hc⟩, h3, h4, h5, h6, h7, hus, -⟩ := packMode_ran s hC inputs output ⟨false⟩ params a secret rfl h
  have ho : Outside s.cwd inputs output none w := by rw [← h.header]; exact h.outside
  have hwp := packMode_wp s inputs output ⟨false⟩ params a w h.tree
  unfold wp at hwp
  rw [h1] at hwp
  rcases hwp with ⟨_, e⟩ | ⟨u', secret', t1, t2, t3, -, t5, t6⟩
  · exact absurd rfl e
  cases t6
  obtain ⟨l', -, hr', hk'⟩ := t5 hC (by rw [h.faultless]; exact fun k hk => nomatch hk) h.outside
  rw [h.header] at hk'
  obtain ⟨j', ⟨q', k1, k2, k3, k4⟩, -⟩ := hk'
  have : q' = q := by
    have := (t1.resolves _ _).2 k1
    rw [hq.resolve] at this
    cases this; rfl
  subst this
  have : j' = j := by
    rw [hq.look] at k3
    cases k3; rfl
  subst this
  have hk : Spec.Keeps s.C s.cwd inputs output none secret (s.z.encode (fs.map (Pack.stored u0))) w u := ⟨j', ⟨q', k1, k2, k3, k4⟩, by rw [hc]; exact h6⟩
  have hread : Readable s.z (fs.map (Pack.stored u0)) := ⟨stored_nodup h4 _, fun e he => by obtain ⟨f, hf, rfl⟩ := List.mem_map.1 he; exact h5 f hf⟩
  rcases pp with ⟨_ | _⟩
  · exact ⟨u, _, h1, h7, hread, hk⟩
  · have hlead : ∀ f ∈ inputs, ∃ T, LeadsToDir u (toPath s.cwd f) T := fun f hf => by
      obtain ⟨T, hT⟩ := t3 f hf
      exact ⟨T, (t1.resolves _ _).2 hT.resolve, trail_dir t1 hT.look⟩
    have hok := eraseInputs_forced s inputs u hus t2 (fun f hf => ⟨(h.sources f hf).1, hlead f hf⟩) h.disjoint
    obtain ⟨r, w1, hr, her, -, -⟩ := eraseInputs_cases s .forced inputs u t2 (fun f hf q i g => by
      obtain ⟨T, hT⟩ := hlead f hf
      have := hT.resolve
      rw [g.resolve] at this
      cases this
      have := hT.look
      rw [g.look] at this
      cases this)
    rw [hr] at hok
    cases hok
    refine ⟨w1, _, ?_, h7, hread, keeps_erased hk (her.mono fun x => (inSource_trail t1 x).1)⟩
    rw [packMode_split, Prog.bind_ok h1, hforce]
    exact hr

end Volaris.Cli
