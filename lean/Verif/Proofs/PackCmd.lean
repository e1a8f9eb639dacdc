import Verif.Proofs.Listing
/-!
# The pack command
-/
namespace Volaris.Cli
open Volaris.Spec
variable {σ : Type}

theorem Trail.mono {F F' : Path → Prop} {w w' : World} (h : Trail F w w') (hF : ∀ q, F q → F' q) : Trail F' w w' where
  extracts :=
    { look := fun q => by
        rcases h.extracts.look q with h1 | ⟨_, _, h1⟩ | ⟨h1, h2, h3⟩
        · exact .inl h1
        · exact h1.elim
        · exact .inr (.inr ⟨h1, hF q h2, h3⟩)
      files := fun j hj hno => h.extracts.files j hj fun q hq => hno q (hF q hq)
      nextIno := h.extracts.nextIno
      nextFd := h.extracts.nextFd
      inos := h.extracts.inos }
  stdin := h.stdin
  sched := h.sched

theorem _root_.Volaris.Looked.allocated {n : Nat} {w w' : World} (hl : Looked n w w') (h : Allocated w) : Allocated w' := fun q i hq => by
  rw [hl.nextIno]; rw [hl.look] at hq; exact h q i hq

theorem Opened.allocated {p : PathBuf} {q : Path} {j h : Nat} {w w' : World} (o : Opened p q j h w w') (ha : Allocated w) : Allocated w' := by
  intro x i hx
  by_cases hq : x = q
  · subst hq
    rw [o.now] at hx; cases hx
    rcases o.was with ⟨_, h2, h3⟩ | ⟨h2, h3⟩
    · omega
    · have := ha _ _ h2; omega
  · rw [o.others x hq] at hx
    have := ha _ _ hx
    have := o.nextIno
    omega

/-- Output and header file have been opened and emptied. -/
structure Opens (s : Sys σ) (output : List Char) (params : CryptoParams) (w : World) (ho : Nat) (hf : Option Storage.Entry) (qo : Path) (j : Nat) (v : World) : Prop where
  trail : Trail (Targets s.cwd output params w) w v
  tree : TreeOk w → TreeOk v
  alloc : Allocated w → Allocated v
  out : LeadsToFile v (toPath s.cwd output) qo j
  target : Targets s.cwd output params w qo
  handle : v.fd ho = { ino := j, pos := 0 }
  isOpen : ho < v.nextFd
  empty : v.file j = []
  header : (hf = none ∧ params.header = none) ∨
    ∃ hd h2 qh k, params.header = some hd ∧ hf = some (.file (toPath s.cwd hd) h2) ∧ LeadsToFile v (toPath s.cwd hd) qh k ∧ Targets s.cwd output params w qh ∧
      v.fd h2 = { ino := k, pos := 0 } ∧ h2 < v.nextFd ∧ v.file k = [] ∧ h2 ≠ ho ∧ (Allocated w → Apart w (toPath s.cwd output) (toPath s.cwd hd) → k ≠ j)

/-- Opening output and header file, whatever comes next. -/
theorem opens_wp {α : Type} (s : Sys σ) (output : List Char) (params : CryptoParams) {w v : World} (K : Storage.Entry → Option Storage.Entry → Prog Error α)
    (Q : Res Error α → World → Prop)
    (ht : Trail (Targets s.cwd output params w) w v) (htree : TreeOk w → TreeOk v) (hm : MayWrite params.force w (toPath s.cwd output)) (hino : v.nextIno = w.nextIno)
    (hlook : ∀ x, v.look x = w.look x)
    (hstop : ∀ r u, Trail (Targets s.cwd output params w) w u → (TreeOk w → TreeOk u) → (∀ a, r ≠ .ok a) → Q r u)
    (hgo : ∀ ho hf qo j u, Opens s output params w ho hf qo j u → wp (K (.file (toPath s.cwd output) ho) hf) Q u) :
    wp (do
        let outputFile ← openOutput (toPath s.cwd output)
        let headerFile ← openHeader s params.force params.header
        K outputFile headerFile) Q v := by
  have htr0 := fun h => openOutput_tree (toPath s.cwd output) v (htree h)
  have halv : Allocated w → Allocated v := fun h q i hq => by rw [hino]; rw [hlook] at hq; exact h q i hq
  rcases openOutput_cases (toPath s.cwd output) v with ⟨qo, j, w4, he4, ho⟩ | ⟨x, sc, hsc, he4⟩
  · rw [he4] at htr0
    replace htr0 : TreeOk w → TreeOk w4 := htr0
    have hT : Targets s.cwd output params w qo := .inl ⟨hm, (ht.resolves _ _).1 ho.resolve⟩
    have ht4 := ht.trans (Trail.opened ho hT)
    have hout4 : LeadsToFile w4 (toPath s.cwd output) qo j := ⟨(ho.resolves _ _).2 ho.resolve, ho.now⟩
    refine wp_bind (fun a w' h => ?_) (fun x w' h => by rw [he4] at h; cases h) (fun x w' h => by rw [he4] at h; cases h)
    rw [he4] at h; cases h
    cases hh : params.header with
    | none =>
      refine wp_bind (fun a w' h => ?_) (fun x w' h => by cases h) (fun x w' h => by cases h)
      cases h
      exact hgo v.nextFd none qo j w4 ⟨ht4, htr0, fun h => ho.allocated (halv h), hout4, hT, ho.handle, by rw [ho.nextFd]; omega, ho.empty, .inl ⟨rfl, hh⟩⟩
    | some hd =>
      have hc := consent_wp s.cwd hd params.force w4
      unfold wp at hc
      rcases hce : consent s.cwd hd params.force w4 with ⟨rc, w5⟩
      rw [hce] at hc
      obtain ⟨hl5, hc5⟩ := hc
      replace hl5 : Looked w4.nextFd w4 w5 := hl5
      have ht5 := ht4.trans (Trail.looked hl5 (Nat.le_refl _))
      have htr5 : TreeOk w → TreeOk w5 := fun h => (htr0 h).congr hl5.dir
      have hopen : openHeader s params.force (some hd) = (do
          consent s.cwd hd params.force
          let e ← openOutput (toPath s.cwd hd)
          pure (some e)) := rfl
      cases rc with
      | err x =>
        have : openHeader s params.force (some hd) w4 = (.err x, w5) := by rw [hopen]; exact Prog.bind_err hce
        refine wp_bind (fun a w' h => by rw [this] at h; cases h) (fun x w' h => ?_) (fun x w' h => by rw [this] at h; cases h)
        rw [this] at h; cases h
        exact hstop _ _ ht5 htr5 (by simp)
      | abort x =>
        have : openHeader s params.force (some hd) w4 = (.abort x, w5) := by rw [hopen]; exact Prog.bind_abort hce
        refine wp_bind (fun a w' h => by rw [this] at h; cases h) (fun x w' h => by rw [this] at h; cases h) (fun x w' h => ?_)
        rw [this] at h; cases h
        exact hstop _ _ ht5 htr5 (by simp)
      | ok u =>
        have hmh : MayWrite params.force w (toPath s.cwd hd) := mayWrite_of_consent ht4 (hc5 rfl)
        have htr6 := fun h => openOutput_tree (toPath s.cwd hd) w5 (htr5 h)
        rcases openOutput_cases (toPath s.cwd hd) w5 with ⟨qh, k, w6, he6, ho6⟩ | ⟨x, sc, hsc, he6⟩
        · rw [he6] at htr6
          replace htr6 : TreeOk w → TreeOk w6 := htr6
          have hT6 : Targets s.cwd output params w qh := .inr ⟨hd, hh, hmh, (ht5.resolves _ _).1 ho6.resolve⟩
          have ht6 := ht5.trans (Trail.opened ho6 hT6)
          have this : openHeader s params.force (some hd) w4 = (.ok (some (.file (toPath s.cwd hd) w5.nextFd)), w6) := by
            rw [hopen, Prog.bind_ok hce, Prog.bind_ok he6]; rfl
          refine wp_bind (fun a w' h => ?_) (fun x w' h => by rw [this] at h; cases h) (fun x w' h => by rw [this] at h; cases h)
          rw [this] at h; cases h
          have hlt : v.nextFd < w5.nextFd := by have := hl5.nextFd; have := ho.nextFd; omega
          have h5file : w5.file = w4.file := hl5.file
          refine hgo v.nextFd _ qo j w6
            ⟨ht6, htr6, fun h => ho6.allocated (hl5.allocated (ho.allocated (halv h))), ?_, hT, ?_, ?_, ?_,
              .inr ⟨hd, w5.nextFd, qh, k, hh, rfl, ⟨(ho6.resolves _ _).2 ho6.resolve, ho6.now⟩, hT6, ho6.handle, by rw [ho6.nextFd]; omega, ho6.empty, by omega, ?_⟩⟩
          · exact ho6.leads ((hl5.leads _ _ _).2 hout4)
          · rw [ho6.fds _ (by omega), hl5.fds _ (by rw [ho.nextFd]; omega)]; exact ho.handle
          · rw [ho6.nextFd]; omega
          · by_cases hkj : j = k
            · rw [hkj]; exact ho6.empty
            · rw [ho6.files j hkj, h5file]; exact ho.empty
          · intro hal ⟨ha1, ha2⟩ hkj
            subst hkj
            have hr6 : w.resolve (toPath s.cwd hd) = .ok qh := (ht5.resolves _ _).1 ho6.resolve
            have hr4 : w.resolve (toPath s.cwd output) = .ok qo := (ht.resolves _ _).1 ho.resolve
            have hqq : qh ≠ qo := fun e => ha1 qo hr4 (e ▸ hr6)
            rcases ho6.was with ⟨_, h2, _⟩ | ⟨h1, _⟩
            · have h3 := hl5.nextIno
              rcases ho.was with ⟨_, g2, g3⟩ | ⟨g1, g3⟩
              · omega
              · rw [hlook] at g1
                have := hal _ _ g1
                omega
            · have hw : w.look qh = some (.file k) := by
                rw [← hlook, ← ho.others qh hqq, ← hl5.look]; exact h1
              have hk := hal _ _ hw
              rcases ho.was with ⟨_, g2, _⟩ | ⟨g1, _⟩
              · omega
              · exact ha2 qo qh k ⟨hr4, by rw [← hlook]; exact g1⟩ ⟨hr6, hw⟩
        · rw [he6] at htr6
          have ht6 : Trail (Targets s.cwd output params w) w { w5 with sched := sc } := ht5.trans (Trail.looked (Looked.of_sched w5.nextFd w5 hsc) (Nat.le_refl _))
          have this : openHeader s params.force (some hd) w4 = (.err x, { w5 with sched := sc }) := by
            rw [hopen, Prog.bind_ok hce, Prog.bind_err he6]
          refine wp_bind (fun a w' h => by rw [this] at h; cases h) (fun x w' h => ?_) (fun x w' h => by rw [this] at h; cases h)
          rw [this] at h; cases h
          exact hstop _ _ ht6 htr6 (by simp)
  · rw [he4] at htr0
    refine wp_bind (fun a w' h => by rw [he4] at h; cases h) (fun x w' h => ?_) (fun x w' h => by rw [he4] at h; cases h)
    rw [he4] at h; cases h
    exact hstop _ _ (ht.trans (Trail.looked (Looked.of_sched v.nextFd v hsc) (Nat.le_refl _))) htr0 (by simp)

theorem alphanumeric_isAlphanum (b : UInt8) : (Storage.alphanumeric b).isAlphanum = true := by
  have h : ∀ n, n < 62 → (if n < 26 then Char.ofNat ('A'.toNat + n) else if n < 52 then Char.ofNat ('a'.toNat + (n - 26)) else Char.ofNat ('0'.toNat + (n - 52))).isAlphanum = true := by decide
  exact h _ (Nat.mod_lt _ (by decide))

theorem tempPlace (tmp : PathBuf) (v : World) : TempPlace tmp (onPaper (tempPath tmp v)) := by
  refine ⟨_, ?_, ?_, rfl⟩
  · simp [tape]
  · intro c hc
    obtain ⟨b, -, rfl⟩ := List.mem_map.1 hc
    exact alphanumeric_isAlphanum b

/-- Packing, as a step. -/
theorem Trail.packed {F : Path → Prop} {w v : World} (h : Trail F w v) (C : Crypto) (z : Zip) (tmp : PathBuf) (req : Pack.Request)
    (hW : ∀ x ∈ packWriters req, ∃ q, F q ∧ v.look q = some (.file (v.fd x).ino)) (hT : ∀ q, TempPlace tmp q → v.look q = none → F q) : Trail F w (Pack.execute C z tmp req v).2 := by
  refine h.trans ⟨?_, ?_, Pack.execute_shrinks C z tmp req v⟩
  · rcases Pack.execute_mid C z tmp req v with ⟨s, hss, hr, hl, he, hm⟩ | ⟨s, hss, he⟩
    · have hfd : ∀ x, (Unpack.withTemp tmp v s).fd x = if x = v.nextFd then { ino := v.nextIno, pos := 0 } else v.fd x := fun _ => rfl
      refine ⟨fun q => ?_, fun j hj hno => ?_, ?_, ?_, fun x hx => ?_⟩
      · by_cases hq : q = onPaper (tempPath tmp v)
        · subst hq
          rcases hm.temp with h1 | h1
          · exact .inl (h1.trans hl.symm)
          · exact .inr (.inr ⟨hl, hT _ (tempPlace _ _) hl, _, Nat.le_refl _, h1⟩)
        · left
          rw [hm.look q hq]
          show ((({ v.draw 16 with sched := s } : World).created (onPaper (tempPath tmp v))).opened v.nextIno).look _ = _
          rw [World.look_opened, World.look_created]
          split
          · next h => rw [h, World.look_nil]
          · first | rfl | (rw [if_neg hq]; rfl)
      · rw [hm.files j]
        · show (if j = v.nextIno then [] else v.file j) = _
          rw [if_neg (Nat.ne_of_lt hj)]
        · intro x hx
          rw [hfd]
          split
          · exact fun h => Nat.ne_of_lt hj h.symm
          · next hne =>
            rcases List.mem_cons.1 hx with h1 | h1
            · exact absurd h1 hne
            · obtain ⟨q, hq, hlq⟩ := hW x h1
              intro e
              rw [e] at hlq
              exact hno q hq hlq
      · rw [hm.nextIno]; exact Nat.le_succ _
      · rw [hm.nextFd]; exact Nat.le_succ _
      · rw [hm.inos, hfd, if_neg (Nat.ne_of_lt hx)]
    · rw [he]
      exact ⟨fun q => .inl rfl, fun _ _ _ => rfl, Nat.le_refl _, Nat.le_refl _, fun _ _ => rfl⟩
  · rw [(Pack.execute_frame C z tmp req v).stdin]; exact List.suffix_refl _

theorem KeptAt.looked {cwd : Path} {inputs : List (List Char)} {p : PathBuf} {n i : Nat} {w v v' : World} (hl : Looked n v v') (h : KeptAt cwd inputs p w v i) : KeptAt cwd inputs p w v' i := by
  obtain ⟨q, h1, h2, h3, h4⟩ := h
  exact ⟨q, h1, h2, by rw [hl.look]; exact h3, fun x hx => by rw [hl.look]; exact h4 x hx⟩

theorem Spec.Keeps.looked {C : Crypto} {cwd : Path} {inputs : List (List Char)} {output : List Char} {header : Option (List Char)} {secret p : Bytes} {n : Nat} {w v v' : World}
    (hl : Looked n v v') (h : Spec.Keeps C cwd inputs output header secret p w v) : Spec.Keeps C cwd inputs output header secret p w v' := by
  obtain ⟨j, h1, h2⟩ := h
  refine ⟨j, KeptAt.looked hl h1, ?_⟩
  cases header with
  | none => rw [hl.file]; exact h2
  | some hd =>
    obtain ⟨k, h3, h4⟩ := h2
    exact ⟨k, KeptAt.looked hl h3, by rw [hl.file]; exact h4⟩

/-- A file opened for writing beside the sources is not one of them, and packing leaves it where it is. -/
theorem keptAt_packed {F : Path → Prop} {cwd : Path} {inputs : List (List Char)} {p : PathBuf} {w v v2 : World} {q tp : Path} {i : Nat} {W : List Nat}
    (ht : Trail F w v) (hF : ∀ q, F q → ¬ InSource cwd inputs w q) (ha : Allocated w) (hav : Allocated v) (hr : w.resolve p = .ok q) (hb : Beside cwd inputs w p)
    (hl : v.look q = some (.file i)) (hp : Packs tp W v v2) : KeptAt cwd inputs p w v2 i := by
  obtain ⟨hb1, hb2⟩ := hb q hr
  have hv : ∀ x, InSource cwd inputs w x → v.look x ≠ some (.file i) := by
    intro x hx he
    have hwx : w.look x = some (.file i) := by
      rcases ht.extracts.look x with h | ⟨_, _, h⟩ | ⟨_, h, _⟩
      · rw [← h]; exact he
      · exact h.elim
      · exact absurd hx (hF x h)
    have hlt := ha _ _ hwx
    rcases ht.extracts.look q with h | ⟨_, _, h⟩ | ⟨_, _, j, hj, h⟩
    · rw [h] at hl
      exact hb2 i hl x hx hwx
    · exact h
    · rw [hl] at h; cases h; omega
  refine ⟨q, hr, hb1, ?_, fun x hx => ?_⟩
  · by_cases hq : q = tp
    · subst hq
      rcases hp.temp with h | ⟨h, _⟩
      · rw [h]; exact hl
      · rw [hl] at h; cases h
    · rw [hp.look q hq]; exact hl
  · by_cases hq : x = tp
    · subst hq
      rcases hp.temp with h | ⟨_, h⟩
      · rw [h]; exact hv x hx
      · rw [h]
        intro e
        cases e
        exact absurd (hav _ _ hl) (Nat.lt_irrefl _)
    · rw [hp.look x hq]; exact hv x hx

/-- The output and the header file hold an archive of the sources. -/
def Archived (s : Sys σ) (inputs : List (List Char)) (output : List Char) (params : CryptoParams) (secret : Bytes) (w v : World) : Prop :=
  s.C.Lawful → (∀ k, Io.short k ∉ w.sched) → Outside s.cwd inputs output params.header w →
    ∃ l, Archives s.cwd inputs w l ∧ Readable s.z l ∧ Spec.Keeps s.C s.cwd inputs output params.header secret (s.z.encode l) w v

/-- The request of the pack command. -/
def packRequest (params : CryptoParams) (algorithm : Algorithm) (writer : Nat) (files : List Storage.Entry) (header : Option Storage.Entry) (rawKey : Bytes) : Pack.Request :=
  { writer, compressFiles := files, headerWriter := optStream header, rawKey, headerType := headerType algorithm, hashingAlgorithm := params.hashingAlgorithm }

theorem flushes_looks (n : Nat) (header : Option Storage.Entry) (p : PathBuf) (h : Nat) : Looks n (fun _ => True) (do
    flushOpt header
    (Storage.flushFile (.file p h)).mapErr Error.storage) :=
  .bind (.within (R := []) (flushOpt_within header) (flushOpt_shrinks header) (by simp)) fun _ _ =>
    .mapErr _ (.within (R := []) (flushFile_within p h) (flushFile_shrinks _) (by simp))

theorem packBody_wp (s : Sys σ) (inputs : List (List Char)) (output : List Char) (params : CryptoParams) (algorithm : Algorithm) {w v : World} {ho : Nat} {hf : Option Storage.Entry}
    {qo : Path} {j : Nat} {secret : Bytes} (hop : Opens s output params w ho hf qo j v) (htree : TreeOk w) (hdirs : ∀ f ∈ inputs, ∃ T, LeadsToDir w (toPath s.cwd f) T) :
    wp (packBody s params algorithm (inputs.map fun f => .dir (toPath s.cwd f)) (.file (toPath s.cwd output) ho) hf secret)
      (fun r w' => Trail (PackTargets s output params w) w w' ∧ TreeOk w' ∧ (r = .ok () → Archived s inputs output params secret w w')) v := by
  have ht0 : Trail (PackTargets s output params w) w v := hop.trail.mono fun q hq => .inl hq
  unfold packBody
  have hle := (expand_looks v.nextFd (inputs.map fun f => .dir (toPath s.cwd f)) v (Nat.le_refl _)).1
  refine wp_bind (fun fs v1 hx => ?_) (fun e v1 hx => ?_) (fun e v1 hx => ?_)
  all_goals
    rw [hx] at hle
    replace hle : Looked v.nextFd v v1 := hle
    have ht1 := ht0.trans (Trail.looked hle (Nat.le_refl _))
    have htr1 : TreeOk v1 := (hop.tree htree).congr hle.dir
  · obtain ⟨-, hlisted, hnd, -⟩ := expand_ok _ (by intro e he; obtain ⟨f, _, rfl⟩ := List.mem_map.1 he; exact ⟨_, rfl⟩) hx
    refine wp_bind (fun a w' h => ?_) (fun e w' h => by cases h) (fun e w' h => by cases h)
    rw [streamOf_file] at h; cases h
    change wp ((Pack.execute s.C s.z s.tmp (packRequest params algorithm ho fs hf secret)).mapErr Error.pack >>= _) _ v1
    have hWr : ∀ x ∈ packWriters (packRequest params algorithm ho fs hf secret), x = ho ∨ ∃ p, hf = some (.file p x) := by
      intro x hx
      rcases hop.header with ⟨rfl, _⟩ | ⟨hd, h2, qh, k, _, rfl, _⟩
      · simp only [packRequest, optStream, packWriters, List.mem_singleton] at hx
        exact .inl hx
      · simp only [packRequest, optStream, packWriters, List.mem_cons, List.not_mem_nil, or_false] at hx
        rcases hx with rfl | hx
        · exact .inr ⟨_, rfl⟩
        · exact .inl hx
    have hfdo : v1.fd ho = { ino := j, pos := 0 } := by rw [hle.fds ho hop.isOpen]; exact hop.handle
    have hW : ∀ x ∈ packWriters (packRequest params algorithm ho fs hf secret), ∃ q, PackTargets s output params w q ∧ v1.look q = some (.file (v1.fd x).ino) := by
      intro x hx
      rcases hWr x hx with rfl | ⟨hd, hfe⟩
      · exact ⟨qo, .inl hop.target, by rw [hfdo, hle.look]; exact hop.out.look⟩
      · rcases hop.header with ⟨hn, _⟩ | ⟨hd', h2, qh, k, _, hfe', hlh, hTh, hfd2, hlt2, _⟩
        · rw [hn] at hfe; cases hfe
        · rw [hfe] at hfe'; cases hfe'
          exact ⟨qh, .inl hTh, by rw [hle.fds x hlt2, hfd2, hle.look]; exact hlh.look⟩
    have htp := ht1.packed s.C s.z s.tmp (packRequest params algorithm ho fs hf secret) hW (fun q hq hn => .inr ⟨hq, by
      rcases ht1.extracts.look q with h | ⟨_, _, h⟩ | ⟨h, _⟩
      · rw [← h]; exact hn
      · exact h.elim
      · exact h⟩)
    have htrp := KeepsTree.pack s.C s.z s.tmp (packRequest params algorithm ho fs hf secret) v1 htr1
    refine wp_bind (fun a v2 hp2 => ?_) (fun e v2 h2 => ?_) (fun e v2 h2 => ?_)
    · have h2' : Pack.execute s.C s.z s.tmp (packRequest params algorithm ho fs hf secret) v1 = (.ok (), v2) := Pack.mapErr_eq_ok hp2
      rw [h2'] at htp htrp
      have hfl := (flushes_looks v2.nextFd hf (toPath s.cwd output) ho v2 (Nat.le_refl _)).1
      have harch : Archived s inputs output params secret w v2 := by
        intro hC hns hout
        have hns1 : NoShort v1.sched := fun k hk => hns k (ht1.sched.subset hk)
        have hF : ∀ q, Targets s.cwd output params w q → ¬ InSource s.cwd inputs w q ∧ ∀ i, w.look q = some (.file i) → ∀ x, InSource s.cwd inputs w x → w.look x ≠ some (.file i) := by
          intro q hq
          rcases hq with ⟨_, hq⟩ | ⟨hd, hhd, _, hq⟩
          · exact hout.out q hq
          · exact (hout.hdr hd hhd).1 q hq
        have hal1 : Allocated v1 := hle.allocated (hop.alloc hout.allocated)
        have hopen : ∀ x ∈ Pack.handles fs, OpenHandle v1 x := by
          intro x hx
          obtain ⟨p, hp⟩ := Pack.mem_handles.1 hx
          obtain ⟨_, h2, q, i, h3, h4⟩ := hlisted _ hp
          refine ⟨h2, ?_⟩
          rw [h4]
          exact hal1 q i (by rw [hle.look]; exact h3.look)
        have hj1 : j < v1.nextIno := hal1 qo j (by rw [hle.look]; exact hop.out.look)
        have hwop : ∀ x ∈ packWriters (packRequest params algorithm ho fs hf secret), OpenHandle v1 x := by
          intro x hx
          obtain ⟨q, _, hq⟩ := hW x hx
          refine ⟨?_, hal1 q _ hq⟩
          rcases hWr x hx with rfl | ⟨hd, hfe⟩
          · exact Nat.lt_of_lt_of_le hop.isOpen hle.nextFd
          · rcases hop.header with ⟨hn, _⟩ | ⟨hd', h2, qh, k, _, hfe', hlh, hTh, hfd2, hlt2, _⟩
            · rw [hn] at hfe; cases hfe
            · rw [hfe] at hfe'; cases hfe'
              exact Nat.lt_of_lt_of_le hlt2 hle.nextFd
        obtain ⟨u2, u3, c1, c2, c3, c4, c5, c6⟩ := Pack.execute_content hns1 hopen hnd hwop h2'
        refine ⟨_, archives_of_listing hop.trail (hop.tree htree) hout.allocated hF hx hdirs, c6, j, ?_⟩
        have hfr := Pack.execute_frame s.C s.z s.tmp (packRequest params algorithm ho fs hf secret) v1
        rw [h2'] at hfr
        have ht1' : Trail (Targets s.cwd output params w) w v1 := hop.trail.trans (Trail.looked hle (Nat.le_refl _))
        refine ⟨keptAt_packed ht1' (fun q hq => (hF q hq).1) hout.allocated hal1 ((ht1.resolves _ _).1 (by rw [hle.resolve]; exact hop.out.resolve)) hout.out
          (by rw [hle.look]; exact hop.out.look) hfr, ?_⟩
        have hmo : ho ∈ packWriters (packRequest params algorithm ho fs hf secret) := by
          unfold packWriters packRequest; split <;> simp
        obtain ⟨o1, o2, o3⟩ := c4 ho hmo
        rw [hfdo] at o1 o3
        have hdo : u2.data ho = [] := by
          rw [o2]; unfold World.data; rw [hfdo, hle.file]; exact hop.empty
        have hneo : v1.nextFd ≠ ho := fun e => by
          have h1 := hop.isOpen
          have h2 := hle.nextFd
          omega
        rcases hop.header with ⟨rfl, hn⟩ | ⟨hd, h2, qh, k, hhd, rfl, hlh, hTh, hfd2, hlt2, hek, hne2, hkj⟩
        · rw [hn]
          have := encrypt_embedded_decrypts hC (Pack.encryptRequest (packRequest params algorithm ho fs none secret) v1.nextFd) (w := u2) (w' := u3) rfl rfl hneo
            (by show (u2.fd v1.nextFd).ino ≠ (u2.fd ho).ino; rw [c3, o1]; exact Nat.ne_of_gt hj1) c1 hdo c5
          change DecryptsTo s.C secret (u3.file (u2.fd ho).ino) (u2.data v1.nextFd) at this
          rw [o1, c2] at this
          show DecryptsTo s.C secret (v2.file j) _
          rw [o3]; exact this
        · have hkj' := hkj hout.allocated (hout.hdr hd hhd).2
          have hmh : h2 ∈ packWriters (packRequest params algorithm ho fs (some (.file (toPath s.cwd hd) h2)) secret) := by
            simp [packRequest, optStream, packWriters]
          obtain ⟨p1, p2, p3⟩ := c4 h2 hmh
          have hfd2' : v1.fd h2 = { ino := k, pos := 0 } := by rw [hle.fds h2 hlt2]; exact hfd2
          rw [hfd2'] at p1 p3
          have hk1 : k < v1.nextIno := hal1 qh k (by rw [hle.look]; exact hlh.look)
          have hdh : u2.data h2 = [] := by
            rw [p2]; unfold World.data; rw [hfd2', hle.file]; exact hek
          have := encrypt_detached_decrypts hC (Pack.encryptRequest (packRequest params algorithm ho fs (some (.file (toPath s.cwd hd) h2)) secret) v1.nextFd) (w := u2) (w' := u3) (hw := h2)
            rfl rfl hneo hne2 (by show (u2.fd v1.nextFd).ino ≠ (u2.fd ho).ino; rw [c3, o1]; exact Nat.ne_of_gt hj1) (by show (u2.fd v1.nextFd).ino ≠ (u2.fd h2).ino; rw [c3, p1]; exact Nat.ne_of_gt hk1)
            (by show (u2.fd h2).ino ≠ (u2.fd ho).ino; rw [p1, o1]; exact hkj') c1 hdo hdh c5
          change DecryptsTo s.C secret (u3.file (u2.fd h2).ino ++ u3.file (u2.fd ho).ino) (u2.data v1.nextFd) at this
          rw [o1, p1, c2] at this
          rw [hhd]
          refine ⟨k, keptAt_packed ht1' (fun q hq => (hF q hq).1) hout.allocated hal1 ((ht1.resolves _ _).1 (by rw [hle.resolve]; exact hlh.resolve)) (hout.hdr hd hhd).1
            (by rw [hle.look]; exact hlh.look) hfr, ?_⟩
          show DecryptsTo s.C secret (v2.file k ++ v2.file j) _
          rw [o3, p3]; exact this
      unfold wp
      rcases hfx : (do
          flushOpt hf
          (Storage.flushFile (.file (toPath s.cwd output) ho)).mapErr Error.storage : Prog Error Unit) v2 with ⟨r3, v3⟩
      rw [hfx] at hfl
      replace hfl : Looked v2.nextFd v2 v3 := hfl
      refine ⟨htp.trans (Trail.looked hfl (Nat.le_refl _)), TreeOk.congr hfl.dir htrp, fun _ hC hns hout => ?_⟩
      obtain ⟨l, h1, h1', h2⟩ := harch hC hns hout
      exact ⟨l, h1, h1', Spec.Keeps.looked hfl h2⟩
    · have e2 : v2 = (Pack.execute s.C s.z s.tmp (packRequest params algorithm ho fs hf secret) v1).2 := by
        rw [Prog.mapErr_run] at h2
        rcases hx : Pack.execute s.C s.z s.tmp (packRequest params algorithm ho fs hf secret) v1 with ⟨r, u⟩
        rw [hx] at h2
        cases r <;> cases h2 <;> rfl
      rw [← e2] at htp htrp
      exact ⟨htp, htrp, fun h => by cases h⟩
    · have e2 : v2 = (Pack.execute s.C s.z s.tmp (packRequest params algorithm ho fs hf secret) v1).2 := by
        rw [Prog.mapErr_run] at h2
        rcases hx : Pack.execute s.C s.z s.tmp (packRequest params algorithm ho fs hf secret) v1 with ⟨r, u⟩
        rw [hx] at h2
        cases r <;> cases h2 <;> rfl
      rw [← e2] at htp htrp
      exact ⟨htp, htrp, fun h => by cases h⟩
  · exact ⟨ht1, htr1, fun h => by cases h⟩
  · exact ⟨ht1, htr1, fun h => by cases h⟩

theorem readInputs_looks (s : Sys σ) (n : Nat) : ∀ fs, Looks n (fun _ => True) (readInputs s fs)
  | [] => .pure trivial
  | f :: fs => .bind (readInput_looks n (toPath s.cwd f)) fun _ _ => .bind (readInputs_looks s n fs) fun _ _ => .pure trivial

theorem readInputs_ok (s : Sys σ) : ∀ (fs : List (List Char)) {w w' : World} {es : List Storage.Entry}, (∀ f ∈ fs, ∀ q i, ¬ LeadsToFile w (toPath s.cwd f) q i) →
    readInputs s fs w = (.ok es, w') → w' = w ∧ es = fs.map (fun f => .dir (toPath s.cwd f)) ∧ ∀ f ∈ fs, ∃ T, LeadsToDir w (toPath s.cwd f) T
  | [], w, w', es, _, h => by cases h; exact ⟨rfl, rfl, fun _ h => by cases h⟩
  | f :: fs, w, w', es, hno, h => by
    obtain ⟨e, w1, h1, h2⟩ := Pack.bind_eq_ok h
    rcases readInput_cases (toPath s.cwd f) w with ⟨q, i, _, _, hl, _⟩ | ⟨q, hl, he⟩ | ⟨x, sc, _, he, _⟩
    · exact absurd hl (hno f (List.mem_cons_self ..) q i)
    · rw [he] at h1; cases h1
      obtain ⟨es', w2, h3, h4⟩ := Pack.bind_eq_ok h2
      cases h4
      obtain ⟨rfl, rfl, hd⟩ := readInputs_ok s fs (fun g hg => hno g (List.mem_cons_of_mem _ hg)) h3
      refine ⟨rfl, rfl, fun g hg => ?_⟩
      rcases List.mem_cons.1 hg with rfl | hg
      · exact ⟨q, hl⟩
      · exact hd g hg
    · rw [he] at h1; cases h1

theorem anyFile_false {ps : List PathBuf} {w w' : World} (h : (anyFile ps : Prog Error Bool) w = (.ok false, w')) : w' = w ∧ ∀ p ∈ ps, ∀ q i, ¬ LeadsToFile w p q i := by
  unfold anyFile at h
  simp only [Prod.mk.injEq, Res.ok.injEq] at h
  refine ⟨h.2.symm, fun p hp q i hl => ?_⟩
  have := List.any_eq_false.1 h.1 p hp
  rw [hl.resolve] at this
  simp only at this
  rw [hl.look] at this
  exact this rfl

/-- Every outcome of the pack command, up to the erasing of the sources. -/
theorem packMode_wp (s : Sys σ) (inputs : List (List Char)) (output : List Char) (packParams : PackParams) (params : CryptoParams) (algorithm : Algorithm) (w : World) (htree : TreeOk w) :
    wp (packMode s inputs output packParams params algorithm)
      (fun r w' => (Trail (PackTargets s output params w) w w' ∧ r ≠ .ok ()) ∨
        ∃ u secret, Trail (PackTargets s output params w) w u ∧ TreeOk u ∧ (∀ f ∈ inputs, ∃ T, LeadsToDir w (toPath s.cwd f) T) ∧
          SuppliedTo s .validate params.key w secret ∧ Archived s inputs output params secret w u ∧
          (r, w') = (if packParams.eraseSource then eraseInputs s params.force inputs else pure ()) u) w := by
  have hmono : ∀ {u}, Trail (Targets s.cwd output params w) w u → Trail (PackTargets s output params w) w u := fun h => h.mono fun _ => .inl
  unfold packMode
  split
  · exact .inl ⟨.refl w, by simp [Prog.throw]⟩
  · refine wp_bind (fun b w0 h0 => ?_) (fun e w0 h0 => by cases h0) (fun e w0 h0 => by cases h0)
    cases b with
    | true =>
      obtain rfl : w = w0 := congrArg Prod.snd h0
      exact .inl ⟨.refl w, by simp [Prog.throw]⟩
    | false =>
      obtain ⟨rfl, hnof⟩ := anyFile_false h0
      have hc := consent_wp s.cwd output params.force w0
      have ha := consent_answered s.cwd output params.force w0
      unfold wp at hc
      change wp (consent s.cwd output params.force >>= _) _ w0
      refine wp_bind (fun a w1 h => ?_) (fun e w1 h => ?_) (fun e w1 h => ?_)
      all_goals
        rw [h] at hc ha
        obtain ⟨hl1, hc1⟩ := hc
        replace hl1 : Looked w0.nextFd w0 w1 := hl1
      · have hm : MayWrite params.force w0 (toPath s.cwd output) := mayWrite_of_consent (F := fun _ => False) (.refl w0) (hc1 rfl)
        have ht1 : Trail (Targets s.cwd output params w0) w0 w1 := Trail.looked hl1 (Nat.le_refl _)
        have hl2 := (readInputs_looks s w1.nextFd inputs w1 (Nat.le_refl _)).1
        refine wp_bind (fun es w2 h2 => ?_) (fun e w2 h2 => ?_) (fun e w2 h2 => ?_)
        all_goals
          rw [h2] at hl2
          replace hl2 : Looked w1.nextFd w1 w2 := hl2
        · obtain ⟨rfl, rfl, hd⟩ := readInputs_ok s inputs (fun f hf q i hq => hnof _ (List.mem_map_of_mem hf) q i ((hl1.leads _ _ _).1 hq)) h2
          have hdirs : ∀ f ∈ inputs, ∃ T, LeadsToDir w0 (toPath s.cwd f) T := fun f hf => by
            obtain ⟨T, hT⟩ := hd f hf
            exact ⟨T, ⟨by rw [← hl1.resolve]; exact hT.resolve, by rw [← hl1.look]; exact hT.look⟩⟩
          have hl3 := (getSecret_looks w2.nextFd s.words s.cwd params.key .validate w2 (Nat.le_refl _)).1
          refine wp_bind (fun secret w3 h3 => ?_) (fun e w3 h3 => ?_) (fun e w3 h3 => ?_)
          all_goals
            rw [h3] at hl3
            replace hl3 : Looked w2.nextFd w2 w3 := hl3
            have ht3 := ht1.trans (Trail.looked hl3 (Nat.le_refl _))
          · obtain ⟨hne, hsup⟩ := getSecret_ok h3
            refine opens_wp s output params _ _ ht3 (fun h => (h.congr hl1.dir).congr hl3.dir) hm (by rw [hl3.nextIno, hl1.nextIno]) (fun x => by rw [hl3.look, hl1.look])
              (fun r u h1 _ h2 => .inl ⟨hmono h1, h2 ()⟩) fun ho hf qo j u hop => ?_
            have hb := packBody_wp s inputs output params algorithm (secret := secret) hop htree hdirs
            unfold wp at hb
            refine wp_bind (fun a v h4 => ?_) (fun e v h4 => ?_) (fun e v h4 => ?_)
            all_goals
              rw [h4] at hb
              obtain ⟨hb1, hb2, hb3⟩ := hb
              replace hb1 : Trail (PackTargets s output params w0) w0 v := hb1
            · have hlh := (hashIf_looks s v.nextFd params.hashMode output v (Nat.le_refl _)).1
              refine wp_bind (fun a v' h5 => ?_) (fun e v' h5 => ?_) (fun e v' h5 => ?_)
              all_goals
                rw [h5] at hlh
                replace hlh : Looked v.nextFd v v' := hlh
                have hb1' := hb1.trans (Trail.looked hlh (Nat.le_refl _))
              · refine .inr ⟨v', secret, hb1', hb2.congr hlh.dir, hdirs, ⟨hne, w2, ha, hsup⟩, ?_, rfl⟩
                intro hC hns hout
                obtain ⟨l, g1, gr, g2⟩ := hb3 rfl hC hns hout
                exact ⟨l, g1, gr, Spec.Keeps.looked hlh g2⟩
              · exact .inl ⟨hb1', by simp⟩
              · exact .inl ⟨hb1', by simp⟩
            · exact .inl ⟨hb1, by simp⟩
            · exact .inl ⟨hb1, by simp⟩
          · exact .inl ⟨hmono ht3, by simp⟩
          · exact .inl ⟨hmono ht3, by simp⟩
        · exact .inl ⟨hmono (ht1.trans (Trail.looked hl2 (Nat.le_refl _))), by simp⟩
        · exact .inl ⟨hmono (ht1.trans (Trail.looked hl2 (Nat.le_refl _))), by simp⟩
      · exact .inl ⟨Trail.looked hl1 (Nat.le_refl _), by simp⟩
      · exact .inl ⟨Trail.looked hl1 (Nat.le_refl _), by simp⟩

end Volaris.Cli
