import Verif.Proofs.DisturbedErase
/-!
# A command while other programs change the disk: packing
-/
namespace Volaris.Dist
open Volaris.Spec Volaris.Cli
open Volaris.Conc (Always Rng)
variable {N : Disk → Path → Prop} {I J : Nat → Prop} {a : World} {ε ε' α β σ : Type}

/-- As `FrK.aside`, with the result. -/
theorem FrK.asideR {x : Prog ε α} (hx : Conc.Aside x) : FrK N (fun y w _ => ∃ d, x (a.on d) = (.ok y, w)) (Thr.atom x) a I := by
  have h := FrK.aside (N := N) (a := a) (I := I) hx
  refine .atom fun d hd => ⟨(h d hd).1, ⟨(h d hd).2.1.fds, (h d hd).2.1.ino⟩, fun y hy => ⟨d, ?_⟩⟩
  rw [← hy]

theorem FrK.same {Q : α → World → (Nat → Prop) → Prop} {t : Thr ε α} (h : FrK N Q t a I) (ha : Always Rng t) : FrK N (fun y w J => Q y w J ∧ w.rng = a.rng) t a I := FrK.rng h ha

theorem fr_getSecret_drew (words : List (List Char)) (cwd : Path) (key : Key) (state : PasswordState) :
    FrK N (fun _ w _ => ∀ i, w.rng i = a.rng (keyDraws key + i)) (Steps.getSecret words cwd key state) a I := by
  by_cases hg : ∃ n, key = .generate n
  · obtain ⟨n, rfl⟩ := hg
    unfold Steps.getSecret
    refine FrK.bind (Q := fun _ w _ => ∀ i, w.rng i = a.rng (keyDraws (.generate n) + i)) ?_ fun s w J _ _ hw => ?_
    · unfold Steps.fetch
      simp only
      refine (FrK.asideR (.fetch _ _ _ fun x hx => by cases hx)).mono fun y w J h => ?_
      obtain ⟨d, h⟩ := h
      intro i
      unfold fetch generatePassphrase at h
      simp only at h
      obtain ⟨p, w2, h3, h4⟩ := Pack.bind_eq_ok h
      have : w.rng = w2.rng := by cases h4; rfl
      rw [this]
      exact Conc.passphrase_drew words _ _ h3 i
    · split
      · exact .fail
      · exact .pure hw
  · have hg : ∀ n, key ≠ .generate n := fun n e => hg ⟨n, e⟩
    have h0 : keyDraws key = 0 := by cases key <;> first | rfl | exact absurd rfl (hg _)
    refine ((fr_getSecret words cwd key state).same (Conc.Always.rgetSecret words cwd hg state)).mono fun y w J h i => ?_
    rw [h.2, h0, Nat.zero_add]

theorem fr_anyFile : ∀ (ps : List PathBuf) {a : World} {I : Nat → Prop}, FrK N Any (Steps.anyFile ps : Thr ε Bool) a I
  | [], _, _ => .pure trivial
  | p :: ps, _, _ => by
    unfold Steps.anyFile
    refine (fr_look fun _ => rfl).bind fun b _ _ _ _ _ => ?_
    cases b with
    | true => exact .pure trivial
    | false => exact fr_anyFile ps

theorem fr_readInputs (s : Sys σ) : ∀ (fs : List (List Char)) {a : World} {I : Nat → Prop}, FrK N Any (Steps.readInputs s fs) a I
  | [], _, _ => .pure trivial
  | f :: fs, _, _ => by
    unfold Steps.readInputs
    exact (fr_readInput _).bind fun _ _ _ _ _ _ => (fr_readInputs s fs).bind fun _ _ _ _ _ _ => .pure trivial

theorem fr_expand : ∀ (es : List Storage.Entry) {a : World} {I : Nat → Prop}, FrK N Any (Steps.expand es) a I
  | [], _, _ => .pure trivial
  | e :: es, _, _ => by
    unfold Steps.expand
    refine FrK.bind (Q := Any) ?_ fun _ _ _ _ _ _ => (fr_expand es).bind fun _ _ _ _ _ _ => .pure trivial
    cases e with
    | dir p =>
      unfold Steps.walkDir
      exact ((fr_look fun _ => rfl).bind fun ps _ _ _ _ _ => (fr_readEntries ps).mono fun _ _ _ _ => trivial).mapErr
    | file p h => exact .pure trivial

theorem fr_archiveLoop (h : Nat) : ∀ (fuel : Nat) (got : Bytes) {a : World} {I : Nat → Prop}, FrK N Any (Steps.archiveLoop h fuel got) a I
  | 0, got, a, I => by
    unfold Steps.archiveLoop
    refine (fr_read h _ _).bind fun b _ _ _ _ _ => (FrK.aside (Conc.Aside.sysRetry.mapErr _)).bind fun _ _ _ _ _ _ => ?_
    simp only; split
    · exact .pure trivial
    · exact .abort
  | n + 1, got, a, I => by
    unfold Steps.archiveLoop
    refine (fr_read h _ _).bind fun b _ _ _ _ _ => (FrK.aside (Conc.Aside.sysRetry.mapErr _)).bind fun _ _ _ _ _ _ => ?_
    simp only; split
    · exact .pure trivial
    · exact fr_archiveLoop h n _

theorem fr_addEntry (z : Zip) (l : List ZipEntry) (f : Storage.Entry) : FrK N Any (Steps.addEntry z l f) a I := by
  have hst (name : List Char) : Conc.Aside (Pack.startEntry z l name) := by
    unfold Pack.startEntry
    split
    · exact .throw _
    · exact Conc.Aside.sysRetry.mapErr _
  unfold Steps.addEntry
  cases f with
  | dir p => exact (FrK.aside ((hst _).mapErr _)).bind fun _ _ _ _ _ _ => .pure trivial
  | file p h =>
    refine (FrK.aside ((hst _).mapErr _)).bind fun _ _ _ _ _ _ => FrK.bind (Q := Any) (FrK.mapErr ?_) fun _ _ _ _ _ _ => .pure trivial
    unfold Steps.archiveFile
    exact (fr_look fun _ => rfl).bind fun n _ _ _ _ _ => fr_archiveLoop h n []

theorem fr_addAll (z : Zip) : ∀ (fs : List Storage.Entry) (l : List ZipEntry) {a : World} {I : Nat → Prop}, FrK N Any (Steps.addAll z fs l) a I
  | [], _, _, _ => .pure trivial
  | f :: fs, l, _, _ => by
    unfold Steps.addAll
    exact (fr_addEntry z l f).bind fun l _ _ _ _ _ => fr_addAll z fs l

theorem fr_writeArchive (z : Zip) {t : Nat} (fs : List Storage.Entry) (hw : Wr t a I) : FrK N Any (Steps.writeArchive z t fs) a I := by
  unfold Steps.writeArchive
  refine FrK.bind (Q := Any) (FrK.mono (FrK.attempt (fr_addAll z fs [])) fun _ _ _ _ => trivial) fun r _ _ f1 i1 _ => ?_
  have hw := hw.keep f1 i1
  cases r with
  | ok l => exact fr_writeAll hw _ _
  | err e =>
    obtain ⟨e, l⟩ := e
    refine FrK.bind (Q := Any) ((fr_attemptAtom (Q := Any) ?_).mono fun _ _ _ _ => trivial) fun _ _ _ _ _ _ => .fail
    exact .within (R := []) (W := [t]) (.writeAll _ (by simp)) fun x hx => by rw [List.mem_singleton.1 hx]; exact hw.2
  | abort e => exact .abort

theorem fr_createTempFile {tmp : PathBuf} (hp : Named N (tmp.push [.name ((List.range 16).map fun i => Storage.alphanumeric (a.rng i))])) :
    FrK N (fun e w J => Out e w J ∧ ∃ h, e = .file (tmp.push [.name ((List.range 16).map fun i => Storage.alphanumeric (a.rng i))]) h) (Steps.createTempFile tmp) a I := by
  unfold Steps.createTempFile
  refine (FrK.asideR (.genBytes 16)).bind fun bs w J _ _ h => ?_
  obtain ⟨d, h⟩ := h
  have : bs = (List.range 16).map a.rng := by unfold genBytes at h; cases h; rfl
  subst this
  rw [List.map_map]
  unfold Storage.createFile
  exact atom_bind_pure ((fr_mapErr (fr_openNew hp)).mono fun h w J hw => ⟨fun x hx => by cases hx; exact hw, h, rfl⟩)

theorem fr_packExecute (C : Crypto) (z : Zip) {tmp : PathBuf} {req : Pack.Request} (hp : Named N (tmp.push [.name ((List.range 16).map fun i => Storage.alphanumeric (a.rng i))]))
    (hw : Wr req.writer a I) (hh : ∀ h, req.headerWriter = some h → Wr h a I) : FrK N Any (Steps.packExecute C z tmp req) a I := by
  unfold Steps.packExecute
  refine (fr_createTempFile hp).mapErr.bind fun e _ _ f i h => ?_
  obtain ⟨ho, t, rfl⟩ := h
  have hw := hw.keep f i
  have hh := fun x e => (hh x e).keep f i
  have ht := ho t rfl
  refine FrK.bind (Q := fun x w J => x = t ∧ Wr t w J ∧ Wr req.writer w J ∧ ∀ h, req.headerWriter = some h → Wr h w J) (.done fun y hy => by cases hy; exact ⟨rfl, ht, hw, hh⟩) fun x _ _ _ _ h => ?_
  obtain ⟨rfl, ht, hw, hh⟩ := h
  refine (fr_writeArchive z _ ht).bind fun _ _ _ f i _ => ?_
  have hw := hw.keep f i
  have hh := fun x e => (hh x e).keep f i
  have ht := ht.keep f i
  refine FrK.bind (Q := Any) (FrK.mapErr ?_) fun n _ _ f i _ => ?_
  · unfold Steps.fileLen
    exact FrK.lift.bind fun h _ _ _ _ _ => fr_fileLen h _
  have hw := hw.keep f i
  have hh := fun x e => (hh x e).keep f i
  have ht := ht.keep f i
  refine FrK.bind (Q := Any) (FrK.mono (FrK.attempt (FrK.mapErr (fr_encryptExecute C (req := { reader := x, writer := req.writer, headerWriter := req.headerWriter, rawKey := req.rawKey, headerType := req.headerType, hashingAlgorithm := req.hashingAlgorithm }) hw hh))) fun _ _ _ _ => trivial) fun r _ _ f i _ => ?_
  have ht := ht.keep f i
  refine FrK.bind (Q := Any) (FrK.mono (FrK.attempt (fr_overwrite ht n 2)) fun _ _ _ _ => trivial) fun _ _ _ f i _ => ?_
  have ht := ht.keep f i
  exact FrK.bind (Q := Any) (FrK.mono (FrK.attempt (fr_removeFile hp ht)) fun _ _ _ _ => trivial) fun _ _ _ _ _ _ => .lift

theorem fr_packMode (s : Sys σ) {inputs : List (List Char)} {output : List Char} {packParams : PackParams} {params : CryptoParams} (algorithm : Algorithm)
    (ho : Named N (toPath s.cwd output)) (hh : ∀ n, params.header = some n → Named N (toPath s.cwd n))
    (htmp : Named N (s.tmp.push [.name ((List.range 16).map fun i => Storage.alphanumeric (a.rng (keyDraws params.key + i)))]))
    (he : packParams.eraseSource = true → ∀ n ∈ inputs, Root N (toPath s.cwd n)) : FrT N (Steps.packMode s inputs output packParams params algorithm) a I := by
  unfold Steps.packMode
  split
  · exact trivial
  refine ((fr_anyFile _).same (Conc.Always.ranyFile _)).bindT fun b w J _ _ k => ?_
  have r1 := k.2
  cases b with
  | true => exact trivial
  | false =>
    simp only [Bool.false_eq_true, if_false]
    refine ((fr_consent _ _ _).same (Conc.Always.rconsent _ _ _)).bindT fun _ w J _ _ k => ?_
    have r2 := k.2.trans r1
    refine ((fr_readInputs s inputs).same (Conc.Always.rreadInputs ..)).bindT fun es w J _ _ k => ?_
    have r3 := Eq.trans k.2 r2
    refine (fr_getSecret_drew _ _ _ _).bindT fun key w J _ _ k => ?_
    have r4 : ∀ i, w.rng i = a.rng (keyDraws params.key + i) := fun i => by rw [k i, r3]
    refine ((fr_openOutput ho).same (Conc.Always.ropenOutput _)).bindT fun o w' J _ _ k => ?_
    have r5 := k.2
    have hx := k.1
    refine ((fr_openHeader s params.force hh).same (Conc.Always.ropenHeader ..)).bindT fun hd w'' J f1 i1 k => ?_
    have r6 := Eq.trans k.2 r5
    have hy := k.1
    have hx := hx.keep f1 i1
    refine FrK.bindT (Q := Any) ?_ fun _ _ _ _ _ _ => (fr_hashIf s _ _).bindT fun _ _ _ _ _ _ => ?_
    · unfold Steps.packBody
      refine ((fr_expand es).same (Conc.Always.rexpand es)).bind fun files v J f2 i2 k => ?_
      have r7 := Eq.trans k.2 r6
      have hx := hx.keep f2 i2
      refine fr_streamOf.bind fun x v' _ _ _ h => ?_
      obtain ⟨h, rfl, rfl⟩ := h
      rw [show (fun i => Storage.alphanumeric (a.rng (keyDraws params.key + i))) = fun i => Storage.alphanumeric (v'.rng i) from ?_] at htmp
      · refine FrK.bind (Q := Any) (FrK.mapErr ?_) fun _ _ _ _ _ _ => (fr_flushOpt _).bind fun _ _ _ _ _ _ => (fr_flushFile _).mapErr
        exact fr_packExecute s.C s.z (req := { writer := x, compressFiles := files, headerWriter := optStream hd, rawKey := key, headerType := headerType algorithm, hashingAlgorithm := params.hashingAlgorithm }) htmp (hx _ h) fun y e => (hy y e).keep f2 i2
      · funext i; rw [r7, r4]
    · split
      · exact fr_eraseInputs s _ (he ‹_›)
      · exact trivial

end Volaris.Dist
