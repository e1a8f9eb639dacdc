import Verif.Proofs.DisturbedPack
/-!
# A command while other programs change the disk: unpacking, and all commands
-/
namespace Volaris.Dist
open Volaris.Spec Volaris.Cli
open Volaris.Conc (Always Rng)
variable {N : Disk → Path → Prop} {I J : Nat → Prop} {a : World} {ε ε' α β σ : Type}

/-- A directory to be filled: what is in it on paper is at hand, and so is what is missing on the way to it. -/
structure Fill (N : Disk → Path → Prop) (out : PathBuf) : Prop where
  inside : ∀ (w : World) q, onPaper out <+: q → N w.disk q
  way : ∀ (w : World) q, OnTheWay out q → w.look q = none → N w.disk q

theorem Fill.named {out : PathBuf} (h : Fill N out) {cs : List Comp} (hc : ZipName.depthOk 0 cs = true) : Named N (out.push cs) := by
  intro w q hq
  refine h.inside w q ?_
  have e : q = lexical out.start (out.comps ++ cs) := World.walk_lexical (show w.walk out.start (out.comps ++ cs) = .ok q from hq)
  obtain ⟨ys, hy⟩ := Unpack.depthOk_under (onPaper out) cs [] hc
  rw [e, Volaris.lexical_append]
  rw [List.append_nil] at hy
  exact ⟨ys, hy.symm⟩

theorem Fill.may {out : PathBuf} (h : Fill N out) {cs : List Comp} (hc : ZipName.depthOk 0 cs = true) {pre : List Comp} (hp : pre <+: (out.push cs).comps) : MayMake N { out.push cs with comps := pre } := by
  intro w q hq hl
  have e : q = lexical out.start pre := World.walk_lexical (show w.walk out.start pre = .ok q from hq)
  rcases Unpack.onTheWay_push hc (q := q) ⟨pre, hp, e⟩ with h1 | h1
  · exact h.way w q h1 hl
  · exact h.inside w q h1

theorem frs_createDirAll {out : PathBuf} (h : Fill N out) {cs : List Comp} (hc : ZipName.depthOk 0 cs = true) : FrS N Any (Storage.createDirAll (out.push cs)) a I := by
  unfold Storage.createDirAll
  refine (frs_createDirAllRev _ _ fun pre hp => h.may hc ?_).mapErr
  rwa [List.reverse_reverse] at hp

theorem aside_expect {x : Prog ε α} (hx : Conc.Aside x) : Conc.Aside (expect (ε' := ε') x) := by
  intro w v h
  obtain ⟨h1, h2, h3, h4⟩ := hx w v h
  unfold expect
  rcases ew : x w with ⟨r, w'⟩
  rcases ev : x v with ⟨r', v'⟩
  rw [ew, ev] at h1 h2
  rw [ew] at h3
  rw [ev] at h4
  simp only at h1 h2 h3 h4
  subst h1
  cases r <;> exact ⟨rfl, h2, h3, h4⟩

theorem fr_onZipFile (force : ForceMode) (verbose : Bool) (p : PathBuf) : FrK N Any (Steps.onZipFile force verbose p) a I := by
  unfold Steps.onZipFile
  split
  · exact .abort
  · refine FrK.bind (Q := Any) ?_ fun b _ _ _ _ _ => ?_
    · refine (fr_look fun _ => rfl).bind fun b _ _ _ _ _ => ?_
      cases b with
      | true => exact .aside (aside_expect (Conc.Aside.getAnswer _ _ _))
      | false => exact .pure trivial
    · cases b with
      | true =>
        simp only [if_true]
        split
        · exact (FrK.aside (.say _)).bind fun _ _ _ _ _ _ => .pure trivial
        · exact .pure trivial
      | false => simp only [Bool.false_eq_true, if_false]; exact (FrK.aside (.say _)).bind fun _ _ _ _ _ _ => .pure trivial

theorem fr_byIndex (z : Zip) (t i : Nat) : FrK N Any (Thr.atom (Unpack.byIndex z t i)) a I := by
  refine .within (R := []) (W := []) (.bind (Unpack.sysRetry_within _ _) fun _ w => ?_) (by simp)
  unfold Unpack.memberAt
  split
  · split <;> exact .refl _ _ w
  · exact .refl _ _ w

theorem fr_openArchive (z : Zip) (t : Nat) : FrK N Any (Thr.atom (Unpack.openArchive z t)) a I := by
  refine .within (R := []) (W := []) (.bind (.mapErr _ (Unpack.sysRetry_within _ _)) fun _ w => ?_) (by simp)
  unfold Unpack.lenAt
  split <;> exact .refl _ _ w

/-- What is chosen lies in the output directory. -/
def Inside (out : PathBuf) (es : List Unpack.Entity) : Prop := ∀ e ∈ es, ∃ cs, e.1 = out.push cs ∧ ZipName.depthOk 0 cs = true

theorem fr_entities (z : Zip) (t : Nat) (out : PathBuf) (force : ForceMode) (verbose : Bool) : ∀ (is : List Nat) {a : World} {I : Nat → Prop},
    FrK N (fun es _ _ => Inside out es) (Steps.entities z t out (Steps.onZipFile force verbose) is) a I
  | [], _, _ => .pure fun _ h => nomatch h
  | i :: is, _, _ => by
    unfold Steps.entities
    refine FrK.bind (Q := Any) ((fr_attemptAtom (fr_byIndex z t i)).mono fun _ _ _ _ => trivial) fun r _ _ _ _ _ => ?_
    cases r with
    | ok m =>
      simp only
      split
      · next cs hcs =>
        refine (fr_onZipFile force verbose _).bind fun keep _ _ _ _ _ => (fr_entities z t out force verbose is).bind fun rest _ _ _ _ h => .pure ?_
        cases keep with
        | false => exact h
        | true =>
          intro e he
          rcases List.mem_cons.1 he with rfl | he
          · exact ⟨cs, rfl, Unpack.enclosed_depth hcs⟩
          · exact h e he
      · exact fr_entities z t out force verbose is
    | err e => exact fr_entities z t out force verbose is
    | abort e => exact .abort

theorem fr_extract (z : Zip) (t : Nat) {e : Unpack.Entity} (he : Named N e.1) : FrK N Any (Steps.extract z t e) a I := by
  unfold Steps.extract
  refine (fr_mapErr (fr_byIndex z t _)).bind fun m _ _ _ _ _ => ?_
  refine FrK.bind (Q := Out) (FrK.mapErr ?_) fun file _ _ _ _ h => ?_
  · unfold Steps.orElse
    refine (fr_attemptAtom (fr_createFile he)).bind fun r w J hf hi hr => ?_
    cases r with
    | ok y => exact .pure (hr y rfl)
    | err e => exact fr_writeFile he
    | abort e => exact .abort
  · refine FrK.bind (Q := fun y w J => Wr y w J) (.done fun y hy => h y ?_) fun y _ _ _ _ hw => ?_
    · cases hs : file.stream with
      | ok z => rw [hs] at hy; cases hy; rfl
      | err e => rw [hs] at hy; cases hy
      | abort e => rw [hs] at hy; cases hy
    · unfold Steps.copyMember
      refine (FrK.aside (Conc.Aside.sysRetry.mapErr _)).bind fun _ _ _ f i _ => (fr_writeAll (hw.keep f i) _ _).bind fun _ _ _ _ _ _ => ?_
      split
      · exact .pure trivial
      · exact .fail

theorem fr_extractAll (z : Zip) (t : Nat) : ∀ (es : List Unpack.Entity), (∀ e ∈ es, Named N e.1) → ∀ {a : World} {I : Nat → Prop}, FrK N Any (Steps.extractAll z t es) a I
  | [], _, _, _ => .pure trivial
  | e :: es, h, _, _ => by
    unfold Steps.extractAll
    exact (fr_extract z t (h e (List.mem_cons_self ..))).bind fun _ _ _ _ _ _ => fr_extractAll z t es fun e he => h e (List.mem_cons_of_mem _ he)

theorem fr_recover (z : Zip) (order : List Nat) (t : Nat) {out : PathBuf} (hf : Fill N out) (force : ForceMode) (verbose : Bool) : FrK N Any (Steps.recover z order t out (Steps.onZipFile force verbose)) a I := by
  unfold Steps.recover
  refine (fr_rewind t _).bind fun _ _ _ _ _ _ => (fr_openArchive z t).bind fun n _ _ _ _ _ => (fr_entities z t out force verbose _).bind fun es _ _ _ _ hes => ?_
  refine (fr_joinAll order fun th hth => ?_).bind fun _ _ _ _ _ _ => fr_extractAll z t _ fun e he => ?_
  · unfold Unpack.dirThreads at hth
    obtain ⟨p, hp, rfl⟩ := List.mem_map.1 hth
    rcases List.mem_append.1 hp with hp | hp
    · obtain ⟨e, he, rfl⟩ := List.mem_map.1 hp
      obtain ⟨cs, e1, hc⟩ := hes e (List.mem_filter.1 he).1
      rw [e1]
      exact (frs_createDirAll hf hc).mapErr
    · have := frs_createDirAll (a := ‹World›) (I := ‹Nat → Prop›) hf (cs := []) rfl
      rw [List.mem_singleton.1 hp]
      rw [show out.push [] = out by unfold PathBuf.push; rw [List.append_nil]] at this
      exact this.mapErr
  · obtain ⟨cs, e1, hc⟩ := hes e (List.mem_filter.1 he).1
    rw [e1]
    exact hf.named hc

theorem fr_unpackExecute (C : Crypto) (z : Zip) {tmp : PathBuf} (order : List Nat) (reader : Nat) (headerReader : Option Nat) (rawKey : Bytes) {out : PathBuf} (hf : Fill N out) (force : ForceMode) (verbose : Bool)
    (hp : Named N (tmp.push [.name ((List.range 16).map fun i => Storage.alphanumeric (a.rng i))])) :
    FrK N Any (Steps.unpackExecute C z tmp order reader headerReader rawKey out (Steps.onZipFile force verbose)) a I := by
  unfold Steps.unpackExecute
  refine (fr_createTempFile hp).mapErr.bind fun e _ _ f i h => ?_
  obtain ⟨ho, t, rfl⟩ := h
  have ht := ho t rfl
  refine FrK.bind (Q := fun x w J => x = t ∧ Wr t w J) (.done fun y hy => by cases hy; exact ⟨rfl, ht⟩) fun x _ _ _ _ h => ?_
  obtain ⟨rfl, ht⟩ := h
  refine (fr_decryptExecute C (req := { headerReader, reader, writer := x, rawKey }) ht).mapErr.bind fun _ _ _ f i _ => ?_
  have ht := ht.keep f i
  refine FrK.bind (Q := Any) (FrK.mapErr ?_) fun n _ _ f i _ => ?_
  · unfold Steps.fileLen
    exact FrK.lift.bind fun h _ _ _ _ _ => fr_fileLen h _
  have ht := ht.keep f i
  refine (fr_recover z order x hf force verbose).bind fun _ _ _ f i _ => ?_
  have ht := ht.keep f i
  refine FrK.bind (Q := Any) (FrK.mono (FrK.attempt (fr_overwrite ht n 1)) fun _ _ _ _ => trivial) fun _ _ _ f i _ => ?_
  have ht := ht.keep f i
  exact FrK.bind (Q := Any) (FrK.mono (FrK.attempt (fr_removeFile hp ht)) fun _ _ _ _ => trivial) fun _ _ _ _ _ _ => .pure trivial

theorem fr_unpackMode (s : Sys σ) (input : List Char) {output : List Char} (verbose : Bool) {params : CryptoParams} (hf : Fill N (toPath s.cwd output))
    (htmp : Named N (s.tmp.push [.name ((List.range 16).map fun i => Storage.alphanumeric (a.rng (keyDraws params.key + i)))])) : FrK N Any (Steps.unpackMode s input output verbose params) a I := by
  have rin : ∀ p, Always Rng (Steps.readInput p) := fun p => Conc.Always.mapErr _ (Conc.Always.rreadFile p)
  unfold Steps.unpackMode
  refine ((fr_readInput _).same (rin _)).bind fun e w J _ _ k => ?_
  have r1 := k.2
  refine ((fr_readHeader s params.header).same ?_).bind fun hd w J _ _ k => ?_
  · cases params.header with
    | none => exact Conc.Always.pure _
    | some n => unfold Steps.readHeader; exact Conc.Always.bind (fun _ => Conc.Always.pure _) (rin _)
  have r2 := Eq.trans k.2 r1
  refine (fr_getSecret_drew _ _ _ _).bind fun key w J _ _ k => ?_
  have r3 : ∀ i, w.rng i = a.rng (keyDraws params.key + i) := fun i => by rw [k i, r2]
  refine fr_streamOf.bind fun x v _ _ _ h => ?_
  obtain ⟨-, rfl, rfl⟩ := h
  rw [show (fun i => Storage.alphanumeric (a.rng (keyDraws params.key + i))) = fun i => Storage.alphanumeric (v.rng i) from by funext i; rw [r3]] at htmp
  exact (fr_unpackExecute s.C s.z s.order x _ key hf params.force verbose htmp).mapErr.bind fun _ _ _ _ _ _ => fr_hashIf s _ _

/-- Every command. -/
theorem fr_job (c : Started σ) : FrT c.Given (c.cmd.steps c.s) c.self (fun _ => False) := by
  have hres : ∀ (w : World) (p : PathBuf), (c.self.on w.disk).resolve p = w.resolve p := fun w p => World.resolve_congr (w := w) (w' := c.self.on w.disk) rfl p
  have hw : ∀ n, n ∈ c.cmd.writes → Named c.Given (toPath c.s.cwd n) := fun n hn w q hq => .inl (.inl ⟨n, hn, (hres w _).trans hq⟩)
  have he : ∀ n, n ∈ c.cmd.erases → Root c.Given (toPath c.s.cwd n) := fun n hn w top q hq hp => .inr (.inl ⟨n, top, hn, (hres w _).trans hq, hp⟩)
  have ht : ∀ p, p ∈ c.temporary → Named c.Given p := fun p hp w q hq => .inl (.inr ⟨p, hp, (hres w _).trans hq⟩)
  have hf : ∀ n, n ∈ c.cmd.fills → Fill c.Given (toPath c.s.cwd n) := fun n hn => ⟨fun w q hq => .inr (.inr ⟨n, hn, .inl hq⟩), fun w q hq hl => .inr (.inr ⟨n, hn, .inr ⟨hq, hl⟩⟩)⟩
  unfold Started.temporary at ht
  revert ht hw he hf
  cases c.cmd <;> intro hw he ht hf
  case encrypt input output params algorithm =>
    exact fr_encryptMode c.s algorithm (hw _ (by simp [Job.writes])) (fun n hn => hw _ (by simp [Job.writes, hn])) fun hn => he _ (by simp [Job.erases, hn])
  case decrypt input output params =>
    exact fr_decryptMode c.s (hw _ (by simp [Job.writes])) fun hn => he _ (by simp [Job.erases, hn])
  case hash files => exact ((fr_hashStream c.s files).bind fun _ _ _ _ _ _ => FrK.pure (Q := Any) trivial).weak
  case erase input passes force => exact fr_secureErase c.s passes force (he _ (by simp [Job.erases]))
  case pack inputs output packParams params algorithm =>
    exact fr_packMode c.s algorithm (hw _ (by simp [Job.writes])) (fun n hn => hw _ (by simp [Job.writes, hn])) (ht _ (by simp)) fun hk n hn => he _ (by simp [Job.erases, hk, hn])
  case unpack input output verbose params => exact (fr_unpackMode c.s input verbose (hf _ (by simp [Job.fills])) (ht _ (by simp))).weak
  case keyAdd input params => exact (fr_keyAdd c.s params (hw _ (by simp [Job.writes]))).weak
  case keyChange input params => exact (fr_keyChange c.s params (hw _ (by simp [Job.writes]))).weak
  case keyDelete input key => exact (fr_keyDelete c.s key (hw _ (by simp [Job.writes]))).weak
  case keyVerify input key => exact (fr_keyVerify c.s input key).weak
  case headerDump input output force => exact (fr_headerDump c.s input force (hw _ (by simp [Job.writes]))).weak
  case headerRestore input output => exact (fr_headerRestore c.s input (hw _ (by simp [Job.writes]))).weak
  case headerStrip input => exact (fr_headerStrip c.s (hw _ (by simp [Job.writes]))).weak
  case headerDetails input => exact ((fr_headerDetails c.s input).bind fun _ _ _ _ _ _ => FrK.pure (Q := Any) trivial).weak

/-- The steps of a process, each on whatever disk it finds. -/
theorem among_moves : ∀ {t : Thr Cli.Error Unit} {a : World} {I : Nat → Prop}, FrT N t a I → ∀ (ds : List Disk), (∀ d ∈ ds, GoodDisk d) → ∀ pre d d' post, Proc.among ds ⟨a, t⟩ = pre ++ (d, d') :: post →
    Move N (fun i => I i ∨ ∃ st ∈ pre, Seen N st.1 st.2 i) d d' := by
  intro t
  induction t with
  | done r =>
    intro a I h ds hds pre d d' post e
    cases ds <;> simp [Proc.among] at e
  | step eff k ih =>
    intro a I h ds hds pre d d' post e
    cases ds with
    | nil => simp [Proc.among] at e
    | cons d0 ds =>
      unfold Proc.among at e
      have hm := h d0 (hds d0 (List.mem_cons_self ..))
      cases pre with
      | nil =>
        simp only [List.nil_append, List.cons.injEq, Prod.mk.injEq] at e
        obtain ⟨⟨rfl, rfl⟩, -⟩ := e
        exact ⟨hm.1.look, fun i h1 h2 => (hm.1.file i h1 h2).imp .inl id, hm.1.good, hm.1.next⟩
      | cons st pre =>
        simp only [List.cons_append, List.cons.injEq] at e
        obtain ⟨rfl, e⟩ := e
        have := ih _ hm.2 ds (fun d hd => hds d (List.mem_cons_of_mem _ hd)) pre d d' post e
        refine ⟨this.look, fun i h1 h2 => ?_, this.good, this.next⟩
        rcases this.file i h1 h2 with (h | h) | h
        · rcases h with h | h
          · exact .inl (.inl h)
          · exact .inl (.inr ⟨_, List.mem_cons_self .., h⟩)
        · obtain ⟨st, hs, h⟩ := h
          exact .inl (.inr ⟨st, List.mem_cons_of_mem _ hs, h⟩)
        · exact .inr h

/-- Every process of the machine is one of the commands, after some steps, and `P` holds of the files it has met. -/
def Going (cs : List (Started σ)) (P : Started σ → (Nat → Prop) → Prop) (m : Machine) : Prop :=
  GoodDisk m.disk ∧ ∀ p ∈ m.procs, ∃ c ∈ cs, ∃ I, FrT c.Given p.rest p.self I ∧ P c I

theorem going_start {cs : List (Started σ)} {P : Started σ → (Nat → Prop) → Prop} (hP : ∀ c, P c fun _ => False) {d : Disk} (hd : GoodDisk d) : Going cs P (startAll cs d) := by
  refine ⟨hd, fun p hp => ?_⟩
  obtain ⟨c, hc, rfl⟩ := List.mem_map.1 hp
  exact ⟨c, hc, _, fr_job c, hP c⟩

/-- One step of the machine is a step of one of the commands. -/
theorem going_step {cs : List (Started σ)} {P : Started σ → (Nat → Prop) → Prop} {m : Machine} (hm : Going cs P m) (i : Nat)
    (hP : ∀ c ∈ cs, ∀ I, P c I → P c fun j => I j ∨ Seen c.Given m.disk (m.step i).disk j) :
    Going cs P (m.step i) ∧ (m.step i = m ∨ ∃ c ∈ cs, ∃ I, P c I ∧ Move c.Given I m.disk (m.step i).disk) := by
  unfold Machine.step at hP ⊢
  split at hP
  · next self eff k hp =>
    obtain ⟨c, hc, I, hI, hPI⟩ := hm.2 _ (List.mem_of_getElem? hp)
    have h := hI m.disk hm.1
    refine ⟨⟨h.1.good hm.1, fun p hp' => ?_⟩, .inr ⟨c, hc, I, hPI, h.1⟩⟩
    rcases List.mem_or_eq_of_mem_set hp' with h' | rfl
    · exact hm.2 p h'
    · exact ⟨c, hc, _, h.2, hP c hc I hPI⟩
  · exact ⟨hm, .inl rfl⟩

/-- A name at no place of any command. -/
theorem going_look {cs : List (Started σ)} {q : Path} : ∀ (order : List Nat) {m : Machine}, Going cs (fun _ _ => True) m → (∀ c ∈ cs, ∀ st ∈ m.moves order, ¬ c.Given st.1 q) → lookDisk (m.run order).disk q = lookDisk m.disk q
  | [], _, _, _ => rfl
  | i :: order, m, hm, h => by
    obtain ⟨h1, h2⟩ := going_step hm i fun _ _ _ _ => trivial
    refine (going_look order h1 fun c hc st hst => h c hc st (List.mem_cons_of_mem _ hst)).trans ?_
    rcases h2 with h2 | ⟨c, hc, I, _, hmv⟩
    · rw [h2]
    · exact Classical.byContradiction fun hn => h c hc _ (List.mem_cons_self ..) (hmv.look q hn)

/-- A file that no command has met. -/
theorem going_file {cs : List (Started σ)} {j : Nat} : ∀ (order : List Nat) {m : Machine}, Going cs (fun _ I => ¬ I j) m → j < m.disk.nextIno → (∀ c ∈ cs, ∀ st ∈ m.moves order, ¬ c.Met st j) →
    (m.run order).disk.file j = m.disk.file j
  | [], _, _, _, _ => rfl
  | i :: order, m, hm, hj, h => by
    obtain ⟨h1, h2⟩ := going_step hm i fun c hc I hI hn => hn.elim hI fun hs => h c hc _ (List.mem_cons_self ..) hs
    rcases h2 with h2 | ⟨c, hc, I, hI, hmv⟩
    · refine (going_file order h1 (by rw [h2]; exact hj) fun c hc st hst => h c hc st (List.mem_cons_of_mem _ hst)).trans ?_
      rw [h2]
    · refine (going_file order h1 (Nat.lt_of_lt_of_le hj hmv.next) fun c hc st hst => h c hc st (List.mem_cons_of_mem _ hst)).trans ?_
      exact Classical.byContradiction fun hn => (hmv.file j hj hn).elim hI fun hs => h c hc _ (List.mem_cons_self ..) hs

end Volaris.Dist
