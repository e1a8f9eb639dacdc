import Verif.Proofs.Disturbed
import Verif.Proofs.ConcKeys
/-!
# A command while other programs change the disk: the commands
-/
namespace Volaris.Dist
open Volaris.Spec Volaris.Cli
open Volaris.Conc (Always Rng)
variable {N : Disk → Path → Prop} {I J : Nat → Prop} {a : World} {ε ε' α β σ : Type}

theorem fr_read (h n : Nat) (f : IoErr → ε) : FrK N Any (Thr.atom ((read h n).mapErr f)) a I := .within (R := [h]) (W := []) (.mapErr _ (.read n (by simp))) (by simp)
theorem fr_readUpTo (h n : Nat) (f : IoErr → ε) : FrK N Any (Thr.atom ((readUpTo h n).mapErr f)) a I := .within (R := [h]) (W := []) (.mapErr _ (.readUpTo n (by simp))) (by simp)
theorem fr_readExact (h n : Nat) (f : IoErr → ε) : FrK N Any (Thr.atom ((readExact h n).mapErr f)) a I := .within (R := [h]) (W := []) (.mapErr _ (.readExact n (by simp))) (by simp)
theorem fr_readToEnd (h : Nat) (f : IoErr → ε) : FrK N Any (Thr.atom ((readToEnd h).mapErr f)) a I := .within (R := [h]) (W := []) (.mapErr _ (.readToEnd (by simp))) (by simp)
theorem fr_rewind (h : Nat) (f : IoErr → ε) : FrK N Any (Thr.atom ((rewind h).mapErr f)) a I := .within (R := [h]) (W := []) (.mapErr _ (.rewind (by simp))) (by simp)
theorem fr_seekCur (h : Nat) (d : Int) (f : IoErr → ε) : FrK N Any (Thr.atom ((seekCur h d).mapErr f)) a I := .within (R := [h]) (W := []) (.mapErr _ (.seekCur d (by simp))) (by simp)
theorem fr_flush (h : Nat) (f : IoErr → ε) : FrK N Any (Thr.atom ((flush h).mapErr f)) a I := .within (R := [h]) (W := []) (.mapErr _ (.flush h)) (by simp)
theorem fr_write {h : Nat} (hw : Wr h a I) (bs : Bytes) (f : IoErr → ε) : FrK N Any (Thr.atom ((write h bs).mapErr f)) a I :=
  .within (R := []) (W := [h]) (.mapErr _ (.write bs (by simp))) fun x hx => by rw [List.mem_singleton.1 hx]; exact hw.2
theorem fr_writeAll {h : Nat} (hw : Wr h a I) (bs : Bytes) (f : IoErr → ε) : FrK N Any (Thr.atom ((writeAll h bs).mapErr f)) a I :=
  .within (R := []) (W := [h]) (.mapErr _ (.writeAll bs (by simp))) fun x hx => by rw [List.mem_singleton.1 hx]; exact hw.2

/-- An atom that only looks. -/
theorem fr_look {x : Prog ε α} (h : ∀ w, (x w).2 = w) : FrK N Any (Thr.atom x) a I := .within (R := []) (W := []) (fun w => by rw [h w]; exact .refl _ _ _) (by simp)

theorem fr_mapErr {x : Prog ε α} {f : ε → ε'} {Q : α → World → (Nat → Prop) → Prop} (h : FrK N Q (Thr.atom x) a I) : FrK N Q (Thr.atom (x.mapErr f)) a I := by
  have e : Thr.atom (x.mapErr f) = (Thr.atom x).mapErr f := by
    unfold Thr.atom Thr.mapErr
    congr 1 <;> funext w
    · rw [Prog.mapErr_run]; rcases x w with ⟨r, w'⟩; cases r <;> rfl
    · unfold Thr.mapErr; rw [Prog.mapErr_run]; rcases x w with ⟨r, w'⟩; cases r <;> rfl
  rw [e]; exact h.mapErr

theorem fr_fileLen (h : Nat) (f : IoErr → ε) : FrK N Any (Thr.atom ((fileLen h).mapErr f)) a I := by
  refine .within (R := []) (W := []) (.mapErr _ fun w => ?_) (by simp)
  unfold fileLen
  obtain ⟨s, h1 | ⟨e, h1⟩⟩ := sys_cases w
  · rw [Prog.bind_ok h1]; exact .of_core rfl
  · rw [Prog.bind_err h1]; exact .of_core rfl

theorem fr_readFile (p : PathBuf) : FrK N Any (Steps.readFile p) a I := by
  unfold Steps.readFile
  refine (fr_look fun _ => rfl).bind fun b w J hf hi _ => ?_
  cases b with
  | true => exact .pure trivial
  | false => exact (fr_mapErr (fr_openFile p)).bind fun _ _ _ _ _ _ => .pure trivial

theorem fr_readInput (p : PathBuf) : FrK N Any (Steps.readInput p) a I := (fr_readFile p).mapErr

/-- An entry for writing. -/
def Out (e : Storage.Entry) (w : World) (J : Nat → Prop) : Prop := ∀ h, e.stream = .ok h → Wr h w J

theorem Out.keep {e : Storage.Entry} {w : World} (h : Out e a I) (hf : Fds a w) (hi : ∀ i, I i → J i) : Out e w J := fun x hx => (h x hx).keep hf hi

theorem atom_bind_pure {x : Prog ε α} {f : α → β} {Q : β → World → (Nat → Prop) → Prop} (h : FrK N (fun y w J => Q (f y) w J) (Thr.atom x) a I) :
    FrK N Q (Thr.atom (x >>= fun y => Pure.pure (f y))) a I := by
  intro d hd
  obtain ⟨h1, h2⟩ := h d hd
  have e : ((x >>= fun y => Pure.pure (f y)) (a.on d)).2 = (x (a.on d)).2 := by
    rw [Prog.bind_run]; rcases x (a.on d) with ⟨r, w⟩; cases r <;> rfl
  simp only
  refine ⟨by rw [e]; exact h1, ?_⟩
  refine ⟨by rw [e]; exact h2.1, by rw [e]; exact h2.2.1, fun y hy => ?_⟩
  have h3 : ∀ z, (x (a.on d)).1 = .ok z → Q (f z) (x (a.on d)).2 fun i => I i ∨ Seen N d (x (a.on d)).2.disk i := h2.2.2
  rw [e]
  revert hy h3
  rw [Prog.bind_run]
  rcases x (a.on d) with ⟨r, w⟩
  intro hy h3
  cases r with
  | ok z => cases hy; exact h3 z rfl
  | err _ => cases hy
  | abort _ => cases hy

theorem fr_createFile {p : PathBuf} (hp : Named N p) : FrK N Out (Thr.atom (Storage.createFile p)) a I := by
  unfold Storage.createFile
  exact atom_bind_pure ((fr_mapErr (fr_openNew hp)).mono fun h w J hw x hx => by cases hx; exact hw)

theorem fr_writeFile {p : PathBuf} (hp : Named N p) : FrK N Out (Thr.atom (Storage.writeFile p)) a I := by
  unfold Storage.writeFile
  exact atom_bind_pure ((fr_mapErr (fr_openTrunc hp)).mono fun h w J hw x hx => by cases hx; exact hw)

theorem fr_attemptAtom {x : Prog ε α} {Q : α → World → (Nat → Prop) → Prop} (h : FrK N Q (Thr.atom x) a I) : FrK N (fun r w J => ∀ y, r = .ok y → Q y w J) (Thr.atom (Prog.attempt (ε' := ε') x)) a I := by
  have e : Thr.atom (Prog.attempt (ε' := ε') x) = Steps.attempt (Thr.atom x) := by
    unfold Thr.atom Steps.attempt
    congr 1 <;> funext w
    · unfold Prog.attempt; rcases x w with ⟨r, w'⟩; cases r <;> rfl
    · simp only [Prog.attempt]
      unfold Steps.attempt
      rcases x w with ⟨r, w'⟩; cases r <;> rfl
  rw [e]; exact FrK.attempt h

theorem fr_openOutput {p : PathBuf} (hp : Named N p) : FrK N Out (Steps.openOutput p) a I := by
  unfold Steps.openOutput Steps.orElse
  refine FrK.mapErr ((fr_attemptAtom (fr_createFile hp)).bind fun r w J hf hi hr => ?_)
  cases r with
  | ok y => exact .pure (hr y rfl)
  | err e => exact fr_writeFile hp
  | abort e => exact .abort

theorem fr_consent (cwd : Path) (name : List Char) (force : ForceMode) : FrK N Any (Steps.consent cwd name force) a I := by
  unfold Steps.consent Steps.overwriteCheck
  refine FrK.bind (Q := Any) ((fr_look fun _ => rfl).bind fun b w J hf hi _ => ?_) fun b w J hf hi _ => ?_
  · cases b with
    | true => exact .aside (.getAnswer _ _ _)
    | false => exact .pure trivial
  · cases b with
    | true => exact .pure trivial
    | false => exact .abort

theorem fr_flushFile (e : Storage.Entry) : FrK N Any (Steps.flushFile e) a I := by
  unfold Steps.flushFile
  exact FrK.lift.bind fun h _ _ _ _ _ => fr_flush h _

theorem fr_flushOpt : ∀ (o : Option Storage.Entry), FrK N Any (Steps.flushOpt o) a I
  | none => .pure trivial
  | some e => (fr_flushFile e).mapErr

theorem fr_fetch (words : List (List Char)) (cwd : Path) (key : Key) (state : PasswordState) : FrK N Any (Steps.fetch words cwd state key) a I := by
  cases key with
  | keyfile p =>
    unfold Steps.fetch
    simp only
    by_cases hp : p = ['-']
    · rw [if_pos hp]; exact .aside (.fetch _ _ _ fun x hx => by cases hx; rfl)
    · rw [if_neg hp]
      unfold Steps.readKeyfile
      refine (fr_mapErr (fr_openFile _)).bind fun h _ _ _ _ _ => (fr_readToEnd h _).bind fun s _ _ _ _ _ => ?_
      split
      · exact .fail
      · exact .pure trivial
  | env => exact .aside (.fetch _ _ _ fun x hx => by cases hx)
  | user => exact .aside (.fetch _ _ _ fun x hx => by cases hx)
  | generate i => exact .aside (.fetch _ _ _ fun x hx => by cases hx)

theorem fr_getSecret (words : List (List Char)) (cwd : Path) (key : Key) (state : PasswordState) : FrK N Any (Steps.getSecret words cwd key state) a I := by
  unfold Steps.getSecret
  refine (fr_fetch words cwd key state).bind fun s _ _ _ _ _ => ?_
  split
  · exact .fail
  · exact .pure trivial

theorem fr_hashLoop (H : HashCmd.Hasher σ) (h : Nat) : ∀ (fuel : Nat) (st : σ) {a : World} {I : Nat → Prop}, FrK N Any (Steps.hashLoop H h fuel st) a I := by
  intro fuel
  induction fuel with
  | zero =>
    intro st a I
    unfold Steps.hashLoop
    refine (fr_read h _ _).bind fun b _ _ _ _ _ => ?_
    simp only
    split
    · exact .pure trivial
    · exact .abort
  | succ n ih =>
    intro st a I
    unfold Steps.hashLoop
    refine (fr_read h _ _).bind fun b _ _ _ _ _ => ?_
    simp only
    split
    · exact .pure trivial
    · exact ih _

theorem fr_hashStream (s : Sys σ) : ∀ (files : List (List Char)) {a : World} {I : Nat → Prop}, FrK N Any (Steps.hashStream s files) a I
  | [], _, _ => .pure trivial
  | f :: fs, a, I => by
    unfold Steps.hashStream Steps.hashExecute
    refine (fr_mapErr (fr_openFile _)).bind fun h _ _ _ _ _ => FrK.bind (Q := Any) (FrK.mapErr ?_) fun d _ _ _ _ _ => ?_
    · exact (fr_rewind h _).bind fun _ _ _ _ _ _ => (fr_look fun _ => rfl).bind fun n _ _ _ _ _ => (fr_hashLoop s.H h n _).bind fun _ _ _ _ _ _ => .pure trivial
    · exact (FrK.aside (.say _)).bind fun _ _ _ _ _ _ => (fr_hashStream s fs).bind fun _ _ _ _ _ _ => .pure trivial

theorem fr_hashIf (s : Sys σ) (mode : HashMode) (file : List Char) : FrK N Any (Steps.hashIf s mode file) a I := by
  cases mode with
  | noHash => exact .pure trivial
  | calculateHash => exact (fr_hashStream s [file]).bind fun _ _ _ _ _ _ => .pure trivial

theorem fr_writeBlocks {h : Nat} : ∀ (bs : List Nat) {a : World} {I : Nat → Prop}, Wr h a I → FrK N Any (Erase.writeBlocks h bs) a I
  | [], _, _, _ => .pure trivial
  | _ :: bs, _, _, hw => by
    unfold Erase.writeBlocks
    exact (FrK.aside (.genBytes _)).bind fun _ _ _ hf hi _ => (fr_writeAll (hw.keep hf hi) _ _).bind fun _ _ _ hf' hi' _ => fr_writeBlocks bs ((hw.keep hf hi).keep hf' hi')

theorem fr_passes {h : Nat} (cap : Nat) : ∀ (n : Nat) {a : World} {I : Nat → Prop}, Wr h a I → FrK N Any (Erase.passes h cap n) a I
  | 0, _, _, _ => .pure trivial
  | n + 1, _, _, hw => by
    unfold Erase.passes
    refine (fr_rewind h _).bind fun _ _ _ f1 i1 _ => (fr_writeBlocks _ (hw.keep f1 i1)).bind fun _ _ _ f2 i2 _ => ?_
    exact (fr_flush h _).bind fun _ _ _ f3 i3 _ => fr_passes cap n (((hw.keep f1 i1).keep f2 i2).keep f3 i3)

theorem fr_overwrite {h : Nat} (hw : Wr h a I) (cap : Nat) (n : Int) : FrK N Any (Erase.overwrite h cap n) a I := by
  unfold Erase.overwrite
  refine (fr_passes cap _ hw).bind fun _ _ _ f1 i1 _ => (fr_rewind h _).bind fun _ _ _ f2 i2 _ => ?_
  exact (fr_writeAll ((hw.keep f1 i1).keep f2 i2) _ _).bind fun _ _ _ _ _ _ => fr_flush h _

theorem fr_removeFile {p : PathBuf} {h : Nat} (hp : Named N p) (hw : Wr h a I) : FrK N Any (Erase.removeFile p h) a I := by
  unfold Erase.removeFile
  exact (fr_mapErr (fr_setLen0 hw)).bind fun _ _ _ _ _ _ => (fr_flush h _).bind fun _ _ _ _ _ _ => fr_mapErr (fr_unlink hp)

theorem fr_eraseThread {p : PathBuf} (hp : Named N p) (n : Int) : FrK N Any (Erase.thread p n) a I := by
  unfold Erase.thread
  refine (fr_mapErr (fr_openTrunc hp)).bind fun h _ _ _ _ hw => (fr_fileLen h _).bind fun cap _ _ f1 i1 _ => ?_
  exact (fr_overwrite (hw.keep f1 i1) cap n).mapErr.bind fun _ _ _ f2 i2 _ => (fr_removeFile hp ((hw.keep f1 i1).keep f2 i2)).mapErr

/-! ## encrypt and decrypt -/

theorem fr_encLoop (C : Crypto) (rh : Nat) {wh : Nat} (aad : Bytes) : ∀ (fuel : Nat) (s : Stream) {a : World} {I : Nat → Prop}, Wr wh a I → FrK N Any (Steps.encLoop C rh wh aad fuel s) a I := by
  intro fuel
  induction fuel with
  | zero =>
    intro s a I hw
    unfold Steps.encLoop
    refine (fr_read rh _ _).bind fun b _ _ f1 i1 _ => ?_
    split
    · refine FrK.lift.bind fun x _ _ f2 i2 _ => ?_
      exact (fr_writeAll ((hw.keep f1 i1).keep f2 i2) _ _).bind fun _ _ _ _ _ _ => .abort
    · exact FrK.lift.bind fun x _ _ f2 i2 _ => fr_writeAll ((hw.keep f1 i1).keep f2 i2) _ _
  | succ n ih =>
    intro s a I hw
    unfold Steps.encLoop
    refine (fr_read rh _ _).bind fun b _ _ f1 i1 _ => ?_
    split
    · refine FrK.lift.bind fun x _ _ f2 i2 _ => ?_
      exact (fr_writeAll ((hw.keep f1 i1).keep f2 i2) _ _).bind fun _ _ _ f3 i3 _ => ih _ (((hw.keep f1 i1).keep f2 i2).keep f3 i3)
    · exact FrK.lift.bind fun x _ _ f2 i2 _ => fr_writeAll ((hw.keep f1 i1).keep f2 i2) _ _

theorem fr_decLoop (C : Crypto) (rh : Nat) {wh : Nat} (aad : Bytes) : ∀ (fuel : Nat) (s : Stream) {a : World} {I : Nat → Prop}, Wr wh a I → FrK N Any (Steps.decLoop C rh wh aad fuel s) a I := by
  intro fuel
  induction fuel with
  | zero =>
    intro s a I hw
    unfold Steps.decLoop
    refine (fr_read rh _ _).bind fun b _ _ f1 i1 _ => ?_
    split
    · refine FrK.lift.bind fun x _ _ f2 i2 _ => ?_
      exact (fr_writeAll ((hw.keep f1 i1).keep f2 i2) _ _).bind fun _ _ _ _ _ _ => .abort
    · exact FrK.lift.bind fun x _ _ f2 i2 _ => fr_writeAll ((hw.keep f1 i1).keep f2 i2) _ _
  | succ n ih =>
    intro s a I hw
    unfold Steps.decLoop
    refine (fr_read rh _ _).bind fun b _ _ f1 i1 _ => ?_
    split
    · refine FrK.lift.bind fun x _ _ f2 i2 _ => ?_
      exact (fr_writeAll ((hw.keep f1 i1).keep f2 i2) _ _).bind fun _ _ _ f3 i3 _ => ih _ (((hw.keep f1 i1).keep f2 i2).keep f3 i3)
    · exact FrK.lift.bind fun x _ _ f2 i2 _ => fr_writeAll ((hw.keep f1 i1).keep f2 i2) _ _

theorem fr_encryptExecute (C : Crypto) {req : Encrypt.Request} (hw : Wr req.writer a I) (hh : ∀ h, req.headerWriter = some h → Wr h a I) : FrK N Any (Steps.encryptExecute C req) a I := by
  unfold Steps.encryptExecute
  refine (FrK.aside (.prepare C req)).bind fun x _ _ f1 i1 _ => (fr_rewind _ _).bind fun _ _ _ f2 i2 _ => ?_
  have hw := (hw.keep f1 i1).keep f2 i2
  have hh := fun x e => ((hh x e).keep f1 i1).keep f2 i2
  refine FrK.bind (Q := Any) ?_ fun _ _ _ f3 i3 _ => ?_
  · unfold Steps.writeHeader
    cases h : req.headerWriter with
    | none => exact FrK.lift.bind fun b _ _ f i _ => (fr_write (hw.keep f i) _ _).bind fun _ _ _ _ _ _ => .pure trivial
    | some x =>
      refine (fr_rewind _ _).bind fun _ _ _ f3 i3 _ => FrK.lift.bind fun b _ _ f i _ => ?_
      exact (fr_write (((hh x h).keep f3 i3).keep f i) _ _).bind fun _ _ _ _ _ _ => .pure trivial
  · refine FrK.lift.bind fun aad _ _ f4 i4 _ => (fr_rewind _ _).bind fun _ _ _ f5 i5 _ => FrK.mapErr ?_
    unfold Steps.encryptFile
    exact (fr_encLoop C _ aad _ _ (((hw.keep f3 i3).keep f4 i4).keep f5 i5)).bind fun _ _ _ _ _ _ => fr_flush _ _

theorem fr_deserialize (h : Nat) : FrK N Any (Steps.deserialize h) a I := by
  unfold Steps.deserialize
  refine (fr_readExact h _ _).bind fun b _ _ _ _ _ => (fr_seekCur h _ _).bind fun _ _ _ _ _ _ => ?_
  split
  · exact .fail
  · exact (fr_readExact h _ _).bind fun b _ _ _ _ _ => FrK.lift

theorem fr_decryptExecute (C : Crypto) {req : Decrypt.Request} (hw : Wr req.writer a I) : FrK N Any (Steps.decryptExecute C req) a I := by
  unfold Steps.decryptExecute
  refine FrK.bind (Q := Any) ?_ fun x _ _ f i _ => ?_
  · unfold Steps.getHeader
    cases h : req.headerReader with
    | none => exact (fr_deserialize _).mapErr
    | some x =>
      refine (fr_deserialize x).mapErr.bind fun y _ _ _ _ _ => (fr_readUpTo _ _ _).bind fun got _ _ _ _ _ => ?_
      simp only
      split
      · exact (fr_rewind _ _).bind fun _ _ _ _ _ _ => .pure trivial
      · exact .pure trivial
  · have hw := hw.keep f i
    simp only
    unfold Steps.decryptRest
    split
    · refine (fr_readToEnd _ _).bind fun b _ _ f1 i1 _ => FrK.lift.bind fun mk _ _ f2 i2 _ => FrK.lift.bind fun ci _ _ f3 i3 _ => FrK.lift.bind fun p _ _ f4 i4 _ => ?_
      exact fr_writeAll ((((hw.keep f1 i1).keep f2 i2).keep f3 i3).keep f4 i4) _ _
    · refine FrK.lift.bind fun mk _ _ f1 i1 _ => FrK.lift.bind fun st _ _ f2 i2 _ => FrK.mapErr ?_
      unfold Steps.decryptFile
      exact (fr_decLoop C _ _ _ _ ((hw.keep f1 i1).keep f2 i2)).bind fun _ _ _ _ _ _ => fr_flush _ _

theorem fr_streamOf {e : Storage.Entry} : FrK N (fun h w J => e.stream = .ok h ∧ (w = a ∧ J = I)) (Steps.streamOf e) a I := by
  unfold Steps.streamOf
  cases e with
  | dir p => exact .fail
  | file p h => exact .done fun y hy => by cases hy; exact ⟨rfl, rfl, rfl⟩

/-- A header file, if there is one, is for writing. -/
def Hd (o : Option Storage.Entry) (w : World) (J : Nat → Prop) : Prop := ∀ h, optStream o = some h → Wr h w J

theorem fr_openHeader (s : Sys σ) (force : ForceMode) : ∀ {o : Option (List Char)}, (∀ n, o = some n → Named N (toPath s.cwd n)) → FrK N Hd (Steps.openHeader s force o) a I
  | none, _ => .pure fun _ h => by cases h
  | some n, hn => by
    unfold Steps.openHeader
    refine (fr_consent _ _ _).bind fun _ _ _ _ _ _ => (fr_openOutput (hn n rfl)).bind fun e _ _ _ _ he => .pure fun h hh => ?_
    cases e with
    | dir p => cases hh
    | file p x => cases hh; exact he _ rfl

theorem fr_encryptBody (s : Sys σ) (params : CryptoParams) (algorithm : Algorithm) (input : Storage.Entry) {output : Storage.Entry} {header : Option Storage.Entry} (key : Bytes) (ho : Out output a I) (hh : Hd header a I) :
    FrK N Any (Steps.encryptBody s params algorithm input output header key) a I := by
  unfold Steps.encryptBody
  refine fr_streamOf.bind fun r _ _ _ _ h => fr_streamOf.bind fun w _ _ _ _ h' => ?_
  obtain ⟨-, rfl, rfl⟩ := h
  obtain ⟨h', rfl, rfl⟩ := h'
  exact (fr_encryptExecute s.C (req := { reader := r, writer := w, headerWriter := optStream header, rawKey := key, headerType := headerType algorithm, hashingAlgorithm := params.hashingAlgorithm }) (ho _ h') hh).mapErr.bind fun _ _ _ _ _ _ => (fr_flushOpt _).bind fun _ _ _ _ _ _ => (fr_flushFile _).mapErr

theorem fr_decryptBody (s : Sys σ) (input : Storage.Entry) {output : Storage.Entry} (header : Option Storage.Entry) (key : Bytes) (ho : Out output a I) :
    FrK N Any (Steps.decryptBody s input output header key) a I := by
  unfold Steps.decryptBody
  refine fr_streamOf.bind fun r _ _ _ _ h => fr_streamOf.bind fun w _ _ _ _ h' => ?_
  obtain ⟨-, rfl, rfl⟩ := h
  obtain ⟨h', rfl, rfl⟩ := h'
  exact (fr_decryptExecute s.C (ho _ h')).mapErr.bind fun _ _ _ _ _ _ => (fr_flushFile _).mapErr

/-! ## key and header -/

theorem fr_headerWrite {h : Nat} (hw : Wr h a I) (hd : Header) : FrK N Any (Steps.headerWrite hd h) a I := by
  unfold Steps.headerWrite
  exact FrK.lift.bind fun b _ _ f i _ => (fr_write (hw.keep f i) _ _).bind fun _ _ _ _ _ _ => .pure trivial

theorem fr_keyLoad (h : Nat) : FrK N Any (Steps.keyLoad h) a I := by
  unfold Steps.keyLoad
  refine (fr_deserialize h).mapErr.bind fun x _ _ _ _ _ => ?_
  simp only
  split
  · exact .fail
  · refine (fr_seekCur h _ _).bind fun _ _ _ _ _ _ => ?_
    split
    · exact .abort
    · exact .pure trivial

theorem fr_keyStore {h : Nat} (hw : Wr h a I) (hd : Header) (ks : List Keyslot) : FrK N Any (Steps.keyStore h hd ks) a I := by
  unfold Steps.keyStore
  exact (fr_headerWrite hw _).mapErr

theorem fr_keyAddExecute (C : Crypto) {req : KeyOps.NewKeyRequest} (hw : Wr req.handle a I) : FrK N Any (Steps.keyAddExecute C req) a I := by
  unfold Steps.keyAddExecute
  refine (fr_keyLoad _).bind fun x _ _ f1 i1 _ => FrK.lift.bind fun y _ _ f2 i2 _ => ?_
  simp only
  split
  · exact .fail
  · refine (FrK.aside .genSalt).bind fun salt _ _ f3 i3 _ => (FrK.aside (.genNonce _ _)).bind fun n _ _ f4 i4 _ => FrK.lift.bind fun k _ _ f5 i5 _ => FrK.lift.bind fun e _ _ f6 i6 _ => ?_
    exact fr_keyStore ((((((hw.keep f1 i1).keep f2 i2).keep f3 i3).keep f4 i4).keep f5 i5).keep f6 i6) _ _

theorem fr_keyChangeExecute (C : Crypto) {req : KeyOps.NewKeyRequest} (hw : Wr req.handle a I) : FrK N Any (Steps.keyChangeExecute C req) a I := by
  unfold Steps.keyChangeExecute
  refine (fr_keyLoad _).bind fun x _ _ f1 i1 _ => FrK.lift.bind fun y _ _ f2 i2 _ => ?_
  refine (FrK.aside .genSalt).bind fun salt _ _ f3 i3 _ => FrK.lift.bind fun k _ _ f4 i4 _ => (FrK.aside (.genNonce _ _)).bind fun n _ _ f5 i5 _ => FrK.lift.bind fun e _ _ f6 i6 _ => ?_
  simp only
  split
  · exact fr_keyStore ((((((hw.keep f1 i1).keep f2 i2).keep f3 i3).keep f4 i4).keep f5 i5).keep f6 i6) _ _
  · exact .abort

theorem fr_keyDeleteExecute (C : Crypto) {h : Nat} (hw : Wr h a I) (pw : Bytes) : FrK N Any (Steps.keyDeleteExecute C h pw) a I := by
  unfold Steps.keyDeleteExecute
  refine (fr_keyLoad _).bind fun x _ _ f1 i1 _ => FrK.lift.bind fun y _ _ f2 i2 _ => ?_
  simp only
  split
  · exact fr_keyStore ((hw.keep f1 i1).keep f2 i2) _ _
  · exact .abort

theorem fr_keyVerifyExecute (C : Crypto) (h : Nat) (pw : Bytes) : FrK N Any (Steps.keyVerifyExecute C h pw) a I := by
  unfold Steps.keyVerifyExecute
  refine (fr_deserialize h).mapErr.bind fun x _ _ _ _ _ => ?_
  simp only
  split
  · exact .fail
  · split
    · exact .abort
    · exact FrK.lift.bind fun _ _ _ _ _ _ => .pure trivial

theorem fr_openV5 (s : Sys σ) {input : List Char} {Q : Nat → World → (Nat → Prop) → Prop} (ho : ∀ {a : World} {I : Nat → Prop}, FrK N Q (Thr.atom (openFile (toPath s.cwd input))) a I)
    (hQ : ∀ {h : Nat} {a w : World} {I J : Nat → Prop}, Q h a I → Fds a w → (∀ i, I i → J i) → Q h w J) : FrK N Q (Steps.openV5 s input) a I := by
  unfold Steps.openV5
  refine (fr_mapErr ho).bind fun h _ _ _ _ hw => (fr_deserialize h).mapErr.bind fun x _ _ f1 i1 _ => ?_
  simp only
  split
  · exact .fail
  · exact (fr_rewind h _).bind fun _ _ _ f2 i2 _ => .pure (hQ (hQ hw f1 i1) f2 i2)

theorem fr_keyAdd (s : Sys σ) {input : List Char} (params : KeyManipulationParams) (hp : Named N (toPath s.cwd input)) : FrK N Any (Steps.keyAdd s input params) a I := by
  unfold Steps.keyAdd
  refine (fr_openV5 s (fr_openMine hp) Wr.keep).bind fun h _ _ _ _ hw => (FrK.aside (.announce _ _)).bind fun _ _ _ f1 i1 _ => (fr_getSecret _ _ _ _).bind fun _ _ _ f2 i2 _ => ?_
  refine (FrK.aside (.announce _ _)).bind fun _ _ _ f3 i3 _ => (fr_getSecret _ _ _ _).bind fun _ _ _ f4 i4 _ => ?_
  exact (fr_keyAddExecute s.C ((((hw.keep f1 i1).keep f2 i2).keep f3 i3).keep f4 i4)).mapErr

theorem fr_keyChange (s : Sys σ) {input : List Char} (params : KeyManipulationParams) (hp : Named N (toPath s.cwd input)) : FrK N Any (Steps.keyChange s input params) a I := by
  unfold Steps.keyChange
  refine (fr_openV5 s (fr_openMine hp) Wr.keep).bind fun h _ _ _ _ hw => (FrK.aside (.announce _ _)).bind fun _ _ _ f1 i1 _ => (fr_getSecret _ _ _ _).bind fun _ _ _ f2 i2 _ => ?_
  refine (FrK.aside (.announce _ _)).bind fun _ _ _ f3 i3 _ => (fr_getSecret _ _ _ _).bind fun _ _ _ f4 i4 _ => ?_
  exact (fr_keyChangeExecute s.C ((((hw.keep f1 i1).keep f2 i2).keep f3 i3).keep f4 i4)).mapErr

theorem fr_keyDelete (s : Sys σ) {input : List Char} (key : Key) (hp : Named N (toPath s.cwd input)) : FrK N Any (Steps.keyDelete s input key) a I := by
  unfold Steps.keyDelete
  refine (fr_openV5 s (fr_openMine hp) Wr.keep).bind fun h _ _ _ _ hw => (FrK.aside (.announce _ _)).bind fun _ _ _ f1 i1 _ => (fr_getSecret _ _ _ _).bind fun _ _ _ f2 i2 _ => ?_
  exact (fr_keyDeleteExecute s.C ((hw.keep f1 i1).keep f2 i2) _).mapErr

theorem fr_keyVerify (s : Sys σ) (input : List Char) (key : Key) : FrK N Any (Steps.keyVerify s input key) a I := by
  unfold Steps.keyVerify
  refine (fr_openV5 (Q := Any) s (fr_openFile _) fun _ _ _ => trivial).bind fun h _ _ _ _ _ => (FrK.aside (.announce _ _)).bind fun _ _ _ _ _ _ => (fr_getSecret _ _ _ _).bind fun _ _ _ _ _ _ => ?_
  exact (fr_keyVerifyExecute s.C h _).mapErr

theorem fr_headerDetails (s : Sys σ) (input : List Char) : FrK N Any (Steps.headerDetails s input) a I := by
  unfold Steps.headerDetails
  refine (fr_mapErr (fr_openFile _)).bind fun f _ _ _ _ _ => (fr_deserialize f).mapErr.bind fun x _ _ _ _ _ => ?_
  exact (FrK.aside (.sayAll _)).bind fun _ _ _ _ _ _ => FrK.lift.bind fun _ _ _ _ _ _ => (FrK.aside (.sayAll _)).bind fun _ _ _ _ _ _ => .pure trivial

theorem fr_headerDump (s : Sys σ) (input : List Char) {output : List Char} (force : ForceMode) (hp : Named N (toPath s.cwd output)) : FrK N Any (Steps.headerDump s input output force) a I := by
  unfold Steps.headerDump Steps.dumpExecute
  refine (fr_readInput _).bind fun e _ _ _ _ _ => (fr_consent _ _ _).bind fun _ _ _ _ _ _ => (fr_openOutput hp).bind fun o _ _ _ _ ho => ?_
  refine fr_streamOf.bind fun r _ _ _ _ h => fr_streamOf.bind fun w _ _ _ _ h' => ?_
  obtain ⟨-, rfl, rfl⟩ := h
  obtain ⟨h', rfl, rfl⟩ := h'
  refine FrK.bind (Q := Any) (FrK.mapErr ?_) fun _ _ _ _ _ _ => (fr_flushFile _).mapErr
  exact (fr_deserialize r).mapErr.bind fun x _ _ f i _ => (fr_headerWrite ((ho _ h').keep f i) _).mapErr

theorem fr_headerRestore (s : Sys σ) (input : List Char) {output : List Char} (hp : Named N (toPath s.cwd output)) : FrK N Any (Steps.headerRestore s input output) a I := by
  unfold Steps.headerRestore Steps.restoreExecute
  refine (fr_readInput _).bind fun e _ _ _ _ _ => (fr_mapErr (fr_openMine hp)).bind fun w _ _ _ _ hw => ?_
  refine fr_streamOf.bind fun r _ _ _ _ h => FrK.mapErr ?_
  obtain ⟨-, rfl, rfl⟩ := h
  refine (fr_deserialize r).mapErr.bind fun x _ _ f1 i1 _ => (fr_read _ _ _).bind fun got _ _ f2 i2 _ => ?_
  simp only
  split
  · exact .fail
  · exact (fr_rewind _ _).bind fun _ _ _ f3 i3 _ => (fr_headerWrite (((hw.keep f1 i1).keep f2 i2).keep f3 i3) _).mapErr

theorem fr_headerStrip (s : Sys σ) {input : List Char} (hp : Named N (toPath s.cwd input)) : FrK N Any (Steps.headerStrip s input) a I := by
  unfold Steps.headerStrip Steps.stripExecute
  refine (fr_mapErr (fr_openMine hp)).bind fun h _ _ _ _ hw => FrK.mapErr ?_
  exact (fr_deserialize h).mapErr.bind fun x _ _ f1 i1 _ => (fr_rewind _ _).bind fun _ _ _ f2 i2 _ => fr_writeAll ((hw.keep f1 i1).keep f2 i2) _ _

end Volaris.Dist
