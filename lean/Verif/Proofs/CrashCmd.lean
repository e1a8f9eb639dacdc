import Verif.Proofs.Crash
import Verif.Model.Cli.Commands
/-!
# The programs of the tool are built from calls
-/
namespace Volaris
open Spec

variable {ε ε' α β : Type}

namespace Crashes

theorem orElse {x y : Prog ε α} (hx : Crashes x) (hy : Crashes y) : Crashes (Unpack.orElse x y) := by
  have e : Unpack.orElse x y = (do
      let r ← x.attempt
      match r with
      | .ok a => Pure.pure a
      | .err _ => y
      | .abort a => Prog.lift (.abort a)) := by
    funext w
    rw [Prog.bind_run, attempt_eq]
    unfold Unpack.orElse
    rcases x w with ⟨_ | _ | _, _⟩ <;> rfl
  rw [e]
  refine bind (attempt hx) fun r => ?_
  split
  · exact pure _
  · exact hy
  · exact lift _

theorem expect {x : Prog ε α} (hx : Crashes x) : Crashes (Cli.expect x : Prog ε' α) := by
  have e : (Cli.expect x : Prog ε' α) = (do
      let r ← x.attempt
      match r with
      | .ok a => Pure.pure a
      | .err _ => Prog.panic
      | .abort a => Prog.lift (.abort a)) := by
    funext w
    rw [Prog.bind_run, attempt_eq]
    unfold Cli.expect
    rcases x w with ⟨_ | _ | _, _⟩ <;> rfl
  rw [e]
  refine bind (attempt hx) fun r => ?_
  split
  · exact pure _
  · exact panic
  · exact lift _

/-! ### Threads -/

/-- Every step of a thread is a call. -/
inductive Steps : Thr ε α → Prop
  | done (r) : Steps (.done r)
  | step {eff k} (h : Crashes (fun w => (.ok (k w), eff w) : Prog ε (Thr ε α))) (hk : ∀ w, Steps (k w)) : Steps (.step eff k)

/-- The result kept as a value, also if it is not `Ok`. -/
theorem kept {x : Prog ε α} (hx : Crashes x) : Crashes (fun w => (.ok (x w).1, (x w).2) : Prog ε' (Res ε α)) := by
  intro w
  obtain ⟨⟨s1, h1⟩, ⟨es1, hc1, he1, hm1⟩, ⟨n1, r1, v1, hd1, hr1⟩, hv1, ht1⟩ := hx w
  have key : ∀ {s r w'}, Runs x w s r w' → Runs (fun w => (.ok (x w).1, (x w).2) : Prog ε' (Res ε α)) w s (.ok r) w' := by
    intro s r w' h s'
    show (Res.ok (x (w.withSched _)).1, _) = _
    rw [h s']
  exact ⟨⟨s1, key h1⟩, ⟨es1, hc1, he1, fun d hd => by obtain ⟨s, r, w', a, b⟩ := hm1 d hd; exact ⟨s, _, w', a, key b⟩⟩, ⟨n1, _, v1, hd1, key hr1⟩, hv1, ht1⟩

/-- Changing what a step leads to. -/
theorem after {γ δ : Type} {eff : World → World} {k : World → γ} (f : ε → ε') (g : γ → δ) (h : Crashes (fun w => (.ok (k w), eff w) : Prog ε γ)) :
    Crashes (fun w => (.ok (g (k w)), eff w) : Prog ε' δ) := mapErr f (bind h fun c => pure (g c))

/-- One step, as a program. -/
theorem Steps.atom {x : Prog ε α} (hx : Crashes x) : Steps (Thr.atom x) := .step (after (ε := ε) id Thr.done (kept hx)) fun w => .done _

theorem Steps.bind {t : Thr ε α} {f : α → Thr ε β} (ht : Steps t) (hf : ∀ a, Steps (f a)) : Steps (t >>= f) := by
  show Steps (t.bind f)
  induction ht with
  | done r => cases r with
    | ok a => exact hf a
    | err e => exact .done _
    | abort a => exact .done _
  | step h hk ih => exact .step (after id (fun k => k.bind f) h) ih

theorem Steps.mapErr {t : Thr ε α} (g : ε → ε') (ht : Steps t) : Steps (t.mapErr g) := by
  induction ht with
  | done r => exact .done _
  | step h hk ih => exact .step (after g (fun k => k.mapErr g) h) ih

theorem Steps.pure (a : α) : Steps (Pure.pure a : Thr ε α) := .done _

theorem Steps.run {t : Thr ε α} (ht : Steps t) : Crashes t.run := by
  induction ht with
  | done r => exact lift r
  | @step eff k h hk ih => exact bindOn (fun t => ∃ w, t = k w) h (fun w a w' e => ⟨w, by cases e; rfl⟩) fun t ⟨w, e⟩ => by rw [e]; exact ih w

theorem interleave (order : List Nat) : ∀ (ts : List (Thr ε α)), (∀ t ∈ ts, Steps t) →
    Crashes (fun w => (.ok (Volaris.interleave order ts w).1, (Volaris.interleave order ts w).2) : Prog ε (List (Thr ε α))) ∧
    ∀ w, ∀ t ∈ (Volaris.interleave order ts w).1, Steps t := by
  induction order with
  | nil => intro ts hts; exact ⟨pure ts, fun w => hts⟩
  | cons i is ih =>
    intro ts hts
    rcases hi : ts[i]? with _ | t
    · have e : Volaris.interleave (i :: is) ts = Volaris.interleave is ts := by funext w; simp only [Volaris.interleave, hi]
      rw [e]; exact ih ts hts
    · have ht := hts t (List.mem_of_getElem? hi)
      cases ht with
      | done r =>
        have e : Volaris.interleave (i :: is) ts = Volaris.interleave is ts := by funext w; simp only [Volaris.interleave, hi]
        rw [e]; exact ih ts hts
      | @step eff k h hk =>
        have e : Volaris.interleave (i :: is) ts = fun w => Volaris.interleave is (ts.set i (k w)) (eff w) := by funext w; simp only [Volaris.interleave, hi]
        have hset : ∀ w, ∀ t ∈ ts.set i (k w), Steps t := by
          intro w t hm
          rcases List.mem_or_eq_of_mem_set hm with hm | hm
          · exact hts t hm
          · rw [hm]; exact hk w
        rw [e]
        refine ⟨?_, fun w => (ih _ (hset w)).2 (eff w)⟩
        exact bindOn (fun t => ∃ w, t = k w) h (fun w a w' e => ⟨w, by cases e; rfl⟩)
          (f := fun t => (fun w => (.ok (Volaris.interleave is (ts.set i t) w).1, (Volaris.interleave is (ts.set i t) w).2) : Prog ε (List (Thr ε α))))
          fun t ⟨w, e⟩ => by rw [e]; exact (ih _ (hset w)).1

theorem finish : ∀ (ts : List (Thr ε α)), (∀ t ∈ ts, Steps t) → Crashes (fun w => (.ok (Volaris.finish ts w).1, (Volaris.finish ts w).2) : Prog ε (List (Res ε α))) := by
  intro ts
  induction ts with
  | nil => intro _; exact pure []
  | cons t ts ih =>
    intro hts
    exact bind (kept (hts t List.mem_cons_self).run) fun r => bind (ih fun t ht => hts t (List.mem_cons_of_mem _ ht)) fun rs => pure (r :: rs)

theorem spawnJoin (order : List Nat) {ts : List (Thr ε Unit)} (hts : ∀ t ∈ ts, Steps t) : Crashes (Volaris.spawnJoin order ts) := by
  have e : Volaris.spawnJoin order ts = Prog.bind (fun w => (.ok (Volaris.interleave order ts w).1, (Volaris.interleave order ts w).2) : Prog ε (List (Thr ε Unit)))
      (fun ts => match joined ts with
        | some r => Prog.lift r
        | none => Prog.bind (fun w => (.ok (Volaris.finish ts w).1, (Volaris.finish ts w).2) : Prog ε (List (Res ε Unit)))
            fun rs => Prog.lift ((joined (rs.map .done)).getD (.ok ()))) := by
    funext w
    unfold Volaris.spawnJoin Prog.bind
    dsimp only
    split
    · next h => rw [h]; rfl
    · next h => rw [h]; rfl
  rw [e]
  refine bindOn (fun ts => ∀ t ∈ ts, Steps t) (interleave order ts hts).1 (fun w a w' e => by cases e; exact (interleave order ts hts).2 w) fun ts hts => ?_
  split
  · exact lift _
  · exact bind (finish ts hts) fun rs => lift _

/-! ### The tool -/

/-- One step of the proof that a program is built from calls. -/
syntax "crash_leaf" : tactic
macro_rules | `(tactic| crash_leaf) => `(tactic| fail)
macro_rules | `(tactic| crash_leaf) => `(tactic| exact lift _)
macro_rules | `(tactic| crash_leaf) => `(tactic| exact throw _)
macro_rules | `(tactic| crash_leaf) => `(tactic| exact panic)
macro_rules | `(tactic| crash_leaf) => `(tactic| exact pure _)
macro_rules | `(tactic| crash_leaf) => `(tactic| exact genBytes _)
macro_rules | `(tactic| crash_leaf) => `(tactic| exact read _ _)
macro_rules | `(tactic| crash_leaf) => `(tactic| exact write _ _)
macro_rules | `(tactic| crash_leaf) => `(tactic| exact rewind _)
macro_rules | `(tactic| crash_leaf) => `(tactic| exact seekCur _ _)
macro_rules | `(tactic| crash_leaf) => `(tactic| exact flush _)
macro_rules | `(tactic| crash_leaf) => `(tactic| exact sys)
macro_rules | `(tactic| crash_leaf) => `(tactic| exact sysRetry)
macro_rules | `(tactic| crash_leaf) => `(tactic| exact openFile _)
macro_rules | `(tactic| crash_leaf) => `(tactic| exact openTrunc _)
macro_rules | `(tactic| crash_leaf) => `(tactic| exact openNew _)
macro_rules | `(tactic| crash_leaf) => `(tactic| exact setLen0 _)
macro_rules | `(tactic| crash_leaf) => `(tactic| exact fileLen _)
macro_rules | `(tactic| crash_leaf) => `(tactic| exact unlink _)
macro_rules | `(tactic| crash_leaf) => `(tactic| exact mkdir _)
macro_rules | `(tactic| crash_leaf) => `(tactic| exact isDir _)
macro_rules | `(tactic| crash_leaf) => `(tactic| exact existsAt _)
macro_rules | `(tactic| crash_leaf) => `(tactic| exact readUpTo _ _)
macro_rules | `(tactic| crash_leaf) => `(tactic| exact readExact _ _)
macro_rules | `(tactic| crash_leaf) => `(tactic| exact readToEnd _)
macro_rules | `(tactic| crash_leaf) => `(tactic| exact writeAll _ _)

/-- The whole proof. -/
macro "crash" : tactic => `(tactic| repeat' first
  | assumption
  | with_reducible crash_leaf
  | refine mapErr _ ?_
  | refine attempt ?_
  | refine bind ?_ fun _ => ?_
  | dsimp only
  | split)

theorem deserialize (h : Nat) : Crashes (Volaris.deserialize h) := by unfold Volaris.deserialize; crash
macro_rules | `(tactic| crash_leaf) => `(tactic| exact deserialize _)
theorem headerWrite (hd : Header) (h : Nat) : Crashes (hd.write h) := by unfold Header.write; crash
macro_rules | `(tactic| crash_leaf) => `(tactic| exact headerWrite _ _)

theorem encLoop (C : Crypto) (rh wh : Nat) (aad : Bytes) : ∀ fuel s, Crashes (Volaris.encLoop C rh wh aad fuel s) := by
  intro fuel
  induction fuel with
  | zero => intro s; unfold Volaris.encLoop; crash
  | succ n ih => intro s; unfold Volaris.encLoop; crash; all_goals exact ih _
theorem decLoop (C : Crypto) (rh wh : Nat) (aad : Bytes) : ∀ fuel s, Crashes (Volaris.decLoop C rh wh aad fuel s) := by
  intro fuel
  induction fuel with
  | zero => intro s; unfold Volaris.decLoop; crash
  | succ n ih => intro s; unfold Volaris.decLoop; crash; all_goals exact ih _
macro_rules | `(tactic| crash_leaf) => `(tactic| exact encLoop _ _ _ _ _ _)
macro_rules | `(tactic| crash_leaf) => `(tactic| exact decLoop _ _ _ _ _ _)
theorem encryptFile (C : Crypto) (s : Stream) (rh wh : Nat) (aad : Bytes) : Crashes (Volaris.encryptFile C s rh wh aad) := by unfold Volaris.encryptFile; crash
theorem decryptFile (C : Crypto) (s : Stream) (rh wh : Nat) (aad : Bytes) : Crashes (Volaris.decryptFile C s rh wh aad) := by unfold Volaris.decryptFile; crash
macro_rules | `(tactic| crash_leaf) => `(tactic| exact encryptFile _ _ _ _ _)
macro_rules | `(tactic| crash_leaf) => `(tactic| exact decryptFile _ _ _ _ _)

theorem encrypt (C : Crypto) (req : Encrypt.Request) : Crashes (Encrypt.execute C req) := by
  unfold Encrypt.execute Encrypt.prepare Encrypt.writeHeader genSalt genMasterKey genNonce; crash
theorem decrypt (C : Crypto) (req : Decrypt.Request) : Crashes (Decrypt.execute C req) := by
  unfold Decrypt.execute Decrypt.getHeader Decrypt.body; crash
macro_rules | `(tactic| crash_leaf) => `(tactic| exact encrypt _ _)
macro_rules | `(tactic| crash_leaf) => `(tactic| exact decrypt _ _)

theorem hashLoop {σ : Type} (H : HashCmd.Hasher σ) (h : Nat) : ∀ fuel st, Crashes (HashCmd.loop H h fuel st) := by
  intro fuel
  induction fuel with
  | zero => intro s; unfold HashCmd.loop; crash
  | succ n ih => intro s; unfold HashCmd.loop; crash; all_goals exact ih _
theorem hashAll {σ : Type} (H : HashCmd.Hasher σ) (h : Nat) : Crashes (HashCmd.hashAll H h) :=
  looking (fun w => (w.data h).length) (fun _ _ => rfl) fun n => hashLoop H h n _
macro_rules | `(tactic| crash_leaf) => `(tactic| exact hashAll _ _)
theorem hashExecute {σ : Type} (H : HashCmd.Hasher σ) (h : Nat) : Crashes (HashCmd.execute H h) := by unfold HashCmd.execute; crash
macro_rules | `(tactic| crash_leaf) => `(tactic| exact hashExecute _ _)

theorem dump (r wr : Nat) : Crashes (HeaderOps.dump r wr) := by unfold HeaderOps.dump; crash
theorem restore (r wr : Nat) : Crashes (HeaderOps.restore r wr) := by unfold HeaderOps.restore; crash
theorem strip (h : Nat) : Crashes (HeaderOps.strip h) := by unfold HeaderOps.strip; crash
macro_rules | `(tactic| crash_leaf) => `(tactic| exact dump _ _)
macro_rules | `(tactic| crash_leaf) => `(tactic| exact restore _ _)
macro_rules | `(tactic| crash_leaf) => `(tactic| exact strip _)

theorem keyAdd (C : Crypto) (req : KeyOps.NewKeyRequest) : Crashes (KeyOps.add C req) := by unfold KeyOps.add KeyOps.load KeyOps.store genSalt genNonce; crash
theorem keyChange (C : Crypto) (req : KeyOps.NewKeyRequest) : Crashes (KeyOps.change C req) := by unfold KeyOps.change KeyOps.load KeyOps.store genSalt genNonce; crash
theorem keyDelete (C : Crypto) (h : Nat) (k : Bytes) : Crashes (KeyOps.delete C h k) := by unfold KeyOps.delete KeyOps.load KeyOps.store; crash
theorem keyVerify (C : Crypto) (h : Nat) (k : Bytes) : Crashes (KeyOps.verify C h k) := by unfold KeyOps.verify; crash
macro_rules | `(tactic| crash_leaf) => `(tactic| exact keyAdd _ _)
macro_rules | `(tactic| crash_leaf) => `(tactic| exact keyChange _ _)
macro_rules | `(tactic| crash_leaf) => `(tactic| exact keyDelete _ _ _)
macro_rules | `(tactic| crash_leaf) => `(tactic| exact keyVerify _ _ _)

theorem writeBlocks (h : Nat) : ∀ bs, Crashes (Overwrite.writeBlocks h bs) := by
  intro bs
  induction bs with
  | nil => exact pure _
  | cons b bs ih => unfold Overwrite.writeBlocks; crash
macro_rules | `(tactic| crash_leaf) => `(tactic| exact writeBlocks _ _)
theorem passes (h cap : Nat) : ∀ n, Crashes (Overwrite.passes h cap n) := by
  intro n
  induction n with
  | zero => exact pure _
  | succ n ih => unfold Overwrite.passes; crash
macro_rules | `(tactic| crash_leaf) => `(tactic| exact passes _ _ _)
theorem overwrite (h cap : Nat) (n : Int) : Crashes (Overwrite.execute h cap n) := by unfold Overwrite.execute; crash
macro_rules | `(tactic| crash_leaf) => `(tactic| exact overwrite _ _ _)

theorem createFile (p : PathBuf) : Crashes (Storage.createFile p) := by unfold Storage.createFile; crash
theorem readFile (p : PathBuf) : Crashes (Storage.readFile p) := by unfold Storage.readFile; crash
theorem writeFile (p : PathBuf) : Crashes (Storage.writeFile p) := by unfold Storage.writeFile; crash
theorem flushFile (e : Storage.Entry) : Crashes (Storage.flushFile e) := by unfold Storage.flushFile; crash
theorem entryLen (e : Storage.Entry) : Crashes (Storage.fileLen e) := by unfold Storage.fileLen; crash
theorem removeFile (e : Storage.Entry) : Crashes (Storage.removeFile e) := by unfold Storage.removeFile Storage.emptyFile; crash
macro_rules | `(tactic| crash_leaf) => `(tactic| exact createFile _)
macro_rules | `(tactic| crash_leaf) => `(tactic| exact readFile _)
macro_rules | `(tactic| crash_leaf) => `(tactic| exact writeFile _)
macro_rules | `(tactic| crash_leaf) => `(tactic| exact flushFile _)
macro_rules | `(tactic| crash_leaf) => `(tactic| exact entryLen _)
macro_rules | `(tactic| crash_leaf) => `(tactic| exact removeFile _)

theorem removeEntries : ∀ qs, Crashes (Storage.removeEntries qs) := by
  intro qs
  induction qs with
  | nil => exact pure _
  | cons q qs ih =>
    have e : Storage.removeEntries (q :: qs) = ((do Volaris.sys; Storage.dropEntry q) >>= fun _ => Storage.removeEntries qs) := by
      funext w
      show (Volaris.sys >>= fun _ => Storage.dropEntry q >>= fun _ => Storage.removeEntries qs) w = _
      rw [Prog.bind_run, Prog.bind_run, Prog.bind_run]
      rcases Volaris.sys w with ⟨_ | _ | _, _⟩ <;> rfl
    rw [e]
    refine bind (sys_then (fun w s => ?_) (fun w => ?_) (fun w => ?_) (fun w h => ?_)) fun _ => ih
    · unfold Storage.dropEntry
      rw [look_withSched]
      split
      · rfl
      · show (if w.dir.any _ then _ else _) = ((if w.dir.any _ then _ else _ : Res IoErr Unit × World).1, (if w.dir.any _ then _ else _ : Res IoErr Unit × World).2.withSched s)
        split <;> rfl
      · rfl
    · unfold Storage.dropEntry
      split
      · exact .inr ⟨.unlink q, rfl, rfl, fun _ hd => hd⟩
      · split
        · exact .inl ⟨rfl, rfl⟩
        · exact .inr ⟨.unlink q, rfl, rfl, fun _ hd => hd⟩
      · exact .inl ⟨rfl, rfl⟩
    · unfold Storage.dropEntry
      split
      · exact ⟨rfl, List.suffix_refl _⟩
      · split <;> exact ⟨rfl, List.suffix_refl _⟩
      · exact ⟨rfl, List.suffix_refl _⟩
    · unfold Storage.dropEntry
      split
      · next hl => exact h.removed hl
      · split
        · exact h
        · next hn =>
          refine h.removedEmpty fun e he hp => Decidable.byContradiction fun hne => hn ?_
          exact List.any_eq_true.2 ⟨e, he, by simp [List.isPrefixOf_iff_prefix, hp, hne]⟩
      · exact h

theorem rmTree (p : PathBuf) : Crashes (Storage.rmTree p) := by
  have h := looking (fun w : World => (w.resolve p, w.look, w.dir))
    (f := fun c => match c.1 with
      | .ok q => if c.2.1 q = some Node.dir then Storage.removeEntries (Storage.deepFirst ((c.2.2.map (·.1)).filter (q.isPrefixOf ·))) else Prog.throw IoErr.other
      | .error e => Prog.throw e) (fun w s => by rw [resolve_withSched]; rfl) (fun c => by
        split
        · split
          · exact removeEntries _
          · exact throw _
        · exact throw _)
  refine cast (congrArg Crashes ?_) h
  funext w
  unfold Storage.rmTree
  dsimp only
  cases w.resolve p with
  | error e => rfl
  | ok q => dsimp only; split <;> rfl
macro_rules | `(tactic| crash_leaf) => `(tactic| exact rmTree _)
theorem removeDirAll (e : Storage.Entry) : Crashes (Storage.removeDirAll e) := by unfold Storage.removeDirAll; crash
macro_rules | `(tactic| crash_leaf) => `(tactic| exact removeDirAll _)

theorem readEntries : ∀ ps, Crashes (Storage.readEntries ps) := by
  intro ps
  induction ps with
  | nil => exact pure _
  | cons p ps ih => unfold Storage.readEntries; crash
theorem readDir (e : Storage.Entry) : Crashes (Storage.readDir e) := by
  unfold Storage.readDir
  refine ite (throw _) ?_
  exact looking (fun w => Storage.World.below w e.path) (fun w s => by unfold Storage.World.below; rw [resolve_withSched]; rfl) readEntries
macro_rules | `(tactic| crash_leaf) => `(tactic| exact readDir _)
theorem createTempFile (p : PathBuf) : Crashes (Storage.createTempFile p) := by unfold Storage.createTempFile; crash
macro_rules | `(tactic| crash_leaf) => `(tactic| exact createTempFile _)

theorem createDirAllRev (p : PathBuf) : ∀ cs, Steps (Storage.createDirAllRev p cs) := by
  intro cs
  induction cs with
  | nil => exact .done _
  | cons c cs ih =>
    unfold Storage.createDirAllRev
    refine .bind (.atom (attempt (mkdir _))) fun r => ?_
    split
    · exact .pure _
    · refine .bind ih fun _ => .bind (.atom (attempt (mkdir _))) fun r => ?_
      split
      · exact .pure _
      · exact .bind (.atom (isDir _)) fun b => by split; exact .pure _; exact .done _
      · exact .done _
    · exact .bind (.atom (isDir _)) fun b => by split; exact .pure _; exact .done _
    · exact .done _

theorem dirThreads (out : PathBuf) (es : List Unpack.Entity) : ∀ t ∈ Unpack.dirThreads out es, Steps t := by
  intro t ht
  obtain ⟨p, -, rfl⟩ := List.mem_map.1 ht
  exact .mapErr _ (.mapErr _ (createDirAllRev p _))

theorem eraseBlocks (h : Nat) : ∀ bs, Steps (Erase.writeBlocks h bs) := by
  intro bs
  induction bs with
  | nil => exact .done _
  | cons b bs ih => exact .bind (.atom (genBytes _)) fun _ => .bind (.atom (mapErr _ (writeAll _ _))) fun _ => ih
theorem erasePasses (h cap : Nat) : ∀ n, Steps (Erase.passes h cap n) := by
  intro n
  induction n with
  | zero => exact .done _
  | succ n ih => exact .bind (.atom (mapErr _ (rewind _))) fun _ => .bind (eraseBlocks _ _) fun _ => .bind (.atom (mapErr _ (flush _))) fun _ => ih
theorem eraseThread (p : PathBuf) (n : Int) : Steps (Erase.thread p n) := by
  refine .bind (.atom (mapErr _ (openTrunc _))) fun h => .bind (.atom (mapErr _ (fileLen _))) fun cap => .bind (.mapErr _ ?_) fun _ => .mapErr _ ?_
  · exact .bind (erasePasses _ _ _) fun _ => .bind (.atom (mapErr _ (rewind _))) fun _ => .bind (.atom (mapErr _ (writeAll _ _))) fun _ => .atom (mapErr _ (flush _))
  · exact .bind (.atom (mapErr _ (setLen0 _))) fun _ => .bind (.atom (mapErr _ (flush _))) fun _ => .atom (mapErr _ (unlink _))
theorem eraseThreads (fs : List Storage.Entry) (n : Int) : ∀ t ∈ EraseDir.threads fs n, Steps t := by
  intro t ht
  obtain ⟨p, -, rfl⟩ := List.mem_map.1 ht
  exact .mapErr _ (eraseThread _ _)
macro_rules | `(tactic| crash_leaf) => `(tactic| exact spawnJoin _ (dirThreads _ _))
macro_rules | `(tactic| crash_leaf) => `(tactic| exact spawnJoin _ (eraseThreads _ _))

theorem erase (p : PathBuf) (n : Int) : Crashes (Erase.execute p n) := by unfold Erase.execute; crash
theorem eraseDir (order : List Nat) (e : Storage.Entry) (n : Int) : Crashes (EraseDir.execute order e n) := by unfold EraseDir.execute; crash
macro_rules | `(tactic| crash_leaf) => `(tactic| exact erase _ _)
macro_rules | `(tactic| crash_leaf) => `(tactic| exact eraseDir _ _ _)

theorem packReadFile (h : Nat) : ∀ fuel got, Crashes (Pack.readFile h fuel got) := by
  intro fuel
  induction fuel with
  | zero => intro s; unfold Pack.readFile; crash
  | succ n ih => intro s; unfold Pack.readFile; crash; all_goals exact ih _
theorem packReadAll (h : Nat) : Crashes (Pack.readAll h) := looking (fun w => (w.data h).length) (fun _ _ => rfl) fun n => packReadFile h n _
macro_rules | `(tactic| crash_leaf) => `(tactic| exact packReadAll _)
theorem addEntry (z : Zip) (done : List ZipEntry) (f : Storage.Entry) : Crashes (Pack.addEntry z done f) := by unfold Pack.addEntry Pack.startEntry; crash
theorem addAll (z : Zip) : ∀ fs done, Crashes (Pack.addAll z fs done) := by
  intro fs
  induction fs with
  | nil => intro done; exact pure _
  | cons f fs ih => intro done; exact bind (addEntry z done f) fun d => ih d
macro_rules | `(tactic| crash_leaf) => `(tactic| exact addAll _ _ _)
theorem pack (C : Crypto) (z : Zip) (tmp : PathBuf) (req : Pack.Request) : Crashes (Pack.execute C z tmp req) := by unfold Pack.execute Pack.writeArchive; crash
macro_rules | `(tactic| crash_leaf) => `(tactic| exact pack _ _ _ _)

theorem openArchive (z : Zip) (t : Nat) : Crashes (Unpack.openArchive z t) := by
  refine bind (mapErr _ sysRetry) fun _ => ?_
  have h := looking (fun w => z.decode (w.data t)) (f := fun c => Prog.lift (match c with | some l => .ok l.length | none => .err Unpack.Error.openArchive)) (fun _ _ => rfl) fun _ => lift _
  refine cast (congrArg Crashes ?_) h
  funext w; unfold Unpack.lenAt; cases z.decode (w.data t) <;> rfl
theorem byIndex (z : Zip) (t i : Nat) : Crashes (Unpack.byIndex z t i) := by
  refine bind sysRetry fun _ => ?_
  have h := looking (fun w => (z.decode (w.data t)).bind (·[i]?))
    (f := fun c => Prog.lift (match c with | some m => if m.opens then .ok m else .err IoErr.other | none => .err .other)) (fun _ _ => rfl) fun _ => lift _
  refine cast (congrArg Crashes ?_) h
  funext w; unfold Unpack.memberAt Prog.lift
  cases (z.decode (w.data t)).bind (·[i]?) with
  | none => rfl
  | some m => dsimp only; split <;> rfl
macro_rules | `(tactic| crash_leaf) => `(tactic| exact openArchive _ _)
macro_rules | `(tactic| crash_leaf) => `(tactic| exact byIndex _ _ _)

theorem entities (z : Zip) (t : Nat) (out : PathBuf) (cb : Option (PathBuf → Prog Unpack.Error Bool)) (hcb : ∀ f, cb = some f → ∀ p, Crashes (f p)) :
    ∀ is, Crashes (Unpack.entities z t out cb is) := by
  intro is
  have ask : ∀ p, Crashes (Unpack.ask cb p) := by
    intro p
    cases cb with
    | none => exact pure _
    | some f => exact hcb f rfl p
  induction is with
  | nil => exact pure _
  | cons i is ih =>
    unfold Unpack.entities
    crash
    exact ask _
theorem extractAll (z : Zip) (t : Nat) : ∀ es, Crashes (Unpack.extractAll z t es) := by
  intro es
  induction es with
  | nil => exact pure _
  | cons e es ih =>
    unfold Unpack.extractAll Unpack.extract Unpack.copy
    crash
    exact orElse (createFile _) (writeFile _)
macro_rules | `(tactic| crash_leaf) => `(tactic| exact extractAll _ _ _)
theorem unpack (C : Crypto) (z : Zip) (tmp : PathBuf) (order : List Nat) (req : Unpack.Request) (hcb : ∀ f, req.onZipFile = some f → ∀ p, Crashes (f p)) :
    Crashes (Unpack.execute C z tmp order req) := by
  unfold Unpack.execute Unpack.recover
  crash
  exact entities _ _ _ _ hcb _

end Crashes

namespace Cli
open Crashes
variable {σ : Type}

theorem say_crashes (l : List Char) : Crashes (say l : Prog ε Unit) := quiet (fun _ _ => rfl) (fun _ => rfl) (fun _ => rfl) fun _ => ⟨rfl, List.suffix_cons _ _⟩
macro_rules | `(tactic| crash_leaf) => `(tactic| exact say_crashes _)
theorem answerLoop_crashes (p : List Char) (d : Bool) : ∀ lines, Crashes (answerLoop p d lines) := by
  intro lines
  have set : ∀ l, Crashes (setStdin l : Prog Error Unit) := fun l => quiet (fun _ _ => rfl) (fun _ => rfl) (fun _ => rfl)
  induction lines with
  | nil => unfold answerLoop; crash
  | cons l ls ih => unfold answerLoop; crash; exact set _
theorem getAnswer_crashes (p : List Char) (d : Bool) (f : ForceMode) : Crashes (getAnswer p d f) := by
  unfold getAnswer
  exact ite (pure _) (looking (fun w => w.stdin) (fun _ _ => rfl) (answerLoop_crashes p d))
macro_rules | `(tactic| crash_leaf) => `(tactic| exact getAnswer_crashes _ _ _)
theorem consent_crashes (cwd : Path) (p : List Char) (f : ForceMode) : Crashes (consent cwd p f) := by unfold consent overwriteCheck exit0; crash
macro_rules | `(tactic| crash_leaf) => `(tactic| exact consent_crashes _ _ _)

theorem setTty_crashes (l : List Bytes) : Crashes (setTty l : Prog Error Unit) := quiet (fun _ _ => rfl) (fun _ => rfl) (fun _ => rfl)
macro_rules | `(tactic| crash_leaf) => `(tactic| exact setTty_crashes _)
theorem confirmLoop_crashes : ∀ l, Crashes (confirmLoop l)
  | [] => throw _
  | [_] => by unfold confirmLoop; crash
  | a :: b :: rest => by have ih := confirmLoop_crashes rest; unfold confirmLoop; crash
theorem getPassword_crashes (st : PasswordState) : Crashes (getPassword st) := by
  cases st with
  | direct => exact looking (fun w => w.tty) (fun _ _ => rfl) (f := directPassword) fun l => by unfold directPassword; crash
  | validate => exact looking (fun w => w.tty) (fun _ _ => rfl) confirmLoop_crashes
macro_rules | `(tactic| crash_leaf) => `(tactic| exact getPassword_crashes _)
theorem readStdin_crashes : Crashes readStdin :=
  looking (fun w => w.stdin) (fun _ _ => rfl) (f := fun l => do
    Volaris.sysRetry.mapErr fun _ => Error.readData
    setStdin []
    Pure.pure (stdinBytes l)) fun l => bind (Crashes.mapErr _ Crashes.sysRetry) fun _ => bind (quiet (fun _ _ => rfl) (fun _ => rfl) (fun _ => rfl)) fun _ => pure _
macro_rules | `(tactic| crash_leaf) => `(tactic| exact readStdin_crashes)
theorem passphraseLoop_crashes (words : List (List Char)) : ∀ n p, Crashes (passphraseLoop words n p : Prog Error (List Char)) := by
  intro n
  induction n with
  | zero => intro p; exact pure _
  | succ n ih => intro p; unfold passphraseLoop genRangeIncl; crash; all_goals exact ih _
theorem readEnv_crashes : Crashes readEnv :=
  looking (fun w => w.env) (fun _ _ => rfl) (f := fun e => match e with | some v => Prog.lift (.ok v) | none => Prog.lift (.err .noEnv)) (fun e => by cases e <;> exact lift _) |>
    cast (congrArg Crashes (by funext w; unfold readEnv; cases w.env <;> rfl))
macro_rules | `(tactic| crash_leaf) => `(tactic| exact readEnv_crashes)
theorem getSecret_crashes (words : List (List Char)) (cwd : Path) (k : Key) (st : PasswordState) : Crashes (getSecret words cwd k st) := by
  unfold getSecret fetch readKeyfile generatePassphrase
  crash
  exact passphraseLoop_crashes _ _ _
macro_rules | `(tactic| crash_leaf) => `(tactic| exact getSecret_crashes _ _ _ _)

theorem openOutput_crashes (p : PathBuf) : Crashes (openOutput p) := mapErr _ (orElse (createFile _) (writeFile _))
theorem readInput_crashes (p : PathBuf) : Crashes (readInput p) := mapErr _ (readFile _)
theorem streamOf_crashes (e : Storage.Entry) : Crashes (streamOf e) := lift _
macro_rules | `(tactic| crash_leaf) => `(tactic| exact openOutput_crashes _)
macro_rules | `(tactic| crash_leaf) => `(tactic| exact readInput_crashes _)
macro_rules | `(tactic| crash_leaf) => `(tactic| exact streamOf_crashes _)
theorem openHeader_crashes (s : Sys σ) (f : ForceMode) (h : Option (List Char)) : Crashes (openHeader s f h) := by unfold openHeader; crash
theorem readHeader_crashes (s : Sys σ) (h : Option (List Char)) : Crashes (readHeader s h) := by unfold readHeader; crash
theorem flushOpt_crashes (h : Option Storage.Entry) : Crashes (flushOpt h) := by unfold flushOpt; crash
macro_rules | `(tactic| crash_leaf) => `(tactic| exact openHeader_crashes _ _ _)
macro_rules | `(tactic| crash_leaf) => `(tactic| exact readHeader_crashes _ _)
macro_rules | `(tactic| crash_leaf) => `(tactic| exact flushOpt_crashes _)
theorem hashStream_crashes (s : Sys σ) : ∀ fs, Crashes (hashStream s fs) := by
  intro fs
  induction fs with
  | nil => exact pure _
  | cons f fs ih => unfold hashStream; crash
macro_rules | `(tactic| crash_leaf) => `(tactic| exact hashStream_crashes _ _)
theorem hashIf_crashes (s : Sys σ) (m : HashMode) (f : List Char) : Crashes (hashIf s m f) := by unfold hashIf; crash
theorem secureErase_crashes (s : Sys σ) (f : List Char) (n : Int) (fm : ForceMode) : Crashes (secureErase s f n fm) := by unfold secureErase exit0; crash
macro_rules | `(tactic| crash_leaf) => `(tactic| exact hashIf_crashes _ _ _)
macro_rules | `(tactic| crash_leaf) => `(tactic| exact secureErase_crashes _ _ _ _)
theorem eraseIf_crashes (s : Sys σ) (m : EraseMode) (fm : ForceMode) (f : List Char) : Crashes (eraseIf s m fm f) := by unfold eraseIf; crash
macro_rules | `(tactic| crash_leaf) => `(tactic| exact eraseIf_crashes _ _ _ _)

theorem encryptMode_crashes (s : Sys σ) (i o : List Char) (p : CryptoParams) (a : Algorithm) : Crashes (encryptMode s i o p a) := by
  unfold encryptMode encryptBody; crash
theorem decryptMode_crashes (s : Sys σ) (i o : List Char) (p : CryptoParams) : Crashes (decryptMode s i o p) := by
  unfold decryptMode decryptBody; crash

theorem anyFile_crashes (ps : List PathBuf) : Crashes (anyFile ps : Prog Error Bool) := by
  refine quiet (fun w s => ?_) (fun _ => rfl) (fun _ => rfl)
  unfold anyFile
  simp only [resolve_withSched, look_withSched]
macro_rules | `(tactic| crash_leaf) => `(tactic| exact anyFile_crashes _)
theorem readInputs_crashes (s : Sys σ) : ∀ fs, Crashes (readInputs s fs) := by
  intro fs
  induction fs with
  | nil => exact pure _
  | cons f fs ih => unfold readInputs; crash
theorem expand_crashes : ∀ es, Crashes (expand es) := by
  intro fs
  induction fs with
  | nil => exact pure _
  | cons f fs ih => unfold expand; crash
theorem eraseInputs_crashes (s : Sys σ) (fm : ForceMode) : ∀ fs, Crashes (eraseInputs s fm fs) := by
  intro fs
  induction fs with
  | nil => exact pure _
  | cons f fs ih => unfold eraseInputs; crash
macro_rules | `(tactic| crash_leaf) => `(tactic| exact readInputs_crashes _ _)
macro_rules | `(tactic| crash_leaf) => `(tactic| exact expand_crashes _)
macro_rules | `(tactic| crash_leaf) => `(tactic| exact eraseInputs_crashes _ _ _)
theorem packMode_crashes (s : Sys σ) (i : List (List Char)) (o : List Char) (pp : PackParams) (p : CryptoParams) (a : Algorithm) : Crashes (packMode s i o pp p a) := by
  unfold packMode packBody; crash

theorem onZipFile_crashes (f : ForceMode) (v : Bool) (p : PathBuf) : Crashes (onZipFile f v p) := by
  unfold onZipFile; crash; exact Crashes.expect (getAnswer_crashes _ _ _)
theorem unpackMode_crashes (s : Sys σ) (i o : List Char) (v : Bool) (p : CryptoParams) : Crashes (unpackMode s i o v p) := by
  unfold unpackMode; crash
  refine Crashes.entities _ _ _ _ (fun f hf q => ?_) _
  cases hf
  exact onZipFile_crashes _ _ _

theorem sayAll_crashes : ∀ ls, Crashes (sayAll ls) := by
  intro ls
  induction ls with
  | nil => exact pure _
  | cons l ls ih => unfold sayAll; crash
theorem announce_crashes (k : Key) (l : String) : Crashes (announce k l) := by unfold announce; crash
macro_rules | `(tactic| crash_leaf) => `(tactic| exact sayAll_crashes _)
macro_rules | `(tactic| crash_leaf) => `(tactic| exact announce_crashes _ _)

theorem headerDetails_crashes (s : Sys σ) (i : List Char) : Crashes (headerDetails s i) := by unfold headerDetails; crash
theorem headerDump_crashes (s : Sys σ) (i o : List Char) (f : ForceMode) : Crashes (headerDump s i o f) := by unfold headerDump; crash
theorem headerRestore_crashes (s : Sys σ) (i o : List Char) : Crashes (headerRestore s i o) := by unfold headerRestore; crash
theorem headerStrip_crashes (s : Sys σ) (i : List Char) : Crashes (headerStrip s i) := by unfold headerStrip; crash
theorem openV5_crashes (s : Sys σ) (i : List Char) : Crashes (openV5 s i) := by unfold openV5; crash
macro_rules | `(tactic| crash_leaf) => `(tactic| exact openV5_crashes _ _)
theorem keyAdd_crashes (s : Sys σ) (i : List Char) (p : KeyManipulationParams) : Crashes (keyAdd s i p) := by unfold Cli.keyAdd; crash
theorem keyChange_crashes (s : Sys σ) (i : List Char) (p : KeyManipulationParams) : Crashes (keyChange s i p) := by unfold Cli.keyChange; crash
theorem keyDelete_crashes (s : Sys σ) (i : List Char) (k : Key) : Crashes (keyDelete s i k) := by unfold Cli.keyDelete; crash
theorem keyVerify_crashes (s : Sys σ) (i : List Char) (k : Key) : Crashes (keyVerify s i k) := by unfold Cli.keyVerify; crash

/-! ### The command line -/

theorem envSet_crashes : Crashes (envSet : Prog ε Bool) := quiet (fun _ _ => rfl) (fun _ => rfl) (fun _ => rfl)
macro_rules | `(tactic| crash_leaf) => `(tactic| exact envSet_crashes)
theorem getMany_crashes (m : Matches) (id : Id) : Crashes (getMany m id : Prog ε _) := by unfold getMany; crash
macro_rules | `(tactic| crash_leaf) => `(tactic| exact getMany_crashes _ _)
theorem containsId_crashes (m : Matches) (id : Id) : Crashes (containsId m id : Prog ε _) := by unfold containsId; crash
theorem getOne_crashes (m : Matches) (id : Id) : Crashes (getOne m id : Prog ε _) := by unfold getOne; crash
macro_rules | `(tactic| crash_leaf) => `(tactic| exact containsId_crashes _ _)
macro_rules | `(tactic| crash_leaf) => `(tactic| exact getOne_crashes _ _)
theorem getParams_crashes (m : Matches) (id : Id) : Crashes (getParams m id) := by unfold getParams; crash
theorem getParam_crashes (m : Matches) (id : Id) : Crashes (getParam m id) := by unfold getParam; crash
macro_rules | `(tactic| crash_leaf) => `(tactic| exact getParams_crashes _ _)
macro_rules | `(tactic| crash_leaf) => `(tactic| exact getParam_crashes _ _)
theorem initGenerate_crashes (m : Matches) : Crashes (initGenerate m) := by unfold initGenerate; crash
theorem initOther_crashes (m : Matches) (p : KeyParams) : Crashes (initOther m p) := by unfold initOther; crash
macro_rules | `(tactic| crash_leaf) => `(tactic| exact initGenerate_crashes _)
macro_rules | `(tactic| crash_leaf) => `(tactic| exact initOther_crashes _ _)
theorem keyInit_crashes (m : Matches) (p : KeyParams) (d : Id) : Crashes (Key.init m p d) := by unfold Key.init; crash
macro_rules | `(tactic| crash_leaf) => `(tactic| exact keyInit_crashes _ _ _)
theorem forcemode_crashes (m : Matches) : Crashes (forcemode m) := by unfold forcemode; crash
theorem hashingAlgorithm_crashes (m : Matches) : Crashes (hashingAlgorithm m) := by unfold hashingAlgorithm; crash
theorem algorithm_crashes (m : Matches) : Crashes (algorithm m) := by unfold algorithm; crash
theorem hashmode_crashes (m : Matches) : Crashes (hashmode m) := by unfold hashmode; crash
theorem erasemode_crashes (m : Matches) : Crashes (erasemode m) := by unfold erasemode; crash
macro_rules | `(tactic| crash_leaf) => `(tactic| exact forcemode_crashes _)
macro_rules | `(tactic| crash_leaf) => `(tactic| exact hashingAlgorithm_crashes _)
macro_rules | `(tactic| crash_leaf) => `(tactic| exact algorithm_crashes _)
macro_rules | `(tactic| crash_leaf) => `(tactic| exact hashmode_crashes _)
macro_rules | `(tactic| crash_leaf) => `(tactic| exact erasemode_crashes _)
theorem parameterHandler_crashes (m : Matches) : Crashes (parameterHandler m) := by unfold parameterHandler; crash
theorem eraseParams_crashes (m : Matches) : Crashes (eraseParams m) := by unfold eraseParams; crash
theorem packParams_crashes (m : Matches) : Crashes (packParams m) := by unfold packParams; crash
theorem keyManipulationParams_crashes (m : Matches) : Crashes (keyManipulationParams m) := by unfold keyManipulationParams; crash

/-- Every command, from the arguments on, is built from calls. -/
theorem encrypt_crashes (s : Sys σ) (m : Matches) : Crashes (encrypt s m) :=
  bind (parameterHandler_crashes m) fun _ => bind (algorithm_crashes m) fun _ => bind (getParam_crashes m _) fun _ => bind (getParam_crashes m _) fun _ => encryptMode_crashes s _ _ _ _
theorem decrypt_crashes (s : Sys σ) (m : Matches) : Crashes (decrypt s m) :=
  bind (parameterHandler_crashes m) fun _ => bind (getParam_crashes m _) fun _ => bind (getParam_crashes m _) fun _ => decryptMode_crashes s _ _ _
theorem erase_crashes (s : Sys σ) (m : Matches) : Crashes (erase s m) :=
  bind (eraseParams_crashes m) fun _ => bind (getParam_crashes m _) fun _ => secureErase_crashes s _ _ _
theorem pack_crashes (s : Sys σ) (m : Matches) : Crashes (pack s m) :=
  bind (packParams_crashes m) fun _ => bind (algorithm_crashes m) fun _ => bind (getParams_crashes m _) fun _ => bind (getParam_crashes m _) fun _ => packMode_crashes s _ _ _ _ _
theorem unpack_crashes (s : Sys σ) (m : Matches) : Crashes (unpack s m) :=
  bind (parameterHandler_crashes m) fun _ => bind panic fun _ => bind (getParam_crashes m _) fun _ => bind (getParam_crashes m _) fun _ => unpackMode_crashes s _ _ _ _
theorem keyAddCmd_crashes (s : Sys σ) (m : Matches) : Crashes (keyAddCmd s m) :=
  bind (keyManipulationParams_crashes m) fun _ => bind (getParam_crashes m _) fun _ => keyAdd_crashes s _ _
theorem keyChangeCmd_crashes (s : Sys σ) (m : Matches) : Crashes (keyChangeCmd s m) :=
  bind (keyManipulationParams_crashes m) fun _ => bind (getParam_crashes m _) fun _ => keyChange_crashes s _ _
theorem keyDelCmd_crashes (s : Sys σ) (m : Matches) : Crashes (keyDelCmd s m) :=
  bind (keyInit_crashes m _ _) fun _ => bind (getParam_crashes m _) fun _ => keyDelete_crashes s _ _

end Cli
end Volaris
