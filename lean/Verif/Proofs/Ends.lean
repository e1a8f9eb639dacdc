import Verif.Spec.Ends
import Verif.Proofs.Asked
import Verif.Proofs.Prunes
import Verif.Props.Utils
import Verif.Proofs.UnpackCmd
/-!
# Lemmas for C91
-/
namespace Volaris
open Spec Cli

/-- What was printed stays on the screen and what was read stays read. -/
structure Onward (w w' : World) : Prop where
  stdin : w'.stdin <:+ w.stdin
  out : w.out <:+ w'.out

theorem Onward.refl (w : World) : Onward w w := ⟨List.suffix_refl _, List.suffix_refl _⟩
theorem Onward.trans {w w' w'' : World} (h : Onward w w') (g : Onward w' w'') : Onward w w'' := ⟨g.stdin.trans h.stdin, h.out.trans g.out⟩

theorem declined_after {t : List Char} {d : Bool} {w0 w w' : World} (o : Onward w0 w) (h : Declined t d w w') : Declined t d w0 w' := by
  obtain ⟨calls, lines, untyped, later, earlier, h1, h2, h3⟩ := h
  obtain ⟨more, hm⟩ := o.out
  exact ⟨calls, lines, untyped, later, earlier ++ more, h1.trans o.stdin, h2, by rw [h3, ← hm]; simp⟩

/-- A program that ends early only if one of the questions is declined. -/
def Ends {ε α : Type} (q : List (List Char × Bool)) (x : Prog ε α) : Prop :=
  ∀ w, Onward w (x w).2 ∧ ∀ a, (x w).1 = .abort a → a = .exit 0 ∧ ∃ t d, (t, d) ∈ q ∧ Declined t d w (x w).2

namespace Ends
variable {ε ε' α β : Type} {q : List (List Char × Bool)}

theorem quiet {x : Prog ε α} (h : ∀ w, Onward w (x w).2) (hr : Returns x) : Ends q x := fun w => ⟨h w, fun a ha => absurd ha (hr w a)⟩

theorem returns {x : Prog ε α} (h : Ends [] x) : Returns x := fun w a ha => by
  obtain ⟨-, t, d, hm, -⟩ := (h w).2 a ha
  cases hm

theorem wider {x : Prog ε α} {q' : List (List Char × Bool)} (h : Ends q x) (hq : ∀ x ∈ q, x ∈ q') : Ends q' x := fun w =>
  ⟨(h w).1, fun a ha => by
    obtain ⟨e, t, d, hm, hd⟩ := (h w).2 a ha
    exact ⟨e, t, d, hq _ hm, hd⟩⟩

theorem pure (a : α) : Ends q (Pure.pure a : Prog ε α) := .quiet (fun w => .refl w) (.pure a)
theorem throw (e : ε) : Ends q (Prog.throw e : Prog ε α) := .quiet (fun w => .refl w) (.throw e)
theorem lift {r : Res ε α} (h : r.Returns) : Ends q (Prog.lift r) := .quiet (fun w => .refl w) (.lift h)

theorem bind {x : Prog ε α} {f : α → Prog ε β} (hx : Ends q x) (hf : ∀ a, Ends q (f a)) : Ends q (x >>= f) := by
  intro w
  have h1 := hx w
  rw [Prog.bind_run]
  generalize x w = y at h1 ⊢
  rcases y with ⟨a | e | a, w1⟩
  · refine ⟨h1.1.trans (hf a w1).1, fun b hb => ?_⟩
    obtain ⟨e, t, d, hm, hd⟩ := (hf a w1).2 b hb
    exact ⟨e, t, d, hm, declined_after h1.1 hd⟩
  · exact ⟨h1.1, fun b hb => by cases hb⟩
  · exact ⟨h1.1, fun b hb => by cases hb; exact h1.2 _ rfl⟩

theorem bind_of {x : Prog ε α} {f : α → Prog ε β} (P : α → Prop) (hx : Ends q x) (hP : ∀ w a w', x w = (.ok a, w') → P a) (hf : ∀ a, P a → Ends q (f a)) : Ends q (x >>= f) := by
  intro w
  have h1 := hx w
  have h2 := hP w
  rw [Prog.bind_run]
  generalize x w = y at h1 h2 ⊢
  rcases y with ⟨a | e | a, w1⟩
  · have hf := hf a (h2 a w1 rfl) w1
    refine ⟨h1.1.trans hf.1, fun b hb => ?_⟩
    obtain ⟨e, t, d, hm, hd⟩ := hf.2 b hb
    exact ⟨e, t, d, hm, declined_after h1.1 hd⟩
  · exact ⟨h1.1, fun b hb => by cases hb⟩
  · exact ⟨h1.1, fun b hb => by cases hb; exact h1.2 _ rfl⟩

theorem mapErr (f : ε → ε') {x : Prog ε α} (hx : Ends q x) : Ends q (x.mapErr f) := by
  intro w
  have h1 := hx w
  rw [Prog.mapErr_run]
  generalize x w = y at h1 ⊢
  rcases y with ⟨a | e | a, w1⟩
  · exact ⟨h1.1, fun b hb => by cases hb⟩
  · exact ⟨h1.1, fun b hb => by cases hb⟩
  · exact ⟨h1.1, fun b hb => by cases hb; exact h1.2 _ rfl⟩

theorem ite {c : Prop} [Decidable c] {x y : Prog ε α} (hx : Ends q x) (hy : Ends q y) : Ends q (if c then x else y) := by
  split
  · exact hx
  · exact hy

theorem attempt {x : Prog ε α} (hx : Ends [] x) : Ends q (x.attempt : Prog ε' _) := by
  refine .quiet (fun w => ?_) (Pack.attempt_returns hx.returns)
  have h1 := (hx w).1
  unfold Prog.attempt
  generalize x w = y at h1 ⊢
  rcases y with ⟨a | e | a, w1⟩ <;> exact h1

theorem within {R W : List Nat} {x : Prog ε α} (hx : Within R W x) (hc : Crashes x) (hr : Returns x) : Ends q x :=
  .quiet (fun w => ⟨by rw [(hx w).stdin]; exact List.suffix_refl _, (hc w).aside.2⟩) hr

theorem prunes {x : Prog ε α} (hx : Prunes x) (hc : Crashes x) (hr : Returns x) : Ends q x := .quiet (fun w => ⟨(hx w).stdin, (hc w).aside.2⟩) hr

theorem looks {n : Nat} {P : α → Prop} {x : Prog ε α} (hx : ∀ n, Looks n P x) (hc : Crashes x) (hr : Returns x) : Ends q x :=
  .quiet (fun w => ⟨(hx w.nextFd w (Nat.le_refl _)).1.stdin, (hc w).aside.2⟩) hr

/-! ### System calls -/

theorem sys : Ends q Volaris.sys := .prunes .sys .sys fun w a h => by
  rcases sys_cases w with ⟨s, hs, he⟩ | ⟨s, e, hs, hn, he⟩ <;> rw [he] at h <;> cases h
theorem sysRetry : Ends q Volaris.sysRetry := .quiet (fun w => by
  rcases sysRetry_cases w with ⟨s, hs, he⟩ | ⟨s, e, hs, hn, he⟩ <;> rw [he] <;> exact ⟨List.suffix_refl _, List.suffix_refl _⟩) Pack.sysRetry_returns
theorem genBytes (n : Nat) : Ends q (Volaris.genBytes n : Prog ε Bytes) := .quiet (fun _ => ⟨List.suffix_refl _, List.suffix_refl _⟩) (.genBytes n)
theorem rewind (h : Nat) : Ends q (Volaris.rewind h) := .prunes (.rewind h) (.rewind h) (.rewind h)
theorem seekCur (h : Nat) (d : Int) : Ends q (Volaris.seekCur h d) := .within (R := [h]) (W := []) (.seekCur _ (.inl (by simp))) (.seekCur h d) (.seekCur h d)
theorem read (h n : Nat) : Ends q (Volaris.read h n) := .within (R := [h]) (W := []) (.read _ (.inl (by simp))) (.read h n) (.read h n)
theorem readUpTo (h n : Nat) : Ends q (Volaris.readUpTo h n) := .within (R := [h]) (W := []) (.readUpTo _ (.inl (by simp))) (.readUpTo h n) (.readUpTo h n)
theorem readToEnd (h : Nat) : Ends q (Volaris.readToEnd h) := fun w => readUpTo h _ w
theorem readExact (h n : Nat) : Ends q (Volaris.readExact h n) := bind (readUpTo h n) fun _ => ite (pure _) (throw _)
theorem write (h : Nat) (bs : Bytes) : Ends q (Volaris.write h bs) := .within (R := []) (W := [h]) (.write bs (by simp)) (.write h bs) (.write h bs)
theorem writeAll (h : Nat) (bs : Bytes) : Ends q (Volaris.writeAll h bs) := .prunes (.writeAll h bs) (.writeAll h bs) (.writeAll h bs)
theorem flush (h : Nat) : Ends q (Volaris.flush h) := .prunes (.flush h) (.flush h) (.flush h)
theorem deserialize (h : Nat) : Ends q (Volaris.deserialize h) := .within (R := [h]) (W := []) (.deserialize (.inl (by simp))) (.deserialize h) (.deserialize h)
theorem openTrunc (p : PathBuf) : Ends q (Volaris.openTrunc p) := .prunes (.openTrunc p) (.openTrunc p) fun w a h => by
  rcases openTrunc_any p w with ⟨_, i, s, hs, -, -, he⟩ | ⟨e, s, hs, he⟩ <;> rw [he] at h <;> cases h
theorem fileLen (h : Nat) : Ends q (Volaris.fileLen h) := .bind .sys fun _ => .quiet (fun w => .refl w) fun w a h => by cases h
theorem setLen0 (h : Nat) : Ends q (Volaris.setLen0 h) := .prunes (.setLen0 h) (.setLen0 h) fun w a g => by
  rcases setLen0_cases h w with ⟨s, hs, he⟩ | ⟨s, e, hs, hn, he⟩ <;> rw [he] at g <;> cases g
theorem unlink (p : PathBuf) : Ends q (Volaris.unlink p) := .prunes (.unlink p) (.unlink p) fun w a g => by
  rcases Unpack.unlink_any p w with ⟨_, i, s, hs, -, -, he⟩ | ⟨e, s, hs, he⟩ <;> rw [he] at g <;> cases g
theorem openNew (p : PathBuf) : Ends q (Volaris.openNew p) := .quiet (fun w => ⟨by
    rcases openNew_cases p w with ⟨_, s, hs, hr, hl, hd, he⟩ | ⟨e, s, hs, he, -⟩ <;> rw [he] <;> exact List.suffix_refl _, (Crashes.openNew p w).aside.2⟩) fun w a g => by
  rcases openNew_cases p w with ⟨_, s, hs, hr, hl, hd, he⟩ | ⟨e, s, hs, he, -⟩ <;> rw [he] at g <;> cases g
theorem openFile (p : PathBuf) : Ends q (Volaris.openFile p) := .quiet (fun w => ⟨by
    rcases openFile_any p w with ⟨_, i, s, hs, -, he⟩ | ⟨e, s, hs, he, -⟩ <;> rw [he] <;> exact List.suffix_refl _, (Crashes.openFile p w).aside.2⟩) fun w a g => by
  rcases openFile_any p w with ⟨_, i, s, hs, -, he⟩ | ⟨e, s, hs, he, -⟩ <;> rw [he] at g <;> cases g
theorem isDir (p : PathBuf) : Ends q (Volaris.isDir p : Prog ε Bool) := .quiet (fun w => .refl w) fun w a g => by cases g
theorem existsAt (p : PathBuf) : Ends q (Volaris.existsAt p : Prog ε Bool) := .quiet (fun w => .refl w) fun w a g => by cases g

/-! ### Files -/

theorem stream_returns (e : Storage.Entry) : e.stream.Returns := by cases e <;> intro a h <;> cases h
theorem createFile (p : PathBuf) : Ends q (Storage.createFile p) := bind (mapErr _ (openNew p)) fun _ => pure _
theorem readFile (p : PathBuf) : Ends q (Storage.readFile p) := bind (isDir p) fun _ => ite (pure _) (bind (mapErr _ (openFile p)) fun _ => pure _)
theorem writeFile (p : PathBuf) : Ends q (Storage.writeFile p) := bind (mapErr _ (openTrunc p)) fun _ => pure _
theorem flushFile (e : Storage.Entry) : Ends q (Storage.flushFile e) := bind (lift (stream_returns e)) fun h => mapErr _ (flush h)
theorem entryLen (e : Storage.Entry) : Ends q (Storage.fileLen e) := bind (lift (stream_returns e)) fun h => mapErr _ (fileLen h)
theorem removeFile (e : Storage.Entry) : Ends q (Storage.removeFile e) := by
  refine bind ?_ fun _ => mapErr _ (unlink _)
  cases e with
  | file p h => exact bind (mapErr _ (setLen0 h)) fun _ => mapErr _ (flush h)
  | dir p => exact pure _
theorem dropEntry (p : Path) : Ends q (Storage.dropEntry p) := .quiet (fun w => by
    unfold Storage.dropEntry
    split
    · exact ⟨List.suffix_refl _, List.suffix_refl _⟩
    · split <;> exact ⟨List.suffix_refl _, List.suffix_refl _⟩
    · exact .refl w) fun w a h => by
  unfold Storage.dropEntry at h
  split at h
  · cases h
  · split at h <;> cases h
  · cases h
theorem removeEntries : ∀ ps : List Path, Ends q (Storage.removeEntries ps)
  | [] => pure _
  | p :: ps => bind sys fun _ => bind (dropEntry p) fun _ => removeEntries ps
theorem rmTree (p : PathBuf) : Ends q (Storage.rmTree p) := by
  intro w
  unfold Storage.rmTree
  split
  · split
    · exact removeEntries _ w
    · exact throw _ w
  · exact throw _ w
theorem removeDirAll (e : Storage.Entry) : Ends q (Storage.removeDirAll e) := ite (throw _) (mapErr _ (rmTree _))
theorem readEntries : ∀ ps : List PathBuf, Ends q (Storage.readEntries ps)
  | [] => pure _
  | p :: ps => bind (mapErr _ sys) fun _ => bind (readFile p) fun _ => bind (readEntries ps) fun _ => pure _
theorem readDir (e : Storage.Entry) : Ends q (Storage.readDir e) := ite (throw _) fun w => readEntries _ w
theorem createTempFile (t : PathBuf) : Ends q (Storage.createTempFile t) := bind (genBytes _) fun _ => createFile _

/-! ### Overwriting and erasing -/

theorem overwriteBlocks (h : Nat) : ∀ bs : List Nat, Ends q (Overwrite.writeBlocks h bs)
  | [] => pure _
  | _ :: bs => bind (genBytes 0) fun _ => bind (mapErr _ (writeAll h _)) fun _ => overwriteBlocks h bs
theorem overwritePasses (h cap : Nat) : ∀ n : Nat, Ends q (Overwrite.passes h cap n)
  | 0 => pure _
  | n + 1 => bind (mapErr _ (rewind h)) fun _ => bind (overwriteBlocks h _) fun _ => bind (mapErr _ (flush h)) fun _ => overwritePasses h cap n
theorem overwrite (h cap : Nat) (n : Int) : Ends q (Overwrite.execute h cap n) :=
  bind (overwritePasses h cap _) fun _ => bind (mapErr _ (rewind h)) fun _ => bind (mapErr _ (writeAll h _)) fun _ => mapErr _ (flush h)

theorem writeFile_file {p : PathBuf} {w w' : World} {e : Storage.Entry} (h : Storage.writeFile p w = (.ok e, w')) : ∃ n, e = .file p n := by
  unfold Storage.writeFile at h
  obtain ⟨n, w1, -, h⟩ := Prog.bind_eq_ok h
  cases h
  exact ⟨n, rfl⟩

theorem erase (p : PathBuf) (n : Int) : Ends q (Erase.execute p n) := by
  unfold Erase.execute
  refine bind_of (fun e => ∃ h, e = .file p h) (mapErr _ (writeFile p)) (fun w a w' h => writeFile_file (Prog.mapErr_eq_ok h)) ?_
  rintro _ ⟨h, rfl⟩
  exact bind (mapErr _ (entryLen _)) fun cap => bind (lift (.ok _)) fun h => bind (mapErr _ (overwrite h cap n)) fun _ => mapErr _ (removeFile _)

end Ends

/-! ### Threads -/

/-- Whatever the other threads do, the thread returns. -/
def ThrReturns {ε α : Type} (t : Thr ε α) : Prop := ∀ w, Thr.RG (fun _ _ => True) (fun _ _ => True) (fun r _ => r.Returns) t w

namespace ThrReturns
open Thr
variable {ε ε' α β : Type}

theorem pure (a : α) : ThrReturns (Pure.pure a : Thr ε α) := fun _ => RG.pure fun _ _ => .ok _
theorem atom {x : Prog ε α} (hx : Returns x) : ThrReturns (Thr.atom x) := fun _ => RG.atom fun w1 _ => ⟨trivial, fun _ _ a => hx w1 a⟩
theorem bind {t : Thr ε α} {f : α → Thr ε β} (ht : ThrReturns t) (hf : ∀ a, ThrReturns (f a)) : ThrReturns (t >>= f) := fun w =>
  RG.bind (fun _ => trivial) (ht w) (fun a w' _ => hf a w') (fun _ _ _ => .err _) (fun a _ h => absurd rfl (h a))
theorem mapErr (f : ε → ε') {t : Thr ε α} (ht : ThrReturns t) : ThrReturns (t.mapErr f) := fun w => RG.mapErr (ht w) fun _ _ h => .mapErr f h

theorem writeBlocks (h : Nat) : ∀ bs : List Nat, ThrReturns (Erase.writeBlocks h bs)
  | [] => .pure ()
  | _ :: bs => .bind (.atom (.genBytes 0)) fun _ => .bind (.atom (.mapErr _ (.writeAll h _))) fun _ => writeBlocks h bs

theorem passes (h cap : Nat) : ∀ n : Nat, ThrReturns (Erase.passes h cap n)
  | 0 => .pure ()
  | n + 1 => .bind (.atom (.mapErr _ (.rewind h))) fun _ => .bind (writeBlocks h _) fun _ => .bind (.atom (.mapErr _ (.flush h))) fun _ => passes h cap n

theorem thread (p : PathBuf) (n : Int) : ThrReturns (Erase.thread p n) :=
  .bind (.atom (.mapErr _ (Ends.openTrunc p).returns)) fun h => .bind (.atom (.mapErr _ (Ends.fileLen h).returns)) fun cap =>
    .bind (.mapErr _ (.bind (passes h cap _) fun _ => .bind (.atom (.mapErr _ (.rewind h))) fun _ => .bind (.atom (.mapErr _ (.writeAll h _))) fun _ =>
      .atom (.mapErr _ (.flush h)))) fun _ =>
    .mapErr _ (.bind (.atom (.mapErr _ (Ends.setLen0 h).returns)) fun _ => .bind (.atom (.mapErr _ (.flush h))) fun _ => .atom (.mapErr _ (Ends.unlink p).returns))

theorem joined_returns : ∀ {ts : List (Thr ε Unit)} {r : Res ε Unit} {w : World}, (∀ t ∈ ts, RG (fun _ _ => True) (fun _ _ => True) (fun r _ => r.Returns) t w) → joined ts = some r → r.Returns := by
  intro ts
  induction ts with
  | nil => intro r w _ h; cases h; exact .ok _
  | cons t ts ih =>
    intro r w h hj
    cases t with
    | step eff k => simp [joined] at hj
    | done r' =>
      have h0 : r'.Returns := h _ (List.mem_cons_self ..) w trivial
      cases r' with
      | ok a => exact ih (fun t ht => h t (List.mem_cons_of_mem _ ht)) hj
      | err e => cases hj; exact .err _
      | abort a => exact absurd rfl (h0 a)

/-- Any interleaving of such threads. -/
theorem spawnJoin (order : List Nat) (ts : List (Thr ε Unit)) (h : ∀ t ∈ ts, ThrReturns t) : Returns (Volaris.spawnJoin order ts) := by
  intro w a
  obtain ⟨is, r, hj, he⟩ := spawnJoin_cases order ts w
  rw [he]
  have := (interleave_RG (R := fun _ _ _ => True) (G := fun _ _ _ => True) (Q := fun _ r _ => r.Returns) (fun _ _ _ _ _ _ => trivial) (fun _ _ => trivial) ts.length
    (fun _ _ _ _ _ _ _ _ => trivial) is ts w rfl (fun i t ht => h t (List.mem_of_getElem? ht) w)).1
  refine joined_returns (w := (interleave is ts w).2) (fun t ht => ?_) hj a
  obtain ⟨i, hi⟩ := List.getElem?_of_mem ht
  exact this i t hi

end ThrReturns

namespace Ends
variable {q : List (List Char × Bool)}

theorem eraseDir (order : List Nat) (e : Storage.Entry) (n : Int) : Ends q (EraseDir.execute order e n) := by
  refine .prunes (.eraseDir order e n) (.eraseDir order e n) ?_
  unfold EraseDir.execute
  refine .ite (.throw _) (.bind (.mapErr _ (readDir e).returns) fun files => .bind (ThrReturns.spawnJoin _ _ fun t ht => ?_) fun _ => .mapErr _ (removeDirAll e).returns)
  obtain ⟨f, -, rfl⟩ := List.mem_map.1 ht
  exact .mapErr _ (.thread _ _)

/-! ### Tools -/

theorem encryptFile (C : Crypto) (s : Stream) (rh wh : Nat) (aad : Bytes) : Ends q (Volaris.encryptFile C s rh wh aad) :=
  .within (R := [rh]) (W := [wh]) (.encryptFile _ _ _ (.inl (by simp)) (by simp)) (.encryptFile C s rh wh aad) (.encryptFile C s rh wh aad)

/-- Encryption with a header version that can be written. -/
theorem encrypt {C : Crypto} (hC : C.Lawful) (req : Encrypt.Request) (hv : req.headerType.version = .v4 ∨ req.headerType.version = .v5) : Ends q (Encrypt.execute C req) := by
  refine .within (encrypt_within C req) (.encrypt C req) fun w a => ?_
  unfold Encrypt.execute
  rcases prepare_eq C hC req w with ⟨hk, ek, hto, hec, hm, hel, hp⟩ | ⟨e, n, hp, _⟩
  · obtain ⟨hb, aad, h1, h2, -⟩ := freshHeader_bytes hto hel hv
    rw [Prog.bind_ok hp]
    dsimp only
    refine Returns.bind (.mapErr _ (.rewind _)) (fun _ => .bind ?_ fun _ => .bind (.lift (.mapErr _ ?_)) fun _ => .bind (.mapErr _ (.rewind _)) fun _ => .mapErr _ (.encryptFile _ _ _ _ _)) _ a
    · unfold Encrypt.writeHeader
      split
      · exact .bind (.lift (by rw [h1]; exact .ok _)) fun _ => .bind (.mapErr _ (.write _ _)) fun _ => .pure _
      · exact .bind (.mapErr _ (.rewind _)) fun _ => .bind (.lift (by rw [h1]; exact .ok _)) fun _ => .bind (.mapErr _ (.write _ _)) fun _ => .pure _
    · rw [h2]; exact .ok _
  · rw [Prog.bind_err hp]
    intro h; cases h

theorem decrypt {C : Crypto} (hC : C.Lawful) (req : Decrypt.Request) : Ends q (Decrypt.execute C req) := .within (decrypt_within C req) (.decrypt C req) (decrypt_returns hC req)

theorem hashExecute {σ : Type} (H : HashCmd.Hasher σ) (h : Nat) : Ends q (HashCmd.execute H h) := by
  refine .quiet (fun w => ⟨?_, (Crashes.hashExecute H h w).aside.2⟩) fun w a ha => ?_
  · rcases HashCmd.execute_cases H h w with ⟨ps, w', he, hp, hns, ht⟩ | ⟨e, w', he, hs, ht⟩ <;> rw [he, ht.stdin] <;> exact List.suffix_refl _
  · rcases HashCmd.execute_cases H h w with ⟨ps, w', he, hp, hns, ht⟩ | ⟨e, w', he, hs, ht⟩ <;> rw [he] at ha <;> cases ha

theorem writeArchive (z : Zip) (t : Nat) (fs : List Storage.Entry) : Ends q (Pack.writeArchive z t fs) := by
  refine .within (R := Pack.handles fs) (W := [t]) (Pack.writeArchive_within z fs (fun _ h => h) (by simp)) ?_ (Pack.writeArchive_returns z t fs)
  unfold Pack.writeArchive
  crash

theorem createFile_file {p : PathBuf} {w w' : World} {e : Storage.Entry} (h : Storage.createFile p w = (.ok e, w')) : ∃ n, e = .file p n := by
  unfold Storage.createFile at h
  obtain ⟨n, w1, -, h⟩ := Prog.bind_eq_ok h
  cases h
  exact ⟨n, rfl⟩

theorem attempt_value {ε ε' α : Type} {x : Prog ε α} (hx : Returns x) {w w' : World} {r : Res ε α} (h : (x.attempt : Prog ε' _) w = (.ok r, w')) : r.Returns := by
  have h1 := hx w
  unfold Prog.attempt at h
  generalize x w = y at h h1
  rcases y with ⟨a | e | a, w1⟩
  · cases h; exact .ok _
  · cases h; exact .err _
  · cases h

theorem pack {C : Crypto} (hC : C.Lawful) (z : Zip) (tmp : PathBuf) (req : Pack.Request) (hv : req.headerType.version = .v4 ∨ req.headerType.version = .v5) : Ends q (Pack.execute C z tmp req) := by
  unfold Pack.execute
  refine bind (mapErr _ (createTempFile tmp)) fun e => bind (lift (.mapErr _ (stream_returns e))) fun t => bind (writeArchive z t _) fun _ => bind (mapErr _ (entryLen e)) fun cap => ?_
  refine bind_of (fun r => r.Returns) (attempt (mapErr _ (encrypt hC _ hv))) (fun w a w' h => attempt_value (.mapErr _ (encrypt (q := []) hC _ hv).returns) h) fun r hr => ?_
  exact bind (attempt (overwrite t cap 2)) fun _ => bind (attempt (removeFile e)) fun _ => lift hr

end Ends

/-! ### Commands -/

namespace Cli
variable {σ ε : Type} {q : List (List Char × Bool)}
open Ends

theorem say_ends (t : List Char) : Ends q (say t : Prog ε Unit) := .quiet (fun _ => ⟨List.suffix_refl _, ⟨[_], rfl⟩⟩) fun w a h => by cases h

theorem declined_answered {d : Bool} {t : List Char} {w : World} {rest : List String} (s : List Io) (h : FirstAnswer d w.stdin false rest) :
    Declined t d w { answered w t rest with sched := s } := by
  obtain ⟨later, e⟩ := exchange_last w.log.length w.tty.length t (w.stdin.length - rest.length - 1) w.stdin.length
  refine ⟨w.log.length, w.stdin, w.tty.length, later, [], List.suffix_refl _, h, ?_⟩
  show exchange _ _ _ _ _ ++ w.out = _
  rw [e]

/-- Asking, and leaving when the answer is no. -/
theorem ask_ends {p : List Char} {d : Bool} (force : ForceMode) (hq : force = .prompt → (questionText p d, d) ∈ q) {x : Prog Error Unit} (hx : Ends q x) :
    Ends q (do if ← getAnswer p d force then x else exit0) := by
  intro w
  rw [Prog.bind_run]
  cases force with
  | forced => exact hx w
  | prompt =>
    have ho := (getAnswer_crashes p d .prompt w).aside.2
    rcases getAnswer_cases p d w with ⟨b, rest, s, h1, h2, h3, h4⟩ | ⟨e, rest, s, o, h1, h2, h3, _⟩
    · rw [h3] at ho ⊢
      have on : Onward w { answered w (questionText p d) rest with sched := s } := ⟨h1, ho⟩
      cases b with
      | true =>
        obtain ⟨g1, g2⟩ := hx { answered w (questionText p d) rest with sched := s }
        refine ⟨on.trans g1, fun a ha => ?_⟩
        obtain ⟨e, t, d, hm, hd⟩ := g2 a ha
        exact ⟨e, t, d, hm, declined_after on hd⟩
      | false => exact ⟨on, fun a ha => by cases ha; exact ⟨rfl, _, _, hq rfl, declined_answered s h4⟩⟩
    · rw [h3] at ho ⊢
      exact ⟨⟨h1, ho⟩, fun a ha => by cases ha⟩

theorem consent_ends {cwd : Path} {name : List Char} (force : ForceMode) (hq : force = .prompt → (overwriteQuestion name, true) ∈ q) : Ends q (consent cwd name force) := by
  intro w
  by_cases ho : Occupied w (toPath cwd name)
  · have e : consent cwd name force w = (do if ← getAnswer (overwritePrompt name) true force then (Pure.pure () : Prog Error Unit) else exit0) w := by
      unfold consent
      rw [Prog.bind_run, Prog.bind_run, overwriteCheck_occupied force ho]
    rw [e]
    exact ask_ends force (by rw [show questionText (overwritePrompt name) true = overwriteQuestion name by unfold questionText overwritePrompt overwriteQuestion; simp]; exact hq) (.pure ()) w
  · have e : consent cwd name force w = (.ok (), w) := by unfold consent; rw [Prog.bind_ok (overwriteCheck_free force ho)]; rfl
    rw [e]
    exact Ends.pure (ε := Error) () w

theorem readInput_ends (p : PathBuf) : Ends q (readInput p) := mapErr _ (readFile p)
theorem streamOf_ends (e : Storage.Entry) : Ends q (streamOf e) := lift (by cases e <;> intro a h <;> cases h)

theorem openOutput_ends (p : PathBuf) : Ends q (openOutput p) := fun w => by
  have ho := (openOutput_crashes p w).aside.2
  rcases openOutput_cases p w with ⟨_, j, w', h, hw⟩ | ⟨e, s, _, h⟩
  · rw [h] at ho ⊢
    exact ⟨⟨by rw [hw.stdin]; exact List.suffix_refl _, ho⟩, fun a ha => by cases ha⟩
  · rw [h]
    exact ⟨⟨List.suffix_refl _, List.suffix_refl _⟩, fun a ha => by cases ha⟩

theorem openHeader_ends (s : Sys σ) (force : ForceMode) : ∀ {hd : Option (List Char)}, (∀ name, hd = some name → force = .prompt → (overwriteQuestion name, true) ∈ q) → Ends q (openHeader s force hd)
  | none, _ => .pure _
  | some n, h => .bind (consent_ends force (h n rfl)) fun _ => .bind (openOutput_ends _) fun _ => .pure _

theorem readHeader_ends (s : Sys σ) (hd : Option (List Char)) : Ends q (readHeader s hd) := by
  cases hd with
  | none => exact .pure _
  | some n => exact .bind (readInput_ends _) fun _ => .pure _

theorem flushOpt_ends (e : Option Storage.Entry) : Ends q (flushOpt e) := by
  cases e with
  | none => exact .pure _
  | some e => exact .mapErr _ (flushFile e)

theorem hashStream_ends (s : Sys σ) : ∀ fs, Ends q (hashStream s fs)
  | [] => .pure _
  | _ :: fs => .bind (.mapErr _ (Ends.openFile _)) fun _ => .bind (.mapErr _ (hashExecute _ _)) fun _ => .bind (say_ends _) fun _ => .bind (hashStream_ends s fs) fun _ => .pure _

theorem hashIf_ends (s : Sys σ) (mode : HashMode) (f : List Char) : Ends q (hashIf s mode f) := by
  cases mode with
  | noHash => exact .pure _
  | calculateHash => exact .bind (hashStream_ends s _) fun _ => .pure _

theorem secureErase_ends (s : Sys σ) (input : List Char) (n : Int) (force : ForceMode) (hq : force = .prompt → (eraseQuestion, false) ∈ q) : Ends q (secureErase s input n force) := by
  refine .bind (readInput_ends _) fun e => ?_
  split
  · exact ask_ends force (by rw [show questionText "This is a directory, would you like to erase all files within it?".toList false = eraseQuestion by decide]; exact hq) (.mapErr _ (eraseDir _ _ _))
  · exact .mapErr _ (Ends.erase _ _)

theorem eraseIf_ends (s : Sys σ) (mode : EraseMode) (force : ForceMode) (f : List Char) (hq : mode ≠ .ignoreFile → force = .prompt → (eraseQuestion, false) ∈ q) : Ends q (eraseIf s mode force f) := by
  cases mode with
  | ignoreFile => exact .pure _
  | eraseFile n => exact secureErase_ends s f n force (hq (by simp))

theorem eraseInputs_ends (s : Sys σ) (force : ForceMode) (hq : force = .prompt → (eraseQuestion, false) ∈ q) : ∀ fs, Ends q (eraseInputs s force fs)
  | [] => .pure _
  | f :: fs => .bind (secureErase_ends s f 1 force hq) fun _ => eraseInputs_ends s force hq fs

theorem encryptBody_ends (s : Sys σ) (hC : s.C.Lawful) (params : CryptoParams) (a : Algorithm) (i o : Storage.Entry) (hd : Option Storage.Entry) (k : Bytes) : Ends q (encryptBody s params a i o hd k) :=
  .bind (streamOf_ends _) fun _ => .bind (streamOf_ends _) fun _ => .bind (.mapErr _ (Ends.encrypt hC _ (.inr rfl))) fun _ => .bind (flushOpt_ends _) fun _ => .mapErr _ (flushFile _)

theorem decryptBody_ends (s : Sys σ) (hC : s.C.Lawful) (i o : Storage.Entry) (hd : Option Storage.Entry) (k : Bytes) : Ends q (decryptBody s i o hd k) :=
  .bind (streamOf_ends _) fun _ => .bind (streamOf_ends _) fun _ => .bind (.mapErr _ (Ends.decrypt hC _)) fun _ => .mapErr _ (flushFile _)

theorem readInputs_ends (s : Sys σ) : ∀ fs, Ends q (readInputs s fs)
  | [] => .pure _
  | _ :: fs => .bind (readInput_ends _) fun _ => .bind (readInputs_ends s fs) fun _ => .pure _

theorem anyFile_ends (ps : List PathBuf) : Ends q (anyFile ps : Prog ε Bool) := .quiet (fun w => .refl w) fun w a h => by cases h

theorem expand_ends : ∀ es, Ends q (expand es)
  | [] => .pure _
  | e :: es => by
    refine .bind ?_ fun _ => .bind (expand_ends es) fun _ => .pure _
    split
    · exact .mapErr _ (readDir _)
    · exact .pure _

theorem packBody_ends (s : Sys σ) (hC : s.C.Lawful) (params : CryptoParams) (a : Algorithm) (is : List Storage.Entry) (o : Storage.Entry) (hd : Option Storage.Entry) (k : Bytes) : Ends q (packBody s params a is o hd k) :=
  .bind (expand_ends _) fun _ => .bind (streamOf_ends _) fun _ => .bind (.mapErr _ (Ends.pack hC _ _ _ (.inr rfl))) fun _ => .bind (flushOpt_ends _) fun _ => .mapErr _ (flushFile _)

theorem sayAll_ends : ∀ ls, Ends q (sayAll ls)
  | [] => .pure _
  | l :: ls => .bind (say_ends l.toList) fun _ => sayAll_ends ls

/-! ## Making up a passphrase -/

/-- `x` moves onward, and if it neither succeeds nor reports an error then the user has declined one of the questions or a passphrase could not be made up. -/
def Quits (words : List (List Char)) (key : Key) (q : List (List Char × Bool)) (x : Prog ε α) : Prop :=
  ∀ w, Onward w (x w).2 ∧ ∀ a, (x w).1 = .abort a → GivesUp words (some key) q w (x w).2 a

namespace Quits
variable {words : List (List Char)} {key : Key} {α β : Type}

theorem of {x : Prog ε α} (h : Ends q x) : Quits words key q x := fun w => ⟨(h w).1, fun a ha => by
  obtain ⟨rfl, t, d, hm, hd⟩ := (h w).2 a ha
  exact .declined t d hm hd⟩

/-- First something that leaves the random numbers alone. -/
theorem first {x : Prog ε α} {f : α → Prog ε β} (hx : Ends q x) (hc : Calm x) (hf : ∀ a, Quits words key q (f a)) : Quits words key q (x >>= f) := by
  intro w
  have h1 := hx w
  have h2 := (hc w).2.1
  rw [Prog.bind_run]
  revert h1 h2
  rcases x w with ⟨b | e | b, w1⟩ <;> intro h1 h2
  · obtain ⟨g1, g2⟩ := hf b w1
    refine ⟨h1.1.trans g1, fun a ha => ?_⟩
    cases g2 a ha with
    | declined t d hm hd => exact .declined t d hm (declined_after h1.1 hd)
    | unlucky n hk h =>
      obtain ⟨i, hi, e⟩ := h
      exact .unlucky n hk ⟨i, hi, by rw [← supplied_stays h2]; exact e⟩
  · exact ⟨h1.1, fun a ha => by cases ha⟩
  · refine ⟨h1.1, fun a ha => ?_⟩
    cases ha
    obtain ⟨rfl, t, d, hm, hd⟩ := h1.2 b rfl
    exact .declined t d hm hd

/-- Last something that makes up nothing. -/
theorem last {x : Prog ε α} {f : α → Prog ε β} (hx : Quits words key q x) (hf : ∀ a, Ends q (f a)) : Quits words key q (x >>= f) := by
  intro w
  have h1 := hx w
  rw [Prog.bind_run]
  revert h1
  rcases x w with ⟨b | e | b, w1⟩ <;> intro h1
  · obtain ⟨g1, g2⟩ := hf b w1
    refine ⟨h1.1.trans g1, fun a ha => ?_⟩
    obtain ⟨rfl, t, d, hm, hd⟩ := g2 a ha
    exact .declined t d hm (declined_after h1.1 hd)
  · exact ⟨h1.1, fun a ha => by cases ha⟩
  · exact ⟨h1.1, fun a ha => by cases ha; exact h1.2 b rfl⟩

end Quits

theorem confirmLoop_returns : ∀ l, Returns (confirmLoop l)
  | [] => .throw _
  | [_] => .bind (.mapErr _ (Ends.returns .sysRetry)) fun _ => .bind (fun w a h => by cases h) fun _ => .throw _
  | a :: b :: rest => by
    rw [confirmLoop]
    refine .bind (.mapErr _ (Ends.returns .sysRetry)) fun _ => .bind (fun w a h => by cases h) fun _ => .bind (.mapErr _ (Ends.returns .sysRetry)) fun _ => .bind (fun w a h => by cases h) fun _ => ?_
    split
    · exact .pure _
    · exact .bind (fun w a h => by cases h) fun _ => confirmLoop_returns rest

theorem getPassword_returns (st : PasswordState) : Returns (getPassword st) := by
  intro w a
  cases st with
  | validate => exact confirmLoop_returns _ w a
  | direct =>
    show (directPassword w.tty w).1 ≠ _
    cases w.tty with
    | nil => exact fun h => by cases h
    | cons b l => exact Returns.bind (.mapErr _ (Ends.returns .sysRetry)) (fun _ => .bind (fun w a h => by cases h) fun _ => .pure _) w a

theorem fetch_returns (words : List (List Char)) (cwd : Path) (st : PasswordState) (key : Key) (hk : ∀ n, key ≠ .generate n) : Returns (fetch words cwd st key) := by
  cases key with
  | generate n => exact absurd rfl (hk n)
  | user => exact getPassword_returns st
  | env =>
    intro w a h
    have : (readEnv w).1 = .abort a := h
    unfold readEnv at this
    split at this <;> cases this
  | keyfile p =>
    rw [fetch]
    split
    · refine .bind ?_ fun _ => ?_
      · exact fun w => Returns.bind (.mapErr _ (Ends.returns .sysRetry)) (fun _ => .bind (fun w a h => by cases h) fun _ => .pure _) w
      · split
        · exact .throw _
        · exact .pure _
    · refine Ends.returns (.bind (.mapErr _ (Ends.openFile _)) fun _ => .bind (.mapErr _ (Ends.readToEnd _)) fun _ => .ite (.throw _) (.pure _))

theorem getSecret_quits (words : List (List Char)) (cwd : Path) (key : Key) (st : PasswordState) : Quits words key q (getSecret words cwd key st) := by
  intro w
  refine ⟨⟨(getSecret_looks 0 words cwd key st w (Nat.zero_le _)).1.stdin, (getSecret_crashes words cwd key st w).aside.2⟩, ?_⟩
  generalize hx : (getSecret words cwd key st w).2 = w'
  clear hx
  intro a ha
  by_cases hk : ∃ n, key = .generate n
  · obtain ⟨n, rfl⟩ := hk
    by_cases hu : Unlucky words n w
    · have hp : (generatePassphrase words n : Prog Error (List Char)) w = (.abort .panic, ((generatePassphrase words n : Prog Error (List Char)) w).2) :=
        Prod.ext ((Props.C51_panics words n).1 w hu) rfl
      have : getSecret words cwd (.generate n) st w = (.abort .panic, ((generatePassphrase words n : Prog Error (List Char)) w).2) := by
        unfold getSecret fetch
        rw [Prog.bind_abort (Prog.bind_abort hp)]
      rw [this] at ha
      cases ha
      exact .unlucky n rfl hu
    · obtain ⟨p, w1, hp⟩ : ∃ p w1, (generatePassphrase words n : Prog Error (List Char)) w = (.ok p, w1) := by
        obtain ⟨c, w1, h, _⟩ := Props.C51_passphrase_partial (ε := Error) words n w fun i hi e => hu ⟨i, hi, e⟩
        exact ⟨_, _, h⟩
      exfalso
      obtain ⟨w2, hf⟩ : ∃ w2, fetch words cwd st (.generate n) w = (.ok (stringBytes p), w2) := ⟨_, by rw [show fetch words cwd st (.generate n) = (generatePassphrase words n >>= fun p => say ("[-] Your generated passphrase is: ".toList ++ p) >>= fun _ => Pure.pure (stringBytes p)) from rfl, Prog.bind_ok hp]; rfl⟩
      unfold getSecret at ha
      rw [Prog.bind_ok hf] at ha
      split at ha <;> cases ha
  · refine absurd ha (Returns.bind (fetch_returns words cwd st key fun n e => hk ⟨n, e⟩) (fun _ => ?_) w a)
    split
    · exact .throw _
    · exact .pure _

/-! ## The commands -/

theorem mem_erase (names : List (List Char)) : (eraseQuestion, false) ∈ questionsFor names := List.mem_append_right _ (List.mem_singleton.2 rfl)
theorem mem_overwrite {names : List (List Char)} {n : List Char} (h : n ∈ names) : (overwriteQuestion n, true) ∈ questionsFor names := List.mem_append_left _ (List.mem_map.2 ⟨n, h, rfl⟩)

theorem encryptMode_quits_of (s : Sys σ) (hC : s.C.Lawful) (input output : List Char) (params : CryptoParams) (a : Algorithm) (ho : ∀ n ∈ output :: params.header.toList, params.force = .prompt → (overwriteQuestion n, true) ∈ q)
    (he : params.erase ≠ .ignoreFile → params.force = .prompt → (eraseQuestion, false) ∈ q) : Quits s.words params.key q (encryptMode s input output params a) := by
  unfold encryptMode
  split
  · exact .of (.throw _)
  · refine .first (consent_ends _ (ho _ (by simp))) (consent_calm _ _ _) fun _ => .first (readInput_ends _) (readInput_still _).calm fun _ => .last (getSecret_quits _ _ _ _) fun _ =>
      .bind (openOutput_ends _) fun _ => .bind (openHeader_ends _ _ fun n h => ho _ (by simp [h])) fun _ => .bind (encryptBody_ends s hC _ _ _ _ _ _) fun _ => .bind (hashIf_ends _ _ _) fun _ => eraseIf_ends _ _ _ _ he

theorem decryptMode_quits_of (s : Sys σ) (hC : s.C.Lawful) (input output : List Char) (params : CryptoParams) (ho : params.force = .prompt → (overwriteQuestion output, true) ∈ q)
    (he : params.erase ≠ .ignoreFile → params.force = .prompt → (eraseQuestion, false) ∈ q) : Quits s.words params.key q (decryptMode s input output params) := by
  unfold decryptMode
  split
  · exact .of (.throw _)
  · refine .first (consent_ends _ ho) (consent_calm _ _ _) fun _ => .first (readInput_ends _) (readInput_still _).calm fun _ => .first (readHeader_ends _ _) (readHeader_still _ _).calm fun _ =>
      .last (getSecret_quits _ _ _ _) fun _ => .bind (openOutput_ends _) fun _ => .bind (decryptBody_ends s hC _ _ _ _) fun _ => .bind (hashIf_ends _ _ _) fun _ => eraseIf_ends _ _ _ _ he

theorem packMode_quits_of (s : Sys σ) (hC : s.C.Lawful) (inputs : List (List Char)) (output : List Char) (pp : PackParams) (params : CryptoParams) (a : Algorithm)
    (ho : ∀ n ∈ output :: params.header.toList, params.force = .prompt → (overwriteQuestion n, true) ∈ q) (he : pp.eraseSource = true → params.force = .prompt → (eraseQuestion, false) ∈ q) :
    Quits s.words params.key q (packMode s inputs output pp params a) := by
  unfold packMode
  split
  · exact .of (.throw _)
  · refine .first (anyFile_ends _) (fun w => ⟨rfl, rfl, List.suffix_refl _⟩) fun b => ?_
    split
    · exact .of (.throw _)
    · refine .first (consent_ends _ (ho _ (by simp))) (consent_calm _ _ _) fun _ => .first (readInputs_ends _ _) (readInputs_still _ _).calm fun _ => .last (getSecret_quits _ _ _ _) fun _ =>
        .bind (openOutput_ends _) fun _ => .bind (openHeader_ends _ _ fun n h => ho _ (by simp [h])) fun _ => .bind (packBody_ends s hC _ _ _ _ _ _) fun _ => .bind (hashIf_ends _ _ _) fun _ => ?_
      split
      · exact eraseInputs_ends _ _ (he (by assumption)) _
      · exact .pure _

theorem encryptMode_quits (s : Sys σ) (hC : s.C.Lawful) (input output : List Char) (params : CryptoParams) (a : Algorithm) :
    Quits s.words params.key (questionsFor (output :: params.header.toList)) (encryptMode s input output params a) := encryptMode_quits_of s hC input output params a (fun _ h _ => mem_overwrite h) fun _ _ => mem_erase _

theorem decryptMode_quits (s : Sys σ) (hC : s.C.Lawful) (input output : List Char) (params : CryptoParams) :
    Quits s.words params.key (questionsFor [output]) (decryptMode s input output params) := decryptMode_quits_of s hC input output params (fun _ => mem_overwrite (by simp)) fun _ _ => mem_erase _

theorem packMode_quits (s : Sys σ) (hC : s.C.Lawful) (inputs : List (List Char)) (output : List Char) (pp : PackParams) (params : CryptoParams) (a : Algorithm) :
    Quits s.words params.key (questionsFor (output :: params.header.toList)) (packMode s inputs output pp params a) := packMode_quits_of s hC inputs output pp params a (fun _ h _ => mem_overwrite h) fun _ _ => mem_erase _

theorem serialize_returns {bs aad : Bytes} {hd : Header} (hi : IsHeader bs hd aad) : hd.serialize.Returns := by
  have hver : hd.headerType.version = .v1 ∨ hd.headerType.version = .v2 ∨ (hd.headerType.version ≠ .v1 ∧ hd.headerType.version ≠ .v2) := by cases hd.headerType.version <;> simp
  rcases hver with hv | hv | ⟨h1, h2⟩
  · intro a ha; simp [Header.serialize, hv] at ha
  · intro a ha; simp [Header.serialize, hv] at ha
  · obtain ⟨H, _, h3, _⟩ := hi.rewritten h1 h2
    intro a ha; rw [ha] at h3; cases h3

theorem deserialize_value {h : Nat} {w w' : World} {x : Header × Bytes} (e : deserialize h w = (.ok x, w')) : x.1.serialize.Returns ∧ ∃ bs, IsHeader bs x.1 x.2 := by
  rcases deserialize_cases h w with ⟨hd, aad, w1, he, hi, _⟩ | ⟨_, _, _, he, _⟩
  · rw [he] at e; cases e; exact ⟨serialize_returns hi, _, hi⟩
  · rw [he] at e; cases e

/-- What follows the reading of a header. -/
theorem header_ends {β : Type} {h : Nat} (g : HdrErr → ε) {f : Header × Bytes → Prog ε β} (hf : ∀ x : Header × Bytes, x.1.serialize.Returns → (∃ bs, IsHeader bs x.1 x.2) → Ends q (f x)) : Ends q ((deserialize h).mapErr g >>= f) :=
  .bind_of (fun x : Header × Bytes => x.1.serialize.Returns ∧ ∃ bs, IsHeader bs x.1 x.2) (.mapErr _ (Ends.deserialize h)) (fun w a w' e => deserialize_value (Prog.mapErr_eq_ok e)) fun x hx => hf x hx.1 hx.2

theorem headerWrite_ends {hd : Header} (hr : hd.serialize.Returns) (h : Nat) : Ends q (hd.write h) := .bind (.lift hr) fun _ => .bind (.mapErr _ (Ends.write _ _)) fun _ => .pure _

theorem dump_ends (r o : Nat) : Ends q (HeaderOps.dump r o) := header_ends _ fun _ hr _ => .mapErr _ (headerWrite_ends hr o)

theorem restore_ends (r o : Nat) : Ends q (HeaderOps.restore r o) := by
  refine header_ends _ fun _ hr _ => .bind (.mapErr _ (Ends.read _ _)) fun _ => ?_
  dsimp only
  split
  · exact .throw _
  · exact .bind (.mapErr _ (Ends.rewind _)) fun _ => .mapErr _ (headerWrite_ends hr o)

theorem strip_ends (h : Nat) : Ends q (HeaderOps.strip h) := .bind (.mapErr _ (Ends.deserialize h)) fun _ => .bind (.mapErr _ (Ends.rewind _)) fun _ => .mapErr _ (Ends.writeAll _ _)

theorem headerDump_ends (s : Sys σ) (input output : List Char) (force : ForceMode) (hq : force = .prompt → (overwriteQuestion output, true) ∈ q) : Ends q (headerDump s input output force) :=
  .bind (readInput_ends _) fun _ => .bind (consent_ends _ hq) fun _ => .bind (openOutput_ends _) fun _ => .bind (streamOf_ends _) fun _ => .bind (streamOf_ends _) fun _ => .bind (.mapErr _ (dump_ends _ _)) fun _ => .mapErr _ (flushFile _)

theorem headerRestore_ends (s : Sys σ) (input output : List Char) : Ends q (headerRestore s input output) :=
  .bind (readInput_ends _) fun _ => .bind (.mapErr _ (Ends.openFile _)) fun _ => .bind (streamOf_ends _) fun _ => .mapErr _ (restore_ends _ _)

theorem headerStrip_ends (s : Sys σ) (input : List Char) : Ends q (headerStrip s input) := .bind (.mapErr _ (Ends.openFile _)) fun _ => .mapErr _ (strip_ends _)

theorem headerDetails_ends (s : Sys σ) (input : List Char) : Ends q (headerDetails s input) :=
  .bind (.mapErr _ (Ends.openFile _)) fun _ => header_ends _ fun _ _ hi => by
    obtain ⟨_, hi⟩ := hi
    obtain ⟨rest, hr, _⟩ := keyLines_ok hi
    exact .bind (sayAll_ends _) fun _ => .bind (.lift (by rw [hr]; exact .ok _)) fun _ => .bind (sayAll_ends _) fun _ => .pure _

theorem openV5_ends (s : Sys σ) (input : List Char) : Ends q (openV5 s input) :=
  .bind (.mapErr _ (Ends.openFile _)) fun _ => .bind (.mapErr _ (Ends.deserialize _)) fun _ => .ite (.throw _) (.bind (.mapErr _ (Ends.rewind _)) fun _ => .pure _)

theorem announce_ends (key : Key) (line : String) : Ends q (announce key line) := .ite (say_ends _) (.pure _)

theorem safe_returns {x : Prog KeyOps.Error α} (h : ∀ w, SafeRun w (x w)) : Returns x := fun w a ha => by
  rcases h w with ⟨b, w', e⟩ | ⟨b, w', e, _⟩ <;> rw [e] at ha <;> cases ha

theorem add_ends {C : Crypto} (hC : C.Lawful) (req : KeyOps.NewKeyRequest) : Ends q (KeyOps.add C req) := .within (KeyOps.add_within C req) (.keyAdd C req) (safe_returns (add_safe hC req))
theorem change_ends {C : Crypto} (hC : C.Lawful) (req : KeyOps.NewKeyRequest) : Ends q (KeyOps.change C req) := .within (KeyOps.change_within C req) (.keyChange C req) (safe_returns (change_safe hC req))
theorem delete_ends {C : Crypto} (hC : C.Lawful) (h : Nat) (pw : Bytes) : Ends q (KeyOps.delete C h pw) := .within (KeyOps.delete_within C h pw) (.keyDelete C h pw) (safe_returns (delete_safe hC h pw))

theorem verify_ends {C : Crypto} (hC : C.Lawful) (h : Nat) (pw : Bytes) : Ends q (KeyOps.verify C h pw) := by
  refine .quiet (fun w => ⟨?_, (Crashes.keyVerify C h pw w).aside.2⟩) fun w a => ?_
  · rcases verify_cases (C := C) h pw w with ⟨_, _, _, w', _, _, _, _, hc, he⟩ | ⟨_, w', _, he, hc⟩ <;> (rw [he]; rw [show w'.stdin = w.stdin from (congrArg World.stdin hc : w'.core.stdin = (w.setPos h _).core.stdin)]; exact List.suffix_refl _)
  · rcases verify_cases (C := C) h pw w with ⟨hd, aad, ks, w', _, hi, hv, hk, hc, he⟩ | ⟨_, w', _, he, hc⟩
    · rw [he]
      have hs := ((isHeader_sized hi).2 ks hk).2
      rcases withIndex_cases hC pw hs with ⟨_, _, _, _, e, _⟩ | ⟨e, _⟩ | ⟨e, _⟩ <;> rw [e] <;> exact fun h => by cases h
    · rw [he]; exact fun h => by cases h

theorem getSecret_ends (words : List (List Char)) (cwd : Path) (key : Key) (st : PasswordState) (hk : ∀ n, key ≠ .generate n) : Ends q (getSecret words cwd key st) :=
  .quiet (fun w => (getSecret_quits (q := q) words cwd key st w).1) (.bind (fetch_returns words cwd st key hk) fun _ => by
    split
    · exact .throw _
    · exact .pure _)

theorem keyAdd_quits (s : Sys σ) (hC : s.C.Lawful) (input : List Char) (params : KeyManipulationParams) (hk : ∀ n, params.keyOld ≠ .generate n) : Quits s.words params.keyNew q (keyAdd s input params) :=
  .first (openV5_ends _ _) (openV5_still _ _).calm fun _ => .first (announce_ends _ _) (announce_calm _ _) fun _ => .first (getSecret_ends _ _ _ _ hk) (getSecret_still _ _ _ hk).calm fun _ =>
    .first (announce_ends _ _) (announce_calm _ _) fun _ => .last (getSecret_quits _ _ _ _) fun _ => .mapErr _ (add_ends hC _)

theorem keyChange_quits (s : Sys σ) (hC : s.C.Lawful) (input : List Char) (params : KeyManipulationParams) (hk : ∀ n, params.keyOld ≠ .generate n) : Quits s.words params.keyNew q (keyChange s input params) :=
  .first (openV5_ends _ _) (openV5_still _ _).calm fun _ => .first (announce_ends _ _) (announce_calm _ _) fun _ => .first (getSecret_ends _ _ _ _ hk) (getSecret_still _ _ _ hk).calm fun _ =>
    .first (announce_ends _ _) (announce_calm _ _) fun _ => .last (getSecret_quits _ _ _ _) fun _ => .mapErr _ (change_ends hC _)

theorem keyDelete_quits (s : Sys σ) (hC : s.C.Lawful) (input : List Char) (key : Key) : Quits s.words key q (keyDelete s input key) :=
  .first (openV5_ends _ _) (openV5_still _ _).calm fun _ => .first (announce_ends _ _) (announce_calm _ _) fun _ => .last (getSecret_quits _ _ _ _) fun _ => .mapErr _ (delete_ends hC _ _)

theorem keyVerify_quits (s : Sys σ) (hC : s.C.Lawful) (input : List Char) (key : Key) : Quits s.words key q (keyVerify s input key) :=
  .first (openV5_ends _ _) (openV5_still _ _).calm fun _ => .first (announce_ends _ _) (announce_calm _ _) fun _ => .last (getSecret_quits _ _ _ _) fun _ => .mapErr _ (verify_ends hC _ _)

end Cli
end Volaris
