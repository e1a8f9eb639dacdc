import Verif.Spec.Screen
import Verif.Proofs.Printed
import Verif.Proofs.CrashSafe
import Verif.Proofs.Ends
import Verif.Proofs.Announced
import Verif.Proofs.UnpackCmd
import Verif.Proofs.EraseStage
import Verif.Proofs.PackFaults
import Verif.Proofs.PackCmd
/-!
# Lemmas for C92
-/
namespace Volaris.Cli
open Volaris.Spec
variable {σ ε ε' α β : Type}

/-! ### Nothing is printed -/

namespace Wordless

theorem of_silent {x : Prog ε α} (h : Unpack.Silent x) : Wordless x := fun w => (h w).2.2
theorem pure (a : α) : Wordless (Pure.pure a : Prog ε α) := fun _ => rfl
theorem throw (e : ε) : Wordless (Prog.throw e : Prog ε α) := fun _ => rfl
theorem lift (r : Res ε α) : Wordless (Prog.lift r) := fun _ => rfl

theorem attempt {x : Prog ε α} (hx : Wordless x) : Wordless (x.attempt : Prog ε' _) := by
  intro w
  have h1 := hx w
  unfold Prog.attempt
  rcases he : x w with ⟨r, w1⟩
  rw [he] at h1
  cases r <;> exact h1

theorem ite {c : Prop} [Decidable c] {x y : Prog ε α} (hx : Wordless x) (hy : Wordless y) : Wordless (if c then x else y) := by
  split
  · exact hx
  · exact hy

theorem genBytes (n : Nat) : Wordless (Volaris.genBytes n : Prog ε Bytes) := within_wordless (R := []) (W := []) (.genBytes n)
theorem sys : Wordless Volaris.sys := of_silent .sys
theorem fileLen (h : Nat) : Wordless (Volaris.fileLen h) := .bind .sys fun _ _ => rfl

theorem openTrunc (p : PathBuf) : Wordless (Volaris.openTrunc p) := fun w => by
  rcases openTrunc_any p w with ⟨q, i, s, hs, -, -, he⟩ | ⟨e, s, hs, he⟩ <;> rw [he] <;> rfl

theorem setLen0 (h : Nat) : Wordless (Volaris.setLen0 h) := fun w => by
  rcases setLen0_cases h w with ⟨s, hs, he⟩ | ⟨s, e, hs, hn, he⟩ <;> rw [he] <;> rfl

theorem unlink (p : PathBuf) : Wordless (Volaris.unlink p) := fun w => by
  rcases Unpack.unlink_any p w with ⟨q, i, s, hs, -, -, he⟩ | ⟨e, s, hs, he⟩ <;> rw [he] <;> rfl

theorem rewind (h : Nat) : Wordless (Volaris.rewind h) := within_wordless (R := [h]) (W := []) (.rewind (.inl (by simp)))
theorem flush (h : Nat) : Wordless (Volaris.flush h) := within_wordless (R := []) (W := []) (.flush h)
theorem writeAll (h : Nat) (bs : Bytes) : Wordless (Volaris.writeAll h bs) := within_wordless (R := []) (W := [h]) (.writeAll bs (by simp))

theorem dropEntry (q : Path) : Wordless (Storage.dropEntry q) := by
  intro w
  unfold Storage.dropEntry
  split
  · rfl
  · split <;> rfl
  · rfl

theorem removeEntries : ∀ qs : List Path, Wordless (Storage.removeEntries qs)
  | [] => .pure ()
  | q :: qs => .bind .sys fun _ => .bind (dropEntry q) fun _ => removeEntries qs

theorem rmTree (p : PathBuf) : Wordless (Storage.rmTree p) := by
  intro w
  unfold Storage.rmTree
  split
  · split
    · exact removeEntries _ w
    · rfl
  · rfl

theorem openFile (p : PathBuf) : Wordless (Volaris.openFile p) := (Still.openFile p).wordless

theorem readFile (p : PathBuf) : Wordless (Storage.readFile p) := by
  unfold Storage.readFile
  exact .bind (fun _ => rfl) fun _ => .ite (.pure _) (.bind (.mapErr _ (openFile p)) fun _ => .pure _)

theorem readEntries : ∀ ps : List PathBuf, Wordless (Storage.readEntries ps)
  | [] => .pure _
  | p :: ps => .bind (.mapErr _ .sys) fun _ => .bind (readFile p) fun _ => .bind (readEntries ps) fun _ => .pure _

theorem readDir (e : Storage.Entry) : Wordless (Storage.readDir e) := .ite (.throw _) fun w => readEntries _ w

end Wordless

/-- Every step of the thread prints nothing. -/
def ThrWordless (t : Thr ε α) : Prop := ∀ w, Thr.RG (fun _ _ => True) (fun w w' => w'.out = w.out) (fun _ _ => True) t w

namespace ThrWordless

theorem pure (a : α) : ThrWordless (Pure.pure a : Thr ε α) := fun _ => Thr.RG.pure fun _ _ => trivial
theorem atom {x : Prog ε α} (hx : Wordless x) : ThrWordless (Thr.atom x) := fun _ => Thr.RG.atom fun w1 _ => ⟨hx w1, fun _ _ => trivial⟩
theorem bind {t : Thr ε α} {f : α → Thr ε β} (ht : ThrWordless t) (hf : ∀ a, ThrWordless (f a)) : ThrWordless (t >>= f) := fun w =>
  Thr.RG.bind (fun _ => trivial) (ht w) (fun a w' _ => hf a w') (fun _ _ _ => trivial) (fun _ _ _ => trivial)
theorem mapErr (f : ε → ε') {t : Thr ε α} (ht : ThrWordless t) : ThrWordless (t.mapErr f) := fun w => Thr.RG.mapErr (ht w) fun _ _ _ => trivial

theorem writeBlocks (h : Nat) : ∀ bs : List Nat, ThrWordless (Erase.writeBlocks h bs)
  | [] => .pure ()
  | _ :: bs => .bind (.atom (.genBytes 0)) fun _ => .bind (.atom (.mapErr _ (.writeAll h _))) fun _ => writeBlocks h bs

theorem passes (h cap : Nat) : ∀ n : Nat, ThrWordless (Erase.passes h cap n)
  | 0 => .pure ()
  | n + 1 => .bind (.atom (.mapErr _ (.rewind h))) fun _ => .bind (writeBlocks h _) fun _ => .bind (.atom (.mapErr _ (.flush h))) fun _ => passes h cap n

theorem thread (p : PathBuf) (n : Int) : ThrWordless (Erase.thread p n) :=
  .bind (.atom (.mapErr _ (.openTrunc p))) fun h => .bind (.atom (.mapErr _ (.fileLen h))) fun cap =>
    .bind (.mapErr _ (.bind (passes h cap _) fun _ => .bind (.atom (.mapErr _ (.rewind h))) fun _ => .bind (.atom (.mapErr _ (.writeAll h _))) fun _ =>
      .atom (.mapErr _ (.flush h)))) fun _ =>
    .mapErr _ (.bind (.atom (.mapErr _ (.setLen0 h))) fun _ => .bind (.atom (.mapErr _ (.flush h))) fun _ => .atom (.mapErr _ (.unlink p)))

theorem spawnJoin (order : List Nat) (ts : List (Thr ε Unit)) (h : ∀ t ∈ ts, ThrWordless t) : Wordless (Volaris.spawnJoin order ts) := by
  intro w
  obtain ⟨is, r, -, he⟩ := spawnJoin_cases order ts w
  rw [he]
  have := (interleave_RG (R := fun _ _ _ => True) (G := fun _ w w' => w'.out = w.out) (Q := fun _ _ _ => True) (fun _ _ _ _ _ _ => trivial) (fun _ _ => trivial) ts.length
    (fun _ _ _ _ _ _ _ _ => trivial) is ts w rfl (fun i t ht => h t (List.mem_of_getElem? ht) w)).2
  exact Thr.Star.of_closed (P := fun w w' : World => w'.out = w.out) (fun _ => rfl) (fun {a b c} h ⟨_, _, g⟩ => g.trans h) this

end ThrWordless

namespace Wordless

theorem eraseDir (order : List Nat) (e : Storage.Entry) (n : Int) : Wordless (EraseDir.execute order e n) := by
  unfold EraseDir.execute
  refine .ite (.throw _) (.bind (.mapErr _ (readDir _)) fun files => .bind (ThrWordless.spawnJoin _ _ fun t ht => ?_) fun _ => .mapErr _ (.ite (.throw _) (.mapErr _ (.rmTree _))))
  obtain ⟨f, -, rfl⟩ := List.mem_map.1 ht
  exact .mapErr _ (.thread _ _)

theorem writeFile (p : PathBuf) : Wordless (Storage.writeFile p) := of_silent (.writeFile p)
theorem overwrite (h cap : Nat) (n : Int) : Wordless (Overwrite.execute h cap n) := within_wordless (Unpack.overwrite_within h cap n)

theorem removeFile (e : Storage.Entry) : Wordless (Storage.removeFile e) := by
  refine .bind ?_ fun _ => .mapErr _ (.unlink _)
  cases e with
  | file p h => exact .bind (.mapErr _ (.setLen0 h)) fun _ => .mapErr _ (.flush h)
  | dir p => exact .pure _

theorem entryLen (e : Storage.Entry) : Wordless (Storage.fileLen e) := .bind (.lift _) fun h => .mapErr _ (.fileLen h)

theorem erase (p : PathBuf) (n : Int) : Wordless (Erase.execute p n) := by
  unfold Erase.execute
  exact .bind (.mapErr _ (.writeFile p)) fun file => .bind (.mapErr _ (entryLen file)) fun cap =>
    .bind (.lift _) fun h => .bind (.mapErr _ (overwrite h cap n)) fun _ => .mapErr _ (removeFile _)

theorem createTempFile (p : PathBuf) : Wordless (Storage.createTempFile p) := by
  unfold Storage.createTempFile
  exact .bind (.genBytes _) fun _ => of_silent (.createFile _)

theorem pack (C : Crypto) (z : Zip) (tmp : PathBuf) (req : Pack.Request) : Wordless (Pack.execute C z tmp req) := by
  unfold Pack.execute
  exact .bind (.mapErr _ (createTempFile tmp)) fun e => .bind (.lift _) fun t =>
    .bind (within_wordless (R := Pack.handles req.compressFiles) (W := [t]) (Pack.writeArchive_within z _ (fun _ h => h) (by simp))) fun _ => .bind (.mapErr _ (entryLen e)) fun cap =>
    .bind (attempt (.mapErr _ (within_wordless (encrypt_within C _)))) fun r => .bind (attempt (overwrite t cap 2)) fun _ => .bind (attempt (removeFile e)) fun _ => .lift _

theorem flushFile (e : Storage.Entry) : Wordless (Storage.flushFile e) := .bind (.lift _) fun _ => .mapErr _ (.flush _)
theorem flushOpt (e : Option Storage.Entry) : Wordless (Cli.flushOpt e) := within_wordless (flushOpt_within e)
theorem streamOf (e : Storage.Entry) : Wordless (Cli.streamOf e) := .lift _

theorem passphraseLoop (words : List (List Char)) : ∀ (n : Nat) (p : List Char), Wordless (Volaris.passphraseLoop words n p : Prog ε (List Char))
  | 0, _ => .pure _
  | n + 1, p => by
    unfold Volaris.passphraseLoop
    refine .bind (show Wordless (genRangeIncl words.length) from .bind (.genBytes 8) fun _ => .pure _) fun b => ?_
    split
    · exact fun _ => rfl
    · exact passphraseLoop words n _

theorem readInput (p : PathBuf) : Wordless (Cli.readInput p) := .mapErr _ (readFile p)
theorem openOutput (p : PathBuf) : Wordless (Cli.openOutput p) := .mapErr _ (of_silent (.orElse (.createFile p) (.writeFile p)))
theorem readHeader (s : Sys σ) (hd : Option (List Char)) : Wordless (Cli.readHeader s hd) := by
  cases hd with
  | none => exact .pure _
  | some n => exact .bind (readInput _) fun _ => .pure _

theorem readInputs (s : Sys σ) : ∀ fs, Wordless (Cli.readInputs s fs)
  | [] => .pure _
  | _ :: fs => .bind (readInput _) fun _ => .bind (readInputs s fs) fun _ => .pure _

theorem expand : ∀ es : List Storage.Entry, Wordless (Cli.expand es)
  | [] => .pure _
  | e :: es => by
    refine .bind ?_ fun _ => .bind (expand es) fun _ => .pure _
    cases e with
    | dir p => exact .mapErr _ (readDir _)
    | file p h => exact .pure _

theorem encryptBody (s : Sys σ) (params : CryptoParams) (a : Algorithm) (i o : Storage.Entry) (h : Option Storage.Entry) (k : Bytes) : Wordless (Cli.encryptBody s params a i o h k) :=
  .bind (streamOf _) fun _ => .bind (streamOf _) fun _ => .bind (.mapErr _ (within_wordless (encrypt_within _ _))) fun _ => .bind (flushOpt _) fun _ => .mapErr _ (flushFile _)

theorem decryptBody (s : Sys σ) (i o : Storage.Entry) (h : Option Storage.Entry) (k : Bytes) : Wordless (Cli.decryptBody s i o h k) :=
  .bind (streamOf _) fun _ => .bind (streamOf _) fun _ => .bind (.mapErr _ (within_wordless (decrypt_within _ _))) fun _ => .mapErr _ (flushFile _)

theorem packBody (s : Sys σ) (params : CryptoParams) (a : Algorithm) (is : List Storage.Entry) (o : Storage.Entry) (h : Option Storage.Entry) (k : Bytes) :
    Wordless (Cli.packBody s params a is o h k) :=
  .bind (expand _) fun _ => .bind (streamOf _) fun _ => .bind (.mapErr _ (pack _ _ _ _)) fun _ => .bind (flushOpt _) fun _ => .mapErr _ (flushFile _)

end Wordless

/-! ### What is printed -/

def good : Res ε α → Bool
  | .ok _ => true
  | _ => false

/-- Every run prints lines as `P` says, which is told whether the run ended well. -/
def Tells (P : Bool → List (List Char) → Prop) (x : Prog ε α) : Prop := ∀ w, ∃ ls, Shows ls w (x w).2 ∧ P (good (x w).1) ls

theorem _root_.Volaris.Spec.Shows.nil {w w' : World} (h : w'.out = w.out) : Shows [] w w' := by unfold Shows; rw [h]; rfl
theorem _root_.Volaris.Spec.Shows.trans {a b : List (List Char)} {w v u : World} (h : Shows a w v) (g : Shows b v u) : Shows (a ++ b) w u := by unfold Shows at *; rw [g, h]; simp

namespace Tells
variable {P Q R : Bool → List (List Char) → Prop}

theorem mono {x : Prog ε α} (h : Tells P x) (hP : ∀ b ls, P b ls → Q b ls) : Tells Q x := fun w => by
  obtain ⟨ls, h1, h2⟩ := h w
  exact ⟨ls, h1, hP _ _ h2⟩

theorem of_wordless {x : Prog ε α} (h : Wordless x) : Tells (fun _ ls => ls = []) x := fun w => ⟨[], .nil (h w), rfl⟩

theorem bind {x : Prog ε α} {f : α → Prog ε β} (hx : Tells P x) (hf : ∀ a, Tells Q (f a)) (h1 : ∀ l, P false l → R false l) (h2 : ∀ b l l', P true l → Q b l' → R b (l ++ l')) :
    Tells R (x >>= f) := fun w => by
  obtain ⟨l, s1, p1⟩ := hx w
  rw [Prog.bind_run]
  rcases he : x w with ⟨a | e | a, w1⟩ <;> rw [he] at s1 p1
  · obtain ⟨l', s2, p2⟩ := hf a w1
    exact ⟨l ++ l', s1.trans s2, h2 _ _ _ p1 p2⟩
  · exact ⟨l, s1, h1 _ p1⟩
  · exact ⟨l, s1, h1 _ p1⟩

/-- Something that prints nothing comes first. -/
theorem after {x : Prog ε α} {f : α → Prog ε β} (hx : Wordless x) (hf : ∀ a, Tells Q (f a)) (h0 : Q false []) : Tells Q (x >>= f) :=
  .bind (of_wordless hx) hf (fun _ h => by rw [h]; exact h0) fun _ _ _ h g => by rw [h]; exact g

theorem mapErr {x : Prog ε α} (f : ε → ε') (hx : Tells P x) : Tells P (x.mapErr f) := fun w => by
  obtain ⟨l, s1, p1⟩ := hx w
  rw [Prog.mapErr_eq]
  refine ⟨l, s1, ?_⟩
  revert p1
  rcases x w with ⟨_ | _ | _, _⟩ <;> exact id

end Tells

theorem said_shows (t : List Char) (w : World) : Shows [t] w (w.said t) := rfl

theorem say_tells (t : List Char) : Tells (fun b l => b = true ∧ l = [t]) (say t : Prog ε Unit) := fun w => ⟨[t], said_shows t w, rfl, rfl⟩

theorem questionLines_ne (q : List Char) (k : Nat) : questionLines q k ≠ [] := by cases k <;> exact fun h => by cases h

/-- One question. -/
theorem answerLoop_tells (p : List Char) (d : Bool) : ∀ lines, Tells (fun _ => AsksOnce (questionText p d)) (answerLoop p d lines)
  | [] => by
    unfold answerLoop
    refine .bind (say_tells _) (Q := fun _ l => l = []) (fun _ => ?_) (fun l h => ⟨0, h.2⟩) fun b l l' h g => ⟨0, by rw [h.2, g]; rfl⟩
    exact .of_wordless (.bind (.mapErr _ .sys) fun _ => .bind (.mapErr _ (.of_silent .sysRetry)) fun _ => .throw _)
  | line :: lines => by
    unfold answerLoop
    refine .bind (say_tells _) (Q := fun _ l => l = [] ∨ ∃ k, l = "[-] Unrecognised answer - please try again".toList :: questionLines (questionText p d) k) (fun _ => ?_) (fun l h => ⟨0, h.2⟩) ?_
    · refine .after (.mapErr _ .sys) (fun _ => .after (.mapErr _ (.of_silent .sysRetry)) (fun _ => .after (fun _ => rfl) (fun _ => ?_) (.inl rfl)) (.inl rfl)) (.inl rfl)
      split
      · exact (Tells.of_wordless (.throw _)).mono fun _ _ h => .inl h
      · split
        · exact (Tells.of_wordless (.pure _)).mono fun _ _ h => .inl h
        · refine .bind (say_tells _) (fun _ => answerLoop_tells p d lines) (fun l h => by simp at h) ?_
          rintro b l l' ⟨-, rfl⟩ ⟨k, rfl⟩
          exact .inr ⟨k, rfl⟩
    · rintro b l l' ⟨-, rfl⟩ (rfl | ⟨k, rfl⟩)
      · exact ⟨0, rfl⟩
      · exact ⟨k + 1, rfl⟩

theorem getAnswer_tells (p : List Char) (d : Bool) (force : ForceMode) : Tells (fun b l => l = [] ∧ b = true ∧ force = .forced ∨ force = .prompt ∧ AsksOnce (questionText p d) l) (getAnswer p d force) := by
  intro w
  unfold getAnswer
  cases force with
  | forced => exact ⟨[], .nil rfl, .inl ⟨rfl, rfl, rfl⟩⟩
  | prompt =>
    obtain ⟨ls, h1, h2⟩ := answerLoop_tells p d w.stdin w
    exact ⟨ls, h1, .inr ⟨rfl, h2⟩⟩

theorem overwriteText (name : List Char) : questionText (overwritePrompt name) true = overwriteQuestion name := by unfold questionText overwritePrompt overwriteQuestion; simp

/-- Whether to overwrite. -/
theorem consent_shows (cwd : Path) (name : List Char) (force : ForceMode) (w : World) :
    ∃ ls, Shows ls w (consent cwd name force w).2 ∧ (ls = [] ∨ AsksOnce (overwriteQuestion name) ls) ∧ (ls ≠ [] ↔ Occupied w (toPath cwd name) ∧ force = .prompt) := by
  unfold consent
  by_cases ho : Occupied w (toPath cwd name)
  · rw [Prog.bind_run, overwriteCheck_occupied force ho]
    obtain ⟨ls, h1, h2⟩ := getAnswer_tells (overwritePrompt name) true force w
    refine ⟨ls, ?_, ?_⟩
    · revert h1
      rcases getAnswer (overwritePrompt name) true force w with ⟨b | e | a, w1⟩
      · cases b <;> exact id
      · exact id
      · exact id
    · rw [overwriteText] at h2
      rcases h2 with ⟨rfl, -, hf⟩ | ⟨hf, k, rfl⟩
      · exact ⟨.inl rfl, fun h => absurd rfl h, fun h => by rw [hf] at h; cases h.2⟩
      · exact ⟨.inr ⟨k, rfl⟩, fun _ => ⟨ho, hf⟩, fun _ => questionLines_ne _ _⟩
  · rw [Prog.bind_ok (overwriteCheck_free force ho)]
    exact ⟨[], .nil rfl, .inl rfl, fun h => absurd rfl h, fun h => absurd h.1 ho⟩

theorem openHeader_tells (s : Sys σ) (force : ForceMode) (header : Option (List Char)) : Tells (fun _ => AboutHeader force header) (openHeader s force header) := by
  cases header with
  | none => exact (Tells.of_wordless (.pure _)).mono fun _ _ h => .inl h
  | some hd =>
    refine .bind (P := fun _ => AboutHeader force (some hd)) (Q := fun _ l => l = []) (fun w => ?_) (fun _ => .of_wordless (.bind (.openOutput _) fun _ => .pure _)) (fun _ h => h) fun _ _ _ h g => by rw [g, List.append_nil]; exact h
    obtain ⟨ls, h1, h2, h3⟩ := consent_shows s.cwd hd force w
    refine ⟨ls, h1, ?_⟩
    rcases h2 with h2 | h2
    · exact .inl h2
    · obtain ⟨k, rfl⟩ := h2
      exact .inr ⟨(h3.1 (questionLines_ne _ _)).2, hd, rfl, k, rfl⟩

theorem confirmLoop_tells : ∀ entries, Tells (fun _ ls => ∀ l ∈ ls, (l = "[-] Password cannot be empty, please try again.".toList ∨ l = "[-] The passwords aren't the same, please try again.".toList)) (confirmLoop entries)
  | [] => (Tells.of_wordless (.throw _)).mono fun _ _ h => by rw [h]; simp
  | [_] => (Tells.of_wordless (.bind (.mapErr _ (.of_silent .sysRetry)) fun _ => .bind (fun _ => rfl) fun _ => .throw _)).mono fun _ _ h => by rw [h]; simp
  | a :: b :: rest => by
    unfold confirmLoop
    refine .after (.mapErr _ (.of_silent .sysRetry)) (fun _ => .after (fun _ => rfl) (fun _ => .after (.mapErr _ (.of_silent .sysRetry)) (fun _ => .after (fun _ => rfl) (fun _ => ?_) (by simp)) (by simp)) (by simp)) (by simp)
    split
    · exact (Tells.of_wordless (.pure _)).mono fun _ _ h => by rw [h]; simp
    · refine .bind (say_tells _)
        (fun _ => confirmLoop_tells rest) ?_ ?_
      · rintro _ ⟨-, rfl⟩ l hl
        rw [List.mem_singleton.1 hl]
        split
        · exact .inl rfl
        · exact .inr rfl
      · rintro _ _ l' ⟨-, rfl⟩ g l hl
        rcases List.mem_cons.1 hl with rfl | hl
        · split
          · exact .inl rfl
          · exact .inr rfl
        · exact g l hl

/-- The secret. -/
theorem getSecret_tells (words : List (List Char)) (cwd : Path) (key : Key) (state : PasswordState) : Tells (AboutKey state key) (getSecret words cwd key state) := by
  cases key with
  | keyfile p => exact (Tells.of_wordless (getSecret_wordless words cwd state (by simp) (by simp))).mono fun _ _ h => h
  | env => exact (Tells.of_wordless (getSecret_wordless words cwd state (by simp) (by simp))).mono fun _ _ h => h
  | user =>
    refine .bind (P := AboutKey state .user) (Q := fun _ l => l = []) (fun w => ?_) (fun _ => .of_wordless (.ite (.throw _) (.pure _))) (fun _ h => h) fun _ _ _ h g => by rw [g, List.append_nil]; exact h
    show ∃ ls, Shows ls w (getPassword state w).2 ∧ _
    unfold getPassword
    cases state with
    | direct =>
      refine ⟨[], .nil ?_, by intro l h; cases h⟩
      show (directPassword w.tty w).2.out = _
      cases w.tty with
      | nil => rfl
      | cons a rest => exact (Wordless.bind (.mapErr _ (.of_silent .sysRetry)) fun _ => .bind (fun _ => rfl) fun _ => .pure _ : Wordless (directPassword (a :: rest))) w
    | validate =>
      obtain ⟨ls, h1, h2⟩ := confirmLoop_tells w.tty w
      exact ⟨ls, h1, fun l hl => ⟨rfl, h2 l hl⟩⟩
  | generate n =>
    have hg : Tells (AboutKey state (.generate n)) (fetch words cwd state (.generate n)) := by
      show Tells _ (generatePassphrase words n >>= fun p => say ("[-] Your generated passphrase is: ".toList ++ p) >>= fun _ => pure (stringBytes p))
      refine .after ?_ (fun p => ?_) (.inl ⟨rfl, rfl⟩)
      · exact .passphraseLoop words _ _
      · exact fun w => ⟨_, said_shows _ w, .inr ⟨p, rfl⟩⟩
    refine .bind hg (Q := fun _ l => l = []) (fun _ => .of_wordless (.ite (.throw _) (.pure _))) (fun _ h => h) ?_
    rintro b l l' (⟨-, h⟩ | ⟨p, rfl⟩) rfl
    · cases h
    · exact .inr ⟨p, rfl⟩

theorem hashIf_tells (s : Sys σ) (mode : HashMode) (f : List Char) : Tells (AboutDigest mode f) (hashIf s mode f) := fun w => by
  obtain ⟨ls, h1, h2⟩ := hashIf_prints s mode f w
  rcases h2 with ⟨rfl, h2⟩ | ⟨rfl, d, rfl⟩
  · refine ⟨[], h1, ?_⟩
    cases mode with
    | noHash => rfl
    | calculateHash =>
      refine .inl ⟨rfl, ?_⟩
      revert h2
      rcases hashIf s .calculateHash f w with ⟨a | _ | _, _⟩ <;> intro h2
      · cases h2 rfl
      · rfl
      · rfl
  · exact ⟨[digestLine f d], h1, .inr ⟨d, rfl⟩⟩

theorem secureErase_tells (s : Sys σ) (input : List Char) (n : Int) (force : ForceMode) : Tells (fun _ l => l = [] ∨ force = .prompt ∧ AsksOnce eraseQuestion l) (secureErase s input n force) := by
  unfold secureErase
  refine .after (.readInput _) (fun e => ?_) (.inl rfl)
  split
  · refine .bind (getAnswer_tells _ false force) (Q := fun _ l => l = []) (fun b => ?_) ?_ ?_
    · split
      · exact .of_wordless (.mapErr _ (.eraseDir _ _ _))
      · exact .of_wordless (.lift _)
    · rintro l (⟨rfl, -, -⟩ | h)
      · exact .inl rfl
      · exact .inr h
    · rintro b l l' (⟨rfl, -, -⟩ | h) rfl
      · exact .inl rfl
      · rw [List.append_nil]; exact .inr h
  · exact (Tells.of_wordless (.mapErr _ (.erase _ _))).mono fun _ _ h => .inl h

theorem eraseInputs_tells (s : Sys σ) (force : ForceMode) : ∀ fs, Tells (fun _ => AboutErasing force fs) (eraseInputs s force fs)
  | [] => (Tells.of_wordless (.pure _)).mono fun _ _ h => by rw [h]; exact .none
  | f :: fs => by
    refine .bind (secureErase_tells s f 1 force) (fun _ => eraseInputs_tells s force fs) ?_ ?_
    · rintro l (rfl | ⟨h1, h2⟩)
      · exact .none
      · rw [← List.append_nil l]; exact .asked h1 h2 .none
    · rintro b l l' (rfl | ⟨h1, h2⟩) h
      · exact .next h
      · exact .asked h1 h2 h

/-! ### Commands -/

theorem AboutKey.weaken {state : PasswordState} {key : Key} {b : Bool} {ls : List (List Char)} (h : AboutKey state key true ls) : AboutKey state key b ls := by
  cases key with
  | generate n =>
    rcases h with ⟨-, h⟩ | h
    · cases h
    · exact .inr h
  | user => exact h
  | keyfile p => exact h
  | env => exact h

theorem AboutDigest.weaken {mode : HashMode} {f : List Char} {b : Bool} {ls : List (List Char)} (h : AboutDigest mode f true ls) : AboutDigest mode f b ls := by
  cases mode with
  | noHash => exact h
  | calculateHash =>
    rcases h with ⟨-, h⟩ | h
    · cases h
    · exact .inr h

theorem AboutKey.nothing {state : PasswordState} {key : Key} : AboutKey state key false [] := by
  cases key with
  | generate n => exact .inl ⟨rfl, rfl⟩
  | user => intro l h; cases h
  | keyfile p => rfl
  | env => rfl

theorem AboutDigest.nothing {mode : HashMode} {f : List Char} : AboutDigest mode f false [] := by
  cases mode with
  | noHash => rfl
  | calculateHash => exact .inl ⟨rfl, rfl⟩

/-- The secret and what follows. -/
theorem Tells.secret (s : Sys σ) (key : Key) (state : PasswordState) {f : Bytes → Prog Error α} {Q : Bool → List (List Char) → Prop} (hf : ∀ x, Tells Q (f x)) (h0 : Q false []) :
    Tells (fun b l => ∃ k m, l = k ++ m ∧ AboutKey state key b k ∧ Q b m) (getSecret s.words s.cwd key state >>= f) :=
  .bind (getSecret_tells _ _ _ _) hf (fun l h => ⟨l, [], by simp, h, h0⟩) fun _ l l' h g => ⟨l, l', rfl, AboutKey.weaken h, g⟩

theorem Tells.header (s : Sys σ) (force : ForceMode) (header : Option (List Char)) {f : Option Storage.Entry → Prog Error α} {Q : Bool → List (List Char) → Prop} (hf : ∀ x, Tells Q (f x)) (h0 : Q false []) :
    Tells (fun b l => ∃ h m, l = h ++ m ∧ AboutHeader force header h ∧ Q b m) (openHeader s force header >>= f) :=
  .bind (openHeader_tells _ _ _) hf (fun l h => ⟨l, [], by simp, h, h0⟩) fun _ l l' h g => ⟨l, l', rfl, h, g⟩

theorem Tells.digest (s : Sys σ) (mode : HashMode) (file : List Char) {f : Unit → Prog Error α} {Q : Bool → List (List Char) → Prop} (hf : ∀ x, Tells Q (f x)) (h0 : Q false []) :
    Tells (fun b l => ∃ d m, l = d ++ m ∧ AboutDigest mode file b d ∧ Q b m) (hashIf s mode file >>= f) :=
  .bind (hashIf_tells _ _ _) hf (fun l h => ⟨l, [], by simp, h, h0⟩) fun _ l l' h g => ⟨l, l', rfl, AboutDigest.weaken h, g⟩

theorem Tells.quiet {x : Prog ε α} (h : Wordless x) : Tells (fun _ l => l = []) x := .of_wordless h

theorem good_ended (r : Res Error Unit) : good r = endedWell r := by cases r <;> rfl

/-- After the question about the output. -/
theorem consent_then (cwd : Path) (name : List Char) (force : ForceMode) {x : Prog Error Unit} {Q : Bool → List (List Char) → Prop} (hx : Tells Q x) (h0 : Q false []) {starts : Prop} (hs : starts) (w : World) :
    ∃ q l, Shows (q ++ l) w ((consent cwd name force >>= fun _ => x) w).2 ∧ AboutOutput cwd force name starts w q ∧ Q (endedWell ((consent cwd name force >>= fun _ => x) w).1) l := by
  obtain ⟨q, h1, h2, h3⟩ := consent_shows cwd name force w
  have ha : AboutOutput cwd force name starts w q := ⟨h2, h3.trans ⟨fun h => ⟨hs, h⟩, fun h => h.2⟩⟩
  rw [Prog.bind_run]
  revert h1
  rcases consent cwd name force w with ⟨u | e | a, w1⟩ <;> intro h1
  · obtain ⟨l, h4, h5⟩ := hx w1
    rw [good_ended] at h5
    exact ⟨q, l, h1.trans h4, ha, h5⟩
  · exact ⟨q, [], by simpa using h1, ha, h0⟩
  · exact ⟨q, [], by simpa using h1, ha, h0⟩

theorem AboutOutput.never {cwd : Path} {force : ForceMode} {output : List Char} {starts : Prop} {w : World} (h : ¬ starts) : AboutOutput cwd force output starts w [] :=
  ⟨.inl rfl, fun h => absurd rfl h, fun g => absurd g.1 h⟩

/-- What encrypt prints without erasing. -/
theorem encryptMode_shows (s : Sys σ) (input output : List Char) (params : CryptoParams) (a : Algorithm) (w : World) (he : params.erase = .ignoreFile) :
    ∃ q k h d, Shows (q ++ k ++ h ++ d) w (encryptMode s input output params a w).2 ∧ AboutOutput s.cwd params.force output (input ≠ output) w q ∧
      AboutKey .validate params.key (endedWell (encryptMode s input output params a w).1) k ∧ AboutHeader params.force params.header h ∧
      AboutDigest params.hashMode output (endedWell (encryptMode s input output params a w).1) d := by
  unfold encryptMode
  by_cases hio : input = output
  · rw [if_pos hio]
    exact ⟨[], [], [], [], .nil rfl, AboutOutput.never fun h => h hio, AboutKey.nothing, .inl rfl, AboutDigest.nothing⟩
  · rw [if_neg hio]
    obtain ⟨q, l, h1, h2, k, _, rfl, h3, h, _, rfl, h4, d, _, rfl, h5, rfl⟩ := consent_then s.cwd output params.force (starts := input ≠ output) (w := w)
      (.after (.readInput (toPath s.cwd input)) (fun inputFile => .secret s params.key .validate (fun rawKey => .after (.openOutput (toPath s.cwd output)) (fun outputFile =>
        .header s params.force params.header (fun headerFile => .after (.encryptBody s params a inputFile outputFile headerFile rawKey) (fun _ => .digest s params.hashMode output
          (fun _ => .quiet (x := eraseIf s params.erase params.force input) (by rw [he]; exact fun _ => rfl)) rfl)
          ⟨[], [], rfl, AboutDigest.nothing, rfl⟩) ⟨[], [], rfl, AboutDigest.nothing, rfl⟩)
          ⟨[], [], rfl, .inl rfl, [], [], rfl, AboutDigest.nothing, rfl⟩) ⟨[], [], rfl, .inl rfl, [], [], rfl, AboutDigest.nothing, rfl⟩)
        ⟨[], [], rfl, AboutKey.nothing, [], [], rfl, .inl rfl, [], [], rfl, AboutDigest.nothing, rfl⟩)
      ⟨[], [], rfl, AboutKey.nothing, [], [], rfl, .inl rfl, [], [], rfl, AboutDigest.nothing, rfl⟩ hio
    exact ⟨q, k, h, d, by simpa using h1, h2, h3, h4, h5⟩

/-- What decrypt prints without erasing. -/
theorem decryptMode_shows (s : Sys σ) (input output : List Char) (params : CryptoParams) (w : World) (he : params.erase = .ignoreFile) :
    ∃ q k d, Shows (q ++ k ++ d) w (decryptMode s input output params w).2 ∧ AboutOutput s.cwd params.force output (input ≠ output) w q ∧
      AboutKey .direct params.key (endedWell (decryptMode s input output params w).1) k ∧
      AboutDigest params.hashMode input (endedWell (decryptMode s input output params w).1) d := by
  unfold decryptMode
  by_cases hio : input = output
  · rw [if_pos hio]
    exact ⟨[], [], [], .nil rfl, AboutOutput.never fun h => h hio, AboutKey.nothing, AboutDigest.nothing⟩
  · rw [if_neg hio]
    obtain ⟨q, l, h1, h2, k, _, rfl, h3, d, _, rfl, h5, rfl⟩ := consent_then s.cwd output params.force (starts := input ≠ output) (w := w)
      (.after (.readInput (toPath s.cwd input)) (fun inputFile => .after (.readHeader s params.header) (fun headerFile => .secret s params.key .direct (fun rawKey => .after (.openOutput (toPath s.cwd output)) (fun outputFile =>
        .after (.decryptBody s inputFile outputFile headerFile rawKey) (fun _ => .digest s params.hashMode input
          (fun _ => .quiet (x := eraseIf s params.erase params.force input) (by rw [he]; exact fun _ => rfl)) rfl)
          ⟨[], [], rfl, AboutDigest.nothing, rfl⟩) ⟨[], [], rfl, AboutDigest.nothing, rfl⟩) ⟨[], [], rfl, AboutDigest.nothing, rfl⟩)
          ⟨[], [], rfl, AboutKey.nothing, [], [], rfl, AboutDigest.nothing, rfl⟩) ⟨[], [], rfl, AboutKey.nothing, [], [], rfl, AboutDigest.nothing, rfl⟩)
      ⟨[], [], rfl, AboutKey.nothing, [], [], rfl, AboutDigest.nothing, rfl⟩ hio
    exact ⟨q, k, d, by simpa using h1, h2, h3, h5⟩

/-- What pack prints. -/
theorem packMode_shows (s : Sys σ) (inputs : List (List Char)) (output : List Char) (pp : PackParams) (params : CryptoParams) (a : Algorithm) (w : World) :
    ∃ q k h d e, Shows (q ++ k ++ h ++ d ++ e) w (packMode s inputs output pp params a w).2 ∧
      AboutOutput s.cwd params.force output (output ∉ inputs ∧ ∀ f ∈ inputs, ∀ x i, ¬ LeadsToFile w (toPath s.cwd f) x i) w q ∧
      AboutKey .validate params.key (endedWell (packMode s inputs output pp params a w).1) k ∧ AboutHeader params.force params.header h ∧
      AboutDigest params.hashMode output (endedWell (packMode s inputs output pp params a w).1) d ∧ AboutErasing params.force inputs e ∧ (pp.eraseSource = false → e = []) := by
  unfold packMode
  by_cases hio : inputs.any (· = output) = true
  · rw [if_pos hio]
    exact ⟨[], [], [], [], [], .nil rfl, AboutOutput.never fun h => h.1 (by simpa using hio), AboutKey.nothing, .inl rfl, AboutDigest.nothing, .none, fun _ => rfl⟩
  · rw [if_neg hio]
    rcases hb : (anyFile (inputs.map (toPath s.cwd)) : Prog Error Bool) w with ⟨b | e | a, w1⟩
    · rw [Prog.bind_ok hb]
      have hw : w1 = w := by unfold anyFile at hb; cases hb; rfl
      subst hw
      cases b with
      | true =>
        refine ⟨[], [], [], [], [], .nil rfl, AboutOutput.never fun h => ?_, AboutKey.nothing, .inl rfl, AboutDigest.nothing, .none, fun _ => rfl⟩
        unfold anyFile at hb
        simp only [Prod.mk.injEq, Res.ok.injEq, and_true, List.any_eq_true, List.mem_map] at hb
        obtain ⟨_, ⟨f, hf, rfl⟩, hc⟩ := hb
        revert hc
        rcases hr : w1.resolve (toPath s.cwd f) with e | x
        · intro hc; cases hc
        · rcases hl : w1.look x with _ | n
          · intro hc; simp [hl] at hc
          · cases n with
            | dir => intro hc; simp [hl] at hc
            | file i => intro _; exact h.2 f hf x i ⟨hr, hl⟩
      | false =>
        have hno := (anyFile_false hb).2
        rw [if_neg (by simp)]
        have hE : ∀ u : Unit, Tells (fun _ l => AboutErasing params.force inputs l ∧ (pp.eraseSource = false → l = [])) (if pp.eraseSource = true then eraseInputs s params.force inputs else pure ()) := by
          intro u
          split
          · next h => exact (eraseInputs_tells s params.force inputs).mono fun _ _ g => ⟨g, fun h' => by rw [h] at h'; cases h'⟩
          · exact (Tells.of_wordless (.pure ())).mono fun _ _ g => by rw [g]; exact ⟨.none, fun _ => rfl⟩
        have h0 : AboutErasing params.force inputs [] ∧ (pp.eraseSource = false → ([] : List (List Char)) = []) := ⟨.none, fun _ => rfl⟩
        obtain ⟨q, l, h1, h2, k, _, rfl, h3, h, _, rfl, h4, d, e, rfl, h5, h6, h7⟩ := consent_then s.cwd output params.force
          (starts := output ∉ inputs ∧ ∀ f ∈ inputs, ∀ x i, ¬ LeadsToFile w1 (toPath s.cwd f) x i) (w := w1)
          (.after (.readInputs s inputs) (fun inputFiles => .secret s params.key .validate (fun rawKey => .after (.openOutput (toPath s.cwd output)) (fun outputFile =>
            .header s params.force params.header (fun headerFile => .after (.packBody s params a inputFiles outputFile headerFile rawKey) (fun _ => .digest s params.hashMode output
              hE h0)
              ⟨[], [], rfl, AboutDigest.nothing, h0⟩) ⟨[], [], rfl, AboutDigest.nothing, h0⟩)
              ⟨[], [], rfl, .inl rfl, [], [], rfl, AboutDigest.nothing, h0⟩) ⟨[], [], rfl, .inl rfl, [], [], rfl, AboutDigest.nothing, h0⟩)
            ⟨[], [], rfl, AboutKey.nothing, [], [], rfl, .inl rfl, [], [], rfl, AboutDigest.nothing, h0⟩)
          ⟨[], [], rfl, AboutKey.nothing, [], [], rfl, .inl rfl, [], [], rfl, AboutDigest.nothing, h0⟩
          ⟨by simpa using hio, fun f hf x i => hno _ (List.mem_map_of_mem hf) x i⟩
        exact ⟨q, k, h, d, e, by simpa using h1, h2, h3, h4, h5, h6, h7⟩
    · cases hb
    · cases hb

/-- Erasing a file prints nothing. -/
theorem eraseIf_wordless (s : Sys σ) (mode : EraseMode) (force : ForceMode) (file : List Char) {u : World} {q : Path} {i : Nat} (hq : LeadsToFile u (toPath s.cwd file) q i) :
    (eraseIf s mode force file u).2.out = u.out := by
  cases mode with
  | ignoreFile => rfl
  | eraseFile n =>
    show (secureErase s file n force u).2.out = _
    unfold secureErase
    have hw := Wordless.readInput (toPath s.cwd file) u
    rcases readInput_cases (toPath s.cwd file) u with ⟨q', i', sc, hsc, hq', he⟩ | ⟨q', hq', he⟩ | ⟨e, sc, hsc, he, hor⟩
    · rw [he] at hw
      rw [Prog.bind_ok he]
      exact (Wordless.mapErr Error.erase (Wordless.erase (toPath s.cwd file) n) _).trans hw
    · have := hq'.resolve
      rw [hq.resolve] at this; cases this
      have := hq'.look
      rw [hq.look] at this; cases this
    · rw [Prog.bind_err he]

/-! ### What is hashed -/

/-- Every good run ends with a good run of `T`. -/
def Closes (T : Prog ε β) (x : Prog ε β) : Prop := ∀ w a w', x w = (.ok a, w') → ∃ u, u.sched <:+ w.sched ∧ T u = (.ok a, w')

theorem Closes.bind {T : Prog ε β} {x : Prog ε α} {f : α → Prog ε β} (hx : Shrinks x) (hf : ∀ a, Closes T (f a)) : Closes T (x >>= f) := by
  intro w b w' h
  obtain ⟨a, w1, h1, h2⟩ := Prog.bind_eq_ok h
  obtain ⟨u, h3, h4⟩ := hf a w1 b w' h2
  have := hx w
  rw [h1] at this
  exact ⟨u, h3.trans this, h4⟩

theorem Closes.self (T : Prog ε β) : Closes T T := fun w _ _ h => ⟨w, List.suffix_refl _, h⟩

theorem shrinks_looks {P : Nat → α → Prop} {x : Prog ε α} (h : ∀ n, Looks n (P n) x) : Shrinks x := fun w => (h w.nextFd w (Nat.le_refl _)).1.sched

theorem openOutput_shrinks (p : PathBuf) : Shrinks (openOutput p) := .mapErr _ (.orElse (.createFile p) (.writeFile p))

theorem openHeader_shrinks (s : Sys σ) (force : ForceMode) (hd : Option (List Char)) : Shrinks (openHeader s force hd) := by
  cases hd with
  | none => exact .pure _
  | some n => exact .bind (shrinks_looks fun m => consent_looks m _ _ _) fun _ => .bind (openOutput_shrinks _) fun _ => .pure _

theorem readHeader_shrinks (s : Sys σ) (hd : Option (List Char)) : Shrinks (readHeader s hd) := by
  cases hd with
  | none => exact .pure _
  | some n => exact .bind (shrinks_looks fun m => readInput_looks m _) fun _ => .pure _

theorem encryptBody_shrinks (s : Sys σ) (params : CryptoParams) (a : Algorithm) (i o : Storage.Entry) (h : Option Storage.Entry) (k : Bytes) : Shrinks (encryptBody s params a i o h k) :=
  .bind (.lift _) fun _ => .bind (.lift _) fun _ => .bind (.mapErr _ (.encrypt _ _)) fun _ => .bind (flushOpt_shrinks _) fun _ => .mapErr _ (flushFile_shrinks _)

theorem decryptBody_shrinks (s : Sys σ) (i o : Storage.Entry) (h : Option Storage.Entry) (k : Bytes) : Shrinks (decryptBody s i o h k) :=
  .bind (.lift _) fun _ => .bind (.lift _) fun _ => .bind (.mapErr _ (.decrypt _ _)) fun _ => .mapErr _ (flushFile_shrinks _)

theorem expand_shrinks : ∀ es : List Storage.Entry, Shrinks (expand es)
  | [] => .pure _
  | e :: es => by
    refine .bind ?_ fun _ => .bind (expand_shrinks es) fun _ => .pure _
    cases e with
    | dir p => exact .mapErr _ (.ite (.throw _) fun w => (Prunes.readEntries _ w).sched)
    | file p h => exact .pure _

theorem packBody_shrinks (s : Sys σ) (params : CryptoParams) (a : Algorithm) (is : List Storage.Entry) (o : Storage.Entry) (h : Option Storage.Entry) (k : Bytes) : Shrinks (packBody s params a is o h k) :=
  .bind (expand_shrinks _) fun _ => .bind (.lift _) fun _ => .bind (.mapErr _ (Pack.execute_shrinks _ _ _ _)) fun _ => .bind (flushOpt_shrinks _) fun _ => .mapErr _ (flushFile_shrinks _)

/-- The digest that is shown is that of the file. -/
theorem hashIf_digest (s : Sys σ) {digest : Bytes → String} (hH : Computes s.H digest) {f : List Char} {u w' : World} (hns : ∀ k, Io.short k ∉ u.sched)
    (h : hashIf s .calculateHash f u = (.ok (), w')) : ∃ c, ContentAt w' (toPath s.cwd f) c ∧ w'.out.map (·.text) = digestLine f (digest c) :: u.out.map (·.text) := by
  have hl := (hashIf_looks s u.nextFd .calculateHash f u (Nat.le_refl _)).1
  rw [h] at hl
  change (hashStream s [f] >>= fun _ => pure ()) u = _ at h
  obtain ⟨ds, w1, h1, h2⟩ := Prog.bind_eq_ok h
  cases h2
  obtain ⟨shown, g1, g2, g3, g4, g5⟩ := hashStream_prints s digest hH [f] u
  rw [h1] at g2 g3
  obtain ⟨rfl, h3⟩ := g3 ds rfl
  obtain ⟨d, rfl⟩ : ∃ d, ds = [d] := by
    match ds, h3 with
    | [d], _ => exact ⟨d, rfl⟩
  obtain ⟨c, ⟨q, i, hc, rfl⟩, rfl⟩ := g5 hns 0 f d rfl rfl
  refine ⟨_, ⟨q, i, (hl.leads _ _ _).2 hc, by rw [hl.file]⟩, ?_⟩
  rw [g2]
  simp

theorem encryptMode_closes (s : Sys σ) (input output : List Char) (params : CryptoParams) (a : Algorithm) (he : params.erase = .ignoreFile) :
    Closes (hashIf s params.hashMode output) (encryptMode s input output params a) := by
  unfold encryptMode
  by_cases hio : input = output
  · rw [if_pos hio]; intro w b w' h; cases h
  · rw [if_neg hio]
    refine .bind (shrinks_looks fun m => consent_looks m _ _ _) fun _ => .bind (shrinks_looks fun m => readInput_looks m _) fun _ => .bind (shrinks_looks fun m => getSecret_looks m _ _ _ _) fun _ =>
      .bind (openOutput_shrinks _) fun _ => .bind (openHeader_shrinks _ _ _) fun _ => .bind (encryptBody_shrinks _ _ _ _ _ _ _) fun _ => ?_
    rw [he]
    intro w b w' h
    obtain ⟨c, w1, h1, h2⟩ := Prog.bind_eq_ok h
    cases h2
    exact ⟨w, List.suffix_refl _, h1⟩

theorem decryptMode_closes (s : Sys σ) (input output : List Char) (params : CryptoParams) (he : params.erase = .ignoreFile) :
    Closes (hashIf s params.hashMode input) (decryptMode s input output params) := by
  unfold decryptMode
  by_cases hio : input = output
  · rw [if_pos hio]; intro w b w' h; cases h
  · rw [if_neg hio]
    refine .bind (shrinks_looks fun m => consent_looks m _ _ _) fun _ => .bind (shrinks_looks fun m => readInput_looks m _) fun _ => .bind (readHeader_shrinks _ _) fun _ =>
      .bind (shrinks_looks fun m => getSecret_looks m _ _ _ _) fun _ => .bind (openOutput_shrinks _) fun _ => .bind (decryptBody_shrinks _ _ _ _ _) fun _ => ?_
    rw [he]
    intro w b w' h
    obtain ⟨c, w1, h1, h2⟩ := Prog.bind_eq_ok h
    cases h2
    exact ⟨w, List.suffix_refl _, h1⟩

theorem packMode_closes (s : Sys σ) (inputs : List (List Char)) (output : List Char) (params : CryptoParams) (a : Algorithm) :
    Closes (hashIf s params.hashMode output) (packMode s inputs output ⟨false⟩ params a) := by
  unfold packMode
  by_cases hio : inputs.any (· = output) = true
  · rw [if_pos hio]; intro w b w' h; cases h
  · rw [if_neg hio]
    refine .bind (fun w => List.suffix_refl _) fun b => ?_
    split
    · intro w b w' h; cases h
    · refine .bind (shrinks_looks fun m => consent_looks m _ _ _) fun _ => .bind (shrinks_looks fun m => readInputs_looks s m _) fun _ => .bind (shrinks_looks fun m => getSecret_looks m _ _ _ _) fun _ =>
        .bind (openOutput_shrinks _) fun _ => .bind (openHeader_shrinks _ _ _) fun _ => .bind (packBody_shrinks _ _ _ _ _ _ _) fun _ => ?_
      intro w b w' h
      obtain ⟨c, w1, h1, h2⟩ := Prog.bind_eq_ok h
      cases h2
      exact ⟨w, List.suffix_refl _, h1⟩

end Volaris.Cli
