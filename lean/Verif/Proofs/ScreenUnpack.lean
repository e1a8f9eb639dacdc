import Verif.Spec.ScreenUnpack
import Verif.Proofs.Screen
/-!
# Lemmas for C92: unpacking
-/
namespace Volaris.Cli
open Volaris.Spec
variable {σ ε ε' α β : Type}

theorem _root_.Volaris.Spec.AboutMembers.append {force : ForceMode} {v b : Bool} {ns ns' : List (List Char × Bool)} {l l' : List (List Char)} (h : AboutMembers force v true ns l) (g : AboutMembers force v b ns' l') :
    AboutMembers force v b (ns ++ ns') (l ++ l') := by
  induction h with
  | none => exact g
  | next h1 _ ih => rw [List.append_assoc]; exact .next h1 ih
  | unanswered hk => cases hk

theorem _root_.Volaris.Spec.AboutMembers.fails {force : ForceMode} {v b : Bool} {ns : List (List Char × Bool)} {l : List (List Char)} (h : AboutMembers force v b ns l) : AboutMembers force v false ns l := by
  induction h with
  | none => exact .none
  | next h1 _ ih => exact .next h1 ih
  | unanswered _ hf h => exact .unanswered rfl hf h

theorem expect_tells {P : Bool → List (List Char) → Prop} {x : Prog ε α} (hx : Tells P x) : Tells P (expect x : Prog ε' α) := fun w => by
  obtain ⟨l, s1, p1⟩ := hx w
  refine ⟨l, ?_, ?_⟩
  · revert s1
    unfold expect
    rcases x w with ⟨_ | _ | _, _⟩ <;> exact id
  · revert p1
    unfold expect
    rcases x w with ⟨_ | _ | _, _⟩ <;> exact id

/-- What is said after the answer. -/
def afterAnswer (verbose : Bool) (name : List Char) (answer : Bool) : Prog Unpack.Error Bool := do
  if answer then do
    if verbose then say ("[i] Extracting ".toList ++ name) else pure ()
    pure true
  else do
    say ("[-] Skipping ".toList ++ name)
    pure false

/-- The question about a member. -/
def memberAnswer (force : ForceMode) (p : PathBuf) (name : List Char) : Prog Unpack.Error Bool := do
  if ← existsAt p then expect (getAnswer (overwritePrompt name) true force) else pure true

theorem onZipFile_split (force : ForceMode) (verbose : Bool) (p : PathBuf) {name : List Char} (hn : fileName p = some name) :
    onZipFile force verbose p = memberAnswer force p name >>= afterAnswer verbose name := by
  unfold onZipFile
  rw [hn]
  rfl

theorem afterAnswer_shows (verbose : Bool) (name : List Char) (b : Bool) (w : World) :
    ∃ w1, afterAnswer verbose name b w = (.ok b, w1) ∧ Shows (decisionLines verbose name b) w w1 := by
  cases b with
  | true =>
    cases verbose with
    | true => exact ⟨_, rfl, said_shows _ w⟩
    | false => exact ⟨_, rfl, .nil rfl⟩
  | false => exact ⟨_, rfl, said_shows _ w⟩

theorem memberAnswer_shows (force : ForceMode) (p : PathBuf) (name : List Char) (w : World) :
    ∃ q, Shows q w (memberAnswer force p name w).2 ∧ (q = [] ∧ (memberAnswer force p name w).1 = .ok true ∨ force = .prompt ∧ AsksOnce (overwriteQuestion name) q) := by
  unfold memberAnswer
  rcases he : (existsAt p : Prog Unpack.Error Bool) w with ⟨b | e | a, w1⟩
  · obtain rfl : w1 = w := by cases he; rfl
    rw [Prog.bind_ok he]
    cases b with
    | false => exact ⟨[], .nil rfl, .inl ⟨rfl, rfl⟩⟩
    | true =>
      cases force with
      | forced => exact ⟨[], .nil rfl, .inl ⟨rfl, rfl⟩⟩
      | prompt =>
        obtain ⟨q, h1, h2⟩ := expect_tells (ε' := Unpack.Error) (getAnswer_tells (overwritePrompt name) true .prompt) w1
        refine ⟨q, h1, ?_⟩
        rcases h2 with ⟨-, -, h⟩ | h
        · cases h
        · rw [overwriteText] at h; exact .inr h
  · cases he
  · cases he

/-- One member. -/
theorem onZipFile_shows (force : ForceMode) (verbose : Bool) (p : PathBuf) (w : World) :
    (∃ b w1 name l, onZipFile force verbose p w = (.ok b, w1) ∧ fileName p = some name ∧ Shows l w w1 ∧ AboutMember force verbose name b l) ∨
    (∃ l, good (onZipFile force verbose p w).1 = false ∧ Shows l w (onZipFile force verbose p w).2 ∧ AboutMembers force verbose false [] l) := by
  cases hn : fileName p with
  | none => exact .inr ⟨[], by unfold onZipFile; rw [hn]; rfl, .nil (by unfold onZipFile; rw [hn]; rfl), .none⟩
  | some name =>
    rw [onZipFile_split force verbose p hn]
    obtain ⟨q, h1, h2⟩ := memberAnswer_shows force p name w
    rcases he : memberAnswer force p name w with ⟨b | e | a, w1⟩ <;> rw [he] at h1 h2
    · rw [Prog.bind_ok he]
      obtain ⟨w2, g1, g2⟩ := afterAnswer_shows verbose name b w1
      refine .inl ⟨b, w2, name, _, g1, rfl, h1.trans g2, q, _, rfl, ?_, ?_⟩
      · rcases h2 with h2 | h2
        · exact .inl h2.1
        · exact .inr h2
      · refine ⟨rfl, fun hb => ?_⟩
        subst hb
        rcases h2 with ⟨-, h2⟩ | ⟨-, k, rfl⟩
        · cases h2
        · exact questionLines_ne _ _
    · rw [Prog.bind_err he]
      rcases h2 with ⟨-, h2⟩ | ⟨hf, h2⟩
      · cases h2
      · exact .inr ⟨q, rfl, h1, .unanswered rfl hf h2⟩
    · rw [Prog.bind_abort he]
      rcases h2 with ⟨-, h2⟩ | ⟨hf, h2⟩
      · cases h2
      · exact .inr ⟨q, rfl, h1, .unanswered rfl hf h2⟩

theorem mkdir_wordless (p : PathBuf) : Wordless (mkdir p) := by
  unfold mkdir
  refine .bind .sys fun _ w => ?_
  unfold mkdirAt
  split
  · split
    · rfl
    · split <;> rfl
  · rfl

theorem createDirAllRev_wordless (p : PathBuf) : ∀ cs, ThrWordless (Storage.createDirAllRev p cs)
  | [] => .pure ()
  | c :: cs => by
    have hdir : ∀ (e : IoErr) (q : PathBuf), ThrWordless (do if ← Thr.atom (Volaris.isDir q) then pure () else .done (.err e) : Thr IoErr Unit) := fun e q =>
      .bind (.atom fun _ => rfl) fun b => by
        cases b
        · exact fun _ _ _ => trivial
        · exact .pure ()
    have hdone : ∀ a, ThrWordless (.done (.abort a) : Thr IoErr Unit) := fun _ _ _ _ => trivial
    unfold Storage.createDirAllRev
    refine .bind (.atom (.attempt (mkdir_wordless _))) fun r => ?_
    rcases r with _ | e | a
    · exact .pure ()
    · cases e with
      | notFound =>
        refine .bind (createDirAllRev_wordless p cs) fun _ => .bind (.atom (.attempt (mkdir_wordless _))) fun r => ?_
        rcases r with _ | e | a
        · exact .pure ()
        · exact hdir e _
        · exact hdone a
      | _ => exact hdir _ _
    · exact hdone a

def Talk (force : ForceMode) (verbose : Bool) (b : Bool) (l : List (List Char)) : Prop := ∃ ns, AboutMembers force verbose b ns l

theorem Talk.nil {force : ForceMode} {verbose b : Bool} : Talk force verbose b [] := ⟨[], .none⟩

theorem onZipFile_tells (force : ForceMode) (verbose : Bool) (p : PathBuf) : Tells (Talk force verbose) (onZipFile force verbose p) := fun w => by
  rcases onZipFile_shows force verbose p w with ⟨b, w1, name, l, h1, -, h3, h4⟩ | ⟨l, h1, h2, h3⟩
  · rw [h1]
    exact ⟨l, h3, [(name, b)], by rw [← List.append_nil l]; exact .next h4 .none⟩
  · exact ⟨l, h2, [], by rw [h1]; exact h3⟩

theorem Tells.talk {force : ForceMode} {verbose : Bool} {x : Prog ε α} {f : α → Prog ε β} (hx : Tells (Talk force verbose) x) (hf : ∀ a, Tells (Talk force verbose) (f a)) : Tells (Talk force verbose) (x >>= f) :=
  .bind hx hf (fun _ h => h) fun _ _ _ ⟨_, h⟩ ⟨_, g⟩ => ⟨_, h.append g⟩

theorem Tells.silent {force : ForceMode} {verbose : Bool} {x : Prog ε α} (hx : Wordless x) : Tells (Talk force verbose) x := (Tells.of_wordless hx).mono fun _ _ h => by rw [h]; exact .nil

theorem entities_tells (z : Zip) (t : Nat) (out : PathBuf) (force : ForceMode) (verbose : Bool) : ∀ is, Tells (Talk force verbose) (Unpack.entities z t out (some (onZipFile force verbose)) is)
  | [] => .silent (.pure _)
  | i :: is => by
    rw [Unpack.entities_cons]
    refine .talk (.silent (.attempt (.of_silent (.byIndex z t i)))) fun r => ?_
    cases r with
    | ok m =>
      show Tells _ (match ZipName.enclosed m.name with | some cs => _ | none => _)
      cases ZipName.enclosed m.name with
      | some cs => exact .talk (onZipFile_tells force verbose _) fun keep => .talk (entities_tells z t out force verbose is) fun rest => .silent (.pure _)
      | none => exact entities_tells z t out force verbose is
    | err e => exact entities_tells z t out force verbose is
    | abort a => exact .silent (.lift _)

theorem unpack_tells (C : Crypto) (z : Zip) (tmp : PathBuf) (order : List Nat) (reader : Nat) (hr : Option Nat) (key : Bytes) (out : PathBuf) (force : ForceMode) (verbose : Bool) :
    Tells (Talk force verbose) (Unpack.execute C z tmp order { reader, headerReader := hr, rawKey := key, outputDir := out, onZipFile := some (onZipFile force verbose) }) := by
  unfold Unpack.execute
  refine .talk (.silent (.mapErr _ (.createTempFile tmp))) fun e => .talk (.silent (.lift _)) fun t => .talk (.silent (.mapErr _ (within_wordless (decrypt_within C _)))) fun _ =>
    .talk (.silent (.mapErr _ (.entryLen e))) fun cap => .talk ?_ fun _ => .talk (.silent (.attempt (.overwrite t cap 1))) fun _ => .talk (.silent (.attempt (.removeFile e))) fun _ => .silent (.pure _)
  unfold Unpack.recover
  refine .talk (.silent (.mapErr _ (.rewind t))) fun _ => .talk (.silent ?_) fun n => .talk (entities_tells z t out force verbose _) fun es => .talk (.silent ?_) fun _ => .silent (.of_silent (.extractAll z t _))
  · unfold Unpack.openArchive
    refine .bind (.mapErr _ (.of_silent .sysRetry)) fun _ w => ?_
    unfold Unpack.lenAt
    split <;> rfl
  · refine ThrWordless.spawnJoin _ _ fun th ht => ?_
    obtain ⟨p, -, rfl⟩ := List.mem_map.1 ht
    exact .mapErr _ (.mapErr _ (createDirAllRev_wordless p _))

theorem unpackMode_shows (s : Sys σ) (input output : List Char) (verbose : Bool) (params : CryptoParams) (w : World) :
    ∃ k m d, Shows (k ++ m ++ d) w (unpackMode s input output verbose params w).2 ∧ AboutKey .direct params.key (good (unpackMode s input output verbose params w).1) k ∧
      Talk params.force verbose (good (unpackMode s input output verbose params w).1) m ∧ AboutDigest params.hashMode input (good (unpackMode s input output verbose params w).1) d := by
  have hd0 : AboutDigest params.hashMode input false [] := by
    cases params.hashMode with
    | noHash => rfl
    | calculateHash => exact .inl ⟨rfl, rfl⟩
  have hk0 : AboutKey .direct params.key false [] := by
    cases params.key with
    | generate n => exact .inl ⟨rfl, rfl⟩
    | user => intro l hl; cases hl
    | keyfile p => rfl
    | env => rfl
  have := show Tells (fun b l => ∃ k m d, l = k ++ m ++ d ∧ AboutKey .direct params.key b k ∧ Talk params.force verbose b m ∧ AboutDigest params.hashMode input b d) (unpackMode s input output verbose params) by
    unfold unpackMode
    refine .after (.readInput _) (fun i => .after (.readHeader s _) (fun h => ?_) ⟨[], [], [], rfl, hk0, .nil, hd0⟩) ⟨[], [], [], rfl, hk0, .nil, hd0⟩
    refine .bind (Q := fun b l => ∃ m d, l = m ++ d ∧ Talk params.force verbose b m ∧ AboutDigest params.hashMode input b d) (getSecret_tells _ _ _ _) (fun key => ?_)
      (fun l h => ⟨l, [], [], by simp, h, .nil, hd0⟩) fun b l l' h ⟨m, d, e, h1, h2⟩ => ⟨l, m, d, by rw [e, List.append_assoc], AboutKey.weaken h, h1, h2⟩
    refine .after (.streamOf _) (fun r => ?_) ⟨[], [], rfl, .nil, hd0⟩
    exact .bind (.mapErr _ (unpack_tells s.C s.z s.tmp s.order r _ key _ params.force verbose)) (fun _ => hashIf_tells s params.hashMode input)
      (fun l h => ⟨l, [], by simp, h, hd0⟩) fun b l l' ⟨ns, h⟩ g => ⟨l, l', rfl, ⟨ns, by cases b with | true => exact h | false => exact h.fails⟩, g⟩
  obtain ⟨ls, h1, k, m, d, rfl, h2⟩ := this w
  exact ⟨k, m, d, h1, h2⟩

/-! ### The digest -/

/-- Every step of the thread takes from the schedule, if anything. -/
def ThrShrinks (t : Thr ε α) : Prop := ∀ w, Thr.RG (fun _ _ => True) (fun w w' => w'.sched <:+ w.sched) (fun _ _ => True) t w

namespace ThrShrinks

theorem pure (a : α) : ThrShrinks (Pure.pure a : Thr ε α) := fun _ => Thr.RG.pure fun _ _ => trivial
theorem atom {x : Prog ε α} (hx : Shrinks x) : ThrShrinks (Thr.atom x) := fun _ => Thr.RG.atom fun w1 _ => ⟨hx w1, fun _ _ => trivial⟩
theorem bind {t : Thr ε α} {f : α → Thr ε β} (ht : ThrShrinks t) (hf : ∀ a, ThrShrinks (f a)) : ThrShrinks (t >>= f) := fun w =>
  Thr.RG.bind (fun _ => trivial) (ht w) (fun a w' _ => hf a w') (fun _ _ _ => trivial) (fun _ _ _ => trivial)
theorem mapErr (f : ε → ε') {t : Thr ε α} (ht : ThrShrinks t) : ThrShrinks (t.mapErr f) := fun w => Thr.RG.mapErr (ht w) fun _ _ _ => trivial

theorem spawnJoin (order : List Nat) (ts : List (Thr ε Unit)) (h : ∀ t ∈ ts, ThrShrinks t) : Shrinks (Volaris.spawnJoin order ts) := by
  intro w
  obtain ⟨is, r, -, he⟩ := spawnJoin_cases order ts w
  rw [he]
  have := (interleave_RG (R := fun _ _ _ => True) (G := fun _ w w' => w'.sched <:+ w.sched) (Q := fun _ _ _ => True) (fun _ _ _ _ _ _ => trivial) (fun _ _ => trivial) ts.length
    (fun _ _ _ _ _ _ _ _ => trivial) is ts w rfl (fun i t ht => h t (List.mem_of_getElem? ht) w)).2
  exact Thr.Star.of_closed (P := fun w w' : World => w'.sched <:+ w.sched) (fun _ => List.suffix_refl _) (fun {a b c} h ⟨_, _, g⟩ => List.IsSuffix.trans g h) this

end ThrShrinks

theorem mkdir_shrinks (p : PathBuf) : Shrinks (mkdir p) := by
  unfold mkdir
  refine .bind .sys fun _ w => ?_
  unfold mkdirAt
  split
  · split
    · exact List.suffix_refl _
    · split <;> exact List.suffix_refl _
  · exact List.suffix_refl _

theorem createDirAllRev_shrinks (p : PathBuf) : ∀ cs, ThrShrinks (Storage.createDirAllRev p cs)
  | [] => .pure ()
  | c :: cs => by
    have hdir : ∀ (e : IoErr) (q : PathBuf), ThrShrinks (do if ← Thr.atom (Volaris.isDir q) then pure () else .done (.err e) : Thr IoErr Unit) := fun e q =>
      .bind (.atom fun _ => List.suffix_refl _) fun b => by
        cases b
        · exact fun _ _ _ => trivial
        · exact .pure ()
    have hdone : ∀ a, ThrShrinks (.done (.abort a) : Thr IoErr Unit) := fun _ _ _ _ => trivial
    unfold Storage.createDirAllRev
    refine .bind (.atom (.attempt (mkdir_shrinks _))) fun r => ?_
    rcases r with _ | e | a
    · exact .pure ()
    · cases e with
      | notFound =>
        refine .bind (createDirAllRev_shrinks p cs) fun _ => .bind (.atom (.attempt (mkdir_shrinks _))) fun r => ?_
        rcases r with _ | e | a
        · exact .pure ()
        · exact hdir e _
        · exact hdone a
      | _ => exact hdir _ _
    · exact hdone a

theorem entities_shrinks (z : Zip) (t : Nat) (out : PathBuf) (force : ForceMode) (verbose : Bool) : ∀ is, Shrinks (Unpack.entities z t out (some (onZipFile force verbose)) is) := fun is w => by
  obtain ⟨r, w', he, hs, -⟩ := Unpack.entities_cases z t out _ (onZipFile_talks force verbose) is w
  rw [he]
  exact hs.sched

theorem unpack_shrinks (C : Crypto) (z : Zip) (tmp : PathBuf) (order : List Nat) (reader : Nat) (hr : Option Nat) (key : Bytes) (out : PathBuf) (force : ForceMode) (verbose : Bool) :
    Shrinks (Unpack.execute C z tmp order { reader, headerReader := hr, rawKey := key, outputDir := out, onZipFile := some (onZipFile force verbose) }) := by
  have hrm : ∀ e, Shrinks (Storage.removeFile e) := by
    intro e
    refine .bind ?_ fun _ => .mapErr _ fun w => ?_
    · cases e with
      | file p h => exact .bind (.mapErr _ (.setLen0 h)) fun _ => .mapErr _ (.flush h)
      | dir p => exact .pure _
    · rcases Unpack.unlink_any e.path w with ⟨q, i, s, hs, -, -, he⟩ | ⟨x, s, hs, he⟩ <;> rw [he] <;> exact hs
  unfold Unpack.execute
  refine .bind (.mapErr _ (.bind (.genBytes _) fun _ => .createFile _)) fun e => .bind (.lift _) fun t => .bind (.mapErr _ (.decrypt C _)) fun _ =>
    .bind (.mapErr _ (.bind (.lift _) fun h => .mapErr _ (.fileLen h))) fun cap => .bind ?_ fun _ => .bind (.attempt (Overwrite.execute_shrinks t cap 1)) fun _ => .bind (.attempt (hrm e)) fun _ => .pure _
  unfold Unpack.recover
  refine .bind (.mapErr _ (.rewind t)) fun _ => .bind ?_ fun n => .bind (entities_shrinks z t out force verbose _) fun es => .bind ?_ fun _ => .extractAll z t _
  · unfold Unpack.openArchive
    refine .bind (.mapErr _ .sysRetry) fun _ w => ?_
    unfold Unpack.lenAt
    split <;> exact List.suffix_refl _
  · refine ThrShrinks.spawnJoin _ _ fun th ht => ?_
    obtain ⟨p, -, rfl⟩ := List.mem_map.1 ht
    exact .mapErr _ (.mapErr _ (createDirAllRev_shrinks p _))

theorem unpackMode_closes (s : Sys σ) (input output : List Char) (verbose : Bool) (params : CryptoParams) : Closes (hashIf s params.hashMode input) (unpackMode s input output verbose params) := by
  unfold unpackMode
  exact .bind (shrinks_looks fun m => readInput_looks m _) fun _ => .bind (readHeader_shrinks _ _) fun _ => .bind (shrinks_looks fun m => getSecret_looks m _ _ _ _) fun _ => .bind (.lift _) fun _ =>
    .bind (.mapErr _ (unpack_shrinks _ _ _ _ _ _ _ _ _ _)) fun _ => .self _

end Volaris.Cli
