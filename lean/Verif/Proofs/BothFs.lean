import Verif.Proofs.Both
import Verif.Model.Cli.Commands
/-!
# Running a program on two machines: files and directories
-/
namespace Volaris
open Volaris.Spec
variable {ε ε' α β : Type} {K : Nat → Differ} {L : Path → Differ} {f : Bytes → Bytes}

theorem Alike.opened {w v : World} (hR : Alike K L f w v) (i : Nat) : Alike K L f (w.opened i) (v.opened i) := by
  obtain ⟨⟨g, rfl, hg⟩, hs, hf⟩ := hR
  exact ⟨⟨g, rfl, hg⟩, hs, hf⟩

theorem Later.opened (w : World) (i : Nat) : Later w (w.opened i) :=
  ⟨Nat.le_succ _, fun h hh => by show (if h = w.nextFd then _ else _ : Fd).ino = _; rw [if_neg (Nat.ne_of_lt hh)]⟩

theorem holds_opened {d : Differ} {w : World} {i : Nat} (h : (K i).within d) : Holds K d w.nextFd (w.opened i) :=
  ⟨Nat.lt_succ_self _, by show (K (if w.nextFd = w.nextFd then _ else _ : Fd).ino).within d; rw [if_pos rfl]; exact h⟩

theorem Alike.truncated {w v : World} (hR : Alike K L f w v) (i : Nat) : Alike K L f (w.truncated i) (v.truncated i) := by
  obtain ⟨⟨g, rfl, hg⟩, hs, hf⟩ := hR
  refine ⟨⟨_, rfl, fun j => ?_⟩, hs, hf⟩
  show (K j).allows (if j = i then _ else _) (if j = i then _ else _)
  split
  · exact Differ.allows_refl _ _
  · exact hg j

theorem Later.truncated (w : World) (i : Nat) : Later w (w.truncated i) := ⟨Nat.le_refl _, fun _ _ => rfl⟩

theorem Alike.nextFd {w v : World} (hR : Alike K L f w v) : v.nextFd = w.nextFd := by obtain ⟨⟨g, rfl, hg⟩, _, _⟩ := hR; rfl
theorem Alike.nextIno {w v : World} (hR : Alike K L f w v) : v.nextIno = w.nextIno := by obtain ⟨⟨g, rfl, hg⟩, _, _⟩ := hR; rfl

theorem Alike.created {w v : World} (hR : Alike K L f w v) (q : Path) : Alike K L f (w.created q) (v.created q) := by
  obtain ⟨⟨g, rfl, hg⟩, hs, hf⟩ := hR
  refine ⟨⟨_, rfl, fun j => ?_⟩, fun p i h => ?_, fun i hi => hf i (Nat.le_of_succ_le hi)⟩
  · show (K j).allows (if j = w.nextIno then _ else _) (if j = w.nextIno then _ else _)
    split
    · exact Differ.allows_refl _ _
    · exact hg j
  · rw [World.look_created] at h
    split at h
    · cases h
    · split at h
      · cases h; rw [hf _ (Nat.le_refl _)]; trivial
      · next h1 h2 => exact hs p i (by rw [World.look, if_neg h1] at *; exact h)

theorem Later.created (w : World) (q : Path) : Later w (w.created q) := ⟨Nat.le_refl _, fun _ _ => rfl⟩

theorem Alike.removed {w v : World} (hR : Alike K L f w v) (q : Path) : Alike K L f (w.removed q) (v.removed q) := by
  obtain ⟨⟨g, rfl, hg⟩, hs, hf⟩ := hR
  refine ⟨⟨g, rfl, hg⟩, fun p i h => ?_, hf⟩
  rw [World.look_removed] at h
  split at h
  · cases h
  · exact hs p i h

theorem Later.removed (w : World) (q : Path) : Later w (w.removed q) := ⟨Nat.le_refl _, fun _ _ => rfl⟩

/-- A program that looks only at the directory tree, and changes nothing. -/
theorem Both.looked {Q : α → α → World → Prop} {x : Prog ε α} {w v : World} (hR : Alike K L f w v) (r : Res ε α) (hw : x w = (r, w)) (hv : x v = (r, v)) (h : ∀ a, r = .ok a → Q a a w) : Both K L f Q x x w v := by
  refine ⟨by rw [hw, hv]; exact hR, by rw [hw]; exact Later.refl w, ?_⟩
  rw [hw, hv]
  cases r with
  | ok a => exact .ok (h a rfl)
  | err e => exact .err e
  | abort a => exact .abort a

/-- A program that comes to the same effect on both machines. -/
theorem Both.done {Q : α → α → World → Prop} {x y : Prog ε α} {w v w' v' : World} {r : Res ε α} (hw : x w = (r, w')) (hv : y v = (r, v')) (hR : Alike K L f w' v') (hl : Later w w') (h : ∀ a, r = .ok a → Q a a w') :
    Both K L f Q x y w v := by
  refine ⟨by rw [hw, hv]; exact hR, by rw [hw]; exact hl, ?_⟩
  rw [hw, hv]
  cases r with
  | ok a => exact .ok (h a rfl)
  | err e => exact .err e
  | abort a => exact .abort a

theorem Both.same {w v : World} (hR : Alike K L f w v) (r : Res ε α) : Both K L f (fun a b _ => a = b) (Prog.lift r) (Prog.lift r) w v :=
  .lift hR (Results.refl (fun _ => rfl) r)

theorem both_isDir (p : PathBuf) {w v : World} (hR : Alike K L f w v) : Both (ε := ε) K L f (fun a b _ => a = b) (isDir p) (isDir p) w v := by
  refine .looked hR (.ok (w.isDirAt p)) rfl ?_ (fun _ _ => rfl)
  unfold isDir World.isDirAt
  rw [hR.resolve]
  cases w.resolve p with
  | ok q => simp only [hR.look]
  | error e => rfl

theorem both_existsAt (p : PathBuf) {w v : World} (hR : Alike K L f w v) : Both (ε := ε) K L f (fun a b _ => a = b) (existsAt p) (existsAt p) w v := by
  refine .looked hR _ rfl ?_ (fun _ _ => rfl)
  unfold existsAt
  rw [hR.resolve]
  cases w.resolve p with
  | ok q => simp only [hR.look]
  | error e => rfl

theorem both_openAt {p : PathBuf} {d : Differ} (hL : (L (onPaper p)).within d) {w v : World} (hR : Alike K L f w v) : Both K L f (fun a b w' => a = b ∧ Holds K d a w') (openAt p) (openAt p) w v := by
  have ev : openAt p v = (match w.resolve p with
      | .ok q => match w.look q with
          | some (.file i) => (.ok v.nextFd, v.opened i)
          | some .dir => (.err .other, v)
          | none => (.err .notFound, v)
      | .error e => (.err e, v)) := by
    unfold openAt
    rw [hR.resolve]
    cases w.resolve p with
    | ok q => simp only [hR.look]; first | rfl | (cases w.look q with | none => rfl | some n => cases n <;> rfl)
    | error e => rfl
  have ew : openAt p w = (match w.resolve p with
      | .ok q => match w.look q with
          | some (.file i) => (.ok w.nextFd, w.opened i)
          | some .dir => (.err .other, w)
          | none => (.err .notFound, w)
      | .error e => (.err e, w)) := rfl
  cases hr : w.resolve p with
  | ok q =>
    rw [hr] at ev ew
    cases hl : w.look q with
    | none => simp only [hl] at ev ew; exact .done ew ev hR (Later.refl w) (by intro a h; cases h)
    | some n =>
      cases n with
      | dir => simp only [hl] at ev ew; exact .done ew ev hR (Later.refl w) (by intro a h; cases h)
      | file i =>
        simp only [hl, hR.nextFd] at ev ew
        refine .done ew ev (hR.opened i) (Later.opened w i) (by
          intro a h
          cases h
          refine ⟨rfl, holds_opened (Differ.within_trans (hR.seen q i hl) ?_)⟩
          rw [World.walk_lexical (show w.walk p.start p.comps = .ok q from hr)]
          exact hL)
  | error e => simp only [hr] at ev ew; exact .done ew ev hR (Later.refl w) (by intro a h; cases h)

theorem both_openFile {p : PathBuf} {d : Differ} (hL : (L (onPaper p)).within d) {w v : World} (hR : Alike K L f w v) : Both K L f (fun a b w' => a = b ∧ Holds K d a w') (openFile p) (openFile p) w v :=
  (both_sysRetry hR).bind fun _ _ _ _ _ hR' _ => both_openAt hL hR'

theorem both_openTruncAt {p : PathBuf} {d : Differ} (hL : (L (onPaper p)).within d) {w v : World} (hR : Alike K L f w v) :
    Both K L f (fun a b w' => a = b ∧ Holds K d a w') (openTruncAt p) (openTruncAt p) w v := by
  have ev : openTruncAt p v = (match w.resolve p with
      | .ok q => match w.look q with
          | some (.file i) => (.ok v.nextFd, (v.opened i).truncated i)
          | some .dir => (.err .other, v)
          | none => (.err .notFound, v)
      | .error e => (.err e, v)) := by
    unfold openTruncAt
    rw [hR.resolve]
    cases w.resolve p with
    | ok q => simp only [hR.look]; first | rfl | (cases w.look q with | none => rfl | some n => cases n <;> rfl)
    | error e => rfl
  have ew : openTruncAt p w = (match w.resolve p with
      | .ok q => match w.look q with
          | some (.file i) => (.ok w.nextFd, (w.opened i).truncated i)
          | some .dir => (.err .other, w)
          | none => (.err .notFound, w)
      | .error e => (.err e, w)) := rfl
  cases hr : w.resolve p with
  | ok q =>
    rw [hr] at ev ew
    cases hl : w.look q with
    | none => simp only [hl] at ev ew; exact .done ew ev hR (Later.refl w) (by intro a h; cases h)
    | some n =>
      cases n with
      | dir => simp only [hl] at ev ew; exact .done ew ev hR (Later.refl w) (by intro a h; cases h)
      | file i =>
        simp only [hl, hR.nextFd] at ev ew
        refine .done ew ev ((hR.opened i).truncated i) ((Later.opened w i).trans (Later.truncated _ _)) (by
          intro a h
          cases h
          have : Holds K d w.nextFd (w.opened i) := holds_opened (Differ.within_trans (hR.seen q i hl) (by rw [World.walk_lexical (show w.walk p.start p.comps = .ok q from hr)]; exact hL))
          exact ⟨rfl, this.later (Later.truncated _ _)⟩)
  | error e => simp only [hr] at ev ew; exact .done ew ev hR (Later.refl w) (by intro a h; cases h)

theorem both_openTrunc {p : PathBuf} {d : Differ} (hL : (L (onPaper p)).within d) {w v : World} (hR : Alike K L f w v) : Both K L f (fun a b w' => a = b ∧ Holds K d a w') (openTrunc p) (openTrunc p) w v :=
  (both_sysRetry hR).bind fun _ _ _ _ _ hR' _ => both_openTruncAt hL hR'

theorem both_openNewAt (p : PathBuf) {w v : World} (hR : Alike K L f w v) : Both K L f (fun a b w' => a = b ∧ Holds K .no a w') (openNewAt p) (openNewAt p) w v := by
  have ev : openNewAt p v = (match w.resolve p with
      | .ok q => match w.look q with
          | some _ => (.err .alreadyExists, v)
          | none => if w.look q.dropLast = some .dir then (.ok v.nextFd, (v.created q).opened v.nextIno) else (.err .notFound, v)
      | .error e => (.err e, v)) := by
    unfold openNewAt
    rw [hR.resolve]
    cases w.resolve p with
    | ok q => simp only [hR.look]; first | rfl | (cases w.look q with | none => rfl | some n => cases n <;> rfl)
    | error e => rfl
  have ew : openNewAt p w = (match w.resolve p with
      | .ok q => match w.look q with
          | some _ => (.err .alreadyExists, w)
          | none => if w.look q.dropLast = some .dir then (.ok w.nextFd, (w.created q).opened w.nextIno) else (.err .notFound, w)
      | .error e => (.err e, w)) := rfl
  cases hr : w.resolve p with
  | ok q =>
    rw [hr] at ev ew
    cases hl : w.look q with
    | some n => simp only [hl] at ev ew; exact .done ew ev hR (Later.refl w) (by intro a h; cases h)
    | none =>
      simp only [hl] at ev ew
      by_cases hp : w.look q.dropLast = some .dir
      · rw [if_pos hp] at ev ew
        rw [hR.nextFd, hR.nextIno] at ev
        refine .done ew ev ((hR.created q).opened _) ((Later.created w q).trans (Later.opened _ _)) (by
          intro a h
          cases h
          refine ⟨rfl, ?_⟩
          have : K w.nextIno = .no := hR.fresh _ (Nat.le_refl _)
          exact holds_opened (w := w.created q) (by rw [this]; trivial))
      · rw [if_neg hp] at ev ew
        exact .done ew ev hR (Later.refl w) (by intro a h; cases h)
  | error e => simp only [hr] at ev ew; exact .done ew ev hR (Later.refl w) (by intro a h; cases h)

theorem both_openNew (p : PathBuf) {w v : World} (hR : Alike K L f w v) : Both K L f (fun a b w' => a = b ∧ Holds K .no a w') (openNew p) (openNew p) w v :=
  (both_sysRetry hR).bind fun _ _ _ _ _ hR' _ => both_openNewAt p hR'

theorem both_setLen0 (h : Nat) {w v : World} (hR : Alike K L f w v) : Both K L f (fun _ _ _ => True) (setLen0 h) (setLen0 h) w v := by
  refine (both_sysRetry hR).bind fun _ _ w' v' _ hR' _ => ?_
  have e : truncAt h v' = (.ok (), v'.truncated (w'.fd h).ino) := by unfold truncAt; rw [hR'.fd]
  exact .done rfl e (hR'.truncated _) (Later.truncated _ _) (fun _ _ => trivial)

theorem both_fileLen {d : Differ} (hd : d.within .content) {h : Nat} {w v : World} (hR : Alike K L f w v) (hh : Holds K d h w) : Both K L f (fun a b _ => a = b) (fileLen h) (fileLen h) w v := by
  refine (both_sys hR).bind fun _ _ w' v' _ hR' hl => ?_
  exact ⟨hR', Later.refl _, .ok (Differ.allows_len hd (hR'.data (hh.later hl)))⟩

theorem both_unlink (p : PathBuf) {w v : World} (hR : Alike K L f w v) : Both K L f (fun _ _ _ => True) (unlink p) (unlink p) w v := by
  refine (both_sys hR).bind fun _ _ w v _ hR _ => ?_
  have ev : unlinkAt p v = (match w.resolve p with
      | .ok q => match w.look q with
          | some (.file _) => (.ok (), v.removed q)
          | some .dir => (.err .other, v)
          | none => (.err .notFound, v)
      | .error e => (.err e, v)) := by
    unfold unlinkAt
    rw [hR.resolve]
    cases w.resolve p with
    | ok q => simp only [hR.look]; first | rfl | (cases w.look q with | none => rfl | some n => cases n <;> rfl)
    | error e => rfl
  have ew : unlinkAt p w = (match w.resolve p with
      | .ok q => match w.look q with
          | some (.file _) => (.ok (), w.removed q)
          | some .dir => (.err .other, w)
          | none => (.err .notFound, w)
      | .error e => (.err e, w)) := rfl
  cases hr : w.resolve p with
  | ok q =>
    rw [hr] at ev ew
    cases hl : w.look q with
    | none => simp only [hl] at ev ew; exact .done ew ev hR (Later.refl w) (fun _ _ => trivial)
    | some n =>
      cases n with
      | dir => simp only [hl] at ev ew; exact .done ew ev hR (Later.refl w) (fun _ _ => trivial)
      | file i => simp only [hl] at ev ew; exact .done ew ev (hR.removed q) (Later.removed _ _) (fun _ _ => trivial)
  | error e => simp only [hr] at ev ew; exact .done ew ev hR (Later.refl w) (fun _ _ => trivial)

/-! ## storage.rs -/

/-- The file of an entry differs at most like this. -/
def EntryHolds (K : Nat → Differ) (d : Differ) (e : Storage.Entry) (w : World) : Prop :=
  match e with
  | .file _ h => Holds K d h w
  | .dir _ => True

theorem EntryHolds.later {d : Differ} {e : Storage.Entry} {w w' : World} (h : EntryHolds K d e w) (hl : Later w w') : EntryHolds K d e w' := by
  cases e with
  | file p h' => exact Holds.later h hl
  | dir p => trivial

theorem EntryHolds.mono {d d' : Differ} {e : Storage.Entry} {w : World} (h : EntryHolds K d e w) (hd : d.within d') : EntryHolds K d' e w := by
  cases e with
  | file p h' => exact Holds.mono h hd
  | dir p => trivial

theorem both_createFile (p : PathBuf) {w v : World} (hR : Alike K L f w v) :
    Both K L f (fun a b w' => a = b ∧ EntryHolds K .no a w' ∧ a.path = p) (Storage.createFile p) (Storage.createFile p) w v := by
  refine ((both_openNew p hR).mapErr _).bind ?_
  rintro a b w' v' ⟨rfl, hh⟩ hR' _
  exact .pure hR' ⟨rfl, hh, rfl⟩

theorem both_readFile {p : PathBuf} {d : Differ} (hL : (L (onPaper p)).within d) {w v : World} (hR : Alike K L f w v) :
    Both K L f (fun a b w' => a = b ∧ EntryHolds K d a w' ∧ a.path = p) (Storage.readFile p) (Storage.readFile p) w v := by
  unfold Storage.readFile
  refine (both_isDir p hR).bind ?_
  rintro a b w' v' rfl hR' _
  split
  · exact .pure hR' ⟨rfl, trivial, rfl⟩
  · refine ((both_openFile hL hR').mapErr _).bind ?_
    rintro a b w' v' ⟨rfl, hh⟩ hR' _
    exact .pure hR' ⟨rfl, hh, rfl⟩

theorem both_writeFile {p : PathBuf} {d : Differ} (hL : (L (onPaper p)).within d) {w v : World} (hR : Alike K L f w v) :
    Both K L f (fun a b w' => a = b ∧ EntryHolds K d a w' ∧ a.path = p) (Storage.writeFile p) (Storage.writeFile p) w v := by
  refine ((both_openTrunc hL hR).mapErr _).bind ?_
  rintro a b w' v' ⟨rfl, hh⟩ hR' _
  exact .pure hR' ⟨rfl, hh, rfl⟩

theorem both_flushFile (e : Storage.Entry) {w v : World} (hR : Alike K L f w v) : Both K L f (fun _ _ _ => True) (Storage.flushFile e) (Storage.flushFile e) w v := by
  unfold Storage.flushFile
  refine (Both.same hR _).bind ?_
  rintro a b w' v' rfl hR' _
  exact (both_flush _ hR').mapErr _

theorem both_entryLen {d : Differ} (hd : d.within .content) {e : Storage.Entry} {w v : World} (hR : Alike K L f w v) (hh : EntryHolds K d e w) :
    Both K L f (fun a b _ => a = b) (Storage.fileLen e) (Storage.fileLen e) w v := by
  unfold Storage.fileLen
  cases e with
  | file p h => exact (Both.lift (Q := fun a b _ => a = b ∧ a = h) hR (.ok ⟨rfl, rfl⟩)).bind (by rintro a b w' v' ⟨rfl, rfl⟩ hR' hl; exact (both_fileLen hd hR' (Holds.later hh hl)).mapErr _)
  | dir p => exact .done (r := .err .fileAccess) rfl rfl hR (Later.refl _) (by intro a h; cases h)

theorem both_emptyFile (e : Storage.Entry) {w v : World} (hR : Alike K L f w v) : Both K L f (fun _ _ _ => True) (Storage.emptyFile e) (Storage.emptyFile e) w v := by
  cases e with
  | file p h => exact ((both_setLen0 h hR).mapErr _).bind fun _ _ _ _ _ hR' _ => (both_flush h hR').mapErr _
  | dir p => exact .pure hR trivial

theorem both_removeFile (e : Storage.Entry) {w v : World} (hR : Alike K L f w v) : Both K L f (fun _ _ _ => True) (Storage.removeFile e) (Storage.removeFile e) w v :=
  (both_emptyFile e hR).bind fun _ _ _ _ _ hR' _ => (both_unlink _ hR').mapErr _

theorem both_createTempFile (tmp : PathBuf) {w v : World} (hR : Alike K L f w v) :
    Both K L f (fun a b w' => a = b ∧ EntryHolds K .no a w') (Storage.createTempFile tmp) (Storage.createTempFile tmp) w v := by
  refine (both_genBytes 16 hR).bind ?_
  rintro a b w' v' rfl hR' _
  exact (both_createFile _ hR').mono fun a b w' _ h => ⟨h.1, h.2.1⟩

/-! ## overwrite.rs -/

theorem both_writeBlocks (h : Nat) : ∀ (bs : List Nat) {w v : World}, Alike K L f w v → Both K L f (fun _ _ _ => True) (Overwrite.writeBlocks h bs) (Overwrite.writeBlocks h bs) w v
  | [], _, _, hR => .pure hR trivial
  | _ :: bs, _, _, hR => by
    refine (both_genBytes 0 hR).bind ?_
    rintro a b w' v' rfl hR' _
    exact ((both_writeAll h a hR').mapErr _).bind fun _ _ _ _ _ hR' _ => both_writeBlocks h bs hR'

theorem both_passes (h cap : Nat) : ∀ (n : Nat) {w v : World}, Alike K L f w v → Both K L f (fun _ _ _ => True) (Overwrite.passes h cap n) (Overwrite.passes h cap n) w v
  | 0, _, _, hR => .pure hR trivial
  | n + 1, _, _, hR =>
    ((both_rewind h hR).mapErr _).bind fun _ _ _ _ _ hR _ => (both_writeBlocks h _ hR).bind fun _ _ _ _ _ hR _ => ((both_flush h hR).mapErr _).bind fun _ _ _ _ _ hR _ => both_passes h cap n hR

theorem both_overwrite (h cap : Nat) (n : Int) {w v : World} (hR : Alike K L f w v) : Both K L f (fun _ _ _ => True) (Overwrite.execute h cap n) (Overwrite.execute h cap n) w v :=
  (both_passes h cap _ hR).bind fun _ _ _ _ _ hR _ => ((both_rewind h hR).mapErr _).bind fun _ _ _ _ _ hR _ => ((both_writeAll h _ hR).mapErr _).bind fun _ _ _ _ _ hR _ => (both_flush h hR).mapErr _

theorem both_erase {p : PathBuf} {d : Differ} (hd : d.within .content) (hL : (L (onPaper p)).within d) (n : Int) {w v : World} (hR : Alike K L f w v) :
    Both K L f (fun _ _ _ => True) (Erase.execute p n) (Erase.execute p n) w v := by
  unfold Erase.execute
  refine ((both_writeFile hL hR).mapErr _).bind ?_
  rintro e _ w v ⟨rfl, hh, _⟩ hR _
  refine ((both_entryLen hd hR hh).mapErr _).bind ?_
  rintro a _ w v rfl hR _
  refine (Both.same hR _).bind ?_
  rintro h _ w v rfl hR _
  exact ((both_overwrite h a n hR).mapErr _).bind fun _ _ _ _ _ hR _ => (both_removeFile e hR).mapErr _

end Volaris
