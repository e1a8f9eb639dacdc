import Verif.Proofs.Unpack
import Verif.Proofs.EndToEnd
import Verif.Model.Tools.Pack
/-!
# Helper lemmas: the temporary file of pack and unpack
-/
namespace Volaris
open Spec

namespace Shrinks

theorem createFile (p : PathBuf) : Shrinks (Storage.createFile p) := by
  refine bind (mapErr _ fun w => ?_) fun _ => pure _
  rcases openNew_cases p w with ⟨q, s, hs, hr, hl, hd, he⟩ | ⟨e, s, hs, he, -⟩ <;> rw [he] <;> exact hs

theorem writeFile (p : PathBuf) : Shrinks (Storage.writeFile p) := by
  refine bind (mapErr _ fun w => ?_) fun _ => pure _
  rcases openTrunc_any p w with ⟨q, i, s, hs, hr, hl, he⟩ | ⟨e, s, hs, he⟩ <;> rw [he] <;> exact hs

theorem orElse {ε α : Type} {x y : Prog ε α} (hx : Shrinks x) (hy : Shrinks y) : Shrinks (Unpack.orElse x y) := by
  intro w
  have h1 := hx w
  unfold Unpack.orElse
  rcases he : x w with ⟨r, w1⟩
  rw [he] at h1
  cases r with
  | ok a => exact h1
  | err e => exact (hy w1).trans h1
  | abort a => exact h1

theorem byIndex (z : Zip) (t i : Nat) : Shrinks (Unpack.byIndex z t i) := by
  intro w
  rcases Unpack.byIndex_cases z t i w with ⟨m, s, hs, he, -⟩ | ⟨x, s, hs, he, -⟩ <;> rw [he] <;> exact hs

theorem copy (m : ZipMember) (h : Nat) : Shrinks (Unpack.copy m h) := by
  unfold Unpack.copy
  exact bind (mapErr _ sysRetry) fun _ => bind (mapErr _ (writeAll _ _)) fun _ => ite (pure _) (throw _)

theorem extract (z : Zip) (t : Nat) (e : Unpack.Entity) : Shrinks (Unpack.extract z t e) :=
  bind (mapErr _ (byIndex z t _)) fun m => bind (mapErr _ (orElse (createFile _) (writeFile _))) fun _ => bind (lift _) fun h => copy m h

theorem extractAll (z : Zip) (t : Nat) : ∀ es : List Unpack.Entity, Shrinks (Unpack.extractAll z t es)
  | [] => pure ()
  | e :: es => bind (extract z t e) fun _ => extractAll z t es

end Shrinks

/-- Clearing up without faults: zeros over the file, then it is emptied and removed. -/
theorem cleanup_nil {ε : Type} {w : World} {p : PathBuf} {q : Path} {t i : Nat} (cap : Nat) (n : Int) (hs : w.sched = []) (hr : w.resolve p = .ok q)
    (hl : w.look q = some (.file i)) (hi : (w.fd t).ino = i) :
    ∃ r1 r2 w1 w2, (Prog.attempt (Overwrite.execute t cap n) : Prog ε _) w = (.ok r1, w1) ∧
      (Prog.attempt (Storage.removeFile (.file p t)) : Prog ε _) w1 = (.ok r2, w2) ∧ w2.look q = none ∧ (∀ x, x ≠ q → w2.look x = w.look x) ∧
      w2.file i = [] ∧ (∀ j, j ≠ i → w2.file j = w.file j) ∧ w2.sched = [] ∧ w2.nextIno = w.nextIno ∧ w2.nextFd = w.nextFd ∧ (∀ h, h ≠ t → w2.fd h = w.fd h) := by
  rcases Overwrite.execute_cases t cap n w with ⟨w1, he, hc⟩ | ⟨e, k, w1, he, hn, -⟩
  · have ht := Unpack.overwrite_within t cap n w
    rw [he] at ht
    have hs1 : w1.sched = [] := by
      have := (show Shrinks (Overwrite.execute t cap n) from by
        unfold Overwrite.execute
        refine .bind ?_ fun _ => .bind (.mapErr _ (.rewind _)) fun _ => .bind (.mapErr _ (.writeAll _ _)) fun _ => .mapErr _ (.flush _)
        have hb : ∀ bs, Shrinks (Overwrite.writeBlocks t bs) := by
          intro bs
          induction bs with
          | nil => exact .pure _
          | cons b bs ih => exact .bind (.genBytes _) fun _ => .bind (.mapErr _ (.writeAll _ _)) fun _ => ih
        have : ∀ m, Shrinks (Overwrite.passes t cap m) := by
          intro m
          induction m with
          | zero => exact .pure _
          | succ m ih => exact .bind (.mapErr _ (.rewind _)) fun _ => .bind (hb _) fun _ => .bind (.mapErr _ (.flush _)) fun _ => ih
        exact this _)
      exact sched_nil_run this hs he
    have e1 : (Prog.attempt (Overwrite.execute t cap n) : Prog ε _) w = (.ok (.ok ()), w1) := by unfold Prog.attempt; rw [he]
    have hi1 : (w1.fd t).ino = i := (ht.inos t).trans hi
    have hr1 : w1.resolve p = .ok q := by rw [World.resolve_congr ht.dir]; exact hr
    have hl1 : w1.look q = some (.file i) := by rw [World.look_congr ht.dir]; exact hl
    have hq : q ≠ [] := by rintro rfl; rw [World.look_nil] at hl; cases hl
    have e2 : Storage.removeFile (.file p t) w1 = (.ok (), (w1.truncated i).removed q) := by
      unfold Storage.removeFile
      rcases Unpack.emptyFile_cases p t w1 with ⟨s, hss, he2⟩ | ⟨e, s, hss, hn, -⟩
      · rw [Prog.bind_ok he2]
        rw [hs1] at hss
        have hss := List.suffix_nil.1 hss
        subst hss
        rw [World.with_sched_nil w1 hs1, hi1]
        refine Prog.mapErr_ok ?_
        have hs2 : (w1.truncated i).sched = [] := hs1
        unfold unlink
        rw [Prog.bind_ok (sys_nil hs2)]
        show unlinkAt p (w1.truncated i) = _
        unfold unlinkAt
        rw [show (w1.truncated i).resolve p = .ok q from (World.resolve_congr (w := w1) (w' := w1.truncated i) rfl p).trans hr1]
        simp only [World.look_truncated, hl1]
      · exact absurd hs1 hn
    have e3 : (Prog.attempt (Storage.removeFile (.file p t)) : Prog ε _) w1 = (.ok (.ok ()), (w1.truncated i).removed q) := by unfold Prog.attempt; rw [e2]
    refine ⟨_, _, w1, _, e1, e3, ?_, fun x hx => ?_, ?_, fun j hj => ?_, hs1, ht.nextIno, ht.nextFd, fun h hh => ?_⟩
    · rw [World.look_removed, if_pos ⟨hq, rfl⟩]
    · rw [World.look_removed, if_neg fun h => hx h.2, World.look_truncated, World.look_congr ht.dir]
    · exact if_pos rfl
    · show (if j = i then [] else w1.file j) = _
      rw [if_neg hj]
      exact ht.files j fun h hh => by rw [List.mem_singleton.1 hh, hi]; exact fun h => hj h.symm
    · exact ht.fds h (by simp) (by simpa using hh)
  · exact absurd hs hn

namespace Unpack

theorem suffix_bind {ε α β : Type} {x : Prog ε α} {f : α → Prog ε β} {w : World} (hx : (x w).2.sched <:+ w.sched)
    (hf : ∀ a w1, x w = (.ok a, w1) → (f a w1).2.sched <:+ w1.sched) : ((x >>= f) w).2.sched <:+ w.sched := by
  rcases he : x w with ⟨r, w1⟩
  rw [he] at hx
  cases r with
  | ok a => rw [Prog.bind_ok he]; exact (hf a w1 he).trans hx
  | err e => rw [Prog.bind_err he]; exact hx
  | abort a => rw [Prog.bind_abort he]; exact hx

/-- Recovering leaves the schedule a suffix of what it was. -/
theorem recover_shrinks (z : Zip) (order : List Nat) (t : Nat) (req : Request) (hcb : OnlyTalks (ask req.onZipFile)) (w : World)
    (hst : w.look req.outputDir.start = some .dir) : (recover z order t req w).2.sched <:+ w.sched := by
  unfold recover
  refine suffix_bind (Shrinks.mapErr _ (Shrinks.rewind t) w) fun _ w1 h1 => ?_
  have hl1 : w1.look req.outputDir.start = some .dir := by
    have := (Within.mapErr (fun _ => Error.resetCursorPosition) (Within.rewind (R := [t]) (W := []) (h := t) (by simp)) w).dir
    rw [h1] at this
    rw [World.look_congr this]; exact hst
  refine suffix_bind ?_ fun n w2 h2 => ?_
  · rcases openArchive_cases z t w1 with ⟨ms, s1, hs1, hm, he1⟩ | ⟨s1, hs1, he1, -⟩ <;> rw [he1] <;> exact hs1
  have hl2 : w2.look req.outputDir.start = some .dir := by
    rcases openArchive_cases z t w1 with ⟨ms, s1, hs1, hm, he1⟩ | ⟨s1, hs1, he1, -⟩
    · rw [he1] at h2
      obtain ⟨-, rfl⟩ := Prod.mk.inj h2
      exact hl1
    · rw [he1] at h2
      cases (Prod.mk.inj h2).1
  obtain ⟨r, w3, he2, hsf, hes⟩ := entities_cases z t req.outputDir req.onZipFile hcb (List.range n) w2
  refine suffix_bind (by rw [he2]; exact hsf.sched) fun es w3' h3 => ?_
  rw [he2] at h3
  obtain ⟨rfl, rfl⟩ := Prod.mk.inj h3
  obtain ⟨conv, -, -, -, -, c5⟩ := hes es rfl
  have hl3 : w3.look req.outputDir.start = some .dir := by rw [World.look_congr hsf.dir]; exact hl2
  obtain ⟨r4, w4, he4, hg, -⟩ := Storage.mkdirThreads_cases (S := fun _ => True) order
    ((es.filter (·.2.2)).map (·.1) ++ [req.outputDir]) Error.storage (fun _ _ _ _ => trivial) w3 (by
      intro p hp
      rcases List.mem_append.1 hp with hp | hp
      · obtain ⟨e, he, rfl⟩ := List.mem_map.1 hp
        obtain ⟨m, cs, -, -, -, h6, -⟩ := c5 e (List.mem_filter.1 he).1
        rw [h6]
        exact hl3
      · rw [List.mem_singleton.1 hp]
        exact hl3)
  have he4 : spawnJoin order (dirThreads req.outputDir es) w3 = (r4, w4) := he4
  refine suffix_bind (by rw [he4]; exact hg.sched) fun _ w5 _ => Shrinks.extractAll z t _ w5

/-- No entry of the tree is a file that does not exist yet. -/
def LinksOk (w : World) : Prop := ∀ q j, w.look q = some (.file j) → j < w.nextIno

/-- What becomes of the temporary file, without faults. -/
theorem execute_temp (C : Crypto) (z : Zip) (tmp : PathBuf) (order : List Nat) (req : Request) (hcb : OnlyTalks (ask req.onZipFile)) (w : World)
    (hst : w.look req.outputDir.start = some .dir) (hs : w.sched = []) {r : Res Error Unit} {w' : World} (he : execute C z tmp order req w = (r, w')) :
    (r = .err (.storage .createFile) ∧ w'.dir = w.dir ∧ w'.file = w.file) ∨
    (w.look (onPaper (tempPath tmp w)) = none ∧
      ((r = .ok () ∧ w'.look (onPaper (tempPath tmp w)) = none ∧ w'.file w.nextIno = []) ∨
       (r ≠ .ok () ∧ w'.look (onPaper (tempPath tmp w)) = some (.file w.nextIno) ∧
         ∀ v', Decrypt.execute C (decryptRequest req w.nextFd) (withTemp tmp w []) = (.ok (), v') → LinksOk w →
           (∀ ms, z.decode (v'.data w.nextFd) = some ms → ∀ p ∈ memberPaths req.outputDir ms, onPaper p ≠ onPaper (tempPath tmp w)) →
           w'.file w.nextIno = v'.data w.nextFd))) := by
  unfold execute at he
  rcases createTempFile_cases tmp w with ⟨s, hss, hr, hl, he0⟩ | ⟨s, hss, he0, -⟩
  · have hss := List.suffix_nil.1 (hs ▸ hss)
    subst hss
    rw [Prog.bind_ok (Prog.mapErr_ok he0)] at he
    have e1 : ∀ v, (Prog.lift (expectStream (Storage.Entry.file (tempPath tmp w) w.nextFd)) : Prog Error Nat) v = (.ok w.nextFd, v) := fun _ => rfl
    rw [Prog.bind_ok (e1 _)] at he
    refine .inr ⟨hl, ?_⟩
    have hne : onPaper (tempPath tmp w) ≠ [] := by intro h; rw [h, World.look_nil] at hl; cases hl
    have hl0 : (withTemp tmp w []).look (onPaper (tempPath tmp w)) = some (.file w.nextIno) := by
      show ((({ w.draw 16 with sched := [] } : World).created (onPaper (tempPath tmp w))).opened w.nextIno).look _ = _
      rw [World.look_opened, World.look_created, if_neg hne, if_pos rfl]
      rfl
    have hlo : ∀ q, q ≠ onPaper (tempPath tmp w) → (withTemp tmp w []).look q = w.look q := by
      intro q hq
      show ((({ w.draw 16 with sched := [] } : World).created (onPaper (tempPath tmp w))).opened w.nextIno).look _ = _
      rw [World.look_opened, World.look_created]
      split
      · next h => rw [h, World.look_nil]
      · rfl
    have hr0 : (withTemp tmp w []).resolve (tempPath tmp w) = .ok (onPaper (tempPath tmp w)) := by
      refine World.resolve_mono (w := w) (fun d hd => ?_) hr
      rw [hlo d (by rintro rfl; rw [hl] at hd; cases hd)]
      exact hd
    have hdec := decrypt_within C (decryptRequest req w.nextFd) (withTemp tmp w [])
    have hdsh := Shrinks.decrypt C (decryptRequest req w.nextFd) (withTemp tmp w [])
    have hst0 : (withTemp tmp w []).look req.outputDir.start = some .dir := by
      rw [hlo _ (by intro h; rw [h, hl] at hst; cases hst)]; exact hst
    have hfd0 : (withTemp tmp w []).fd w.nextFd = { ino := w.nextIno, pos := 0 } := if_pos rfl
    change ((Decrypt.execute C (decryptRequest req w.nextFd)).mapErr Error.decrypt >>= _) (withTemp tmp w []) = _ at he
    rcases hd : Decrypt.execute C (decryptRequest req w.nextFd) (withTemp tmp w []) with ⟨rd, v'⟩
    rw [hd] at hdec hdsh
    have hlv : v'.look (onPaper (tempPath tmp w)) = some (.file w.nextIno) := by rw [World.look_congr hdec.dir]; exact hl0
    cases rd with
    | err x =>
      rw [Prog.bind_err (Prog.mapErr_err hd)] at he
      obtain ⟨rfl, rfl⟩ := Prod.mk.inj he
      exact .inr ⟨by simp, hlv, fun _ h => by cases (Prod.mk.inj h).1⟩
    | abort a =>
      rw [Prog.bind_abort (Prog.mapErr_abort hd)] at he
      obtain ⟨rfl, rfl⟩ := Prod.mk.inj he
      exact .inr ⟨by simp, hlv, fun _ h => by cases (Prod.mk.inj h).1⟩
    | ok u =>
      rw [Prog.bind_ok (Prog.mapErr_ok hd)] at he
      have hsv : v'.sched = [] := List.suffix_nil.1 hdsh
      have hfl : (Storage.fileLen (.file (tempPath tmp w) w.nextFd)) v' = (.ok (v'.data w.nextFd).length, v') := by
        have e2 : (Prog.lift (Storage.Entry.file (tempPath tmp w) w.nextFd).stream : Prog Storage.Error Nat) v' = (.ok w.nextFd, v') := rfl
        unfold Storage.fileLen
        rw [Prog.bind_ok e2]
        refine Prog.mapErr_ok ?_
        unfold Volaris.fileLen
        rw [Prog.bind_ok (sys_nil hsv)]; rfl
      rw [Prog.bind_ok (Prog.mapErr_ok hfl)] at he
      have hstv : v'.look req.outputDir.start = some .dir := by rw [World.look_congr hdec.dir]; exact hst0
      obtain ⟨r3, w3, he3, hrec⟩ := recover_frame z order w.nextFd req hcb v' hstv
      have hs3 : w3.sched = [] := by
        have := recover_shrinks z order w.nextFd req hcb v' hstv
        rw [he3, hsv] at this
        exact List.suffix_nil.1 this
      have hino : (v'.fd w.nextFd).ino = w.nextIno := by rw [hdec.inos, hfd0]
      have hfdlt : w.nextFd < v'.nextFd := by rw [hdec.nextFd]; exact Nat.lt_succ_self _
      have hinolt : w.nextIno < v'.nextIno := by rw [hdec.nextIno]; exact Nat.lt_succ_self _
      have hdat : v'.data w.nextFd = v'.file w.nextIno := by unfold World.data; rw [hino]
      -- the frame of the recovery
      have hx : ∃ D F, Extracts D F v' w3 ∧ ∀ q, F q → ∃ ms p, z.decode (v'.data w.nextFd) = some ms ∧ p ∈ memberPaths req.outputDir ms ∧ q = onPaper p := by
        rcases hrec with ⟨-, hx⟩ | ⟨ms, conv, hms, -, hsub, -, hx⟩
        · exact ⟨_, _, hx, fun _ h => h.elim⟩
        · refine ⟨_, _, hx, ?_⟩
          rintro q ⟨⟨p, hp, rfl⟩, -⟩
          exact ⟨ms, p, hms, hsub.subset (List.mem_map.2 ⟨_, hp, rfl⟩), rfl⟩
      obtain ⟨D, F, hx, hF⟩ := hx
      have hkeep : ∀ q n, v'.look q = some n → w3.look q = some n := by
        intro q n hq
        rcases hx.look q with h | ⟨h, -⟩ | ⟨h, -⟩
        · rw [h, hq]
        · rw [h] at hq; cases hq
        · rw [h] at hq; cases hq
      have hl3 := hkeep _ _ hlv
      have hleft : ∀ v2, (Res.ok (ε := Decrypt.Error) u, v') = (.ok (), v2) → LinksOk w →
           (∀ ms, z.decode (v2.data w.nextFd) = some ms → ∀ p ∈ memberPaths req.outputDir ms, onPaper p ≠ onPaper (tempPath tmp w)) →
           w3.file w.nextIno = v2.data w.nextFd := by
        intro v2 h2 hlk hms
        obtain ⟨-, rfl⟩ := Prod.mk.inj h2
        rw [hx.files w.nextIno hinolt, hdat]
        intro q hq hlq
        obtain ⟨ms, p, h3, h4, rfl⟩ := hF q hq
        rw [World.look_congr hdec.dir, hlo _ (hms ms h3 p h4)] at hlq
        exact absurd (hlk _ _ hlq) (Nat.lt_irrefl _)
      cases r3 with
      | err x =>
        rw [Prog.bind_err he3] at he
        obtain ⟨rfl, rfl⟩ := Prod.mk.inj he
        exact .inr ⟨by simp, hl3, hleft⟩
      | abort x =>
        rw [Prog.bind_abort he3] at he
        obtain ⟨rfl, rfl⟩ := Prod.mk.inj he
        exact .inr ⟨by simp, hl3, hleft⟩
      | ok u3 =>
        rw [Prog.bind_ok he3] at he
        have hr3 : w3.resolve (tempPath tmp w) = .ok (onPaper (tempPath tmp w)) := by
          refine World.resolve_mono (w := v') (fun d hd => hkeep d _ hd) ?_
          rw [World.resolve_congr hdec.dir]; exact hr0
        obtain ⟨r4, r5, w4, w5, he4, he5, h5, -, h7, -⟩ := cleanup_nil (ε := Error) (p := tempPath tmp w) (v'.data w.nextFd).length 1 hs3 hr3 hl3
          (t := w.nextFd) (by rw [hx.inos _ hfdlt]; exact hino)
        rw [Prog.bind_ok he4, Prog.bind_ok he5] at he
        obtain ⟨rfl, rfl⟩ := Prod.mk.inj he
        exact .inl ⟨rfl, h5, h7⟩
  · rw [Prog.bind_err (Prog.mapErr_err he0)] at he
    obtain ⟨rfl, rfl⟩ := Prod.mk.inj he
    exact .inl ⟨rfl, rfl, rfl⟩

end Unpack
end Volaris
