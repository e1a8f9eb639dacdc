import Verif.Proofs.Temp
import Verif.Spec.Pack
/-!
# Helper lemmas about `pack::execute`
-/
namespace Volaris.Pack
open Spec

/-- The handles of the files to pack. -/
def handles (fs : List Storage.Entry) : List Nat := fs.filterMap fun
  | .file _ h => some h
  | .dir _ => none

theorem mem_handles {fs : List Storage.Entry} {h : Nat} : h ∈ handles fs ↔ ∃ p, Storage.Entry.file p h ∈ fs := by
  unfold handles
  rw [List.mem_filterMap]
  constructor
  · rintro ⟨f, hf, he⟩
    cases f with
    | file p h' => cases he; exact ⟨p, hf⟩
    | dir p => cases he
  · rintro ⟨p, hf⟩
    exact ⟨_, hf, rfl⟩

/-! ### Frames -/

theorem readFile_within {R W : List Nat} {h : Nat} (hh : h ∈ R) : ∀ fuel got, Within R W (readFile h fuel got) := by
  intro fuel
  induction fuel with
  | zero =>
    intro got
    unfold readFile
    exact .bind (.mapErr _ (.read _ (.inl hh))) fun _ => .bind (.mapErr _ (Unpack.sysRetry_within _ _)) fun _ => .ite (.pure _) (.lift _)
  | succ fuel ih =>
    intro got
    unfold readFile
    exact .bind (.mapErr _ (.read _ (.inl hh))) fun _ => .bind (.mapErr _ (Unpack.sysRetry_within _ _)) fun _ => .ite (.pure _) (ih _)

theorem readFile_shrinks (h : Nat) : ∀ fuel got, Shrinks (readFile h fuel got) := by
  intro fuel
  induction fuel with
  | zero =>
    intro got
    unfold readFile
    exact .bind (.mapErr _ (.read _ _)) fun _ => .bind (.mapErr _ .sysRetry) fun _ => .ite (.pure _) (.lift _)
  | succ fuel ih =>
    intro got
    unfold readFile
    exact .bind (.mapErr _ (.read _ _)) fun _ => .bind (.mapErr _ .sysRetry) fun _ => .ite (.pure _) (ih _)

theorem readFile_returns (h : Nat) : ∀ fuel got (w : World), (w.rest h).length ≤ fuel → ∀ a, (readFile h fuel got w).1 ≠ .abort a := by
  intro fuel
  induction fuel with
  | zero =>
    intro got w hf a
    unfold readFile
    rcases read_spec h BLOCK_SIZE w with ⟨k, w1, he, -, -, -⟩ | ⟨e, w1, he, -⟩
    · rw [Prog.bind_ok (Prog.mapErr_ok he)]
      rcases sysRetry_cases w1 with ⟨s, hs, he2⟩ | ⟨s, e, hs, hn, he2⟩
      · rw [Prog.bind_ok (Prog.mapErr_ok he2), if_pos]
        · simp
        · rw [List.length_eq_zero_iff.1 (Nat.le_zero.1 hf)]; simp [BLOCK_SIZE]
      · rw [Prog.bind_err (Prog.mapErr_err he2)]; simp
    · rw [Prog.bind_err (Prog.mapErr_err he)]; simp
  | succ fuel ih =>
    intro got w hf a
    unfold readFile
    rcases read_spec h BLOCK_SIZE w with ⟨k, w1, he, hk, -, hc⟩ | ⟨e, w1, he, -⟩
    · rw [Prog.bind_ok (Prog.mapErr_ok he)]
      rcases sysRetry_cases w1 with ⟨s, hs, he2⟩ | ⟨s, e, hs, hn, he2⟩
      · rw [Prog.bind_ok (Prog.mapErr_ok he2)]
        split
        · simp
        · next hb =>
          have hb : ((w.rest h).take k).length = BLOCK_SIZE := Classical.not_not.1 hb
          refine ih _ _ ?_ a
          have hr := World.rest_of_core (w := w1) (w' := w.adv h ((w.rest h).take k).length) hc h
          show (w1.rest h).length ≤ fuel
          rw [hr, World.rest_adv, List.length_drop, hb]
          simp only [BLOCK_SIZE]; omega
      · rw [Prog.bind_err (Prog.mapErr_err he2)]; simp
    · rw [Prog.bind_err (Prog.mapErr_err he)]; simp

theorem readAll_within {R W : List Nat} {h : Nat} (hh : h ∈ R) : Within R W (readAll h) := fun w => readFile_within hh _ _ w
theorem readAll_shrinks (h : Nat) : Shrinks (readAll h) := fun w => readFile_shrinks h _ _ w
theorem readAll_returns (h : Nat) : Returns (readAll h) := fun w => readFile_returns h _ _ w (by
  unfold World.rest; rw [List.length_drop]; exact Nat.sub_le _ _)

theorem startEntry_within (R W : List Nat) (z : Zip) (done : List ZipEntry) (name : List Char) : Within R W (startEntry z done name) := by
  unfold startEntry
  exact .ite (.throw _) (.mapErr _ (Unpack.sysRetry_within _ _))

theorem startEntry_shrinks (z : Zip) (done : List ZipEntry) (name : List Char) : Shrinks (startEntry z done name) := by
  unfold startEntry
  exact .ite (.throw _) (.mapErr _ .sysRetry)

theorem sysRetry_returns : Returns sysRetry := by
  intro w a
  rcases sysRetry_cases w with ⟨s, hs, he2⟩ | ⟨s, e, hs, hn, he2⟩ <;> rw [he2] <;> simp

theorem startEntry_returns (z : Zip) (done : List ZipEntry) (name : List Char) : Returns (startEntry z done name) := by
  unfold startEntry
  exact .ite (.throw _) (.mapErr _ sysRetry_returns)

theorem addEntry_within {R W : List Nat} (z : Zip) (done : List ZipEntry) (f : Storage.Entry) (hf : ∀ p h, f = .file p h → h ∈ R) : Within R W (addEntry z done f) := by
  cases f with
  | dir p => exact .bind (.mapErr _ (startEntry_within _ _ _ _ _)) fun _ => .pure _
  | file p h => exact .bind (.mapErr _ (startEntry_within _ _ _ _ _)) fun _ => .bind (.mapErr _ (readAll_within (hf p h rfl))) fun _ => .pure _

theorem addEntry_shrinks (z : Zip) (done : List ZipEntry) (f : Storage.Entry) : Shrinks (addEntry z done f) := by
  cases f with
  | dir p => exact .bind (.mapErr _ (startEntry_shrinks _ _ _)) fun _ => .pure _
  | file p h => exact .bind (.mapErr _ (startEntry_shrinks _ _ _)) fun _ => .bind (.mapErr _ (readAll_shrinks h)) fun _ => .pure _

theorem addEntry_returns (z : Zip) (done : List ZipEntry) (f : Storage.Entry) : Returns (addEntry z done f) := by
  cases f with
  | dir p => exact .bind (.mapErr _ (startEntry_returns _ _ _)) fun _ => .pure _
  | file p h => exact .bind (.mapErr _ (startEntry_returns _ _ _)) fun _ => .bind (.mapErr _ (readAll_returns h)) fun _ => .pure _

theorem addAll_within {R W : List Nat} (z : Zip) : ∀ (fs : List Storage.Entry) (done : List ZipEntry), (∀ h ∈ handles fs, h ∈ R) → Within R W (addAll z fs done) := by
  intro fs
  induction fs with
  | nil => intro done _; exact .pure _
  | cons f fs ih =>
    intro done hR
    unfold addAll
    refine .bind (addEntry_within z done f ?_) fun _ => ih _ fun h hh => ?_
    · rintro p h rfl
      exact hR h (mem_handles.2 ⟨p, List.mem_cons_self⟩)
    · obtain ⟨p, hp⟩ := mem_handles.1 hh
      exact hR h (mem_handles.2 ⟨p, List.mem_cons_of_mem _ hp⟩)

theorem addAll_shrinks (z : Zip) : ∀ (fs : List Storage.Entry) (done : List ZipEntry), Shrinks (addAll z fs done) := by
  intro fs
  induction fs with
  | nil => intro done; exact .pure _
  | cons f fs ih => intro done; exact .bind (addEntry_shrinks z done f) fun _ => ih _

theorem addAll_returns (z : Zip) : ∀ (fs : List Storage.Entry) (done : List ZipEntry), Returns (addAll z fs done) := by
  intro fs
  induction fs with
  | nil => intro done; exact .pure _
  | cons f fs ih => intro done; exact .bind (addEntry_returns z done f) fun _ => ih _

theorem attempt_returns {ε ε' α : Type} {x : Prog ε α} (hx : Returns x) : Returns (x.attempt : Prog ε' _) := by
  intro w a
  have := hx w
  unfold Prog.attempt
  rcases he : x w with ⟨r, w1⟩
  rw [he] at this
  cases r with
  | ok a => simp
  | err e => simp
  | abort b => exact absurd rfl (this b)

theorem writeArchive_within {R W : List Nat} (z : Zip) {t : Nat} (fs : List Storage.Entry) (hR : ∀ h ∈ handles fs, h ∈ R) (ht : t ∈ W) : Within R W (writeArchive z t fs) := by
  unfold writeArchive
  refine .bind (.attempt (addAll_within z fs [] hR)) fun r => ?_
  split
  · exact .mapErr _ (.writeAll _ ht)
  · exact .bind (.attempt (.writeAll _ ht)) fun _ => .throw _
  · exact .lift _

theorem writeArchive_shrinks (z : Zip) (t : Nat) (fs : List Storage.Entry) : Shrinks (writeArchive z t fs) := by
  unfold writeArchive
  refine .bind (.attempt (addAll_shrinks z fs [])) fun r => ?_
  split
  · exact .mapErr _ (.writeAll _ _)
  · exact .bind (.attempt (.writeAll _ _)) fun _ => .throw _
  · exact .lift _

/-- Adding the files never aborts. -/
theorem writeArchive_returns (z : Zip) (t : Nat) (fs : List Storage.Entry) : Returns (writeArchive z t fs) := by
  unfold writeArchive
  refine .bind_of (fun r => ∀ a, r ≠ .abort a) (attempt_returns (addAll_returns z fs [])) ?_ ?_
  · intro w r w' he a hr
    have := addAll_returns z fs [] w
    unfold Prog.attempt at he
    rcases hx : addAll z fs [] w with ⟨r', w1⟩
    rw [hx] at he this
    subst hr
    cases r' with
    | ok a => cases he
    | err a => cases he
    | abort b => exact absurd rfl (this b)
  · intro r hr
    split
    · exact .mapErr _ (.writeAll _ _)
    · exact .bind (attempt_returns (.writeAll _ _)) fun _ => .throw _
    · next a => exact absurd rfl (hr a)

/-! ### What packing changes, under every schedule -/

/-- The encryption that packing ends with. -/
def encryptRequest (req : Request) (t : Nat) : Encrypt.Request :=
  { reader := t, writer := req.writer, headerWriter := req.headerWriter, rawKey := req.rawKey,
    headerType := req.headerType, hashingAlgorithm := req.hashingAlgorithm }

theorem encryptRequest_writers (req : Request) (t : Nat) : (encryptRequest req t).writers = packWriters req := by
  unfold Encrypt.Request.writers packWriters
  rfl

/-- A state after the creation of the temporary file: as `v`, except for the contents of the written files, the positions and the temporary entry. -/
structure Mid (w v : World) (tp : Path) (W : List Nat) (u : World) : Prop where
  inos : ∀ h, (u.fd h).ino = (v.fd h).ino
  look : ∀ q, q ≠ tp → u.look q = v.look q
  temp : u.look tp = none ∨ u.look tp = some (.file w.nextIno)
  files : ∀ j, (∀ h ∈ W, (v.fd h).ino ≠ j) → u.file j = v.file j
  nextIno : u.nextIno = v.nextIno
  nextFd : u.nextFd = v.nextFd
  stdin : u.stdin = v.stdin
  tty : u.tty = v.tty
  env : u.env = v.env

variable {w v u u' : World} {tp : Path} {W : List Nat}

theorem Mid.touch (h : Mid w v tp W u) {R : List Nat} (ht : Touches R W u u') : Mid w v tp W u' where
  inos x := (ht.inos x).trans (h.inos x)
  look q hq := (World.look_congr ht.dir q).trans (h.look q hq)
  temp := by rw [World.look_congr ht.dir]; exact h.temp
  files j hj := (ht.files j fun x hx => by rw [h.inos]; exact hj x hx).trans (h.files j hj)
  nextIno := ht.nextIno.trans h.nextIno
  nextFd := ht.nextFd.trans h.nextFd
  stdin := ht.stdin.trans h.stdin
  tty := ht.tty.trans h.tty
  env := ht.env.trans h.env

theorem Mid.sched (h : Mid w v tp W u) (s : List Io) : Mid w v tp W { u with sched := s } where
  inos := h.inos
  look := h.look
  temp := h.temp
  files := h.files
  nextIno := h.nextIno
  nextFd := h.nextFd
  stdin := h.stdin
  tty := h.tty
  env := h.env

theorem Mid.trunc (h : Mid w v tp W u) {t : Nat} (ht : t ∈ W) : Mid w v tp W (u.truncated (u.fd t).ino) where
  inos := h.inos
  look q hq := (World.look_truncated ..).trans (h.look q hq)
  temp := by rw [World.look_truncated]; exact h.temp
  files j hj := by
    show (if j = (u.fd t).ino then [] else u.file j) = _
    rw [if_neg (by rw [h.inos]; exact fun hh => hj t ht hh.symm)]
    exact h.files j hj
  nextIno := h.nextIno
  nextFd := h.nextFd
  stdin := h.stdin
  tty := h.tty
  env := h.env

theorem Mid.remove (h : Mid w v tp W u) : Mid w v tp W (u.removed tp) where
  inos := h.inos
  look q hq := by rw [World.look_removed, if_neg fun hh => hq hh.2]; exact h.look q hq
  temp := by
    rw [World.look_removed]
    split
    · exact .inl rfl
    · exact h.temp
  files := h.files
  nextIno := h.nextIno
  nextFd := h.nextFd
  stdin := h.stdin
  tty := h.tty
  env := h.env

theorem Mid.removeFile (h : Mid w v tp W u) {p : PathBuf} {t : Nat} (ht : t ∈ W) (hp : onPaper p = tp) : Mid w v tp W (Storage.removeFile (.file p t) u).2 := by
  unfold Storage.removeFile
  have h1 : ∀ s, Mid w v tp W (({ u with sched := s } : World).truncated (u.fd t).ino) := fun s => (h.sched s).trunc ht
  rcases Unpack.emptyFile_cases p t u with ⟨s, -, he⟩ | ⟨e, s, -, -, he | he⟩
  · rw [Prog.bind_ok he]
    change Mid w v tp W (((unlink p).mapErr fun _ => Storage.Error.removeFile) _).2
    rcases Unpack.unlink_any p (({ u with sched := s } : World).truncated (u.fd t).ino) with ⟨q, i, s3, -, hr, hl, he3⟩ | ⟨e3, s3, -, he3⟩
    · rw [Prog.mapErr_ok he3]
      have hq : q = onPaper p := World.walk_lexical hr
      rw [hq, hp]
      exact ((h1 s).sched s3).remove
    · rw [Prog.mapErr_err he3]
      exact (h1 s).sched s3
  · rw [Prog.bind_err he]
    exact h1 s
  · rw [Prog.bind_err he]
    exact h.sched s

/-- A property of worlds that a program keeps. -/
def Keeps {ε α : Type} (I : World → Prop) (x : Prog ε α) : Prop := ∀ w, I w → I (x w).2

theorem Keeps.bind {ε α β : Type} {I : World → Prop} {x : Prog ε α} {f : α → Prog ε β} (hx : Keeps I x) (hf : ∀ a, Keeps I (f a)) : Keeps I (x >>= f) := by
  intro w hw
  have h1 := hx w hw
  rw [Prog.bind_run]
  revert h1
  rcases x w with ⟨r, w1⟩
  intro h1
  cases r with
  | ok a => exact hf a w1 h1
  | err e => exact h1
  | abort a => exact h1

theorem Keeps.within {ε α : Type} {R : List Nat} {x : Prog ε α} (hx : Within R W x) : Keeps (Mid w v tp W) x := fun u hu => hu.touch (hx u)

theorem attempt_snd {ε ε' α : Type} (x : Prog ε α) (w : World) : ((Prog.attempt x : Prog ε' _) w).2 = (x w).2 := by
  unfold Prog.attempt
  rcases x w with ⟨r, w1⟩
  cases r <;> rfl

/-- `Within` for more handles. -/
theorem within_mono {ε α : Type} {R W R' W' : List Nat} {x : Prog ε α} (h : Within R W x) (hR : ∀ h ∈ R, h ∈ R') (hW : ∀ h ∈ W, h ∈ W') : Within R' W' x := fun w =>
  { files := fun i hi => (h w).files i fun x hx => hi x (hW x hx)
    inos := (h w).inos
    fds := fun x h1 h2 => (h w).fds x (fun h => h1 (hR x h)) (fun h => h2 (hW x h))
    dir := (h w).dir
    nextIno := (h w).nextIno
    nextFd := (h w).nextFd
    stdin := (h w).stdin
    tty := (h w).tty
    env := (h w).env
    out := (h w).out }

/-- Packing from where the temporary file is open. -/
def afterTemp (C : Crypto) (z : Zip) (req : Request) (p : PathBuf) (t : Nat) : Prog Error Unit := do
  writeArchive z t req.compressFiles
  let bufCapacity ← (Storage.fileLen (.file p t)).mapErr fun _ => Error.finishArchive
  let encryptRes ← Prog.attempt ((Encrypt.execute C (encryptRequest req t)).mapErr Error.encrypt)
  let _ ← Prog.attempt (Overwrite.execute t bufCapacity 2)
  let _ ← Prog.attempt (Storage.removeFile (.file p t))
  Prog.lift encryptRes

theorem execute_split (C : Crypto) (z : Zip) (tmp : PathBuf) (req : Request) (w : World) :
    (∃ s, s <:+ w.sched ∧ w.resolve (tempPath tmp w) = .ok (onPaper (tempPath tmp w)) ∧ w.look (onPaper (tempPath tmp w)) = none ∧
      execute C z tmp req w = afterTemp C z req (tempPath tmp w) w.nextFd (Unpack.withTemp tmp w s)) ∨
    (∃ s, s <:+ w.sched ∧ execute C z tmp req w = (.err .createArchive, { w.draw 16 with sched := s }) ∧
      (w.sched ≠ [] ∨ ∀ q, w.resolve (tempPath tmp w) = .ok q → w.look q = none → w.look q.dropLast ≠ some .dir)) := by
  unfold execute
  rcases Unpack.createTempFile_cases tmp w with ⟨s, hss, hr, hl, he0⟩ | ⟨s, hss, he0, h⟩
  · refine .inl ⟨s, hss, hr, hl, ?_⟩
    rw [Prog.bind_ok (Prog.mapErr_ok he0)]
    have e1 : ∀ v, (Prog.lift ((Storage.Entry.file (tempPath tmp w) w.nextFd).stream.mapErr fun _ => Error.createArchive) : Prog Error Nat) v = (.ok w.nextFd, v) := fun _ => rfl
    rw [Prog.bind_ok (e1 _)]
    rfl
  · exact .inr ⟨s, hss, Prog.bind_err (Prog.mapErr_err he0), h⟩

theorem fileLen_within (R W : List Nat) (e : Storage.Entry) : Within R W (Storage.fileLen e) := by
  refine .bind (.lift _) fun h => .mapErr _ (.bind (fun v => ?_) fun _ => fun _ => .refl _ _ _)
  rcases sys_cases v with ⟨s, hs, he⟩ | ⟨s, e, hs, hn, he⟩ <;> rw [he] <;>
    exact ⟨fun _ _ => rfl, fun _ => rfl, fun _ _ _ => rfl, rfl, rfl, rfl, rfl, rfl, rfl, rfl⟩

theorem execute_frame (C : Crypto) (z : Zip) (tmp : PathBuf) (req : Request) (w : World) :
    Packs (onPaper (tempPath tmp w)) (packWriters req) w (execute C z tmp req w).2 := by
  rcases execute_split C z tmp req w with ⟨s, hss, hr, hl, he⟩ | ⟨s, hss, he, -⟩
  · rw [he]
    have hne : onPaper (tempPath tmp w) ≠ [] := by intro h; rw [h, World.look_nil] at hl; cases hl
    have hfd : ∀ h, (Unpack.withTemp tmp w s).fd h = if h = w.nextFd then { ino := w.nextIno, pos := 0 } else w.fd h := fun _ => rfl
    have h0 : Mid w (Unpack.withTemp tmp w s) (onPaper (tempPath tmp w)) (w.nextFd :: packWriters req) (Unpack.withTemp tmp w s) := by
      refine ⟨fun _ => rfl, fun _ _ => rfl, .inr ?_, fun _ _ => rfl, rfl, rfl, rfl, rfl, rfl⟩
      show ((({ w.draw 16 with sched := s } : World).created (onPaper (tempPath tmp w))).opened w.nextIno).look _ = _
      rw [World.look_opened, World.look_created, if_neg hne, if_pos rfl]
      rfl
    have hm : Mid w (Unpack.withTemp tmp w s) (onPaper (tempPath tmp w)) (w.nextFd :: packWriters req)
        (afterTemp C z req (tempPath tmp w) w.nextFd (Unpack.withTemp tmp w s)).2 := by
      unfold afterTemp
      refine Keeps.bind (.within (R := handles req.compressFiles) (writeArchive_within z _ (fun _ h => h) List.mem_cons_self)) (fun _ => ?_) _ h0
      refine Keeps.bind (.within (R := []) (.mapErr _ (fileLen_within _ _ _))) fun cap => ?_
      refine Keeps.bind (.within (R := [w.nextFd]) (.attempt (.mapErr _ ?_))) fun er => ?_
      · refine within_mono (encrypt_within C (encryptRequest req w.nextFd)) (fun _ h => h) fun h hh => ?_
        rw [encryptRequest_writers] at hh
        exact List.mem_cons_of_mem _ hh
      refine Keeps.bind (.within (R := []) (.attempt ?_)) fun _ => ?_
      · exact within_mono (Unpack.overwrite_within w.nextFd cap 2) (fun _ h => h) fun h hh => by
          rw [List.mem_singleton.1 hh]; exact List.mem_cons_self
      refine Keeps.bind (fun u hu => ?_) fun _ => fun u hu => hu
      rw [attempt_snd]
      exact hu.removeFile List.mem_cons_self rfl
    revert hm
    generalize (afterTemp C z req (tempPath tmp w) w.nextFd (Unpack.withTemp tmp w s)).2 = w'
    intro hm
    refine ⟨fun q hq => ?_, ?_, fun j hj hW => ?_, hm.stdin, hm.tty, hm.env⟩
    · rw [hm.look q hq]
      show ((({ w.draw 16 with sched := s } : World).created (onPaper (tempPath tmp w))).opened w.nextIno).look _ = _
      rw [World.look_opened, World.look_created]
      split
      · next h => rw [h, World.look_nil]
      · rfl
    · rcases hm.temp with h | h
      · exact .inl (h.trans hl.symm)
      · exact .inr ⟨hl, h⟩
    · rw [hm.files j]
      · show (if j = w.nextIno then [] else w.file j) = _
        rw [if_neg (Nat.ne_of_lt hj)]
      · intro h hh
        rw [hfd]
        split
        · exact fun h => Nat.ne_of_lt hj h.symm
        · next hne =>
          rcases List.mem_cons.1 hh with h1 | h1
          · exact absurd h1 hne
          · exact hW h h1
  · rw [he]
    exact ⟨fun _ _ => rfl, .inl rfl, fun _ _ _ => rfl, rfl, rfl, rfl⟩

/-! ### Without faults -/

theorem readFile_nil (h : Nat) : ∀ fuel got (w : World), w.sched = [] → (w.rest h).length ≤ fuel →
    readFile h fuel got w = (.ok (got ++ w.rest h), w.adv h (w.rest h).length) := by
  intro fuel
  induction fuel with
  | zero =>
    intro got w hs hf
    have hr : w.rest h = [] := List.length_eq_zero_iff.1 (Nat.le_zero.1 hf)
    unfold readFile
    rw [Prog.bind_ok (Prog.mapErr_ok (read_nil hs _ _)), Prog.bind_ok (Prog.mapErr_ok (sysRetry_nil (by exact hs))), if_pos]
    · rw [hr]; rfl
    · rw [hr]; simp [BLOCK_SIZE]
  | succ fuel ih =>
    intro got w hs hf
    unfold readFile
    rw [Prog.bind_ok (Prog.mapErr_ok (read_nil hs _ _)), Prog.bind_ok (Prog.mapErr_ok (sysRetry_nil (by exact hs)))]
    by_cases hb : ((w.rest h).take BLOCK_SIZE).length ≠ BLOCK_SIZE
    · rw [if_pos hb]
      have : (w.rest h).take BLOCK_SIZE = w.rest h := List.take_of_length_le (by
        rw [List.length_take] at hb; omega)
      rw [this]; rfl
    · rw [if_neg hb]
      have hb := Classical.not_not.1 hb
      have hl : BLOCK_SIZE ≤ (w.rest h).length := by rw [List.length_take] at hb; omega
      rw [hb]
      show readFile h fuel _ _ = _
      refine (ih _ (w.adv h BLOCK_SIZE) hs ?_).trans ?_
      · rw [World.rest_adv, List.length_drop]
        have : 0 < BLOCK_SIZE := by simp [BLOCK_SIZE]
        omega
      · rw [World.rest_adv, World.adv_adv, List.append_assoc, List.take_append_drop, List.length_drop, Nat.add_sub_cancel' hl]

theorem readAll_nil {w : World} (hs : w.sched = []) (h : Nat) : readAll h w = (.ok (w.rest h), w.adv h (w.rest h).length) := by
  have := readFile_nil h (w.data h).length [] w hs (by unfold World.rest; rw [List.length_drop]; exact Nat.sub_le _ _)
  rw [List.nil_append] at this
  exact this

/-- What is stored of an entry. -/
def stored (w : World) : Storage.Entry → ZipEntry
  | .dir p => { name := dirName (ZipName.ofPath p), content := [] }
  | .file p h => { name := ZipName.ofPath p, content := w.rest h }

theorem startEntry_nil {w : World} (hs : w.sched = []) (z : Zip) {done : List ZipEntry} {name : List Char} (h1 : name ∉ done.map (·.name)) (h2 : z.storable name) :
    startEntry z done name w = (.ok (), w) := by
  unfold startEntry
  rw [if_neg (by simp [h2]; simpa using h1)]
  exact Prog.mapErr_ok (sysRetry_nil hs)

theorem addEntry_nil {w : World} (hs : w.sched = []) (z : Zip) {done : List ZipEntry} {f : Storage.Entry} (h1 : (stored w f).name ∉ done.map (·.name))
    (h2 : z.storable (stored w f).name) : ∃ w', addEntry z done f w = (.ok (done ++ [stored w f]), w') ∧ w'.sched = [] ∧ ∀ h, h ∉ handles [f] → w'.rest h = w.rest h := by
  cases f with
  | dir p =>
    refine ⟨w, ?_, hs, fun _ _ => rfl⟩
    unfold addEntry
    exact Prog.bind_ok (Prog.mapErr_ok (startEntry_nil hs z h1 h2))
  | file p h =>
    refine ⟨w.adv h (w.rest h).length, ?_, hs, fun x hx => ?_⟩
    · unfold addEntry
      exact (Prog.bind_ok (Prog.mapErr_ok (startEntry_nil hs z h1 h2))).trans (Prog.bind_ok (Prog.mapErr_ok (readAll_nil hs h)))
    · have hne : x ≠ h := by simpa [handles] using hx
      simp [World.rest, World.data, World.adv, World.setPos, hne]

theorem addAll_nil (z : Zip) : ∀ (fs : List Storage.Entry) (done : List ZipEntry) (w : World), w.sched = [] → (handles fs).Nodup →
    ((done ++ fs.map (stored w)).map (·.name)).Nodup → (∀ f ∈ fs, z.storable (stored w f).name) →
    ∃ w', addAll z fs done w = (.ok (done ++ fs.map (stored w)), w') ∧ w'.sched = [] := by
  intro fs
  induction fs with
  | nil => intro done w hs _ _ _; exact ⟨w, by simp [addAll], hs⟩
  | cons f fs ih =>
    intro done w hs hh hn hst
    have hn1 : (stored w f).name ∉ done.map (·.name) := by
      rw [List.map_cons, List.map_append, List.map_cons, List.nodup_append] at hn
      intro hm
      exact hn.2.2 _ hm _ List.mem_cons_self rfl
    obtain ⟨w1, he, hs1, hr⟩ := addEntry_nil hs z hn1 (hst f List.mem_cons_self)
    have hsame : fs.map (stored w1) = fs.map (stored w) := by
      apply List.map_congr_left
      intro g hg
      cases g with
      | dir p => rfl
      | file p h =>
        show ({ name := _, content := w1.rest h } : ZipEntry) = { name := _, content := w.rest h }
        rw [hr h]
        intro hm
        cases f with
        | dir p' => simp [handles] at hm
        | file p' h' =>
          have hm : h = h' := by simpa [handles] using hm
          subst hm
          have : (h :: handles fs).Nodup := hh
          exact (List.nodup_cons.1 this).1 (mem_handles.2 ⟨p, hg⟩)
    obtain ⟨w2, he2, hs2⟩ := ih (done ++ [stored w f]) w1 hs1 (by
        cases f with
        | dir p => exact hh
        | file p h => exact (List.nodup_cons.1 (show (h :: handles fs).Nodup from hh)).2)
      (by rw [hsame]; simpa using hn) (fun g hg => by
        have := hst g (List.mem_cons_of_mem _ hg)
        cases g <;> exact this)
    refine ⟨w2, ?_, hs2⟩
    unfold addAll
    rw [Prog.bind_ok he, he2, hsame]
    simp

theorem attempt_of {ε ε' α : Type} {x : Prog ε α} {w w' : World} {r : Res ε α} (h : x w = (r, w')) (hr : ∀ a, r ≠ .abort a) : (Prog.attempt x : Prog ε' _) w = (.ok r, w') := by
  unfold Prog.attempt
  rw [h]
  cases r with
  | ok a => rfl
  | err e => rfl
  | abort a => exact absurd rfl (hr a)

/-- Writing the archive without faults: it is written, or an entry could not be added and what has been added is written. -/
theorem writeArchive_cases (z : Zip) {t : Nat} {fs : List Storage.Entry} {w : World} (hs : w.sched = []) (ht : t ∉ handles fs) (hp : (w.fd t).pos = 0) (hd : w.data t = []) :
    ∃ l w', w'.sched = [] ∧ w'.data t = z.encode l ∧
      ((writeArchive z t fs w = (.ok (), w') ∧ (addAll z fs [] w).1 = .ok l) ∨ ∃ e, writeArchive z t fs w = (.err e, w') ∧ (addAll z fs [] w).1 = .err (e, l)) := by
  have ha := addAll_within (R := handles fs) (W := []) z fs [] (fun _ h => h) w
  have hsh := addAll_shrinks z fs [] w
  have hret := addAll_returns z fs [] w
  unfold writeArchive
  rcases he : addAll z fs [] w with ⟨r, w1⟩
  rw [he] at ha hsh hret
  have hs1 : w1.sched = [] := List.suffix_nil.1 (hs ▸ hsh)
  have hfd : w1.fd t = w.fd t := ha.fds t ht (by simp)
  have hd1 : w1.file (w.fd t).ino = [] := (ha.files _ (by simp)).trans hd
  have key : ∀ l, ∃ w2, writeAll t (z.encode l) w1 = (.ok (), w2) ∧ w2.sched = [] ∧ w2.data t = z.encode l := by
    intro l
    obtain ⟨w2, h1, h2, h3⟩ := writeAll_nil' hs1 t (z.encode l)
    refine ⟨w2, h1, h3, ?_⟩
    rw [World.data_of_core h2]
    have h4 := World.put_file_same w1 t (z.encode l)
    rw [hfd, hd1, hp, writeAt_zero] at h4
    have h5 : (w1.put t (z.encode l)).data t = (w1.put t (z.encode l)).file (w.fd t).ino := by
      unfold World.data
      rw [show ((w1.put t (z.encode l)).fd t).ino = (w1.fd t).ino from by simp [World.put], hfd]
    rw [h5, h4]
    simp
  rw [Prog.bind_ok (attempt_of he hret)]
  cases r with
  | ok l =>
    obtain ⟨w2, h1, h2, h3⟩ := key l
    exact ⟨l, w2, h2, h3, .inl ⟨Prog.mapErr_ok h1, rfl⟩⟩
  | err x =>
    obtain ⟨e, l⟩ := x
    obtain ⟨w2, h1, h2, h3⟩ := key l
    exact ⟨l, w2, h2, h3, .inr ⟨e, (Prog.bind_ok (attempt_of h1 (by simp))).trans rfl, rfl⟩⟩
  | abort a => exact absurd rfl (hret a)

/-- The errors of a program. -/
def Fails {ε α : Type} (P : ε → Prop) (x : Prog ε α) : Prop := ∀ w e w', x w = (.err e, w') → P e

theorem Fails.bind {ε α β : Type} {P : ε → Prop} {x : Prog ε α} {f : α → Prog ε β} (hx : Fails P x) (hf : ∀ a, Fails P (f a)) : Fails P (x >>= f) := by
  intro w e w' h
  rw [Prog.bind_run] at h
  rcases he : x w with ⟨r, w1⟩
  rw [he] at h
  cases r with
  | ok a => exact hf a w1 e w' h
  | err e1 => cases h; exact hx _ _ _ he
  | abort a => cases h

theorem Fails.mapErr {ε ε' α : Type} {P : ε' → Prop} {x : Prog ε α} {f : ε → ε'} (h : ∀ e, P (f e)) : Fails P (x.mapErr f) := by
  intro w e w' hx
  unfold Prog.mapErr at hx
  rcases he : x w with ⟨r, w1⟩
  rw [he] at hx
  cases r with
  | ok a => cases hx
  | err e1 => cases hx; exact h _
  | abort a => cases hx

theorem Fails.pure {ε α : Type} {P : ε → Prop} (a : α) : Fails P (pure a : Prog ε α) := by
  intro w e w' h; cases h

theorem readFile_fails (h : Nat) (P : Error × Bytes → Prop) (h1 : ∀ g, P (.readData, g)) (h2 : ∀ g, P (.writeData, g)) : ∀ fuel got, Fails P (readFile h fuel got) := by
  intro fuel
  induction fuel with
  | zero =>
    intro got
    unfold readFile
    refine .bind (.mapErr fun _ => h1 _) fun _ => .bind (.mapErr fun _ => h2 _) fun _ => ?_
    split
    · exact .pure _
    · intro w e w' h; cases h
  | succ fuel ih =>
    intro got
    unfold readFile
    refine .bind (.mapErr fun _ => h1 _) fun _ => .bind (.mapErr fun _ => h2 _) fun _ => ?_
    split
    · exact .pure _
    · exact ih _

theorem addAll_fails (z : Zip) : ∀ (fs : List Storage.Entry) (done : List ZipEntry), Fails (fun e => e.1 ≠ .createArchive ∧ ∀ x, e.1 ≠ .encrypt x) (addAll z fs done) := by
  intro fs
  induction fs with
  | nil => intro done; exact .pure _
  | cons f fs ih =>
    intro done
    refine .bind ?_ fun _ => ih _
    cases f with
    | dir p => exact .bind (.mapErr fun _ => by simp) fun _ => .pure _
    | file p h =>
      refine .bind (.mapErr fun _ => by simp) fun _ => .bind (fun w e w' hx => ?_) fun _ => .pure _
      rcases he : readAll h w with ⟨r, w1⟩
      unfold Prog.mapErr at hx
      rw [he] at hx
      cases r with
      | ok a => cases hx
      | abort a => cases hx
      | err e1 =>
        cases hx
        exact readFile_fails h (fun e => e.1 ≠ .createArchive ∧ ∀ x, e.1 ≠ .encrypt x) (fun _ => by simp) (fun _ => by simp) _ _ _ _ _ he

/-- What happens once the temporary file is open, without faults. -/
theorem afterTemp_nil (C : Crypto) (z : Zip) (req : Request) {p : PathBuf} {q : Path} {t i : Nat} {v : World} (hs : v.sched = []) (hr : v.resolve p = .ok q)
    (hl : v.look q = some (.file i)) (hfd : v.fd t = { ino := i, pos := 0 }) (hd : v.file i = []) (ht : t ∉ handles req.compressFiles)
    (hW : ∀ h ∈ packWriters req, (v.fd h).ino ≠ i) {r : Res Error Unit} {w' : World} (he : afterTemp C z req p t v = (r, w')) :
    ∃ l,
      (∃ e, r = .err e ∧ e ≠ .createArchive ∧ (∀ x, e ≠ .encrypt x) ∧ (addAll z req.compressFiles [] v).1 = .err (e, l) ∧ w'.look q = some (.file i) ∧ w'.file i = z.encode l) ∨
      ((addAll z req.compressFiles [] v).1 = .ok l ∧ ∃ v2 er v3, v2.sched = [] ∧ v2.data t = z.encode l ∧ Touches (handles req.compressFiles) [t] v v2 ∧
        Encrypt.execute C (encryptRequest req t) v2 = (er, v3) ∧
        ((∃ a, er = .abort a ∧ r = .abort a ∧ w'.look q = some (.file i) ∧ w'.file i = z.encode l) ∨
         ((∀ a, er ≠ .abort a) ∧ r = er.mapErr .encrypt ∧ w'.look q = none ∧ w'.file i = [] ∧ (∀ x, x ≠ q → w'.look x = v.look x) ∧
          (∀ j, j ≠ i → w'.file j = v3.file j) ∧ (v3.sched = [] → w'.sched = [])))) := by
  have hwt : Touches (handles req.compressFiles) [t] v (writeArchive z t req.compressFiles v).2 := writeArchive_within z _ (fun _ h => h) (by simp) v
  have hino : (v.fd t).ino = i := by rw [hfd]
  obtain ⟨l, v2, hs2, hd2, hw⟩ := writeArchive_cases z (t := t) (fs := req.compressFiles) hs ht (by rw [hfd]) (by unfold World.data; rw [hino]; exact hd)
  refine ⟨l, ?_⟩
  unfold afterTemp at he
  have hfi : ∀ (v' : World), Touches (handles req.compressFiles) [t] v v' → v'.look q = some (.file i) ∧ (v'.fd t).ino = i ∧ v'.data t = v'.file i ∧ v'.resolve p = .ok q := by
    intro v' h
    have h2 : (v'.fd t).ino = i := (h.inos t).trans hino
    exact ⟨by rw [World.look_congr h.dir]; exact hl, h2, by unfold World.data; rw [h2], by rw [World.resolve_congr h.dir]; exact hr⟩
  rcases hw with ⟨hw, ha⟩ | ⟨e, hw, ha⟩
  · rw [hw] at hwt
    rw [Prog.bind_ok hw] at he
    obtain ⟨hl2, hi2, hdf, hr2⟩ := hfi v2 hwt
    have hfl : (Storage.fileLen (.file p t)) v2 = (.ok (v2.data t).length, v2) := by
      have e2 : (Prog.lift (Storage.Entry.file p t).stream : Prog Storage.Error Nat) v2 = (.ok t, v2) := rfl
      unfold Storage.fileLen
      rw [Prog.bind_ok e2]
      refine Prog.mapErr_ok ?_
      unfold Volaris.fileLen
      rw [Prog.bind_ok (sys_nil hs2)]; rfl
    rw [Prog.bind_ok (Prog.mapErr_ok hfl)] at he
    have hen := encrypt_within C (encryptRequest req t) v2
    rw [encryptRequest_writers] at hen
    have hensh := Shrinks.encrypt C (encryptRequest req t) v2
    rcases hee : Encrypt.execute C (encryptRequest req t) v2 with ⟨er, v3⟩
    rw [hee] at hen hensh
    have hi3 : (v3.fd t).ino = i := (hen.inos t).trans hi2
    have hl3 : v3.look q = some (.file i) := by rw [World.look_congr hen.dir]; exact hl2
    have hr3 : v3.resolve p = .ok q := by rw [World.resolve_congr hen.dir]; exact hr2
    have hs3 : v3.sched = [] := List.suffix_nil.1 (hs2 ▸ hensh)
    refine .inr ⟨ha, v2, er, v3, hs2, hd2, hwt, hee, ?_⟩
    have key : ∀ (er' : Res Error Unit), (∀ a, er' ≠ .abort a) → (do
          let _ ← Prog.attempt (Overwrite.execute t (v2.data t).length 2)
          let _ ← Prog.attempt (Storage.removeFile (.file p t))
          Prog.lift er' : Prog Error Unit) v3 = (r, w') → r = er' ∧ w'.look q = none ∧ w'.file i = [] ∧ (∀ x, x ≠ q → w'.look x = v.look x) ∧
          (∀ j, j ≠ i → w'.file j = v3.file j) ∧ (v3.sched = [] → w'.sched = []) := by
      intro er' _ h
      obtain ⟨r4, r5, w4, w5, he4, he5, h5, h6, h7, h8, h9, -⟩ := cleanup_nil (ε := Error) (p := p) (v2.data t).length 2 hs3 hr3 hl3 hi3
      rw [Prog.bind_ok he4, Prog.bind_ok he5] at h
      obtain ⟨rfl, rfl⟩ := Prod.mk.inj h
      refine ⟨rfl, h5, h7, fun x hx => ?_, h8, fun _ => h9⟩
      rw [h6 x hx, World.look_congr hen.dir, World.look_congr hwt.dir]
    cases er with
    | abort a =>
      have : (Prog.attempt ((Encrypt.execute C (encryptRequest req t)).mapErr Error.encrypt) : Prog Error _) v2 = (.abort a, v3) := by
        unfold Prog.attempt
        rw [Prog.mapErr_abort hee]
      rw [Prog.bind_abort this] at he
      obtain ⟨rfl, rfl⟩ := Prod.mk.inj he
      refine .inl ⟨a, rfl, rfl, hl3, ?_⟩
      rw [hen.files i, ← hdf, hd2]
      intro h hh
      rw [hwt.inos]
      exact hW h hh
    | ok u =>
      rw [Prog.bind_ok (attempt_of (Prog.mapErr_ok hee) (by simp))] at he
      exact .inr ⟨by simp, key _ (by simp) he⟩
    | err e =>
      rw [Prog.bind_ok (attempt_of (Prog.mapErr_err hee) (by simp))] at he
      exact .inr ⟨by simp, key _ (by simp) he⟩
  · rw [hw] at hwt
    rw [Prog.bind_err hw] at he
    obtain ⟨rfl, rfl⟩ := Prod.mk.inj he
    obtain ⟨hl2, hi2, hdf, -⟩ := hfi v2 hwt
    rcases hax : addAll z req.compressFiles [] v with ⟨ra, va⟩
    rw [hax] at ha
    change ra = _ at ha
    subst ha
    have := addAll_fails z req.compressFiles [] _ _ _ hax
    exact .inl ⟨e, rfl, this.1, this.2, by rfl, hl2, by rw [← hdf]; exact hd2⟩

end Volaris.Pack
