import Verif.Proofs.Pack
import Verif.Props.Unpack
/-!
# Properties of packing, and of the temporary archive of pack and unpack
-/
namespace Volaris.Props
open Spec Example

/-! ### Concrete runs -/

/-- Pack the file `a/x` (handle 0) and the directory `a/b` into the file `z` (handle 2). -/
def exPack : Pack.Request :=
  { writer := 2, compressFiles := [.dir ⟨false, [], [.name ['b']]⟩, .file ⟨false, [], [.name ['b'], .name ['f']]⟩ 0], headerWriter := none, rawKey := [112, 119],
    headerType := exV5, hashingAlgorithm := .argon2id 3 }

/-- The same file twice. -/
def exPackTwice : Pack.Request := { exPack with compressFiles := [.file ⟨false, [], [.name ['f']]⟩ 0, .file ⟨false, [], [.name ['f']]⟩ 1] }

/-- A header version that cannot be written any more. -/
def exPackV3 : Pack.Request := { exPack with headerType := { exV5 with version := .v3 } }

def exTmp : PathBuf := ⟨true, [], [.name ['a']]⟩

def exPackWorld (sched : List Io) : World := { disk sched with file := fun i => if i = 0 then [1, 2, 3] else [] }

def exPackRun (req : Pack.Request) (sched : List Io) : Res Pack.Error Unit × World := Pack.execute Example.toy toyZip exTmp req (exPackWorld sched)

/-! ### C58 -/

/-- **C58.** Under every schedule of faults, and whether the call succeeds, fails or panics: packing changes the contents of no file but those behind the output handle and the handle
for the detached header, and no directory entry but that of the temporary file, where there was nothing before.  In particular the packed files stay as they were. -/
theorem C58_pack_frame (C : Crypto) (z : Zip) (tmp : PathBuf) (req : Pack.Request) (w w' : World) (r : Res Pack.Error Unit)
    (he : Pack.execute C z tmp req w = (r, w')) :
    (∀ q, q ≠ onPaper (tempPath tmp w) → w'.look q = w.look q) ∧
    (w'.look (onPaper (tempPath tmp w)) = w.look (onPaper (tempPath tmp w)) ∨ w.look (onPaper (tempPath tmp w)) = none) ∧
    (∀ j, j < w.nextIno → j ≠ (w.fd req.writer).ino → (∀ hw, req.headerWriter = some hw → j ≠ (w.fd hw).ino) → w'.file j = w.file j) := by
  have h := Pack.execute_frame C z tmp req w
  rw [he] at h
  refine ⟨h.look, h.temp.imp id fun h => h.1, fun j hj h1 h2 => h.files j hj fun x hx => ?_⟩
  unfold packWriters at hx
  split at hx
  · rw [List.mem_singleton.1 hx]; exact Ne.symm h1
  · next hw hhw =>
    simp only [List.mem_cons, List.not_mem_nil, or_false] at hx
    rcases hx with rfl | rfl
    · exact Ne.symm (h2 _ hhw)
    · exact Ne.symm h1

/-- The call reaches the end, and the packed file is one of those about which the theorem speaks. -/
example : exPackRun exPack [] = (.ok (), (exPackRun exPack []).2) ∧ 0 < (exPackWorld []).nextIno ∧ 0 ≠ ((exPackWorld []).fd exPack.writer).ino ∧
    (exPackRun exPack []).2.file 2 ≠ [] ∧ (exPackRun exPack []).2.file 0 = [1, 2, 3] :=
  ⟨run_of_fst (by decide +kernel), by decide +kernel, by decide +kernel, by decide +kernel, by decide +kernel⟩

/-! ### C43 -/

/-- The handles given to pack are open. -/
def PackHandles (w : World) (req : Pack.Request) : Prop :=
  (∀ p h, Storage.Entry.file p h ∈ req.compressFiles → OpenHandle w h) ∧ OpenHandle w req.writer ∧ ∀ hw, req.headerWriter = some hw → OpenHandle w hw

theorem pack_cases (C : Crypto) (z : Zip) (tmp : PathBuf) (req : Pack.Request) (w w' : World) (r : Res Pack.Error Unit) (ho : PackHandles w req)
    (hs : w.sched = []) (he : Pack.execute C z tmp req w = (r, w')) :
    (r = .err .createArchive ∧ w'.dir = w.dir ∧ w'.file = w.file) ∨
    (w.look (onPaper (tempPath tmp w)) = none ∧
      (((r = .ok () ∨ ∃ e, r = .err (.encrypt e)) ∧ w'.look (onPaper (tempPath tmp w)) = none ∧ w'.file w.nextIno = []) ∨
       (r ≠ .ok () ∧ r ≠ .err .createArchive ∧ (∀ e, r ≠ .err (.encrypt e)) ∧ w'.look (onPaper (tempPath tmp w)) = some (.file w.nextIno) ∧
        ∃ l, w'.file w.nextIno = z.encode l))) := by
  rcases Pack.execute_split C z tmp req w with ⟨s, hss, hr, hl, he1⟩ | ⟨s, hss, he1, -⟩
  · rw [he1] at he
    have hss := List.suffix_nil.1 (hs ▸ hss)
    subst hss
    refine .inr ⟨hl, ?_⟩
    have hne : onPaper (tempPath tmp w) ≠ [] := by intro h; rw [h, World.look_nil] at hl; cases hl
    have hl0 : (Unpack.withTemp tmp w []).look (onPaper (tempPath tmp w)) = some (.file w.nextIno) := by
      show ((({ w.draw 16 with sched := [] } : World).created (onPaper (tempPath tmp w))).opened w.nextIno).look _ = _
      rw [World.look_opened, World.look_created, if_neg hne, if_pos rfl]
      rfl
    have hr0 : (Unpack.withTemp tmp w []).resolve (tempPath tmp w) = .ok (onPaper (tempPath tmp w)) := by
      refine World.resolve_mono (w := w) (fun d hd => ?_) hr
      show ((({ w.draw 16 with sched := [] } : World).created (onPaper (tempPath tmp w))).opened w.nextIno).look _ = _
      rw [World.look_opened, World.look_created]
      split
      · rfl
      · split
        · next h => subst h; rw [hl] at hd; cases hd
        · exact hd
    have hfd : ∀ h, OpenHandle w h → (Unpack.withTemp tmp w []).fd h = w.fd h := fun h hh => if_neg (Nat.ne_of_lt hh.1)
    obtain ⟨l, h⟩ := Pack.afterTemp_nil C z req (v := Unpack.withTemp tmp w []) rfl hr0 hl0 (if_pos rfl) (if_pos rfl) (by
        intro hm
        obtain ⟨p, hp⟩ := Pack.mem_handles.1 hm
        exact Nat.lt_irrefl _ (ho.1 p _ hp).1) (by
        intro h hh
        have hopen : OpenHandle w h := by
          unfold packWriters at hh
          split at hh
          · rw [List.mem_singleton.1 hh]; exact ho.2.1
          · next hw hhw =>
            simp only [List.mem_cons, List.not_mem_nil, or_false] at hh
            rcases hh with rfl | rfl
            · exact ho.2.2 _ hhw
            · exact ho.2.1
        rw [hfd h hopen]
        exact Nat.ne_of_lt hopen.2) he
    rcases h with ⟨e, rfl, h1, h2, -, h4, h5⟩ | ⟨-, v2, er, v3, -, -, -, -, ⟨a, rfl, rfl, h4, h5⟩ | ⟨ha, rfl, h4, h5, -⟩⟩
    · exact .inr ⟨by simp, by simpa using h1, by simpa using h2, h4, l, h5⟩
    · exact .inr ⟨by simp, by simp, by simp, h4, l, h5⟩
    · refine .inl ⟨?_, h4, h5⟩
      cases er with
      | ok u => exact .inl rfl
      | err e => exact .inr ⟨e, rfl⟩
      | abort a => exact absurd rfl (ha a)
  · rw [he1] at he
    obtain ⟨rfl, rfl⟩ := Prod.mk.inj he
    exact .inl ⟨rfl, rfl, rfl⟩

/-- **C43, pack.**  Without I/O faults: if packing succeeds or its encryption reports an error, then the temporary archive (the file with the number `w.nextIno`, which did not exist
before) has no name any more and is empty.

Missing for the full property: the other ways in which the call can end (`C43_pack_left`), and faults (`C43_pack_fault`). -/
theorem C43_pack_partial (C : Crypto) (z : Zip) (tmp : PathBuf) (req : Pack.Request) (w w' : World) (r : Res Pack.Error Unit) (ho : PackHandles w req)
    (hs : w.sched = []) (he : Pack.execute C z tmp req w = (r, w')) (hr : r = .ok () ∨ ∃ e, r = .err (.encrypt e)) :
    w.look (onPaper (tempPath tmp w)) = none ∧ w'.look (onPaper (tempPath tmp w)) = none ∧ (∀ q, w'.look q = w.look q) ∧ w'.file w.nextIno = [] := by
  rcases pack_cases C z tmp req w w' r ho hs he with ⟨rfl, -, -⟩ | ⟨hl, ⟨-, h1, h2⟩ | ⟨h1, -, h2, -⟩⟩
  · rcases hr with hr | ⟨e, hr⟩ <;> cases hr
  · refine ⟨hl, h1, fun q => ?_, h2⟩
    by_cases hq : q = onPaper (tempPath tmp w)
    · rw [hq, h1, hl]
    · exact (C58_pack_frame C z tmp req w w' r he).1 q hq
  · rcases hr with hr | ⟨e, hr⟩
    · exact absurd hr h1
    · exact absurd hr (h2 e)

theorem exPack_handles (s : List Io) : PackHandles (exPackWorld s) exPack := by
  have ho : ∀ h, h < 1000 → OpenHandle (exPackWorld s) h := fun h hh => ⟨hh, hh⟩
  refine ⟨?_, ho _ (by decide), by intro _ h; cases h⟩
  intro p h hm
  simp only [exPack, List.mem_cons, List.not_mem_nil, or_false, reduceCtorEq, Storage.Entry.file.injEq, false_or] at hm
  obtain ⟨-, rfl⟩ := hm
  exact ho _ (by decide)

/-- The hypotheses are met by a successful run … -/
example : PackHandles (exPackWorld []) exPack ∧ exPackRun exPack [] = (.ok (), (exPackRun exPack []).2) :=
  ⟨exPack_handles [], run_of_fst (by decide +kernel)⟩

/-- **C43 fails for pack.**  Without I/O faults, whenever packing ends in any other way (an entry could not be added, a panic in the encryption), the temporary
archive is left behind, with what has been put into it. -/
theorem C43_pack_left (C : Crypto) (z : Zip) (tmp : PathBuf) (req : Pack.Request) (w w' : World) (r : Res Pack.Error Unit) (ho : PackHandles w req)
    (hs : w.sched = []) (he : Pack.execute C z tmp req w = (r, w')) (hr : r ≠ .ok () ∧ r ≠ .err .createArchive ∧ ∀ e, r ≠ .err (.encrypt e)) :
    w.look (onPaper (tempPath tmp w)) = none ∧ w'.look (onPaper (tempPath tmp w)) = some (.file w.nextIno) ∧ ∃ l, w'.file w.nextIno = z.encode l := by
  rcases pack_cases C z tmp req w w' r ho hs he with ⟨rfl, -, -⟩ | ⟨hl, ⟨h, -, -⟩ | ⟨-, -, -, h1, h2⟩⟩
  · exact absurd rfl hr.2.1
  · rcases h with h | ⟨e, h⟩
    · exact absurd h hr.1
    · exact absurd h (hr.2.2 e)
  · exact ⟨hl, h1, h2⟩

/-- Two entries with the same name: packing fails and the first file is in the clear in the temporary file. -/
example : exPackRun exPackTwice [] = (.err .addFileToArchive, (exPackRun exPackTwice []).2) ∧
    (exPackRun exPackTwice []).2.look (onPaper (tempPath exTmp (exPackWorld []))) = some (.file (exPackWorld []).nextIno) ∧
    (exPackRun exPackTwice []).2.file (exPackWorld []).nextIno = toyZip.encode [⟨['f'], [1, 2, 3]⟩] :=
  ⟨run_of_fst (by decide +kernel), by decide +kernel, by decide +kernel⟩

/-- A header version that is not supported for writing: the encryption panics and the whole archive is in the clear in the temporary file. -/
example : exPackRun exPackV3 [] = (.abort .panic, (exPackRun exPackV3 []).2) ∧
    (exPackRun exPackV3 []).2.look (onPaper (tempPath exTmp (exPackWorld []))) = some (.file (exPackWorld []).nextIno) ∧
    (exPackRun exPackV3 []).2.file (exPackWorld []).nextIno = toyZip.encode [⟨['b', '/'], []⟩, ⟨['b', '/', 'f'], [1, 2, 3]⟩] :=
  ⟨run_of_fst (by decide +kernel), by decide +kernel, by decide +kernel⟩

/-- Clearing up fails. -/
def exPackFaults : List Io := List.replicate 13 .full ++ [.fail, .fail]

/-- **C43 fails for pack.**  With faults packing can report success although the temporary archive is still there with the whole plaintext: the results of clearing up are thrown away. -/
theorem C43_pack_fault : ¬ ∀ (C : Crypto) (z : Zip) (tmp : PathBuf) (req : Pack.Request) (w w' : World), C.Lawful → z.Lawful → PackHandles w req →
    Pack.execute C z tmp req w = (.ok (), w') → w'.look (onPaper (tempPath tmp w)) = none ∨ w'.file w.nextIno = [] := by
  intro h
  have h1 : (exPackRun exPack exPackFaults).1 = .ok () := by decide +kernel
  have h2 : ¬ ((exPackRun exPack exPackFaults).2.look (onPaper (tempPath exTmp (exPackWorld exPackFaults))) = none ∨ (exPackRun exPack exPackFaults).2.file (exPackWorld exPackFaults).nextIno = []) := by
    decide +kernel
  exact h2 (h _ _ _ _ _ _ (Example.toy_lawful _ (by decide)) toyZip_lawful (exPack_handles exPackFaults) (run_of_fst h1))

/-- What is left in that run: the archive with the file that was packed. -/
example : (exPackRun exPack exPackFaults).2.file 1000 = toyZip.encode [⟨['b', '/'], []⟩, ⟨['b', '/', 'f'], [1, 2, 3]⟩] := by decide +kernel

/-- **C43, unpack.**  Without I/O faults: if unpacking succeeds, then the temporary archive has no name any more and is empty.

Missing for the full property: all other ways in which the call can end (`C43_unpack_left`), and faults (`C43_unpack_fault`). -/
theorem C43_unpack_partial (C : Crypto) (z : Zip) (tmp : PathBuf) (order : List Nat) (req : Unpack.Request) (w w' : World) (hcb : OnlyTalks (Unpack.ask req.onZipFile))
    (hst : w.look req.outputDir.start = some .dir) (hs : w.sched = []) (he : Unpack.execute C z tmp order req w = (.ok (), w')) :
    w.look (onPaper (tempPath tmp w)) = none ∧ w'.look (onPaper (tempPath tmp w)) = none ∧ w'.file w.nextIno = [] := by
  rcases Unpack.execute_temp C z tmp order req hcb w hst hs he with ⟨h, -⟩ | ⟨h, ⟨-, h1, h2⟩ | ⟨h1, -⟩⟩
  · cases h
  · exact ⟨h, h1, h2⟩
  · exact absurd rfl h1

example : OnlyTalks (Unpack.ask exUnpack.onZipFile) ∧ exUnpackWorld.look exUnpack.outputDir.start = some .dir ∧ exUnpackWorld.sched = [] ∧ exUnpackRun = (.ok (), exUnpackRun.2) :=
  ⟨exCallback_talks, rfl, rfl, run_of_fst (by decide +kernel)⟩

/-- **C43 fails for unpack.**  Without I/O faults, whenever unpacking fails after the temporary file could be made (wrong password, damaged data, a member that cannot be extracted, a
panic in the callback) the temporary file is left behind; and if the archive `P` had been decrypted completely (and no member goes by the path of the temporary file) it is left behind
with all of `P`. -/
theorem C43_unpack_left (C : Crypto) (z : Zip) (tmp : PathBuf) (order : List Nat) (req : Unpack.Request) (w w' : World) (r : Res Unpack.Error Unit)
    (hcb : OnlyTalks (Unpack.ask req.onZipFile)) (hst : w.look req.outputDir.start = some .dir) (hs : w.sched = [])
    (he : Unpack.execute C z tmp order req w = (r, w')) (hr : r ≠ .ok () ∧ r ≠ .err (.storage .createFile)) :
    w.look (onPaper (tempPath tmp w)) = none ∧ w'.look (onPaper (tempPath tmp w)) = some (.file w.nextIno) ∧
    ∀ P, req.headerReader = none → OpenHandle w req.reader → (∀ q j, w.look q = some (.file j) → j < w.nextIno) → DecryptsTo C req.rawKey (w.rest req.reader) P →
      (∀ ms, z.decode P = some ms → ∀ p ∈ memberPaths req.outputDir ms, onPaper p ≠ onPaper (tempPath tmp w)) → w'.file w.nextIno = P := by
  rcases Unpack.execute_temp C z tmp order req hcb w hst hs he with ⟨h, -⟩ | ⟨h, ⟨h0, -⟩ | ⟨-, h1, h2⟩⟩
  · exact absurd h hr.2
  · exact absurd h0 hr.1
  · refine ⟨h, h1, fun P hh ho hlk hP hms => ?_⟩
    have hfdr : (Unpack.withTemp tmp w []).fd req.reader = w.fd req.reader := if_neg (Nat.ne_of_lt ho.1)
    have hfdt : (Unpack.withTemp tmp w []).fd w.nextFd = { ino := w.nextIno, pos := 0 } := if_pos rfl
    have hfi : (Unpack.withTemp tmp w []).file (w.fd req.reader).ino = w.file (w.fd req.reader).ino := if_neg (Nat.ne_of_lt ho.2)
    have hask : Asks (Unpack.decryptRequest req w.nextFd) (Unpack.withTemp tmp w []) req.rawKey (w.rest req.reader) := by
      refine ⟨hh, rfl, Nat.ne_of_lt ho.1, ?_, ?_⟩
      · show ((Unpack.withTemp tmp w []).fd req.reader).ino ≠ ((Unpack.withTemp tmp w []).fd w.nextFd).ino
        rw [hfdr, hfdt]
        exact Nat.ne_of_lt ho.2
      · show (Unpack.withTemp tmp w []).rest req.reader = _
        unfold World.rest World.data
        rw [hfdr, hfi]
    obtain ⟨v', hd, hw, ht⟩ := hP _ _ hask rfl
    have hdat : v'.data w.nextFd = P := by
      have := hw.content
      change v'.file ((Unpack.withTemp tmp w []).fd w.nextFd).ino = writeAt ((Unpack.withTemp tmp w []).file ((Unpack.withTemp tmp w []).fd w.nextFd).ino) ((Unpack.withTemp tmp w []).fd w.nextFd).pos P at this
      rw [hfdt] at this
      have hf0 : (Unpack.withTemp tmp w []).file w.nextIno = [] := if_pos rfl
      simp only [hf0, writeAt_zero] at this
      unfold World.data
      rw [ht.inos, hfdt, this]
      simp
    rw [h2 v' hd hlk (by rw [hdat]; exact hms), hdat]

/-- Unpacking over an existing file that is in the way of a directory: it fails, and the temporary file has the archive in the clear. -/
example :
    let req := { exUnpack with outputDir := ⟨false, [], [.name ['a'], .name ['x'], .name ['o']]⟩ }
    let run := Unpack.execute Example.toy toyZip ⟨true, [], [.name ['a']]⟩ [1, 0, 1] req exUnpackWorld
    run = (.err (.storage .createDir), run.2) ∧ run.2.look (onPaper (tempPath exTmp exUnpackWorld)) = some (.file 1000) ∧ run.2.file 1000 = toyZip.encode exHostile :=
  ⟨run_of_fst (by decide +kernel), by decide +kernel, by decide +kernel⟩

/-- **C43 fails for unpack.**  With faults unpacking can report success although the temporary archive is still there with the whole plaintext. -/
theorem C43_unpack_fault : ¬ ∀ (C : Crypto) (z : Zip) (tmp : PathBuf) (order : List Nat) (req : Unpack.Request) (w w' : World), C.Lawful → z.Lawful →
    OnlyTalks (Unpack.ask req.onZipFile) → w.look req.outputDir.start = some .dir →
    Unpack.execute C z tmp order req w = (.ok (), w') → w'.look (onPaper (tempPath tmp w)) = none ∨ w'.file w.nextIno = [] := by
  intro h
  have := h Example.toy toyZip exTmp [1, 0, 1] exUnpack { exUnpackWorld with sched := List.replicate 27 .full ++ [.fail, .fail] }
    (Unpack.execute Example.toy toyZip exTmp [1, 0, 1] exUnpack { exUnpackWorld with sched := List.replicate 27 .full ++ [.fail, .fail] }).2
    (Example.toy_lawful _ (by decide)) toyZip_lawful exCallback_talks rfl (run_of_fst (by decide +kernel))
  revert this
  show ¬ _
  decide +kernel

end Volaris.Props
