import Verif.Proofs.Unpack
import Verif.Proofs.EndToEnd
import Verif.Props.EndToEnd
import Verif.Spec.ZipToy
import Verif.Spec.Disk
/-!
# Properties of unpacking
-/
namespace Volaris.Props
open Spec Example

/-! ### A concrete run -/

/-- A file with the given content, encrypted with the password `pw`. -/
def exSealed (p : Bytes) : Bytes :=
  (Encrypt.execute Example.toy (exRequest exV5 (.argon2id 3)) (Example.world fun i => if i = 0 then p else [])).2.file 1

/-- An archive with hostile members. -/
def exHostile : List ZipEntry :=
  [⟨['d', '/'], []⟩, ⟨['d', '/', 'f'], [1, 2]⟩, ⟨['.', '.', '/', 'z'], [9]⟩, ⟨['/', 'z'], [9]⟩, ⟨['d', '/', '.', '.', '/', '.', '.', '/', 'z'], [9]⟩,
   ⟨['d', '/', '.', '.', '/', 'g'], [3]⟩, ⟨['h'], [4]⟩]

/-- The user at the terminal is asked about each member. -/
def exCallback : PathBuf → Prog Unpack.Error Bool := fun _ w =>
  match w.stdin with
  | [] => (.ok false, w)
  | l :: ls => (.ok (l = "y"), { w with stdin := ls })

theorem exCallback_talks : OnlyTalks (Unpack.ask (some exCallback)) := by
  constructor <;> intro p w <;> simp only [Unpack.ask, exCallback] <;> split <;> first | rfl | exact List.suffix_refl _

def exUnpack : Unpack.Request :=
  { reader := 2, headerReader := none, rawKey := [112, 119], outputDir := ⟨false, [], [.name ['a'], .name ['o']]⟩, onZipFile := some exCallback }

def exUnpackWorld : World := { disk [] with file := fun i => if i = 2 then exSealed (toyZip.encode exHostile) else [5], stdin := ["y", "y", "y", "n"] }

/-- The run. -/
def exUnpackRun : Res Unpack.Error Unit × World := Unpack.execute Example.toy toyZip ⟨true, [], [.name ['a']]⟩ [1, 0, 1] exUnpack exUnpackWorld

/-- The file decrypts to the hostile archive. -/
theorem exSealed_decrypts (p : Bytes) (hp : p.length < 2 ^ 20) : DecryptsTo Example.toy [112, 119] (exSealed p) p ∧ OnlyDecryptsTo Example.toy [112, 119] (exSealed p) p := by
  obtain ⟨w', h, -, -⟩ := C14_encrypt_decrypt Example.toy (Example.toy_lawful _ (by decide)) (exRequest exV5 (.argon2id 3))
    (Example.world fun i => if i = 0 then p else []) rfl rfl rfl (by decide) (by show (0 : Nat) ≠ 1; decide) rfl
    (toy_works _ _ _ (by decide)) (by show p.length / 2 ^ 20 ≤ _; rw [Nat.div_eq_of_lt hp]; exact Nat.zero_le _) (by show 0 ≤ _; exact Nat.zero_le _)
  have := C14_success_means_decryptable Example.toy (Example.toy_lawful _ (by decide)) (exRequest exV5 (.argon2id 3))
    (Example.world fun i => if i = 0 then p else []) w' (.inl rfl) rfl (by decide) (by show (0 : Nat) ≠ 1; decide) (by intro k hk; cases hk) rfl h
  have hf : exSealed p = w'.file 1 := by unfold exSealed; rw [h]
  rw [hf]
  exact this

/-! ### C41 -/

/-- **C41.** Whatever the archive contains (nothing is assumed about its member names, nor that it was made by this tool), whatever the callback answers, under every schedule of
faults and every interleaving of the threads, and whether the call succeeds or not: a path at which something has changed is the temporary file, or lies in the output
directory, or is a directory leading to the output directory that was missing before; a file that has other content than before was in the output directory; and everything that
was there still is. -/
theorem C41_inside (C : Crypto) (z : Zip) (tmp : PathBuf) (order : List Nat) (req : Unpack.Request) (w w' : World) (r : Res Unpack.Error Unit)
    (hcb : OnlyTalks (Unpack.ask req.onZipFile)) (hst : w.look req.outputDir.start = some .dir) (he : Unpack.execute C z tmp order req w = (r, w')) :
    (∀ q, w'.look q ≠ w.look q → q = onPaper (tempPath tmp w) ∨ onPaper req.outputDir <+: q ∨
      (OnTheWay req.outputDir q ∧ w.look q = none ∧ w'.look q = some .dir)) ∧
    (∀ j, j < w.nextIno → w'.file j ≠ w.file j → ∃ q, onPaper req.outputDir <+: q ∧ w.look q = some (.file j)) ∧
    (∀ q n, w.look q = some n → w'.look q = some n) := by
  obtain ⟨r2, w2, he2, h⟩ := Unpack.execute_frame C z tmp order req hcb w hst
  rw [he] at he2
  obtain ⟨rfl, rfl⟩ := Prod.mk.inj he2
  have keep : ∀ {D F}, Extracts D F w w' → ∀ q n, w.look q = some n → w'.look q = some n := by
    intro D F hx q n hq
    rcases hx.look q with h | ⟨h, -⟩ | ⟨h, -⟩
    · rw [h, hq]
    · rw [h] at hq; cases hq
    · rw [h] at hq; cases hq
  rcases h with ⟨-, h1, h2⟩ | ⟨s, v', ms, conv, -, -, -, -, hsub, -, hl, hx⟩
  · refine ⟨fun q hq => ?_, fun j hj hne => ?_, keep h2⟩
    · rcases h2.look q with h | ⟨-, -, h⟩ | ⟨-, h, -⟩
      · exact absurd h hq
      · exact h.elim
      · exact .inl h
    · rcases h1 with h1 | h1
      · exact absurd (h2.files j hj fun q hq => by rw [hq, h1]; simp) hne
      · exact absurd (h1.files j hj fun q hq => hq.elim) hne
  · have hin : ∀ p b, (p, b) ∈ conv → ∃ cs, ZipName.depthOk 0 cs = true ∧ p = req.outputDir.push cs := by
      intro p b hp
      have := hsub.subset (List.mem_map.2 ⟨_, hp, rfl⟩)
      obtain ⟨m, -, hm⟩ := List.mem_filterMap.1 this
      split at hm
      · obtain ⟨cs, hcs, rfl⟩ := Option.map_eq_some_iff.1 hm
        exact ⟨cs, Unpack.enclosed_depth hcs, rfl⟩
      · cases hm
    have hfile : ∀ q, FilesOf conv q → onPaper req.outputDir <+: q := by
      rintro q ⟨p, hp, rfl⟩
      obtain ⟨cs, hcs, rfl⟩ := hin p true hp
      obtain ⟨ys, hy⟩ := Unpack.depthOk_under (onPaper req.outputDir) cs [] hcs
      refine ⟨ys, ?_⟩
      rw [← hy, List.append_nil]
      show lexical (lexical req.outputDir.start req.outputDir.comps) cs = lexical req.outputDir.start (req.outputDir.comps ++ cs)
      rw [lexical_append]
    refine ⟨fun q hq => ?_, fun j hj hne => ?_, keep hx⟩
    · rcases hx.look q with h | ⟨h1, h2, h | ⟨p, hp, h⟩, -⟩ | ⟨-, ⟨h, -⟩ | h, -⟩
      · exact absurd h hq
      · exact .inr (.inr ⟨h, h1, h2⟩)
      · obtain ⟨cs, hcs, rfl⟩ := hin p true hp
        rcases Unpack.onTheWay_push hcs h with h | h
        · exact .inr (.inr ⟨h, h1, h2⟩)
        · exact .inr (.inl h)
      · exact .inr (.inl (hfile q h))
      · exact .inl h
    · refine Classical.byContradiction fun hn => hne (hx.files j hj ?_)
      rintro q (⟨h, -⟩ | rfl) hl2
      · exact hn ⟨q, hfile q h, hl2⟩
      · rw [hl] at hl2; cases hl2

/-- The hypotheses are met, with an archive whose members try to climb out: `d/f` and `d/../g` are extracted below the output directory, `h` is declined, the other members end up
nowhere. -/
example : OnlyTalks (Unpack.ask exUnpack.onZipFile) ∧ exUnpackWorld.look exUnpack.outputDir.start = some .dir ∧ exUnpackRun = (.ok (), exUnpackRun.2) ∧
    exUnpackRun.2.look [['a'], ['o'], ['d'], ['f']] = some (.file 1001) ∧ exUnpackRun.2.file 1001 = [1, 2] ∧
    exUnpackRun.2.look [['a'], ['o'], ['g']] = some (.file 1002) ∧ exUnpackRun.2.file 1002 = [3] ∧
    exUnpackRun.2.look [['a'], ['o'], ['h']] = none ∧ exUnpackRun.2.look [['a'], ['z']] = none ∧ exUnpackRun.2.file 2 = exUnpackWorld.file 2 :=
  ⟨exCallback_talks, rfl, run_of_fst (by decide +kernel), by decide +kernel, by decide +kernel, by decide +kernel, by decide +kernel, by decide +kernel, by decide +kernel,
    by decide +kernel⟩

/-! ### C45 -/

/-- **C45.** For a file that can only be decrypted to the archive `P`, without short transfers (calls may fail), every interleaving, every callback and every archive: either the
call fails and nothing but the temporary file has changed; or the callback was asked about members of the archive, each at most once and in their order
(about all of them if there are no faults), and directories have appeared only on the way to the output directory and to paths the callback accepted, and files have appeared or
changed only at accepted paths (and at the temporary path, where there was nothing); the directories are called for by members that are directories, the files are members that are no directories. -/
theorem C45_declined (C : Crypto) (z : Zip) (tmp : PathBuf) (order : List Nat) (req : Unpack.Request) (w w' : World) (r : Res Unpack.Error Unit) (P : Bytes)
    (hcb : OnlyTalks (Unpack.ask req.onZipFile)) (hst : w.look req.outputDir.start = some .dir) (hh : req.headerReader = none) (ho : OpenHandle w req.reader)
    (hs : ∀ k, Io.short k ∉ w.sched) (hP : OnlyDecryptsTo C req.rawKey (w.rest req.reader) P) (he : Unpack.execute C z tmp order req w = (r, w')) :
    (r ≠ .ok () ∧ Extracts (fun _ => False) (· = onPaper (tempPath tmp w)) w w') ∨
    (∃ ms conv, z.decode P = some ms ∧ Asked (Unpack.ask req.onZipFile) w conv w' ∧
      (conv.map (·.1)).Sublist (memberPaths req.outputDir ms) ∧ (w.sched = [] → conv.map (·.1) = memberPaths req.outputDir ms) ∧
      w.look (onPaper (tempPath tmp w)) = none ∧
      Extracts (fun q => DirsOf req.outputDir conv q ∧ DirMember req.outputDir ms q) (fun q => (FilesOf conv q ∧ FileMember req.outputDir ms q) ∨ q = onPaper (tempPath tmp w)) w w') := by
  obtain ⟨r2, w2, he2, h⟩ := Unpack.execute_frame C z tmp order req hcb w hst
  rw [he] at he2
  obtain ⟨rfl, rfl⟩ := Prod.mk.inj he2
  rcases h with ⟨h0, -, h2⟩ | ⟨s, v', ms, conv, hsuf, hd, hms, hask, hsub, heq, hl, hx⟩
  · exact .inl ⟨h0, h2⟩
  · refine .inr ⟨ms, conv, ?_, hask, hsub, heq, hl, hx⟩
    have hne : req.reader ≠ w.nextFd := Nat.ne_of_lt ho.1
    have hfd : (Unpack.withTemp tmp w s).fd req.reader = w.fd req.reader := if_neg hne
    have hfd2 : (Unpack.withTemp tmp w s).fd w.nextFd = { ino := w.nextIno, pos := 0 } := if_pos rfl
    have hfile : (Unpack.withTemp tmp w s).file (w.fd req.reader).ino = w.file (w.fd req.reader).ino := if_neg (Nat.ne_of_lt ho.2)
    have hw := hP (Unpack.decryptRequest req w.nextFd) (Unpack.withTemp tmp w s) v' ⟨hh, rfl, hne, by
        show ((Unpack.withTemp tmp w s).fd req.reader).ino ≠ ((Unpack.withTemp tmp w s).fd w.nextFd).ino
        rw [hfd, hfd2]; exact Nat.ne_of_lt ho.2, by
        show ((Unpack.withTemp tmp w s).file ((Unpack.withTemp tmp w s).fd req.reader).ino).drop ((Unpack.withTemp tmp w s).fd req.reader).pos = _
        rw [hfd, hfile]; rfl⟩
      (fun k hk => hs k (hsuf.subset hk)) hd
    have hino : (v'.fd w.nextFd).ino = w.nextIno := by
      have := (decrypt_within C (Unpack.decryptRequest req w.nextFd) (Unpack.withTemp tmp w s)).inos w.nextFd
      rw [hd, hfd2] at this
      exact this
    have hc : v'.file ((Unpack.withTemp tmp w s).fd w.nextFd).ino =
      writeAt ((Unpack.withTemp tmp w s).file ((Unpack.withTemp tmp w s).fd w.nextFd).ino) ((Unpack.withTemp tmp w s).fd w.nextFd).pos P := hw.content
    rw [hfd2, show (Unpack.withTemp tmp w s).file w.nextIno = [] from if_pos rfl] at hc
    have hc : v'.file w.nextIno = P := by rw [hc, writeAt_zero, List.drop_nil, List.append_nil]
    rw [show v'.data w.nextFd = P from by show v'.file (v'.fd w.nextFd).ino = P; rw [hino, hc]] at hms
    exact hms

theorem exUnpack_rest : exUnpackWorld.rest exUnpack.reader = exSealed (toyZip.encode exHostile) := by
  simp only [World.rest, World.data, exUnpackWorld, disk, Example.world1, Example.world, exUnpack, if_true, List.drop_zero]

/-- The hypotheses are met by the same run; the archive has four members with an enclosed name. -/
example : exUnpack.headerReader = none ∧ OpenHandle exUnpackWorld exUnpack.reader ∧ (∀ k, Io.short k ∉ exUnpackWorld.sched) ∧
    OnlyDecryptsTo Example.toy exUnpack.rawKey (exUnpackWorld.rest exUnpack.reader) (toyZip.encode exHostile) ∧
    (toyZip.decode (toyZip.encode exHostile)).map (fun ms => (memberPaths exUnpack.outputDir ms).length) = some 4 :=
  ⟨rfl, ⟨by decide, by decide⟩, fun k hk => (List.not_mem_nil hk).elim, exUnpack_rest ▸ (exSealed_decrypts _ (by decide +kernel)).2, by decide +kernel⟩

/-! ### C44 -/

/-- The directories that unpack makes before it writes files: the output directory and the directory entries of the archive. -/
def dirsToMake (out : PathBuf) (es : List Unpack.Entity) (p : PathBuf) : Prop := p = out ∨ ∃ i, (p, i, true) ∈ es

theorem mem_dirThreads {out : PathBuf} {es : List Unpack.Entity} {p : PathBuf} : p ∈ (es.filter (·.2.2)).map (·.1) ++ [out] ↔ dirsToMake out es p := by
  unfold dirsToMake
  rw [List.mem_append, List.mem_singleton, List.mem_map]
  constructor
  · rintro (⟨⟨p', i, b⟩, h, rfl⟩ | h)
    · obtain ⟨h1, h2⟩ := List.mem_filter.1 h
      have h2 : b = true := h2
      subst h2
      exact .inr ⟨i, h1⟩
    · exact .inl h
  · rintro (h | ⟨i, h⟩)
    · exact .inr h
    · exact .inl ⟨_, List.mem_filter.2 ⟨h, rfl⟩, rfl⟩

/-- **C44.** Without I/O faults, if no file stands where a directory is wanted: for every interleaving of the threads no thread fails, afterwards there is a directory at every
place on the way to the wanted directories, nothing else has changed in the tree (so the result is the same for every interleaving), and no file's content has changed. -/
theorem C44_threads (order : List Nat) (out : PathBuf) (es : List Unpack.Entity) (w : World) (ht : TreeOk w) (hs : w.sched = [])
    (hst : ∀ p, dirsToMake out es p → w.look p.start = some .dir)
    (hf : ∀ p q i, dirsToMake out es p → OnTheWay p q → w.look q ≠ some (.file i)) :
    ∃ w', spawnJoin order (Unpack.dirThreads out es) w = (.ok (), w') ∧
      (∀ q, (∃ p, dirsToMake out es p ∧ OnTheWay p q) → w'.look q = some .dir) ∧
      (∀ q, (¬ ∃ p, dirsToMake out es p ∧ OnTheWay p q) → w'.look q = w.look q) ∧
      w'.file = w.file ∧ w'.fd = w.fd ∧ w'.nextIno = w.nextIno := by
  obtain ⟨r, w', he, hg, hr⟩ := Storage.mkdirThreads_cases (S := fun q => ∃ p, dirsToMake out es p ∧ OnTheWay p q) order ((es.filter (·.2.2)).map (·.1) ++ [out])
    Unpack.Error.storage (fun p hp q hq => ⟨p, mem_dirThreads.1 hp, hq⟩) w (fun p hp => hst p (mem_dirThreads.1 hp))
  rcases hr with ⟨rfl, hm⟩ | ⟨-, hc⟩
  · refine ⟨w', he, ?_, fun q hq => ?_, hg.files, hg.fd, hg.nextIno⟩
    · rintro q ⟨p, hp, hq⟩
      exact (hm p (mem_dirThreads.2 hp)).onTheWay hq
    · rcases hg.look q with h | ⟨-, -, h⟩
      · exact h
      · exact absurd h hq
  · exact absurd ⟨hs, ht.parentsOk, fun q i ⟨p, hp, hq⟩ => hf p q i hp hq⟩ hc

/-- **C44.** Under every schedule of faults, whatever is in the way and for every interleaving: the threads are joined without a panic, everything that was there still is, only
directories on the way to the wanted ones have been added, and no file's content has changed. -/
theorem C44_faults (order : List Nat) (out : PathBuf) (es : List Unpack.Entity) (w : World) (hst : ∀ p, dirsToMake out es p → w.look p.start = some .dir) :
    ∃ r w', spawnJoin order (Unpack.dirThreads out es) w = (r, w') ∧ (∀ a, r ≠ .abort a) ∧
      (∀ q, w'.look q = w.look q ∨ (w.look q = none ∧ w'.look q = some .dir ∧ ∃ p, dirsToMake out es p ∧ OnTheWay p q)) ∧
      (r = .ok () → ∀ q, (∃ p, dirsToMake out es p ∧ OnTheWay p q) → w'.look q = some .dir) ∧
      w'.file = w.file ∧ w'.fd = w.fd ∧ w'.nextIno = w.nextIno := by
  obtain ⟨r, w', he, hg, hr⟩ := Storage.mkdirThreads_cases (S := fun q => ∃ p, dirsToMake out es p ∧ OnTheWay p q) order ((es.filter (·.2.2)).map (·.1) ++ [out])
    Unpack.Error.storage (fun p hp q hq => ⟨p, mem_dirThreads.1 hp, hq⟩) w (fun p hp => hst p (mem_dirThreads.1 hp))
  refine ⟨r, w', he, ?_, hg.look, ?_, hg.files, hg.fd, hg.nextIno⟩
  · rintro a rfl
    rcases hr with ⟨h, -⟩ | ⟨⟨e, h⟩, -⟩ <;> cases h
  · rintro rfl q ⟨p, hp, hq⟩
    rcases hr with ⟨-, hm⟩ | ⟨⟨e, h⟩, -⟩
    · exact (hm p (mem_dirThreads.2 hp)).onTheWay hq
    · cases h

/-- `a/o`, `a/o/d`, `a/b/../o/e` on the small disk: three threads, no file in the way. -/
example : ∀ p q i, dirsToMake ⟨false, [], [.name ['a'], .name ['o']]⟩
      [(⟨false, [], [.name ['a'], .name ['o'], .name ['d']]⟩, 0, true), (⟨false, [], [.name ['a'], .name ['b'], .up, .name ['o'], .name ['e']]⟩, 1, true),
       (⟨false, [], [.name ['a'], .name ['x']]⟩, 2, false)] p → OnTheWay p q → (disk []).look q ≠ some (.file i) := by
  rintro p q i hp ⟨pre, hpre, rfl⟩
  have h : p = ⟨false, [], [.name ['a'], .name ['o']]⟩ ∨ p = ⟨false, [], [.name ['a'], .name ['o'], .name ['d']]⟩ ∨
      p = ⟨false, [], [.name ['a'], .name ['b'], .up, .name ['o'], .name ['e']]⟩ := by
    rcases hp with h | ⟨j, h⟩
    · exact .inl h
    · simp only [List.mem_cons, Prod.mk.injEq, List.not_mem_nil, or_false, Bool.true_eq_false, and_false, and_true] at h
      rcases h with ⟨h, -⟩ | ⟨h, -⟩
      · exact .inr (.inl h)
      · exact .inr (.inr h)
  have fin : ∀ n : Option Node, (match n with | some (.file _) => false | _ => true) = true → n ≠ some (.file i) := by rintro _ hn rfl; cases hn
  apply fin
  have hlen : pre.length < 6 := Nat.lt_of_le_of_lt hpre.length_le (by rcases h with rfl | rfl | rfl <;> decide)
  rw [List.prefix_iff_eq_take.1 hpre]
  generalize pre.length = n at hlen
  revert n
  rcases h with rfl | rfl | rfl <;> decide +kernel

end Volaris.Props
