import Verif.Proofs.DisturbedUnpack
import Verif.Props.Concurrent
import Verif.Props.UnpackCmd
/-!
# C101: a command while other programs change the disk
-/
namespace Volaris.Props
open Volaris.Spec Volaris.Cli Volaris.Example
variable {σ : Type}

/-- **C101, one command.** A command runs, and before each of its steps other programs have changed the disk in any way they like.  In no step does it add, remove or replace a name, except at a place that, as the disk is then, its command line
names as one to be written or erased (or in a directory to be erased or to be unpacked into, or at the place of its temporary file; a directory that is missing on the way to the one to be unpacked into is made); and in no step does it change the content of a file, except of one that was at such a place in this step or an earlier one. -/
theorem C101_confined (c : Started σ) (ds : List Disk) (hds : ∀ d ∈ ds, GoodDisk d) (pre : List (Disk × Disk)) (d d' : Disk) (post : List (Disk × Disk)) (h : Proc.among ds ⟨c.self, c.cmd.steps c.s⟩ = pre ++ (d, d') :: post) :
    (∀ q, lookDisk d' q ≠ lookDisk d q → c.Given d q) ∧
    (∀ q i, lookDisk d q = some (.file i) → d'.file i ≠ d.file i → ∃ step ∈ pre ++ [(d, d')], c.Met step i) := by
  have hd : GoodDisk d := by
    refine hds d ?_
    have : ∀ (ds : List Disk) (p : Proc), ∀ st ∈ Proc.among ds p, st.1 ∈ ds := by
      intro ds
      induction ds with
      | nil => intro p st hst; simp [Proc.among] at hst
      | cons d ds ih =>
        intro p st hst
        rcases p with ⟨self, rest⟩
        cases rest with
        | done r => simp [Proc.among] at hst
        | step eff k =>
          unfold Proc.among at hst
          rcases List.mem_cons.1 hst with rfl | hst
          · exact List.mem_cons_self ..
          · exact List.mem_cons_of_mem _ (ih _ st hst)
    exact this ds _ (d, d') (by rw [h]; simp)
  have hm := Dist.among_moves (Dist.fr_job c) ds hds pre d d' post h
  refine ⟨hm.look, fun q i hl hi => ?_⟩
  rcases hm.file i (hd.allocated q i hl) hi with (h | ⟨st, hs, h⟩) | h
  · exact h.elim
  · exact ⟨st, List.mem_append_left _ hs, h⟩
  · exact ⟨_, List.mem_append_right _ (List.mem_singleton.2 rfl), h⟩

/-- **C101, commands that only read.** Digests, key verification and the display of a header change no name and no file, whatever the other programs do. -/
theorem C101_readers (c : Started σ) (hc : (∃ files, c.cmd = .hash files) ∨ (∃ input key, c.cmd = .keyVerify input key) ∨ ∃ input, c.cmd = .headerDetails input) (ds : List Disk) (hds : ∀ d ∈ ds, GoodDisk d) (d d' : Disk)
    (h : (d, d') ∈ Proc.among ds ⟨c.self, c.cmd.steps c.s⟩) : (∀ q, lookDisk d' q = lookDisk d q) ∧ ∀ q i, lookDisk d q = some (.file i) → d'.file i = d.file i := by
  have hg : ∀ d q, ¬ c.Given d q := by
    rintro d q ((⟨n, hn, -⟩ | ⟨p, hp, -⟩) | ⟨n, top, hn, -⟩ | ⟨n, hn, -⟩)
    · rcases hc with ⟨_, e⟩ | ⟨_, _, e⟩ | ⟨_, e⟩ <;> rw [e] at hn <;> simp [Job.writes] at hn
    · unfold Started.temporary at hp
      rcases hc with ⟨_, e⟩ | ⟨_, _, e⟩ | ⟨_, e⟩ <;> rw [e] at hp <;> simp at hp
    · rcases hc with ⟨_, e⟩ | ⟨_, _, e⟩ | ⟨_, e⟩ <;> rw [e] at hn <;> simp [Job.erases] at hn
    · rcases hc with ⟨_, e⟩ | ⟨_, _, e⟩ | ⟨_, e⟩ <;> rw [e] at hn <;> simp [Job.fills] at hn
  obtain ⟨pre, post, h⟩ := List.append_of_mem h
  obtain ⟨h1, h2⟩ := C101_confined c ds hds pre d d' post h
  refine ⟨fun q => Classical.byContradiction fun hn => hg _ _ (h1 q hn), fun q i hl => Classical.byContradiction fun hn => ?_⟩
  obtain ⟨st, -, q', hq, -⟩ := h2 q i hl hn
  exact hg _ _ hq

/-- **C101, unpacking.** An archive is unpacked, and before each step other programs have changed the disk in any way: the input, the temporary copy of the archive, the output directory.  Whatever names the archive has then, a step adds,
removes or replaces names only in the output directory and at the place of the temporary file, except that it makes a directory where one is missing on the way to the output directory. -/
theorem C101_unpack (c : Started σ) {input output : List Char} {verbose : Bool} {params : CryptoParams} (hc : c.cmd = .unpack input output verbose params) (ds : List Disk) (hds : ∀ d ∈ ds, GoodDisk d) (d d' : Disk)
    (h : (d, d') ∈ Proc.among ds ⟨c.self, c.cmd.steps c.s⟩) (q : Path) (hq : lookDisk d' q ≠ lookDisk d q) :
    onPaper (toPath c.s.cwd output) <+: q ∨ (OnTheWay (toPath c.s.cwd output) q ∧ lookDisk d q = none) ∨
      (c.self.on d).resolve (c.s.tmp.push [.name ((List.range 16).map fun i => Storage.alphanumeric (c.self.rng (keyDraws params.key + i)))]) = .ok q := by
  obtain ⟨pre, post, h⟩ := List.append_of_mem h
  rcases (C101_confined c ds hds pre d d' post h).1 q hq with (⟨n, hn, -⟩ | ⟨p, hp, hr⟩) | ⟨n, top, hn, -⟩ | ⟨n, hn, h⟩
  · rw [hc] at hn; simp [Job.writes] at hn
  · unfold Started.temporary at hp
    rw [hc] at hp
    rw [List.mem_singleton.1 hp] at hr
    exact .inr (.inr hr)
  · rw [hc] at hn; simp [Job.erases] at hn
  · rw [hc] at hn
    rw [List.mem_singleton.1 hn] at h
    exact h.imp id .inl

/-- **C101, several commands.** Any commands at all run at the same time on one disk, interleaved in any order: they may use the same files.  What is at a place that none of them is given, at any moment, stays; and so does the content of a
file that was at no moment at such a place. -/
theorem C101_machine (cs : List (Started σ)) (d : Disk) (hd : GoodDisk d) (order : List Nat) :
    (∀ q, (∀ c ∈ cs, ∀ step ∈ (startAll cs d).moves order, ¬ c.Given step.1 q) → lookDisk ((startAll cs d).run order).disk q = lookDisk d q) ∧
    (∀ q i, lookDisk d q = some (.file i) → (∀ c ∈ cs, ∀ step ∈ (startAll cs d).moves order, ¬ c.Met step i) → ((startAll cs d).run order).disk.file i = d.file i) :=
  ⟨fun _ hq => Dist.going_look order (Dist.going_start (fun _ => trivial) hd) hq, fun q i hl hi => Dist.going_file order (Dist.going_start (fun _ h => h) hd) (hd.allocated q i hl) hi⟩

/-! ### The hypotheses are met -/

def exGood (d : Disk) : Bool :=
  decide (d.dir.map (·.1)).Nodup && d.dir.all fun e => decide (e.1 ≠ []) && decide (lookDisk d e.1.dropLast = some .dir) && match e.2 with | .file i => decide (i < d.nextIno) | .dir => true

theorem exGood_of {d : Disk} (h : exGood d = true) : GoodDisk d := by
  unfold exGood at h
  simp only [Bool.and_eq_true, decide_eq_true_eq, List.all_eq_true] at h
  refine ⟨h.1, fun k n hk => (h.2 _ hk).1, fun q i hl => ?_⟩
  unfold lookDisk at hl
  split at hl
  · cases hl
  · cases he : d.dir.find? (·.1 = q) with
    | none => rw [he] at hl; cases hl
    | some e =>
      rw [he] at hl
      have := (h.2 e (List.mem_of_find?_eq_some he)).2
      rcases e with ⟨e1, e2⟩
      cases hl
      simpa using this

/-- `x` is encrypted to `o` and erased. -/
def exLone : Started Bytes := ⟨exSys, .encrypt ['x'] ['o'] exErasing .aes256Gcm, exSelf [1, 2, 3] []⟩

/-- Another program renames `x` to `w` and `y` to `x`. -/
def exRename (d : Disk) : Disk := { d with dir := d.dir.map fun e => if e.1 = [['x']] then ([['w']], e.2) else if e.1 = [['y']] then ([['x']], e.2) else e }

/-- Where the command is after twelve steps. -/
def exHalf : Machine := (startAll [exLone] (exShared [1, 2, 3])).run (List.replicate 12 0)

/-- The disks that the command finds, if `x` and `y` are renamed then. -/
def exFound : List Disk :=
  (List.range 12).map (fun n => ((startAll [exLone] (exShared [1, 2, 3])).run (List.replicate n 0)).disk) ++
    (List.range 13).map fun n => ((⟨exRename exHalf.disk, exHalf.procs⟩ : Machine).run (List.replicate n 0)).disk

/-- The command makes 25 steps; in the sixteenth the content of the file that was `y` goes, and it is at the place that the command was given. -/
example : (∀ d ∈ exFound, GoodDisk d) ∧ (Proc.among exFound ⟨exLone.self, exLone.cmd.steps exLone.s⟩).length = 25 ∧
    (((Proc.among exFound ⟨exLone.self, exLone.cmd.steps exLone.s⟩)[15]?.map fun st => (lookDisk st.1 [['x']], st.1.file 1, st.2.file 1)) = some (some (.file 1), [4, 5, 6], [])) ∧
    exLone.Given (exRename exHalf.disk) [['x']] :=
  ⟨fun d hd => exGood_of (List.all_eq_true.1 (show exFound.all exGood = true by decide +kernel) d hd), by decide +kernel, by decide +kernel, .inl (.inl ⟨['x'], by decide, rfl⟩)⟩

/-- **C101 does not say that what is erased is what was read.** `x` is encrypted to `o` and erased.  While this goes on, another program renames `x` to `w` and `y` to `x`.  The command reports success; it has read the old `x`, which is still
there as `w`; and it has erased what was `y`, whose content is on the disk no more. -/
theorem C101_renamed :
    contentAt exHalf.disk [['x']] = some (some [1, 2, 3]) ∧ contentAt exHalf.disk [['y']] = some (some [4, 5, 6]) ∧
    contentAt (exRename exHalf.disk) [['w']] = some (some [1, 2, 3]) ∧ contentAt (exRename exHalf.disk) [['x']] = some (some [4, 5, 6]) ∧
    Ended ((⟨exRename exHalf.disk, exHalf.procs⟩ : Machine).run (List.replicate 100 0)) 0 (.ok ()) [] ∧
    ((⟨exRename exHalf.disk, exHalf.procs⟩ : Machine).run (List.replicate 100 0)).disk.dir = [([['o']], .file 3), ([['w']], .file 0), ([['k']], .file 2)] ∧
    contentAt ((⟨exRename exHalf.disk, exHalf.procs⟩ : Machine).run (List.replicate 100 0)).disk [['w']] = some (some [1, 2, 3]) ∧
    ((⟨exRename exHalf.disk, exHalf.procs⟩ : Machine).run (List.replicate 100 0)).disk.file 1 = [] ∧
    contentAt ((⟨exRename exHalf.disk, exHalf.procs⟩ : Machine).run (List.replicate 100 0)).disk [['o']] = contentAt ((startAll [exLone] (exShared [1, 2, 3])).run (List.replicate 100 0)).disk [['o']] :=
  ⟨by decide +kernel, by decide +kernel, by decide +kernel, by decide +kernel, exEnd_ok (by decide +kernel), by decide +kernel, by decide +kernel, by decide +kernel, by decide +kernel⟩

/-- What can be computed of `Started.Given` and `Started.Met`. -/
def exClear (c : Started Bytes) (d : Disk) (q : Path) : Bool :=
  (exPlaces c d (exWritten c)).all (fun o => decide (o ≠ some q)) && ((exPlaces c d (c.cmd.erases.map (toPath c.s.cwd))).all fun o => match o with | some top => !top.isPrefixOf q | none => true) &&
    (c.cmd.fills.map (toPath c.s.cwd)).all fun p => !(onPaper p).isPrefixOf q && ((lookDisk d q).isSome || (List.range (p.comps.length + 1)).all fun k => decide (q ≠ lexical p.start (p.comps.take k)))

theorem exClear_of {c : Started Bytes} {d : Disk} {q : Path} (h : exClear c d q = true) : ¬ c.Given d q := by
  unfold exClear at h
  simp only [Bool.and_eq_true, List.all_eq_true, decide_eq_true_eq] at h
  rintro ((⟨n, hn, hq⟩ | ⟨p, hp, hq⟩) | ⟨n, top, hn, hq, hp⟩ | ⟨n, hn, hq⟩)
  · exact h.1.1 _ (exPlaces_mem (List.mem_append_left _ (List.mem_map.2 ⟨n, hn, rfl⟩)) hq) rfl
  · exact h.1.1 _ (exPlaces_mem (List.mem_append_right _ hp) hq) rfl
  · have := h.1.2 _ (exPlaces_mem (List.mem_map.2 ⟨n, hn, rfl⟩) hq)
    simp only [Bool.not_eq_eq_eq_not, Bool.not_true] at this
    rw [List.isPrefixOf_iff_prefix.2 hp] at this
    cases this
  · obtain ⟨h1, h2⟩ := h.2 _ (List.mem_map.2 ⟨n, hn, rfl⟩)
    rcases hq with hq | ⟨⟨pre, hp, e⟩, hl⟩
    · rw [List.isPrefixOf_iff_prefix.2 hq] at h1
      cases h1
    · rw [hl] at h2
      simp only [Option.isSome_none, Bool.false_or, List.all_eq_true, decide_eq_true_eq] at h2
      refine h2 pre.length (List.mem_range.2 (Nat.lt_succ_of_le hp.length_le)) (e.trans ?_)
      rw [← List.prefix_iff_eq_take.1 hp]

def exUnmet (c : Started Bytes) (st : Disk × Disk) (i : Nat) : Bool :=
  (st.1.dir ++ st.2.dir).all fun e => match e.2 with | .file j => decide (j ≠ i) || exClear c st.1 e.1 | .dir => true

theorem exUnmet_of {c : Started Bytes} {st : Disk × Disk} {i : Nat} (h : exUnmet c st i = true) : ¬ c.Met st i := by
  unfold exUnmet at h
  rw [List.all_eq_true] at h
  have mem : ∀ {d : Disk} {q : Path}, lookDisk d q = some (.file i) → (q, Node.file i) ∈ d.dir := by
    intro d q hl
    unfold lookDisk at hl
    split at hl
    · cases hl
    · cases he : d.dir.find? (·.1 = q) with
      | none => rw [he] at hl; cases hl
      | some e =>
        rw [he] at hl
        have hm := List.mem_of_find?_eq_some he
        have hq := List.find?_some he
        rcases e with ⟨e1, e2⟩
        cases hl
        simp only [decide_eq_true_eq] at hq
        subst hq
        exact hm
  rintro ⟨q, hg, hl⟩
  have hm : (q, Node.file i) ∈ st.1.dir ++ st.2.dir := hl.elim (fun h => List.mem_append_left _ (mem h)) fun h => List.mem_append_right _ (mem h)
  have := h _ hm
  simp at this
  exact exClear_of this hg

/-- Two commands with the same output (as in C97): the key file `k` is at no place that either is given. -/
example : GoodDisk (exShared [1, 2, 3]) ∧ ((startAll (exRace [1, 2, 3]) (exShared [1, 2, 3])).moves exOrder).length = 202 ∧ lookDisk (exShared [1, 2, 3]) [['k']] = some (.file 2) ∧
    (∀ c ∈ exRace [1, 2, 3], ∀ step ∈ (startAll (exRace [1, 2, 3]) (exShared [1, 2, 3])).moves exOrder, ¬ c.Given step.1 [['k']] ∧ ¬ c.Met step 2) := by
  refine ⟨exGood_of (by decide +kernel), by decide +kernel, by decide +kernel, ?_⟩
  have h : (exRace [1, 2, 3]).all (fun c => ((startAll (exRace [1, 2, 3]) (exShared [1, 2, 3])).moves exOrder).all fun st => exClear c st.1 [['k']] && exUnmet c st 2) = true := by decide +kernel
  intro c hc st hst
  have := List.all_eq_true.1 (List.all_eq_true.1 h c hc) st hst
  rw [Bool.and_eq_true] at this
  exact ⟨exClear_of this.1, exUnmet_of this.2⟩

/-- `z`, an archive of one file, is unpacked to `a/n`, which is not there. -/
def exInto : Started Bytes := ⟨exSys, .unpack ['z'] ['a', '/', 'n'] false exParams, exArchiveWorld [] [⟨['f'], [8]⟩]⟩

/-- The archive that another program puts in the place of the decrypted one. -/
def exExchanged : Bytes := toyZip.encode [⟨['.', '.', '/', 'e'], [7]⟩, ⟨['d', '/'], []⟩, ⟨['d', '/', 'g'], [6]⟩]

/-- Where the command is after `n` steps, when the other program has done so after eleven. -/
def exAmid (n : Nat) : Machine :=
  let m := (startAll [exInto] exInto.self.disk).run (List.replicate 11 0)
  if n < 11 then (startAll [exInto] exInto.self.disk).run (List.replicate n 0)
  else (⟨{ m.disk with file := fun i => if i = 1000 then exExchanged else m.disk.file i }, m.procs⟩ : Machine).run (List.replicate (n - 11) 0)

/-- The disks that the command finds. -/
def exMidst : List Disk := (List.range 40).map fun n => (exAmid n).disk

/-- The command makes 38 steps; in the twenty-first it makes the directory `a/n`, which is on the way to `a/n/d`. -/
example : exInto.cmd = .unpack ['z'] ['a', '/', 'n'] false exParams ∧ (∀ d ∈ exMidst, GoodDisk d) ∧ (Proc.among exMidst ⟨exInto.self, exInto.cmd.steps exInto.s⟩).length = 38 ∧
    ((Proc.among exMidst ⟨exInto.self, exInto.cmd.steps exInto.s⟩)[20]?.map fun st => (lookDisk st.1 [['a'], ['n']], lookDisk st.2 [['a'], ['n']])) = some (none, some .dir) :=
  ⟨rfl, fun d hd => exGood_of (List.all_eq_true.1 (show exMidst.all exGood = true by decide +kernel) d hd), by decide +kernel, by decide +kernel⟩

/-- **C101 does not say that what is unpacked is what was sealed.** `z` is an archive of the file `f` alone.  It is unpacked to `a/n`, and when the temporary copy has been written, another program writes another archive there.  The command
reports success; `f` was not extracted, but what the other archive has is, except for the member that would be outside `a/n`. -/
theorem C101_swapped :
    (exAmid 10).disk.file 1000 = toyZip.encode [⟨['f'], [8]⟩] ∧ Ended (exAmid 100) 0 (.ok ()) [] ∧
    (exAmid 100).disk.dir.map (·.1) = [[['a'], ['n'], ['d'], ['g']], [['a'], ['n'], ['d']], [['a'], ['n']], [['a'], ['b'], ['y']], [['a'], ['b']], [['a'], ['x']], [['a']], [['z']]] ∧
    contentAt (exAmid 100).disk [['a'], ['n'], ['d'], ['g']] = some (some [6]) :=
  ⟨by decide +kernel, exEnd_ok (by decide +kernel), by decide +kernel, by decide +kernel⟩

end Volaris.Props
