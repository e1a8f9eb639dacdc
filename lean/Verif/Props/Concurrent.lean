import Verif.Proofs.ConcMachine
import Verif.Props.CommandLine
import Verif.Props.Cli
import Verif.Props.PackCmd
/-!
# C96 and C97: several commands at the same time
-/
namespace Volaris.Props
open Volaris.Spec Volaris.Cli Volaris.Cli.Argv Volaris.Example
variable {σ : Type}

/-- **C96, at any moment.** Any number of commands run at the same time on one disk, under any schedules of faults and interleaved in any order.  If none writes or erases what another one uses, then each, after the steps it has made, is where it
would be after as many steps alone: it will go on in the same way, the same is on its screen, and the same is at all the places that it uses. -/
theorem C96_together (cs : List (Started σ)) (d : Disk) (hd : Disk.Allocated d) (hf : ∀ c ∈ cs, c.Fits d) (hs : Independent d cs) (order : List Nat) (i : Nat) (c : Started σ) (hc : cs[i]? = some c) :
    ∃ p p', ((startAll cs d).run order).procs[i]? = some p ∧ ((startAll [c] d).run (List.replicate (order.count i) 0)).procs[0]? = some p' ∧
      p.rest = p'.rest ∧ SameSelf p.self p'.self ∧
      ∀ q, c.Uses d q → contentAt ((startAll cs d).run order).disk q = contentAt ((startAll [c] d).run (List.replicate (order.count i) 0)).disk q := by
  have hinv := Conc.inv_run hs order (Conc.inv_start hd hf hs)
  have hi : i < ((startAll cs d).run order).procs.length := by rw [hinv.length]; exact (List.getElem?_eq_some_iff.1 hc).1
  obtain ⟨a, R, ⟨h1, w, h2, h3⟩, h4, _⟩ := hinv.each i c _ hc (List.getElem?_eq_getElem hi)
  simp only [Nat.zero_add] at h1 h2
  refine ⟨_, ⟨w, _⟩, List.getElem?_eq_getElem hi, by rw [show (startAll [c] d).run (List.replicate (order.count i) 0) = Conc.solo c d (order.count i) from rfl, h2]; rfl, rfl, ?_, fun q hq => ?_⟩
  · have := h4.priv
    rw [← h3] at this
    exact ⟨this.stdin.symm, this.tty.symm, this.env.symm, this.rng.symm, this.sched.symm, this.out.symm⟩
  · have := h4.same_content hq
    rw [← h1] at this
    exact this

/-- **C96, at the end.** If such a command has come to its end, then its outcome, what is on its screen and what is at the places that it uses are as after the command run alone, without interruption. -/
theorem C96_finished (cs : List (Started σ)) (d : Disk) (hd : Disk.Allocated d) (hf : ∀ c ∈ cs, c.Fits d) (hs : Independent d cs) (order : List Nat) (i : Nat) (c : Started σ) (hc : cs[i]? = some c) :
    ∃ p, ((startAll cs d).run order).procs[i]? = some p ∧
      ∀ r, p.rest = .done r → ∃ w', c.cmd.prog c.s (c.self.on d) = (r, w') ∧ SameSelf p.self w' ∧ ∀ q, c.Uses d q → contentAt ((startAll cs d).run order).disk q = contentAt w'.disk q := by
  have hinv := Conc.inv_run hs order (Conc.inv_start hd hf hs)
  have hi : i < ((startAll cs d).run order).procs.length := by rw [hinv.length]; exact (List.getElem?_eq_some_iff.1 hc).1
  obtain ⟨a, R, h1, h4, _⟩ := hinv.each i c _ hc (List.getElem?_eq_getElem hi)
  refine ⟨_, List.getElem?_eq_getElem hi, fun r hr => ⟨a, ?_, ?_, fun q hq => h4.same_content hq⟩⟩
  · have := Conc.solo_result c d _ _ _ h1
    rw [hr, Conc.command_run] at this
    exact this.symm
  · have := h4.priv
    exact ⟨this.stdin.symm, this.tty.symm, this.env.symm, this.rng.symm, this.sched.symm, this.out.symm⟩

/-- **C96, every command ends.** For each command there is a number of steps after which it has come to its end, whatever the others do. -/
theorem C96_ends (c : Started σ) (d : Disk) : ∃ N, ∀ (cs : List (Started σ)), Disk.Allocated d → (∀ c ∈ cs, c.Fits d) → Independent d cs → ∀ (order : List Nat) (i : Nat), cs[i]? = some c → N ≤ order.count i →
    ∃ p r, ((startAll cs d).run order).procs[i]? = some p ∧ p.rest = .done r := by
  obtain ⟨N, hN⟩ := Conc.solo_ends c d (c.cmd.steps c.s) (c.self.on d) 0 ⟨rfl, c.self, rfl, rfl⟩
  refine ⟨N, fun cs hd hf hs order i hc hn => ?_⟩
  obtain ⟨p, p', h1, h2, h3, _⟩ := C96_together cs d hd hf hs order i c hc
  obtain ⟨_, w, h4, _⟩ := hN _ hn
  refine ⟨p, ((c.cmd.steps c.s).run (c.self.on d)).1, h1, ?_⟩
  rw [h3]
  have h2 : (Conc.solo c d (order.count i)).procs[0]? = some p' := h2
  rw [h4] at h2
  cases h2
  rfl

/-- **C96, the rest of the disk.** What no command is to write or erase, under this name or another, is as it was, at every moment. -/
theorem C96_untouched (cs : List (Started σ)) (d : Disk) (hd : Disk.Allocated d) (hf : ∀ c ∈ cs, c.Fits d) (hs : Independent d cs) (order : List Nat) (q : Path)
    (hq : ∀ c ∈ cs, ∀ q', c.Writes d q' → q' ≠ q ∧ ∀ i, lookDisk d q' = some (.file i) → lookDisk d q ≠ some (.file i)) :
    contentAt ((startAll cs d).run order).disk q = contentAt d q := by
  have ho := (Conc.inv_run hs order (Conc.inv_start hd hf hs)).others
  unfold contentAt
  rw [ho.look q fun ⟨c, hc, hw⟩ => (hq c hc q hw).1 rfl]
  cases h : lookDisk d q with
  | none => rfl
  | some n => cases n with
    | dir => rfl
    | file i =>
      refine congrArg (fun x => some (some x)) (Classical.byContradiction fun hne => ?_)
      obtain ⟨q', ⟨c, hc, hw⟩, hl⟩ := ho.file i (hd q i h) hne
      exact (hq c hc q' hw).2 i hl h

/-- **C96, the command lines.** What the lines of `encrypt`, `decrypt`, `erase`, `hash` and `pack` do is one of these pieces of work; the files that it writes or erases, those that it reads and the directories that it packs are those on the line; and directories
are erased only if `--erase` is on the line. -/
theorem C96_line_encrypt (s : Sys σ) {opts : List (String × List Char)} {input output : List Char} {words argv : List (List Char)} (hw : Words (optionsOf "encrypt") opts [input, output] words) (hc : Consistent opts)
    (hi : Invokes "encrypt" words argv) (w : World) :
    ∃ job key, LineIs s argv w job ∧ KeyChoice opts w key ∧ job.writes = output :: ((valueOf opts "header").toList ++ [input]) ∧ job.reads = input :: keyFiles key ∧ job.trees = [] := by
  obtain ⟨run, h1, h2⟩ := C77_encrypt s hw hc hi
  obtain ⟨params, n, sel, hk, hn, _, h⟩ := h2 w
  refine ⟨.encrypt input output params (algorithmOf opts), params.key, ⟨run, h1, ?_⟩, hk, ?_, rfl, rfl⟩
  · rw [Prog.bind_run, h, Prog.bind_run]
    show _ = encryptMode s input output params (algorithmOf opts) w
    rcases encryptMode s input output params (algorithmOf opts) w with ⟨r | e | e, u⟩ <;> rfl
  · show output :: (params.header.toList ++ if params.erase = .ignoreFile then [] else [input]) = _
    rw [sel.header, hn, if_neg (by intro h; cases h)]

theorem C96_line_decrypt (s : Sys σ) {opts : List (String × List Char)} {input output : List Char} {words argv : List (List Char)} (hw : Words (optionsOf "decrypt") opts [input, output] words) (hc : Consistent opts)
    (hi : Invokes "decrypt" words argv) (w : World) :
    ∃ job key, LineIs s argv w job ∧ OpenKeyChoice opts w key ∧ job.writes = [output, input] ∧ job.reads = input :: ((valueOf opts "header").toList ++ keyFiles key) ∧ job.trees = [] := by
  obtain ⟨run, h1, h2⟩ := C77_decrypt s hw hc hi
  obtain ⟨params, n, sel, hk, hn, _, h⟩ := h2 w
  refine ⟨.decrypt input output params, params.key, ⟨run, h1, ?_⟩, hk, ?_, ?_, rfl⟩
  · rw [Prog.bind_run, h, Prog.bind_run]
    show _ = decryptMode s input output params w
    rcases decryptMode s input output params w with ⟨r | e | e, u⟩ <;> rfl
  · show (output :: if params.erase = .ignoreFile then [] else [input]) = _
    rw [hn, if_neg (by intro h; cases h)]
  · show input :: (params.header.toList ++ keyFiles params.key) = _
    rw [sel.header]

theorem C96_line_erase (s : Sys σ) {opts : List (String × List Char)} {input : List Char} {words argv : List (List Char)} (hw : Words (optionsOf "erase") opts [input] words) (hc : Consistent opts) (hi : Invokes "erase" words argv) (w : World) :
    ∃ job, LineIs s argv w job ∧ job.writes = [input] ∧ job.reads = [] ∧ job.trees = [] := by
  obtain ⟨run, n, h1, _, h⟩ := C77_erase s hw hc hi
  refine ⟨.erase input n (if (valueOf opts "force").isSome then .forced else .prompt), ⟨run, h1, ?_⟩, rfl, rfl, rfl⟩
  rw [Prog.bind_run, h, Prog.bind_run]
  show _ = secureErase s input n (if (valueOf opts "force").isSome then .forced else .prompt) w
  rcases secureErase s input n (if (valueOf opts "force").isSome then .forced else .prompt) w with ⟨r | e | e, u⟩ <;> rfl

theorem C96_line_hash (s : Sys σ) {opts : List (String × List Char)} {files words argv : List (List Char)} (hw : Words (optionsOf "hash") opts files words) (hne : files ≠ []) (hi : Invokes "hash" words argv) (w : World) :
    ∃ job, LineIs s argv w job ∧ job.writes = [] ∧ job.reads = files ∧ job.trees = [] := by
  obtain ⟨run, h1, h⟩ := C77_hash s hw hne hi
  refine ⟨.hash files, ⟨run, h1, ?_⟩, rfl, rfl, rfl⟩
  show (run >>= fun _ => pure ()) w = (hashStream s files >>= fun _ => pure ()) w
  rw [Prog.bind_run, h, Prog.bind_run]

theorem C96_line_pack (s : Sys σ) {before after : List (String × List Char)} {wb wa : List (List Char)} (hb : OptionWords (optionsOf "pack") before wb) (ha : OptionWords (optionsOf "pack") after wa)
    {inputs : List (List Char)} {output : List Char} {argv : List (List Char)} (hne : inputs ≠ []) (hpi : ∀ f ∈ inputs, NotOption f) (hpo : NotOption output) (hc : Consistent (before ++ after))
    (hi : Invokes "pack" (wb ++ inputs ++ output :: wa) argv) (w : World) :
    ∃ job key, LineIs s argv w job ∧ KeyChoice (before ++ after) w key ∧ job.writes = output :: (valueOf (before ++ after) "header").toList ∧ job.reads = keyFiles key ∧ job.trees = inputs ∧
      (job.erasesTrees = true ↔ (valueOf (before ++ after) "erase").isSome) := by
  obtain ⟨run, h1, h2⟩ := C77_pack s hb ha hne hpi hpo hc hi
  obtain ⟨params, sel, hk, _, h⟩ := h2 w
  refine ⟨.pack inputs output { eraseSource := (valueOf (before ++ after) "erase").isSome } params (algorithmOf (before ++ after)), params.key, ⟨run, h1, ?_⟩, hk, ?_, rfl, rfl, Iff.rfl⟩
  · rw [Prog.bind_run, h, Prog.bind_run]
    show _ = packMode s inputs output { eraseSource := (valueOf (before ++ after) "erase").isSome } params (algorithmOf (before ++ after)) w
    rcases packMode s inputs output { eraseSource := (valueOf (before ++ after) "erase").isSome } params (algorithmOf (before ++ after)) w with ⟨r | e | e, u⟩ <;> rfl
  · show output :: params.header.toList = _
    rw [sel.header]

/-! ### The hypotheses are met -/

/-- Three files: `x`, `y` and the key file `k`. -/
def exShared (x : Bytes) : Disk where
  file := fun i => if i = 0 then x else if i = 1 then [4, 5, 6] else [112, 119]
  nextIno := 3
  dir := [([['x']], .file 0), ([['y']], .file 1), ([['k']], .file 2)]

def exSelf (x : Bytes) (lines : List String) : World := (exWorld lines []).on (exShared x)

/-- `x` is encrypted to `o`, `y` to `p`, both with the key file `k`, and both are erased; at the same time digests of `k` and of something that is not there are asked for. -/
def exThree (x : Bytes) : List (Started Bytes) :=
  [⟨exSys, .encrypt ['x'] ['o'] { exErasing with key := .keyfile ['k'] } .aes256Gcm, exSelf x []⟩, ⟨exSys, .encrypt ['y'] ['p'] { exErasing with key := .keyfile ['k'] } .aes256Gcm, exSelf x []⟩,
    ⟨exSys, .hash [['k'], ['n']], exSelf x []⟩]

/-- `x` and `y` are both encrypted to `o`, which is not there. -/
def exRace (x : Bytes) : List (Started Bytes) :=
  [⟨exSys, .encrypt ['x'] ['o'] { exErasing with key := .keyfile ['k'] } .aes256Gcm, exSelf x []⟩, ⟨exSys, .encrypt ['y'] ['o'] { exErasing with key := .keyfile ['k'] } .aes256Gcm, exSelf x []⟩]

/-- The places that the paths lead to. -/
def exPlaces (c : Started Bytes) (d : Disk) (paths : List PathBuf) : List (Option Path) :=
  paths.map fun p => match (c.self.on d).resolve p with
    | .ok q => some q
    | .error _ => none

theorem exPlaces_mem {c : Started Bytes} {d : Disk} {paths : List PathBuf} {p : PathBuf} {q : Path} (hn : p ∈ paths) (h : (c.self.on d).resolve p = .ok q) : some q ∈ exPlaces c d paths :=
  List.mem_map.2 ⟨p, hn, by rw [h]⟩

def exWritten (c : Started Bytes) : List PathBuf := c.cmd.writes.map (toPath c.s.cwd) ++ c.temporary
def exRead (c : Started Bytes) : List PathBuf := c.cmd.reads.map (toPath c.s.cwd)
def exTops (c : Started Bytes) : List PathBuf := c.cmd.trees.map (toPath c.s.cwd)

def exFits (c : Started Bytes) (d : Disk) : Bool :=
  (exPlaces c d (exWritten c ++ exRead c ++ exTops c)).all (·.isSome) && (exPlaces c d (exWritten c)).all (fun q => q.all fun q => lookDisk d q ≠ some .dir) && !c.cmd.erasesTrees && c.cmd.fills.isEmpty

/-- `q` and what is there are neither at `q'` nor, if `q'` is the top of a tree, below it. -/
def exApart (d : Disk) (q q' : Path) (tree : Bool) : Bool :=
  q ≠ q' && !(tree && q'.isPrefixOf q) && match lookDisk d q with
    | some (.file i) => lookDisk d q' ≠ some (.file i) && !(tree && d.dir.any fun e => e.2 == .file i && q'.isPrefixOf e.1)
    | _ => true

def exSpares (d : Disk) (c c' : Started Bytes) : Bool :=
  (exPlaces c d (exWritten c)).all fun q => q.all fun q => (exPlaces c' d (exWritten c' ++ exRead c')).all (fun q' => q'.all fun q' => exApart d q q' false) &&
    (exPlaces c' d (exTops c')).all fun q' => q'.all fun q' => exApart d q q' true

theorem exFits_of {c : Started Bytes} {d : Disk} (h : exFits c d = true) : c.Fits d := by
  unfold exFits at h
  rw [Bool.and_eq_true, Bool.and_eq_true, Bool.and_eq_true, List.all_eq_true, List.all_eq_true] at h
  obtain ⟨h, hfill⟩ := h
  have lead : ∀ p, p ∈ exWritten c ++ exRead c ++ exTops c → ∃ q, (c.self.on d).resolve p = .ok q := fun p hp => by
    have := h.1.1 _ (List.mem_map.2 ⟨p, hp, rfl⟩)
    revert this
    cases (c.self.on d).resolve p with
    | ok q => exact fun _ => ⟨q, rfl⟩
    | error e => exact fun h => by cases h
  refine ⟨fun n hn => lead _ ?_, fun p hp => lead p ?_, fun input passes force q hc hq => ?_, by simpa using h.2, by simpa using hfill⟩
  · unfold exWritten exRead exTops
    simp only [List.mem_append, List.mem_map]
    rcases hn with hn | hn | hn
    · exact .inl (.inl (.inl ⟨n, hn, rfl⟩))
    · exact .inl (.inr ⟨n, hn, rfl⟩)
    · exact .inr ⟨n, hn, rfl⟩
  · unfold exWritten
    simp only [List.mem_append]
    exact .inl (.inl (.inr hp))
  · have := h.1.2 _ (exPlaces_mem (p := toPath c.s.cwd input) (by unfold exWritten; rw [hc]; exact List.mem_append_left _ (List.mem_singleton.2 rfl)) hq)
    simpa using this

theorem exSpares_of {d : Disk} {c c' : Started Bytes} (h : exSpares d c c' = true) : Spares d c c' := by
  have written : ∀ {c : Started Bytes} {q}, c.Writes d q → ∃ p ∈ exWritten c, (c.self.on d).resolve p = .ok q := by
    intro c q hq
    rcases hq with ⟨n, hn, hq⟩ | ⟨p, hp, hq⟩
    · exact ⟨_, List.mem_append_left _ (List.mem_map.2 ⟨n, hn, rfl⟩), hq⟩
    · exact ⟨p, List.mem_append_right _ hp, hq⟩
  intro q q' hq hq'
  obtain ⟨p, hp, hpq⟩ := written hq
  unfold exSpares at h
  have h := List.all_eq_true.1 h _ (exPlaces_mem hp hpq)
  simp only [Option.all_some, Bool.and_eq_true, List.all_eq_true] at h
  have one : ∀ p', p' ∈ exWritten c' ++ exRead c' → (c'.self.on d).resolve p' = .ok q' → q ≠ q' ∧ ∀ i, lookDisk d q = some (.file i) → lookDisk d q' ≠ some (.file i) := by
    intro p' hp' hr
    have := h.1 _ (exPlaces_mem hp' hr)
    simp only [Option.all_some, exApart, Bool.and_eq_true, Bool.false_and, Bool.not_false, Bool.and_true] at this
    refine ⟨by simpa using this.1, fun i hi => ?_⟩
    have := this.2
    rw [hi] at this
    simpa using this
  rcases hq' with hq' | ⟨n, hn, hq'⟩ | ⟨n, top, hn, ht, hpre⟩
  · obtain ⟨p', hp', hr⟩ := written hq'
    exact one p' (List.mem_append_left _ hp') hr
  · exact one _ (List.mem_append_right _ (List.mem_map.2 ⟨n, hn, rfl⟩)) hq'
  · have := h.2 _ (exPlaces_mem (List.mem_map.2 ⟨n, hn, rfl⟩) ht)
    simp only [Option.all_some, exApart, Bool.and_eq_true, Bool.true_and] at this
    obtain ⟨⟨_, h1⟩, h2⟩ := this
    refine ⟨fun e => ?_, fun i hi hi' => ?_⟩
    · subst e
      rw [List.isPrefixOf_iff_prefix.2 hpre] at h1
      cases h1
    · rw [hi] at h2
      simp only [Bool.and_eq_true] at h2
      unfold lookDisk at hi'
      split at hi'
      · cases hi'
      · cases hf : d.dir.find? (·.1 = q') with
        | none => rw [hf] at hi'; cases hi'
        | some e =>
          rw [hf] at hi'
          have hm := List.mem_of_find?_eq_some hf
          have he := List.find?_some hf
          have he : e.1 = q' := by simpa using he
          have he2 : e.2 = .file i := by simpa using hi'
          have : d.dir.any (fun e => e.2 == .file i && top.isPrefixOf e.1) = true := List.any_eq_true.2 ⟨e, hm, by rw [he, he2, List.isPrefixOf_iff_prefix.2 hpre]; simp⟩
          rw [this] at h2
          cases h2.2

theorem exShared_allocated (x : Bytes) : Disk.Allocated (exShared x) := by
  intro q i h
  unfold lookDisk at h
  split at h
  · cases h
  · cases hf : (exShared x).dir.find? (·.1 = q) with
    | none => rw [hf] at h; cases h
    | some e =>
      rw [hf] at h
      have hm := List.mem_of_find?_eq_some hf
      have hm : e ∈ ([([['x']], .file 0), ([['y']], .file 1), ([['k']], .file 2)] : List (Path × Node)) := hm
      show i < 3
      simp only [List.mem_cons, List.not_mem_nil, or_false] at hm
      rcases hm with rfl | rfl | rfl <;> cases h <;> decide

/-- The three commands do not interfere. -/
theorem exThree_independent : (∀ c ∈ exThree [1, 2, 3], c.Fits (exShared [1, 2, 3])) ∧ Independent (exShared [1, 2, 3]) (exThree [1, 2, 3]) := by
  constructor
  · have : (exThree [1, 2, 3]).all (fun c => exFits c (exShared [1, 2, 3])) = true := by decide +kernel
    exact fun c hc => exFits_of (List.all_eq_true.1 this c hc)
  · have : (List.range 3).all (fun i => (List.range 3).all fun j => i == j || match (exThree [1, 2, 3])[i]?, (exThree [1, 2, 3])[j]? with | some c, some c' => exSpares (exShared [1, 2, 3]) c c' | _, _ => false) = true := by
      decide +kernel
    intro i j c c' hne hc hc'
    have hi : i < 3 := (List.getElem?_eq_some_iff.1 hc).1
    have hj : j < 3 := (List.getElem?_eq_some_iff.1 hc').1
    have := List.all_eq_true.1 (List.all_eq_true.1 this i (List.mem_range.2 hi)) j (List.mem_range.2 hj)
    rw [hc, hc'] at this
    exact exSpares_of (by simpa [hne] using this)

/-- Whether process `i` has come to its end in success, and its screen. -/
def exEnd (m : Machine) (i : Nat) : Option (Bool × List Printed) := m.procs[i]?.bind fun p => match p.rest with
  | .done (.ok _) => some (true, p.self.out)
  | .done _ => some (false, p.self.out)
  | .step .. => none

theorem exEnd_ok {m : Machine} {i : Nat} {screen : List Printed} (h : exEnd m i = some (true, screen)) : Ended m i (.ok ()) screen := by
  unfold exEnd at h
  cases hp : m.procs[i]? with
  | none => rw [hp] at h; cases h
  | some p =>
    rw [hp] at h
    rcases p with ⟨self, rest⟩
    cases rest with
    | step eff k => cases h
    | done r => cases r with
      | ok r => cases h; exact ⟨_, hp, rfl, rfl⟩
      | err e => cases h
      | abort e => cases h

/-- The three take turns. -/
def exTurns : List Nat := (List.range 300).map (· % 3)

/-- All three come to their end, the encrypting ones in success, and the third one fails after the first digest; the inputs are gone, the outputs are there and the key file is as it was. -/
example : Disk.Allocated (exShared [1, 2, 3]) ∧ (∀ c ∈ exThree [1, 2, 3], c.Fits (exShared [1, 2, 3])) ∧ Independent (exShared [1, 2, 3]) (exThree [1, 2, 3]) ∧
    Ended ((startAll (exThree [1, 2, 3]) (exShared [1, 2, 3])).run exTurns) 0 (.ok ()) [] ∧ Ended ((startAll (exThree [1, 2, 3]) (exShared [1, 2, 3])).run exTurns) 1 (.ok ()) [] ∧
    ((startAll (exThree [1, 2, 3]) (exShared [1, 2, 3])).run exTurns).disk.dir = [([['p']], .file 4), ([['o']], .file 3), ([['k']], .file 2)] :=
  ⟨exShared_allocated _, exThree_independent.1, exThree_independent.2, exEnd_ok (by decide +kernel), exEnd_ok (by decide +kernel), by decide +kernel⟩

/-! ### C97 -/

/-- **C97, the partial theorem, encrypting.** Commands run at the same time as in C96, and one of them encrypts, without short transfers.  When it has succeeded, then its output, on the disk that all share, decrypts with what the key source
supplied to what its input was when all began, whatever the others have done meanwhile. -/
theorem C97_encrypt_partial (cs : List (Started σ)) (d : Disk) (hd : Disk.Allocated d) (hf : ∀ c ∈ cs, c.Fits d) (hs : Independent d cs) (order : List Nat) (i : Nat) (s : Sys σ) (hC : s.C.Lawful) (input output : List Char)
    (params : CryptoParams) (algorithm : Algorithm) (self : World) (hc : cs[i]? = some ⟨s, .encrypt input output params algorithm, self⟩) (hns : ∀ k, Io.short k ∉ self.sched)
    (hsep : Separate s.cwd input output params.header (self.on d)) (screen : List Printed) (he : Ended ((startAll cs d).run order) i (.ok ()) screen) :
    ∃ q content secret, (self.on d).resolve (toPath s.cwd input) = .ok q ∧ contentAt d q = some (some content) ∧ SuppliedTo s .validate params.key (self.on d) secret ∧
      SealedIn s.C s.cwd output params.header secret content (self.on ((startAll cs d).run order).disk) := by
  have hinv := Conc.inv_run hs order (Conc.inv_start hd hf hs)
  obtain ⟨p, hp, hr, _⟩ := he
  obtain ⟨a, R, h1, h4, _⟩ := hinv.each i _ p hc hp
  have hrun := Conc.solo_result _ d _ _ _ h1
  rw [hr, Conc.command_run] at hrun
  have hrun : encryptMode s input output params algorithm (self.on d) = (.ok (), a) := hrun.symm
  obtain ⟨q, j, secret, g1, g2, ⟨qo, jo, g3, _, _, g4⟩, _⟩ := C48_success s hC input output params algorithm (self.on d) a hns hsep hrun
  have fits := hf _ (List.mem_of_getElem? hc)
  have place : ∀ n x k, (n ∈ (Job.encrypt input output params algorithm).writes ∨ n ∈ (Job.encrypt input output params algorithm).reads) → LeadsToFile a (toPath s.cwd n) x k →
      (self.on ((startAll cs d).run order).disk).resolve (toPath s.cwd n) = .ok x ∧ contentAt ((startAll cs d).run order).disk x = some (some (a.file k)) := fun n x k hn hx => by
    obtain ⟨y, hy⟩ := fits.leads n (hn.imp_right .inl)
    have hl : Conc.Leads (Conc.cfg ⟨s, .encrypt input output params algorithm, self⟩ d) (toPath s.cwd n) y := Conc.Leads.of (w := self.on d) (fun _ => Iff.rfl) hy
    have hxy : x = y := by have := (h4.la hl).symm.trans hx.1; cases this; rfl
    subst hxy
    refine ⟨hl (self.on _) h4.dirv, ?_⟩
    rw [show contentAt ((startAll cs d).run order).disk x = contentAt a.disk x from h4.same_content (hn.elim (fun hn => .inl (.inl ⟨n, hn, hy⟩)) fun hn => .inr (.inl ⟨n, hn, hy⟩))]
    unfold contentAt
    rw [show lookDisk a.disk x = some (.file k) from hx.2]
    rfl
  refine ⟨q, (self.on d).file j, secret, g1.1, ?_, g2, qo, a.file jo, (place output qo jo (.inl (by simp [Job.writes])) g3).1, (place output qo jo (.inl (by simp [Job.writes])) g3).2, ?_⟩
  · unfold contentAt
    rw [show lookDisk d q = some (.file j) from g1.2]
    rfl
  · cases hh : params.header with
    | none => rw [hh] at g4; exact g4
    | some hd =>
      rw [hh] at g4
      obtain ⟨qh, k, g5, _, _, g6⟩ := g4
      have := place hd qh k (.inl (by simp [Job.writes, hh])) g5
      exact ⟨qh, a.file k, this.1, this.2, g6⟩

/-- **C97, the partial theorem, decrypting.** The same for a command that decrypts. -/
theorem C97_decrypt_partial (cs : List (Started σ)) (d : Disk) (hd : Disk.Allocated d) (hf : ∀ c ∈ cs, c.Fits d) (hs : Independent d cs) (order : List Nat) (i : Nat) (s : Sys σ) (hC : s.C.Lawful) (input output : List Char)
    (params : CryptoParams) (self : World) (hc : cs[i]? = some ⟨s, .decrypt input output params, self⟩) (hns : ∀ k, Io.short k ∉ self.sched)
    (hsep : OutputApart s.cwd input output params.header (self.on d)) (screen : List Printed) (he : Ended ((startAll cs d).run order) i (.ok ()) screen) :
    ∃ q content secret, (self.on d).resolve (toPath s.cwd input) = .ok q ∧ contentAt d q = some (some content) ∧ SuppliedTo s .direct params.key (self.on d) secret ∧
      Unsealed s.C s.cwd output params.header secret content (self.on d) (self.on ((startAll cs d).run order).disk) := by
  have hinv := Conc.inv_run hs order (Conc.inv_start hd hf hs)
  obtain ⟨p, hp, hr, _⟩ := he
  obtain ⟨a, R, h1, h4, _⟩ := hinv.each i _ p hc hp
  have hrun := Conc.solo_result _ d _ _ _ h1
  rw [hr, Conc.command_run] at hrun
  have hrun : decryptMode s input output params (self.on d) = (.ok (), a) := hrun.symm
  obtain ⟨q, j, secret, g1, g2, qo, jo, g3, _, _, g4⟩ := C59_success s hC input output params (self.on d) a hns hsep hrun
  have fits := hf _ (List.mem_of_getElem? hc)
  obtain ⟨y, hy⟩ := fits.leads output (.inl (by simp [Job.writes]))
  have hl : Conc.Leads (Conc.cfg ⟨s, .decrypt input output params, self⟩ d) (toPath s.cwd output) y := Conc.Leads.of (w := self.on d) (fun _ => Iff.rfl) hy
  have hxy : qo = y := by have := (h4.la hl).symm.trans g3.1; cases this; rfl
  subst hxy
  refine ⟨q, (self.on d).file j, secret, g1.1, ?_, g2, qo, a.file jo, hl (self.on _) h4.dirv, ?_, ?_⟩
  · unfold contentAt
    rw [show lookDisk d q = some (.file j) from g1.2]
    rfl
  · rw [show contentAt (self.on ((startAll cs d).run order).disk).disk qo = contentAt a.disk qo from h4.same_content (.inl (.inl ⟨output, by simp [Job.writes], hy⟩))]
    unfold contentAt
    rw [show lookDisk a.disk qo = some (.file jo) from g3.2]
    rfl
  · cases hh : params.header with
    | none => rw [hh] at g4; exact g4
    | some hd =>
      rw [hh] at g4
      rcases g4 with ⟨qh, k, g5, g6⟩ | ⟨⟨qh, g5⟩, g6⟩
      · refine ⟨qh, g5.1, .inl ⟨(self.on d).file k, ?_, g6⟩⟩
        unfold contentAt
        rw [show lookDisk (self.on d).disk qh = some (.file k) from g5.2]
        rfl
      · refine ⟨qh, g5.1, .inr ⟨?_, g6⟩⟩
        unfold contentAt
        rw [show lookDisk (self.on d).disk qh = some .dir from g5.2]

/-- **C97, the partial theorem, packing.** The same for a command that packs directories without erasing them: its output decrypts to an archive of what the directories held when all began, and what the directories hold is still there. -/
theorem C97_pack_partial (cs : List (Started σ)) (d : Disk) (hd : Disk.Allocated d) (hf : ∀ c ∈ cs, c.Fits d) (hs : Independent d cs) (order : List Nat) (i : Nat) (s : Sys σ) (hC : s.C.Lawful) (inputs : List (List Char)) (output : List Char)
    (packParams : PackParams) (params : CryptoParams) (algorithm : Algorithm) (self : World) (hc : cs[i]? = some ⟨s, .pack inputs output packParams params algorithm, self⟩) (hns : ∀ k, Io.short k ∉ self.sched)
    (ht : TreeOk (self.on d)) (ho : Outside s.cwd inputs output params.header (self.on d)) (screen : List Printed) (he : Ended ((startAll cs d).run order) i (.ok ()) screen) :
    (∃ secret l, SuppliedTo s .validate params.key (self.on d) secret ∧ Archives s.cwd inputs (self.on d) l ∧ Readable s.z l ∧
      SealedIn s.C s.cwd output params.header secret (s.z.encode l) (self.on ((startAll cs d).run order).disk)) ∧
    ∀ q, InSource s.cwd inputs (self.on d) q → lookDisk d q ≠ none → contentAt ((startAll cs d).run order).disk q = contentAt d q := by
  have hinv := Conc.inv_run hs order (Conc.inv_start hd hf hs)
  obtain ⟨p, hp, hr, _⟩ := he
  obtain ⟨a, R, h1, h4, _⟩ := hinv.each i _ p hc hp
  have hrun := Conc.solo_result _ d _ _ _ h1
  rw [hr, Conc.command_run] at hrun
  have hrun : packMode s inputs output packParams params algorithm (self.on d) = (.ok (), a) := hrun.symm
  have fits := hf _ (List.mem_of_getElem? hc)
  obtain ⟨⟨secret, l, g1, g2, g3, j, g4, g5⟩, g6, _⟩ := C67_success s hC inputs output packParams params algorithm (self.on d) a hns ht ho hrun
  have g6 := g6 fits.keeps
  have place : ∀ n k, n ∈ output :: params.header.toList → KeptAt s.cwd inputs (toPath s.cwd n) (self.on d) a k →
      ∃ x, (self.on ((startAll cs d).run order).disk).resolve (toPath s.cwd n) = .ok x ∧ contentAt ((startAll cs d).run order).disk x = some (some (a.file k)) := fun n k hn hx => by
    obtain ⟨x, hx, _, hk, _⟩ := hx
    have hl : Conc.Leads (Conc.cfg ⟨s, .pack inputs output packParams params algorithm, self⟩ d) (toPath s.cwd n) x := Conc.Leads.of (w := self.on d) (fun _ => Iff.rfl) hx
    refine ⟨x, hl (self.on _) h4.dirv, ?_⟩
    rw [show contentAt ((startAll cs d).run order).disk x = contentAt a.disk x from h4.same_content (.inl (.inl ⟨n, hn, hx⟩))]
    unfold contentAt
    rw [show lookDisk a.disk x = some (.file k) from hk]
    rfl
  refine ⟨⟨secret, l, g1, g2, g3, ?_⟩, fun q hq hne => ?_⟩
  · obtain ⟨qo, h5, h6⟩ := place output j (List.mem_cons_self ..) g4
    refine ⟨qo, a.file j, h5, h6, ?_⟩
    cases hh : params.header with
    | none => rw [hh] at g5; exact g5
    | some hd =>
      rw [hh] at g5
      obtain ⟨k, g7, g8⟩ := g5
      obtain ⟨qh, h7, h8⟩ := place hd k (by simp [hh]) g7
      exact ⟨qh, a.file k, h7, h8, g8⟩
  · have hu : (Started.mk s (.pack inputs output packParams params algorithm) self).Uses d q := by
      obtain ⟨f, hf, T, hT, hx⟩ := hq
      exact .inr (.inr ⟨f, T, hf, hT.resolve, hx⟩)
    rw [show contentAt ((startAll cs d).run order).disk q = contentAt a.disk q from h4.same_content hu]
    cases hl : lookDisk d q with
    | none => exact absurd hl hne
    | some n =>
      obtain ⟨h5, h6⟩ := g6 q hq n hl
      unfold contentAt
      rw [show lookDisk a.disk q = some n from h5, hl]
      cases n with
      | dir => rfl
      | file k => exact congrArg (fun x => some (some x)) (h6 k rfl)

/-- The small disk of the other examples: the directory `a` with two files, and the file `z`. -/
def exTreeDisk : Disk := (exWorld [] []).disk

/-- `a` is packed to `o`, and `z` is encrypted to `p` and erased. -/
def exTwo : List (Started Bytes) :=
  [⟨exPackSys, .pack [['a']] ['o'] { eraseSource := false } exParams .aes256Gcm, exWorld [] []⟩, ⟨exPackSys, .encrypt ['z'] ['p'] exErasing .aes256Gcm, exWorld [] []⟩]

theorem exTwo_independent : (∀ c ∈ exTwo, c.Fits exTreeDisk) ∧ Independent exTreeDisk exTwo := by
  constructor
  · have : exTwo.all (fun c => exFits c exTreeDisk) = true := by decide +kernel
    exact fun c hc => exFits_of (List.all_eq_true.1 this c hc)
  · have : (List.range 2).all (fun i => (List.range 2).all fun j => i == j || match exTwo[i]?, exTwo[j]? with | some c, some c' => exSpares exTreeDisk c c' | _, _ => false) = true := by
      decide +kernel
    intro i j c c' hne hc hc'
    have hi : i < 2 := (List.getElem?_eq_some_iff.1 hc).1
    have hj : j < 2 := (List.getElem?_eq_some_iff.1 hc').1
    have := List.all_eq_true.1 (List.all_eq_true.1 this i (List.mem_range.2 hi)) j (List.mem_range.2 hj)
    rw [hc, hc'] at this
    exact exSpares_of (by simpa [hne] using this)

/-- The two take turns; both succeed; the temporary file of the first one is gone. -/
def exAlternate : List Nat := (List.range 300).map (· % 2)

example : Disk.Allocated exTreeDisk ∧ (∀ c ∈ exTwo, c.Fits exTreeDisk) ∧ Independent exTreeDisk exTwo ∧ TreeOk ((exWorld [] []).on exTreeDisk) ∧ Outside exPackSys.cwd [['a']] ['o'] exParams.header ((exWorld [] []).on exTreeDisk) ∧
    Ended ((startAll exTwo exTreeDisk).run exAlternate) 0 (.ok ()) [] ∧ Ended ((startAll exTwo exTreeDisk).run exAlternate) 1 (.ok ()) [] ∧
    ((startAll exTwo exTreeDisk).run exAlternate).disk.dir.map (·.1) = [[['p']], [['o']], [['a'], ['b'], ['y']], [['a'], ['b']], [['a'], ['x']], [['a']]] :=
  ⟨(exPack_outside [] []).allocated, exTwo_independent.1, exTwo_independent.2, exWorld_tree [] [], exPack_outside [] [], exEnd_ok (by decide +kernel), exEnd_ok (by decide +kernel), by decide +kernel⟩

/-- The second process is first to look whether `o` is there; then the first one does all its work, and then the second one. -/
def exOrder : List Nat := List.replicate 2 1 ++ List.replicate 100 0 ++ List.replicate 100 1

theorem content_congr {d d' : Disk} (h : d.dir = d'.dir) (hf : ∀ q i, (q, Node.file i) ∈ d.dir → d.file i = d'.file i) (q : Path) : contentAt d q = contentAt d' q := by
  unfold contentAt
  have : lookDisk d q = lookDisk d' q := by unfold lookDisk; rw [h]
  rw [← this]
  cases hl : lookDisk d q with
  | none => rfl
  | some n => cases n with
    | dir => rfl
    | file i =>
      unfold lookDisk at hl
      split at hl
      · cases hl
      · cases he : d.dir.find? (·.1 = q) with
        | none => rw [he] at hl; cases hl
        | some e =>
          rw [he] at hl
          have hm := List.mem_of_find?_eq_some he
          rcases e with ⟨e1, e2⟩
          cases hl
          exact congrArg (fun x => some (some x)) (hf e1 i hm)

/-- **C97 is false without this hypothesis.** `x` and `y` are encrypted at the same time, without `--force`, to the same output, which is not there.  Run one after the other, the second process asks before it overwrites the output.  In the
order `exOrder` neither process asks anything, both succeed, and both inputs are erased; and what is on the disk in the end, at every place, does not depend on what was in `x`: its content is lost. -/
theorem C97_race :
    (∀ x ∈ [[1, 2, 3], [7, 8, 9]], contentAt (exShared x) [['x']] = some (some x) ∧ contentAt (exShared x) [['o']] = none ∧
      Ended ((startAll (exRace x) (exShared x)).run exOrder) 0 (.ok ()) [] ∧ Ended ((startAll (exRace x) (exShared x)).run exOrder) 1 (.ok ()) []) ∧
    (∀ q, contentAt ((startAll (exRace [1, 2, 3]) (exShared [1, 2, 3])).run exOrder).disk q = contentAt ((startAll (exRace [7, 8, 9]) (exShared [7, 8, 9])).run exOrder).disk q) ∧
    (∃ p, ((startAll (exRace [1, 2, 3]) (exShared [1, 2, 3])).run (List.replicate 100 0 ++ List.replicate 100 1)).procs[1]? = some p ∧ p.self.out.map (·.text) = [overwriteQuestion ['o']]) := by
  refine ⟨fun x hx => ?_, ?_, ?_⟩
  · simp only [List.mem_cons, List.not_mem_nil, or_false] at hx
    rcases hx with rfl | rfl <;> exact ⟨by decide +kernel, by decide +kernel, exEnd_ok (by decide +kernel), exEnd_ok (by decide +kernel)⟩
  · have h1 : ((startAll (exRace [1, 2, 3]) (exShared [1, 2, 3])).run exOrder).disk.dir = [([['o']], .file 3), ([['k']], .file 2)] := by decide +kernel
    have h2 : ((startAll (exRace [7, 8, 9]) (exShared [7, 8, 9])).run exOrder).disk.dir = [([['o']], .file 3), ([['k']], .file 2)] := by decide +kernel
    have h3 : ((startAll (exRace [1, 2, 3]) (exShared [1, 2, 3])).run exOrder).disk.file 3 = ((startAll (exRace [7, 8, 9]) (exShared [7, 8, 9])).run exOrder).disk.file 3 := by decide +kernel
    have h4 : ((startAll (exRace [1, 2, 3]) (exShared [1, 2, 3])).run exOrder).disk.file 2 = ((startAll (exRace [7, 8, 9]) (exShared [7, 8, 9])).run exOrder).disk.file 2 := by decide +kernel
    refine content_congr (h1.trans h2.symm) fun q i hm => ?_
    rw [h1] at hm
    simp only [List.mem_cons, Prod.mk.injEq, Node.file.injEq, List.not_mem_nil, or_false] at hm
    rcases hm with ⟨_, rfl⟩ | ⟨_, rfl⟩
    · exact h3
    · exact h4
  · have : (((startAll (exRace [1, 2, 3]) (exShared [1, 2, 3])).run (List.replicate 100 0 ++ List.replicate 100 1)).procs[1]?.map fun p => p.self.out.map (·.text)) = some [overwriteQuestion ['o']] := by decide +kernel
    cases hp : ((startAll (exRace [1, 2, 3]) (exShared [1, 2, 3])).run (List.replicate 100 0 ++ List.replicate 100 1)).procs[1]? with
    | none => rw [hp] at this; cases this
    | some p => rw [hp] at this; exact ⟨p, rfl, by simpa using this⟩

end Volaris.Props
