import Verif.Proofs.Together
import Verif.Props.DisturbedEncrypt
/-!
# C104: several commands encrypt and erase one file at the same time
-/
namespace Volaris.Props
open Volaris.Spec Volaris.Cli Volaris.Example
variable {σ : Type}

/-- **C104.** Any number of commands run at the same time on one disk, interleaved in any order and perhaps not to their end; any number of them encrypt the same file, each to its own output, and perhaps erase it then; the others have nothing to do
with it.  Faults may happen at any time, but no transfer is cut short.  At every moment, then, the file is where it was with its content, or there is an output that opens to this content with a secret of the command that wrote it. -/
theorem C104_together (cs : List (Started σ)) (d : Disk) (hd : GoodDisk d) (order : List Nat) (q : Path) (i : Nat) (x : Bytes) (hx : HasAt d q i x)
    (hcs : ∀ (k : Nat) (c : Started σ), cs[k]? = some c → c.Foreign ((startAll cs d).moves order) q i ∨
      ∃ input output params algorithm, c.Encrypts ((startAll cs d).moves order) i input output params algorithm ∧ c.Undisturbed cs k ((startAll cs d).moves order) output params.header) :
    HasAt ((startAll cs d).run order).disk q i x ∨
      ∃ c ∈ cs, ∃ input output params algorithm, c.Encrypts ((startAll cs d).moves order) i input output params algorithm ∧ c.HasSealed ((startAll cs d).moves order) output params x ((startAll cs d).run order).disk := by
  refine Dist.kept_or_made (P := fun d' => ∃ c ∈ cs, ∃ input output params algorithm, c.Encrypts ((startAll cs d).moves order) i input output params algorithm ∧ c.HasSealed ((startAll cs d).moves order) output params x d')
    (fun k c hc => (hcs k c hc).imp id ?_) hd hx order fun _ h => h
  rintro ⟨input, output, params, algorithm, he, hu⟩
  exact ⟨Dist.encryptWork he hu fun d h => ⟨c, List.mem_of_getElem? hc, input, output, params, algorithm, he, h⟩⟩

/-! ### The hypotheses are met -/

/-- What can be computed of `Started.LedTo`. -/
def exLed (c : Started Bytes) (name : List Char) (st : Disk × Disk) : Option (Path × Nat) :=
  match (c.self.on st.1).resolve (toPath c.s.cwd name) with
  | .ok p => match lookDisk st.2 p with
    | some (.file o) => some (p, o)
    | _ => none
  | .error _ => none

theorem exLed_of {c : Started Bytes} {name : List Char} {st : Disk × Disk} {p : Path} {o : Nat} (h : c.LedTo name st p o) : exLed c name st = some (p, o) := by
  unfold exLed
  rw [h.1]
  simp only
  rw [h.2]

/-- All the files that the names led to. -/
def exLeds (c : Started Bytes) (M : List (Disk × Disk)) (names : List (List Char)) : List (Path × Nat) := names.flatMap fun name => M.filterMap (exLed c name)

theorem exLeds_of {c : Started Bytes} {M : List (Disk × Disk)} {names : List (List Char)} {name : List Char} (hn : name ∈ names) {st : Disk × Disk} (hs : st ∈ M) {p : Path} {o : Nat} (h : c.LedTo name st p o) : (p, o) ∈ exLeds c M names :=
  List.mem_flatMap.2 ⟨name, hn, List.mem_filterMap.2 ⟨st, hs, exLed_of h⟩⟩

def exForeign (c : Started Bytes) (M : List (Disk × Disk)) (q : Path) (i : Nat) : Bool := M.all fun st => exClear c st.1 q && exUnmet c st i

theorem exForeign_of {c : Started Bytes} {M : List (Disk × Disk)} {q : Path} {i : Nat} (h : exForeign c M q i = true) : c.Foreign M q i := fun st hs => by
  have := List.all_eq_true.1 h st hs
  rw [Bool.and_eq_true] at this
  exact ⟨exClear_of this.1, exUnmet_of this.2⟩

/-- What can be computed of `Started.Encrypts`; `T` are the files that the names of output and header led to. -/
def exEncrypts (c : Started Bytes) (M : List (Disk × Disk)) (i : Nat) (input output : List Char) (header : Option (List Char)) (T : List (Path × Nat)) : Bool :=
  (exLeds c M (output :: header.toList)).all (fun e => T.contains e) && T.all (fun e => decide (e.2 ≠ i)) &&
    M.all (fun st => match (c.self.on st.1).resolve (toPath c.s.cwd input) with
      | .ok p => (match lookDisk st.1 p with | some n => decide (n = .file i) | none => true) && T.all (fun e => !p.isPrefixOf e.1 && (st.1.dir ++ st.2.dir).all fun f => match f.2 with | .file j => decide (j ≠ e.2) || !p.isPrefixOf f.1 | .dir => true)
      | .error _ => true) &&
    (exLeds c M header.toList).all fun e => (exLeds c M [output]).all fun e' => decide (e.2 ≠ e'.2)

theorem exEntry {d : Disk} {q : Path} {i : Nat} (hl : lookDisk d q = some (.file i)) : (q, Node.file i) ∈ d.dir := by
  unfold lookDisk at hl
  split at hl
  · cases hl
  · cases he : d.dir.find? (·.1 = q) with
    | none => rw [he] at hl; cases hl
    | some e =>
      rw [he] at hl
      have hm := List.mem_of_find?_eq_some he
      have hq := List.find?_some he
      rcases e with ⟨e1, e2⟩
      cases hl
      simp only [decide_eq_true_eq] at hq
      subst hq
      exact hm

theorem exEncrypts_of {c : Started Bytes} {M : List (Disk × Disk)} {i : Nat} {input output : List Char} {params : CryptoParams} {algorithm : Algorithm} {T : List (Path × Nat)} (hc : c.cmd = .encrypt input output params algorithm)
    (hC : c.s.C.Lawful) (hns : ∀ k, Io.short k ∉ c.self.sched) (h : exEncrypts c M i input output params.header T = true) : c.Encrypts M i input output params algorithm := by
  unfold exEncrypts at h
  simp only [Bool.and_eq_true, List.all_eq_true, decide_eq_true_eq, List.contains_iff_mem] at h
  obtain ⟨⟨⟨h1, h2⟩, h3⟩, h4⟩ := h
  refine ⟨hc, hC, hns, fun st hs p n hp hl => ?_, fun name hn st hs p hl => h2 _ (h1 _ (exLeds_of hn hs hl)) rfl,
    fun name hn st hs st' hs' p p' o hl hl' => h4 _ (exLeds_of hn hs' hl') _ (exLeds_of (List.mem_singleton.2 rfl) hs hl) rfl, fun _ name hn st hs p o hl st' hs' top ht => ?_⟩
  · have := h3 st hs
    rw [hp] at this
    simp only [hl, Bool.and_eq_true] at this
    exact of_decide_eq_true this.1
  · have := h3 st' hs'
    rw [ht] at this
    simp only [Bool.and_eq_true, List.all_eq_true] at this
    obtain ⟨g1, g2⟩ := this.2 _ (h1 _ (exLeds_of hn hs hl))
    refine ⟨fun hp => ?_, fun p' hp => ⟨fun hl => ?_, fun hl => ?_⟩⟩
    · rw [List.isPrefixOf_iff_prefix.2 hp] at g1; cases g1
    · have := g2 _ (List.mem_append_left _ (exEntry hl))
      simp [List.isPrefixOf_iff_prefix.2 hp] at this
    · have := g2 _ (List.mem_append_right _ (exEntry hl))
      simp [List.isPrefixOf_iff_prefix.2 hp] at this

/-- `x` is encrypted to `o`, and to `u` with the header in `h`, with different secrets, and both commands erase it; at the same time `y` is encrypted to `p` and erased. -/
def exTrio : List (Started Bytes) :=
  [⟨exSys, .encrypt ['x'] ['o'] exErasing .aes256Gcm, exSelf [1, 2, 3] []⟩, ⟨exSys, .encrypt ['x'] ['u'] { exErasing with key := .keyfile ['k'], header := some ['h'] } .aes256Gcm, exSelf [1, 2, 3] []⟩,
    ⟨exSys, .encrypt ['y'] ['p'] { exErasing with key := .keyfile ['k'] } .aes256Gcm, exSelf [1, 2, 3] []⟩]

/-- In turn: the first two have both read `x` before either erases it. -/
def exRounds : List Nat := (List.replicate 35 [0, 1, 2]).flatten

def exTrioMoves : List (Disk × Disk) := (startAll exTrio (exShared [1, 2, 3])).moves exRounds

theorem exTrio_foreign : exForeign exTrio[2] exTrioMoves [['x']] 0 = true := by decide +kernel
theorem exTrio_first : exEncrypts exTrio[0] exTrioMoves 0 ['x'] ['o'] none [([['o']], 3)] = true := by decide +kernel
theorem exTrio_second : exEncrypts exTrio[1] exTrioMoves 0 ['x'] ['u'] (some ['h']) [([['u']], 4), ([['h']], 6)] = true := by decide +kernel
theorem exTrio_alone : (exForeign exTrio[1] exTrioMoves [['o']] 3 && exForeign exTrio[2] exTrioMoves [['o']] 3 && exForeign exTrio[0] exTrioMoves [['u']] 4 && exForeign exTrio[2] exTrioMoves [['u']] 4 &&
  exForeign exTrio[0] exTrioMoves [['h']] 6 && exForeign exTrio[2] exTrioMoves [['h']] 6) = true := by decide +kernel

/-- C104 is not vacuous: the hypotheses hold for these three commands; the first and the third succeed, the second finds nothing to erase any more and fails; `x` is gone, and `o` and `u` are there. -/
example : GoodDisk (exShared [1, 2, 3]) ∧ HasAt (exShared [1, 2, 3]) [['x']] 0 [1, 2, 3] ∧
    (∀ (k : Nat) (c : Started Bytes), exTrio[k]? = some c → c.Foreign exTrioMoves [['x']] 0 ∨ ∃ input output params algorithm, c.Encrypts exTrioMoves 0 input output params algorithm ∧ c.Undisturbed exTrio k exTrioMoves output params.header) ∧
    ((startAll exTrio (exShared [1, 2, 3])).run exRounds).disk.dir = [([['h']], .file 6), ([['p']], .file 5), ([['u']], .file 4), ([['o']], .file 3), ([['k']], .file 2)] ∧
    Ended ((startAll exTrio (exShared [1, 2, 3])).run exRounds) 0 (.ok ()) [] := by
  have hC : exSys.C.Lawful := Example.toy_lawful _ (by decide)
  have hns : ∀ k, Io.short k ∉ (exSelf [1, 2, 3] []).sched := by simp [exSelf, exWorld, disk, World.on]
  have hA := exTrio_alone
  simp only [Bool.and_eq_true] at hA
  obtain ⟨⟨⟨⟨⟨a1, a2⟩, a3⟩, a4⟩, a5⟩, a6⟩ := hA
  have e0 : exTrio[0].Encrypts exTrioMoves 0 ['x'] ['o'] _ _ := exEncrypts_of rfl hC hns exTrio_first
  have e1 : exTrio[1].Encrypts exTrioMoves 0 ['x'] ['u'] _ _ := exEncrypts_of rfl hC hns exTrio_second
  have l0 : ∀ e ∈ exLeds exTrio[0] exTrioMoves [['o']], e ∈ [([['o']], 3)] := by
    have h := exTrio_first
    unfold exEncrypts at h
    simp only [Bool.and_eq_true, List.all_eq_true, List.contains_iff_mem] at h
    exact h.1.1.1
  have l1 : ∀ e ∈ exLeds exTrio[1] exTrioMoves [['u'], ['h']], e ∈ [([['u']], 4), ([['h']], 6)] := by
    have h := exTrio_second
    unfold exEncrypts at h
    simp only [Bool.and_eq_true, List.all_eq_true, List.contains_iff_mem] at h
    exact h.1.1.1
  refine ⟨exGood_of (by decide +kernel), ⟨by decide +kernel, by decide +kernel⟩, fun k c hc => ?_, by decide +kernel, exEnd_ok (by decide +kernel)⟩
  match k, hc with
  | 0, hc =>
    cases hc
    refine .inr ⟨_, _, _, _, e0, fun k' c' hc' hk name hn st hs p o hl => ?_⟩
    have := l0 _ (exLeds_of hn hs hl)
    simp only [List.mem_singleton, Prod.mk.injEq] at this
    obtain ⟨rfl, rfl⟩ := this
    match k', hc', hk with
    | 0, _, hk => exact absurd rfl hk
    | 1, hc', _ => cases hc'; exact exForeign_of a1
    | 2, hc', _ => cases hc'; exact exForeign_of a2
  | 1, hc =>
    cases hc
    refine .inr ⟨_, _, _, _, e1, fun k' c' hc' hk name hn st hs p o hl => ?_⟩
    have := l1 _ (exLeds_of hn hs hl)
    simp only [List.mem_cons, List.not_mem_nil, or_false, Prod.mk.injEq] at this
    match k', hc', hk with
    | 0, hc', _ =>
      cases hc'
      rcases this with ⟨rfl, rfl⟩ | ⟨rfl, rfl⟩
      · exact exForeign_of a3
      · exact exForeign_of a5
    | 1, _, hk => exact absurd rfl hk
    | 2, hc', _ =>
      cases hc'
      rcases this with ⟨rfl, rfl⟩ | ⟨rfl, rfl⟩
      · exact exForeign_of a4
      · exact exForeign_of a6
  | 2, hc => cases hc; exact .inl (exForeign_of exTrio_foreign)

/-! ### The same command twice -/

/-- The same command line twice: `x` is encrypted to `o` and erased. -/
def exTwins : List (Started Bytes) := List.replicate 2 ⟨exSys, .encrypt ['x'] ['o'] exErasing .aes256Gcm, exSelf [1, 2, 3] []⟩

/-- The second process opens `x`; then the first does all its work; then the second goes on. -/
def exTooLate : Machine := (startAll exTwins (exShared [1, 2, 3])).run (List.replicate 3 1 ++ List.replicate 60 0 ++ List.replicate 60 1)

/-- **C104 needs an output for each command.** The same command line, which encrypts `x` to `o` and erases it, is started twice.  The second process has opened `x`, but not read it, when the first one does all its work and reports success.  The second one then
empties `o` and encrypts to it what it finds in the file that was `x`, namely nothing, before it fails because there is nothing to erase.  `x` is gone, and what it held is nowhere on the disk: `o` decrypts, without an error, to an empty file. -/
theorem C104_same_output :
    contentAt (exShared [1, 2, 3]) [['x']] = some (some [1, 2, 3]) ∧ Ended exTooLate 0 (.ok ()) [] ∧ exTooLate.disk.dir = [([['o']], .file 3), ([['y']], .file 1), ([['k']], .file 2)] ∧
    exTooLate.disk.file 1 = [4, 5, 6] ∧ exTooLate.disk.file 2 = [112, 119] ∧ exTooLate.disk.file 0 = [] ∧
    (exDecrypt ['o'] ['r'] exParams (exLone.self.on exTooLate.disk)).1 = .ok () ∧ contentAt (exDecrypt ['o'] ['r'] exParams (exLone.self.on exTooLate.disk)).2.disk [['r']] = some (some []) :=
  ⟨by decide +kernel, exEnd_ok (by decide +kernel), by decide +kernel, by decide +kernel, by decide +kernel, by decide +kernel, by decide +kernel, by decide +kernel⟩

end Volaris.Props
