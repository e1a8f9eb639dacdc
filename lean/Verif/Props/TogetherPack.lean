import Verif.Proofs.TogetherDecrypt
import Verif.Proofs.TogetherPack
import Verif.Props.TogetherDecrypt
import Verif.Props.PackCmd
/-!
# C106: several commands pack, encrypt or decrypt one file, and erase it, at the same time
-/
namespace Volaris.Props
open Volaris.Spec Volaris.Cli Volaris.Example
variable {σ : Type}

/-- **C106.** Any number of commands run at the same time on one disk, interleaved in any order and perhaps not to their end; any number of them pack directories with the same file somewhere below, or encrypt or decrypt the file, each to its own output, and
perhaps erase it then; the others have nothing to do with it.  Faults may happen at any time, but no transfer is cut short.  At every moment, then, the file is where it was with its content, or there is the output of a packing that opens to an archive with a
member that has the path of the file and this content, or the output of an encryption that opens to this content, or the output of a decryption with all that this content decrypts to, each with a secret of the command that wrote it. -/
theorem C106_together (cs : List (Started σ)) (d : Disk) (hd : GoodDisk d) (order : List Nat) (q : Path) (i : Nat) (x : Bytes) (hx : HasAt d q i x)
    (hcs : ∀ (k : Nat) (c : Started σ), cs[k]? = some c → c.Foreign ((startAll cs d).moves order) q i ∨
      (∃ inputs output packParams params algorithm input ns, c.Packs ((startAll cs d).moves order) q i inputs output packParams params algorithm input ns ∧ c.Undisturbed cs k ((startAll cs d).moves order) output params.header ∧
        c.TempUndisturbed cs k ((startAll cs d).moves order)) ∨
      (∃ input output params algorithm, c.Encrypts ((startAll cs d).moves order) i input output params algorithm ∧ c.Undisturbed cs k ((startAll cs d).moves order) output params.header) ∨
      ∃ input output params, c.Decrypts ((startAll cs d).moves order) i input output params ∧ c.Undisturbed cs k ((startAll cs d).moves order) output none) :
    HasAt ((startAll cs d).run order).disk q i x ∨
      (∃ c ∈ cs, ∃ inputs output packParams params algorithm input ns, c.Packs ((startAll cs d).moves order) q i inputs output packParams params algorithm input ns ∧
        c.HasPacked ((startAll cs d).moves order) output params input ns x ((startAll cs d).run order).disk) ∨
      (∃ c ∈ cs, ∃ input output params algorithm, c.Encrypts ((startAll cs d).moves order) i input output params algorithm ∧ c.HasSealed ((startAll cs d).moves order) output params x ((startAll cs d).run order).disk) ∨
      ∃ c ∈ cs, ∃ input output params, c.Decrypts ((startAll cs d).moves order) i input output params ∧ c.HasOpened ((startAll cs d).moves order) output params x ((startAll cs d).run order).disk := by
  refine Dist.kept_or_made (P := fun d' => (∃ c ∈ cs, ∃ inputs output packParams params algorithm input ns, c.Packs ((startAll cs d).moves order) q i inputs output packParams params algorithm input ns ∧
        c.HasPacked ((startAll cs d).moves order) output params input ns x d') ∨
      (∃ c ∈ cs, ∃ input output params algorithm, c.Encrypts ((startAll cs d).moves order) i input output params algorithm ∧ c.HasSealed ((startAll cs d).moves order) output params x d') ∨
      ∃ c ∈ cs, ∃ input output params, c.Decrypts ((startAll cs d).moves order) i input output params ∧ c.HasOpened ((startAll cs d).moves order) output params x d')
    (fun k c hc => (hcs k c hc).imp id ?_) hd hx order fun _ h => h
  rintro (⟨inputs, output, packParams, params, algorithm, input, ns, he, hu, ht⟩ | ⟨input, output, params, algorithm, he, hu⟩ | ⟨input, output, params, he, hu⟩)
  · exact ⟨Dist.packWork he hu ht fun d h => .inl ⟨c, List.mem_of_getElem? hc, inputs, output, packParams, params, algorithm, input, ns, he, h⟩⟩
  · exact ⟨Dist.encryptWork he hu fun d h => .inr (.inl ⟨c, List.mem_of_getElem? hc, input, output, params, algorithm, he, h⟩)⟩
  · exact ⟨Dist.decryptWork he hu fun d h => .inr (.inr ⟨c, List.mem_of_getElem? hc, input, output, params, he, h⟩)⟩

/-! ### The hypotheses are met -/

/-- What can be computed of `Started.Packs`; `T` are the files that the names of output and header led to, `top` is the directory that is packed. -/
def exPacks (c : Started Bytes) (M : List (Disk × Disk)) (q : Path) (i : Nat) (inputs : List (List Char)) (output : List Char) (header : Option (List Char)) (input : List Char) (top : Path) (T : List (Path × Nat)) : Bool :=
  (exLeds c M (output :: header.toList)).all (fun e => T.contains e) && T.all (fun e => decide (e.2 ≠ i)) && ((exLeds c M header.toList).all fun e => (exLeds c M [output]).all fun e' => decide (e.2 ≠ e'.2)) &&
    (M.all fun st => match (c.self.on st.1).resolve (toPath c.s.cwd input) with | .ok p => decide (p = top) | .error _ => decide (lookDisk st.1 q ≠ some (.file i))) &&
    (inputs.all fun f => M.all fun st => match (c.self.on st.1).resolve (toPath c.s.cwd f) with
      | .ok p => T.all fun e => !p.isPrefixOf e.1 && (st.1.dir ++ st.2.dir).all fun g => match g.2 with | .file j => decide (j ≠ e.2) || !p.isPrefixOf g.1 | .dir => true
      | .error _ => true) &&
    c.temporary.all fun path => M.all fun st => match (c.self.on st.1).resolve path with
      | .ok p => ((q, i) :: T).all fun e => decide (p ≠ e.1) && decide (lookDisk st.1 p ≠ some (.file e.2)) && decide (lookDisk st.2 p ≠ some (.file e.2))
      | .error _ => true

theorem exPacks_of {c : Started Bytes} {M : List (Disk × Disk)} {q : Path} {i : Nat} {inputs : List (List Char)} {output : List Char} {packParams : PackParams} {params : CryptoParams} {algorithm : Algorithm} {input : List Char} {ns : List Name} {top : Path}
    {T : List (Path × Nat)} (hc : c.cmd = .pack inputs output packParams params algorithm) (hC : c.s.C.Lawful) (hz : c.s.z.Lawful) (hns : ∀ k, Io.short k ∉ c.self.sched) (hin : input ∈ inputs) (hne : ns ≠ []) (hq : q = top ++ ns)
    (h : exPacks c M q i inputs output params.header input top T = true) : c.Packs M q i inputs output packParams params algorithm input ns := by
  unfold exPacks at h
  simp only [Bool.and_eq_true, List.all_eq_true, decide_eq_true_eq, List.contains_iff_mem] at h
  obtain ⟨⟨⟨⟨⟨h1, h2⟩, h3⟩, h4⟩, h5⟩, h6⟩ := h
  refine ⟨hc, hC, hz, hns, hin, ⟨hne, top, hq, fun st hs hl => ?_⟩, fun name hn st hs p hl => h2 _ (h1 _ (exLeds_of hn hs hl)) rfl,
    fun name hn st hs st' hs' p p' o hl hl' => h3 _ (exLeds_of hn hs' hl') _ (exLeds_of (List.mem_singleton.2 rfl) hs hl) rfl, fun _ f hf name hn st hs p o hl st' hs' top ht => ?_, fun path hp st hs p hr => ?_⟩
  · have := h4 st hs
    split at this
    · next p hp => rw [hp, of_decide_eq_true this]
    · exact absurd hl (of_decide_eq_true this)
  · have := h5 f hf st' hs'
    rw [ht] at this
    simp only [Bool.and_eq_true, List.all_eq_true] at this
    obtain ⟨g1, g2⟩ := this _ (h1 _ (exLeds_of hn hs hl))
    refine ⟨fun hp => ?_, fun p' hp => ⟨fun hl => ?_, fun hl => ?_⟩⟩
    · rw [List.isPrefixOf_iff_prefix.2 hp] at g1; cases g1
    · have := g2 _ (List.mem_append_left _ (exEntry hl))
      simp [List.isPrefixOf_iff_prefix.2 hp] at this
    · have := g2 _ (List.mem_append_right _ (exEntry hl))
      simp [List.isPrefixOf_iff_prefix.2 hp] at this
  · have := h6 path hp st hs
    rw [hr] at this
    simp only [List.all_eq_true, Bool.and_eq_true, decide_eq_true_eq] at this
    refine ⟨⟨(this _ (List.mem_cons_self ..)).1.1, (this _ (List.mem_cons_self ..)).1.2, (this _ (List.mem_cons_self ..)).2⟩, fun name hn st' hs' p' o hl => ?_⟩
    have := this _ (List.mem_cons_of_mem _ (h1 _ (exLeds_of hn hs' hl)))
    exact ⟨this.1.1, this.1.2, this.2⟩

/-- What the outputs and the temporary files of a command are. -/
def exTemps (c : Started Bytes) (M : List (Disk × Disk)) : List (Path × Nat) :=
  c.temporary.flatMap fun path => M.filterMap fun st => match (c.self.on st.1).resolve path with
    | .ok p => match lookDisk st.2 p with
      | some (.file o) => some (p, o)
      | _ => none
    | .error _ => none

theorem exTemps_of {c : Started Bytes} {M : List (Disk × Disk)} {path : PathBuf} (hp : path ∈ c.temporary) {st : Disk × Disk} (hs : st ∈ M) {p : Path} {o : Nat} (hr : (c.self.on st.1).resolve path = .ok p) (hl : lookDisk st.2 p = some (.file o)) : (p, o) ∈ exTemps c M :=
  List.mem_flatMap.2 ⟨path, hp, List.mem_filterMap.2 ⟨st, hs, by rw [hr]; simp only; rw [hl]⟩⟩

/-- Nobody else has anything to do with the outputs and the temporary file of the command with number `k`. -/
def exLonely (cs : List (Started Bytes)) (k : Nat) (M : List (Disk × Disk)) (c : Started Bytes) (names : List (List Char)) : Bool :=
  (List.range cs.length).all fun k' => decide (k' = k) || match cs[k']? with
    | some c' => (exLeds c M names ++ exTemps c M).eraseDups.all fun e => exForeign c' M e.1 e.2
    | none => true

theorem exLonely_of {cs : List (Started Bytes)} {k : Nat} {M : List (Disk × Disk)} {c : Started Bytes} {output : List Char} {header : Option (List Char)} (h : exLonely cs k M c (output :: header.toList) = true) : c.Undisturbed cs k M output header ∧ c.TempUndisturbed cs k M := by
  have all : ∀ k' c', cs[k']? = some c' → k' ≠ k → ∀ e ∈ exLeds c M (output :: header.toList) ++ exTemps c M, c'.Foreign M e.1 e.2 := by
    intro k' c' hc hk e he
    unfold exLonely at h
    have := List.all_eq_true.1 h k' (List.mem_range.2 (List.getElem?_eq_some_iff.1 hc).1)
    rw [hc] at this
    simp only [Bool.or_eq_true, decide_eq_true_eq, hk, false_or, List.all_eq_true] at this
    exact exForeign_of (this e (List.mem_eraseDups.2 he))
  exact ⟨fun k' c' hc hk name hn st hs p o hl => all k' c' hc hk (p, o) (List.mem_append_left _ (exLeds_of hn hs hl)), fun k' c' hc hk path hp st hs p o hr hl => all k' c' hc hk (p, o) (List.mem_append_right _ (exTemps_of hp hs hr hl))⟩

/-- A directory `a` with a file `x`, and a key file. -/
def exHouse : Disk where
  file := fun i => if i = 0 then [1, 2, 3] else [112, 119]
  nextIno := 2
  dir := [([['a'], ['x']], .file 0), ([['a']], .dir), ([['k']], .file 1)]

def exInHouse : World := (exWorld [] []).on exHouse

/-- `a` is packed to `o` and erased, and is packed to `r` with the header in `h`; at the same time `a/x` is encrypted to `u` and erased. -/
def exPackers : List (Started Bytes) :=
  [⟨exPackSys, .pack [['a']] ['o'] ⟨true⟩ { exParams with force := .forced } .aes256Gcm, exInHouse⟩,
    ⟨exPackSys, .pack [['a']] ['r'] ⟨false⟩ { exParams with key := .keyfile ['k'], header := some ['h'] } .aes256Gcm, { exInHouse with rng := fun n => exInHouse.rng (n + 1) + 1 }⟩,
    ⟨exPackSys, .encrypt ['a', '/', 'x'] ['u'] exErasing .aes256Gcm, exInHouse⟩]

/-- The third command starts when the others have read `x`. -/
def exPackOrder : List Nat := (List.replicate 22 [0, 1]).flatten ++ (List.replicate 36 [2, 0, 1]).flatten

def exPackersMoves : List (Disk × Disk) := (startAll exPackers exHouse).moves exPackOrder

def exPackersEnd : Machine := (startAll exPackers exHouse).run exPackOrder

theorem exPackers_first : exPacks exPackers[0] exPackersMoves [['a'], ['x']] 0 [['a']] ['o'] none ['a'] [['a']] [([['o']], 2)] = true := by decide +kernel
theorem exPackers_second : exPacks exPackers[1] exPackersMoves [['a'], ['x']] 0 [['a']] ['r'] (some ['h']) ['a'] [['a']] [([['r']], 3), ([['h']], 4)] = true := by decide +kernel
theorem exPackers_third : exEncrypts exPackers[2] exPackersMoves 0 ['a', '/', 'x'] ['u'] none [([['u']], 7)] = true := by decide +kernel
theorem exPackers_alone : (exLonely exPackers 0 exPackersMoves exPackers[0] [['o']] && exLonely exPackers 1 exPackersMoves exPackers[1] [['r'], ['h']] && exLonely exPackers 2 exPackersMoves exPackers[2] [['u']]) = true := by decide +kernel

/-- C106 is not vacuous: the hypotheses hold for these three commands; the second and the third succeed, the first finds `a/x` gone when it erases `a` and fails; `o`, `r` with `h`, and `u` are there, and `o` opens to an archive with `a/x` in it. -/
example : GoodDisk exHouse ∧ HasAt exHouse [['a'], ['x']] 0 [1, 2, 3] ∧
    (∀ (k : Nat) (c : Started Bytes), exPackers[k]? = some c → c.Foreign exPackersMoves [['a'], ['x']] 0 ∨
      (∃ inputs output packParams params algorithm input ns, c.Packs exPackersMoves [['a'], ['x']] 0 inputs output packParams params algorithm input ns ∧ c.Undisturbed exPackers k exPackersMoves output params.header ∧ c.TempUndisturbed exPackers k exPackersMoves) ∨
      (∃ input output params algorithm, c.Encrypts exPackersMoves 0 input output params algorithm ∧ c.Undisturbed exPackers k exPackersMoves output params.header) ∨
      ∃ input output params, c.Decrypts exPackersMoves 0 input output params ∧ c.Undisturbed exPackers k exPackersMoves output none) ∧
    exPackersEnd.disk.dir = [([['u']], .file 7), ([['h']], .file 4), ([['r']], .file 3), ([['o']], .file 2), ([['a']], .dir), ([['k']], .file 1)] ∧
    (contentAt (exDecrypt ['o'] ['w'] exParams (exInHouse.on exPackersEnd.disk)).2.disk [['w']]).join.bind toyZip.decode = some [⟨['a', '/'], true, [], true⟩, ⟨['a', '/', 'x'], true, [1, 2, 3], true⟩] := by
  have hC : exPackSys.C.Lawful := Example.toy_lawful _ (by decide)
  have hns : ∀ k, Io.short k ∉ exInHouse.sched := by simp [exInHouse, exWorld, disk, World.on]
  have hA := exPackers_alone
  simp only [Bool.and_eq_true] at hA
  obtain ⟨⟨a1, a2⟩, a3⟩ := hA
  refine ⟨exGood_of (by decide +kernel), ⟨by decide +kernel, by decide +kernel⟩, fun k c hc => ?_, by decide +kernel, by decide +kernel⟩
  match k, hc with
  | 0, hc => cases hc; exact .inr (.inl ⟨_, _, _, _, _, _, [['x']], exPacks_of rfl hC toyZip_lawful hns (List.mem_singleton.2 rfl) (by decide) rfl exPackers_first, exLonely_of (header := none) a1⟩)
  | 1, hc => cases hc; exact .inr (.inl ⟨_, _, _, _, _, _, [['x']], exPacks_of rfl hC toyZip_lawful hns (List.mem_singleton.2 rfl) (by decide) rfl exPackers_second, exLonely_of (header := some ['h']) a2⟩)
  | 2, hc => cases hc; exact .inr (.inr (.inl ⟨_, _, _, _, exEncrypts_of rfl hC hns exPackers_third, (exLonely_of (header := none) a3).1⟩))

/-! ### The same command twice -/

/-- The same command line twice: `a` is packed to `o` and erased. -/
def exPackTwins : List (Started Bytes) :=
  [⟨exPackSys, .pack [['a']] ['o'] ⟨true⟩ { exParams with force := .forced } .aes256Gcm, exInHouse⟩,
    ⟨exPackSys, .pack [['a']] ['o'] ⟨true⟩ { exParams with force := .forced } .aes256Gcm, { exInHouse with rng := fun n => exInHouse.rng (n + 1) + 1 }⟩]

/-- The second process looks at `a`; then the first does all its work; then the second goes on. -/
def exPackTooLate : Machine := (startAll exPackTwins exHouse).run (List.replicate 3 1 ++ List.replicate 80 0 ++ List.replicate 80 1)

theorem exEnd_bad {m : Machine} {i : Nat} {screen : List Printed} (h : exEnd m i = some (false, screen)) : ∃ r, Ended m i r screen ∧ r ≠ .ok () := by
  unfold exEnd at h
  cases hp : m.procs[i]? with
  | none => rw [hp] at h; cases h
  | some p =>
    rw [hp] at h
    rcases p with ⟨self, rest⟩
    cases rest with
    | step eff k => cases h
    | done r => cases r with
      | ok r => cases h
      | err e => cases h; exact ⟨_, ⟨_, hp, rfl, rfl⟩, nofun⟩
      | abort a => cases h; exact ⟨_, ⟨_, hp, rfl, rfl⟩, nofun⟩

/-- **C106 needs an output for each command.** The same command line, which packs `a` to `o` and erases it, is started twice.  The second process has seen that `a` is a directory when the first one does all its work and reports success.  The second one then
empties `o` before it fails, because there is no `a` to list.  Now `a` is gone, `o` is empty, and what `a/x` held is nowhere on the disk. -/
theorem C106_same_output :
    contentAt exHouse [['a'], ['x']] = some (some [1, 2, 3]) ∧ Ended exPackTooLate 0 (.ok ()) [] ∧ (∃ r, Ended exPackTooLate 1 r [] ∧ r ≠ .ok ()) ∧
    exPackTooLate.disk.dir = [([['o']], .file 2), ([['k']], .file 1)] ∧ exPackTooLate.disk.file 2 = [] ∧ exPackTooLate.disk.file 1 = [112, 119] ∧ exPackTooLate.disk.file 0 = [] :=
  ⟨by decide +kernel, exEnd_ok (by decide +kernel), exEnd_bad (by decide +kernel), by decide +kernel, by decide +kernel, by decide +kernel, by decide +kernel⟩

end Volaris.Props
