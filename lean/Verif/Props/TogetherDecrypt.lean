import Verif.Proofs.TogetherDecrypt
import Verif.Props.Together
/-!
# C105: several commands encrypt or decrypt one file, and erase it, at the same time
-/
namespace Volaris.Props
open Volaris.Spec Volaris.Cli Volaris.Example
variable {σ : Type}

/-- **C105.** Any number of commands run at the same time on one disk, interleaved in any order and perhaps not to their end; any number of them encrypt or decrypt the same file, each to its own output, and perhaps erase it then; the others have nothing to do
with it.  Faults may happen at any time, but no transfer is cut short.  At every moment, then, the file is where it was with its content, or there is an output of an encryption that opens to this content, or an output of a decryption with all that this
content decrypts to, each with a secret of the command that wrote it. -/
theorem C105_together (cs : List (Started σ)) (d : Disk) (hd : GoodDisk d) (order : List Nat) (q : Path) (i : Nat) (x : Bytes) (hx : HasAt d q i x)
    (hcs : ∀ (k : Nat) (c : Started σ), cs[k]? = some c → c.Foreign ((startAll cs d).moves order) q i ∨
      (∃ input output params algorithm, c.Encrypts ((startAll cs d).moves order) i input output params algorithm ∧ c.Undisturbed cs k ((startAll cs d).moves order) output params.header) ∨
      ∃ input output params, c.Decrypts ((startAll cs d).moves order) i input output params ∧ c.Undisturbed cs k ((startAll cs d).moves order) output none) :
    HasAt ((startAll cs d).run order).disk q i x ∨
      (∃ c ∈ cs, ∃ input output params algorithm, c.Encrypts ((startAll cs d).moves order) i input output params algorithm ∧ c.HasSealed ((startAll cs d).moves order) output params x ((startAll cs d).run order).disk) ∨
      ∃ c ∈ cs, ∃ input output params, c.Decrypts ((startAll cs d).moves order) i input output params ∧ c.HasOpened ((startAll cs d).moves order) output params x ((startAll cs d).run order).disk := by
  refine Dist.kept_or_made (P := fun d' => (∃ c ∈ cs, ∃ input output params algorithm, c.Encrypts ((startAll cs d).moves order) i input output params algorithm ∧ c.HasSealed ((startAll cs d).moves order) output params x d') ∨
      ∃ c ∈ cs, ∃ input output params, c.Decrypts ((startAll cs d).moves order) i input output params ∧ c.HasOpened ((startAll cs d).moves order) output params x d')
    (fun k c hc => (hcs k c hc).imp id ?_) hd hx order fun _ h => h
  rintro (⟨input, output, params, algorithm, he, hu⟩ | ⟨input, output, params, he, hu⟩)
  · exact ⟨Dist.encryptWork he hu fun d h => .inl ⟨c, List.mem_of_getElem? hc, input, output, params, algorithm, he, h⟩⟩
  · exact ⟨Dist.decryptWork he hu fun d h => .inr ⟨c, List.mem_of_getElem? hc, input, output, params, he, h⟩⟩

/-! ### The hypotheses are met -/

theorem exDecrypts_of {c : Started Bytes} {M : List (Disk × Disk)} {i : Nat} {input output : List Char} {params : CryptoParams} {T : List (Path × Nat)} (hc : c.cmd = .decrypt input output params)
    (hC : c.s.C.Lawful) (hns : ∀ k, Io.short k ∉ c.self.sched) (hh : params.header = none) (h : exEncrypts c M i input output none T = true) : c.Decrypts M i input output params := by
  have h := exEncrypts_of (c := { c with cmd := .encrypt input output { params with header := none } .aes256Gcm }) (T := T) rfl hC hns h
  refine ⟨hc, hC, hns, h.named, fun st hs p => h.apart output (List.mem_singleton.2 rfl) st hs p, fun he => h.own he output (List.mem_singleton.2 rfl), ?_⟩
  rw [hh]
  exact fun _ h => nomatch h

/-- An encrypted file. -/
def exHidden : Bytes := exSealed [1, 2, 3]

/-- `x`, which is encrypted, is decrypted to `o`, and encrypted once more to `u`, and both commands erase it; at the same time `y` is encrypted to `p` and erased. -/
def exMixed : List (Started Bytes) :=
  [⟨exSys, .decrypt ['x'] ['o'] exErasing, exSelf exHidden []⟩, ⟨exSys, .encrypt ['x'] ['u'] exErasing .aes256Gcm, exSelf exHidden []⟩, ⟨exSys, .encrypt ['y'] ['p'] { exErasing with key := .keyfile ['k'] } .aes256Gcm, exSelf exHidden []⟩]

def exMixedMoves : List (Disk × Disk) := (startAll exMixed (exShared exHidden)).moves exRounds

theorem exMixed_foreign : exForeign exMixed[2] exMixedMoves [['x']] 0 = true := by decide +kernel
theorem exMixed_first : exEncrypts exMixed[0] exMixedMoves 0 ['x'] ['o'] none [([['o']], 3)] = true := by decide +kernel
theorem exMixed_second : exEncrypts exMixed[1] exMixedMoves 0 ['x'] ['u'] none [([['u']], 4)] = true := by decide +kernel
theorem exMixed_alone : (exForeign exMixed[1] exMixedMoves [['o']] 3 && exForeign exMixed[2] exMixedMoves [['o']] 3 && exForeign exMixed[0] exMixedMoves [['u']] 4 && exForeign exMixed[2] exMixedMoves [['u']] 4) = true := by decide +kernel

/-- C105 is not vacuous: the hypotheses hold for these three commands; `x` is gone at the end, `o` holds what it decrypts to, and `u` is there too. -/
example : GoodDisk (exShared exHidden) ∧ HasAt (exShared exHidden) [['x']] 0 exHidden ∧
    (∀ (k : Nat) (c : Started Bytes), exMixed[k]? = some c → c.Foreign exMixedMoves [['x']] 0 ∨
      (∃ input output params algorithm, c.Encrypts exMixedMoves 0 input output params algorithm ∧ c.Undisturbed exMixed k exMixedMoves output params.header) ∨
      ∃ input output params, c.Decrypts exMixedMoves 0 input output params ∧ c.Undisturbed exMixed k exMixedMoves output none) ∧
    ((startAll exMixed (exShared exHidden)).run exRounds).disk.dir = [([['p']], .file 5), ([['u']], .file 4), ([['o']], .file 3), ([['k']], .file 2)] ∧
    ((startAll exMixed (exShared exHidden)).run exRounds).disk.file 3 = [1, 2, 3] := by
  have hC : exSys.C.Lawful := Example.toy_lawful _ (by decide)
  have hns : ∀ k, Io.short k ∉ (exSelf exHidden []).sched := by simp [exSelf, exWorld, disk, World.on]
  have hA := exMixed_alone
  simp only [Bool.and_eq_true] at hA
  obtain ⟨⟨⟨a1, a2⟩, a3⟩, a4⟩ := hA
  have leds : ∀ {c : Started Bytes} {input output : List Char} {T : List (Path × Nat)}, exEncrypts c exMixedMoves 0 input output none T = true → ∀ e ∈ exLeds c exMixedMoves [output], e ∈ T := by
    intro c input output T h
    unfold exEncrypts at h
    simp only [Bool.and_eq_true, List.all_eq_true, List.contains_iff_mem] at h
    exact h.1.1.1
  refine ⟨exGood_of (by decide +kernel), ⟨by decide +kernel, by decide +kernel⟩, fun k c hc => ?_, by decide +kernel, by decide +kernel⟩
  match k, hc with
  | 0, hc =>
    cases hc
    refine .inr (.inr ⟨_, _, _, exDecrypts_of rfl hC hns rfl exMixed_first, fun k' c' hc' hk name hn st hs p o hl => ?_⟩)
    have := leds exMixed_first _ (exLeds_of hn hs hl)
    simp only [List.mem_singleton, Prod.mk.injEq] at this
    obtain ⟨rfl, rfl⟩ := this
    match k', hc', hk with
    | 0, _, hk => exact absurd rfl hk
    | 1, hc', _ => cases hc'; exact exForeign_of a1
    | 2, hc', _ => cases hc'; exact exForeign_of a2
  | 1, hc =>
    cases hc
    refine .inr (.inl ⟨_, _, _, _, exEncrypts_of rfl hC hns exMixed_second, fun k' c' hc' hk name hn st hs p o hl => ?_⟩)
    have := leds exMixed_second _ (exLeds_of hn hs hl)
    simp only [List.mem_singleton, Prod.mk.injEq] at this
    obtain ⟨rfl, rfl⟩ := this
    match k', hc', hk with
    | 0, hc', _ => cases hc'; exact exForeign_of a3
    | 1, _, hk => exact absurd rfl hk
    | 2, hc', _ => cases hc'; exact exForeign_of a4
  | 2, hc => cases hc; exact .inl (exForeign_of exMixed_foreign)

/-! ### The same command twice -/

/-- The same command line twice: `x` is decrypted to `o` and erased. -/
def exTwinDecrypts : List (Started Bytes) := List.replicate 2 ⟨exSys, .decrypt ['x'] ['o'] exErasing, exSelf exHidden []⟩

/-- The second process opens `x`; then the first does all its work; then the second goes on. -/
def exDecryptTooLate : Machine := (startAll exTwinDecrypts (exShared exHidden)).run (List.replicate 3 1 ++ List.replicate 60 0 ++ List.replicate 60 1)

/-- **C105 needs an output for each command.** The same command line, which decrypts `x` to `o` and erases it, is started twice.  The second process has opened `x`, but not read it, when the first one does all its work and reports success.  The second one then
empties `o` before it finds that there is nothing left in the file that was `x`, and fails.  Both the encrypted file and what the first process made of it are gone: `o` is empty. -/
theorem C105_same_output :
    contentAt (exShared exHidden) [['x']] = some (some (exSealed [1, 2, 3])) ∧ Ended exDecryptTooLate 0 (.ok ()) [] ∧ exDecryptTooLate.disk.dir = [([['o']], .file 3), ([['y']], .file 1), ([['k']], .file 2)] ∧
    exDecryptTooLate.disk.file 1 = [4, 5, 6] ∧ exDecryptTooLate.disk.file 2 = [112, 119] ∧ exDecryptTooLate.disk.file 0 = [] ∧ exDecryptTooLate.disk.file 3 = [] :=
  ⟨by decide +kernel, exEnd_ok (by decide +kernel), by decide +kernel, by decide +kernel, by decide +kernel, by decide +kernel, by decide +kernel⟩

end Volaris.Props
