import Verif.Proofs.DisturbedDecrypt
import Verif.Props.Concurrent
/-!
# C102: decryption while other programs change the disk
-/
namespace Volaris.Props
open Volaris.Spec Volaris.Cli Volaris.Example
variable {σ : Type}

/-- **C102.** A file is decrypted, and before each step of the command other programs have changed the disk in any way they like: they replace the input, the header file or the key file while they are read, put blocks of one file into another,
or write to the output themselves.  If they cannot forge (what opens under a data key that the secret recovers was made for one of the files `made`), then what the command writes, in all its steps, is the beginning of the plaintext of one of these files, in order and
from position 0 of the file with the name of the output, which was just emptied; it writes to no other file.  It reports success only if it has written the whole plaintext, and erases the input only after that. -/
theorem C102_genuine (s : Sys σ) (input output : List Char) (params : CryptoParams) (self : World) (ds : List Disk) (made : Made → Prop) (hC : s.C.Lawful) (hm : ProperlyMade s.C made) (hold : NoneOld ds)
    (hf : ∀ pw, MaySupply params.key self ds pw → NothingForged s.C made pw ds) :
    Delivers made (params.erase ≠ .ignoreFile) ((Proc.after ds ⟨self, (Job.decrypt input output params).steps s⟩).rest = .done (.ok ())) (Leads self s.cwd output)
      (Proc.among ds ⟨self, (Job.decrypt input output params).steps s⟩) :=
  Dist.Ob.delivers (fun _ _ _ h => h) ds (fun _ h => h) (Dist.ob_decryptMode hC hm hold hf)

/-- Nobody else touches file `o` between these steps. -/
def Alone (o : Nat) : List (Disk × Disk) → Prop
  | st :: st' :: rest => st'.1.file o = st.2.file o ∧ Alone o (st' :: rest)
  | _ => True

/-- **C102, the output at the end.** If nobody else touches the output, it holds exactly what was written to it. -/
theorem C102_content (o : Nat) (q : Bytes) (first : Disk × Disk) (steps : List (Disk × Disk)) (h : Lays o 0 q steps) (h0 : first.2.file o = []) (ha : Alone o (first :: steps)) :
    ((first :: steps).getLast (by simp)).2.file o = q := by
  have go : ∀ (pos : Nat) (q : Bytes) (steps : List (Disk × Disk)), Lays o pos q steps → ∀ (first : Disk × Disk) (x : Bytes), first.2.file o = x → x.length = pos → Alone o (first :: steps) →
      ((first :: steps).getLast (by simp)).2.file o = x ++ q := by
    intro pos q steps h
    induction h with
    | nil => intro first x h0 _ _; simpa using h0
    | @idle pos q d d' rest hf _ ih =>
      intro first x h0 hl ha
      rw [List.getLast_cons (by simp)]
      exact ih (d, d') x (by simp only; rw [hf, ha.1]; exact h0) hl ha.2
    | @put pos b q d d' rest hb _ _ ih =>
      intro first x h0 hl ha
      rw [List.getLast_cons (by simp), ← List.append_assoc]
      refine ih (d, d') (x ++ b) ?_ (by simp [hl]) ha.2
      have e : d.file o = x := ha.1.trans h0
      simp only [hb, e]
      unfold writeAt
      split
      · next h => rw [h]; simp
      · simp [← hl]
  exact go 0 q steps h first [] h0 rfl ha

/-! ### An example: the only file ever made -/

/-- A key, a nonce, the header that goes with them, and the only ciphertext there is. -/
def exOnlyKey : Bytes := List.replicate 32 7
def exOnlyPre : Bytes := List.replicate 8 5
def exOnlyHead : Bytes := versionCode .v3 ++ algorithmCode .aes256Gcm ++ modeCode .streamMode ++ List.replicate 16 3 ++ List.replicate 16 0 ++ exOnlyPre ++ List.replicate 18 0
def exOnlySealed : Bytes := List.replicate 19 8

/-- A cipher that has been used once. -/
def exOnly : Crypto where
  enc a k n ad p := if a = .aes256Gcm ∧ k = exOnlyKey ∧ n = blockNonce exOnlyPre 0 true ∧ ad = exOnlyHead ∧ p = [1, 2, 3] then some exOnlySealed else none
  dec a k n ad c := if a = .aes256Gcm ∧ k = exOnlyKey ∧ n = blockNonce exOnlyPre 0 true ∧ ad = exOnlyHead ∧ c = exOnlySealed then some [1, 2, 3] else none
  kdf _ _ _ := some exOnlyKey
  ctrMax := 4

/-- What it was used for. -/
def exOnlyFile : Made := ⟨⟨⟨.v3, .aes256Gcm, .streamMode⟩, exOnlyPre, some (List.replicate 16 3), none⟩, exOnlyHead, exOnlyKey, [1, 2, 3]⟩

theorem exOnly_lawful : exOnly.Lawful where
  dec_enc := by
    intro a k n ad p c h
    simp only [exOnly] at h ⊢
    split at h
    · next hx => cases h; rw [if_pos ⟨hx.1, hx.2.1, hx.2.2.1, hx.2.2.2.1, rfl⟩, hx.2.2.2.2]
    · cases h
  enc_dec := by
    intro a k n ad p c h
    simp only [exOnly] at h ⊢
    split at h
    · next hx => cases h; rw [if_pos ⟨hx.1, hx.2.1, hx.2.2.1, hx.2.2.2.1, rfl⟩, hx.2.2.2.2]
    · cases h
  enc_len := by
    intro a k n ad p c h
    simp only [exOnly] at h
    split at h
    · next hx => cases h; rw [hx.2.2.2.2]; rfl
    · cases h
  kdf_len := by intro f p s k h; cases h; rfl
  ctr_lt := by decide

theorem exOnly_made : ProperlyMade exOnly (· = exOnlyFile) where
  header := by
    rintro f rfl
    exact ⟨exOnlyHead, by decide, by decide, ⟨by decide, by decide, by decide⟩, by decide⟩
  blocks := by rintro f rfl _; decide
  fresh := by rintro f f' rfl rfl _ _; rfl

theorem exOnly_unforged (pw : Bytes) (ds : List Disk) : NothingForged exOnly (· = exOnlyFile) pw ds := by
  intro d _ i c _ h mk _ n aad q _ hdec
  simp only [exOnly] at hdec
  split at hdec
  · next hx =>
    obtain ⟨h1, h2, h3, h4, h5⟩ := hx
    refine ⟨exOnlyFile, rfl, h1, h2, h4, [1, 2, 3], ?_, 0, true, ⟨by decide, .inr ⟨rfl, by decide⟩⟩, h3⟩
    simp only [exOnly, h1, h2, h3, h4, h5, and_self, if_true]
  · cases hdec

/-- `x` is decrypted to `o` and erased. -/
def exReveal : Started Bytes := ⟨{ exSys with C := exOnly }, .decrypt ['x'] ['o'] exErasing, exWorld [] []⟩

/-- A disk with the content `x` of `x`, and `o` if `o` is there. -/
def exSealedDisk (x : Bytes) (o : Option Bytes) : Disk :=
  ⟨fun i => if i = 0 then x else if i = 1 then o.getD [] else [], if o.isSome then 2 else 1, ([['x']], .file 0) :: (if o.isSome then [([['o']], .file 1)] else [])⟩

/-- While the command is working, and has just read the block, another program writes something else to `x`; later yet another one writes to `o`. -/
def exGarbling : List Disk :=
  List.replicate 7 (exSealedDisk (exOnlyHead ++ exOnlySealed) none) ++ List.replicate 2 (exSealedDisk (exOnlyHead ++ exOnlySealed) (some [])) ++
    [exSealedDisk [9, 9, 9] (some []), exSealedDisk [9, 9, 9] (some [1, 2, 3])] ++ List.replicate 20 (exSealedDisk [9, 9, 9] (some [4]))

theorem exGarbling_new : NoneOld exGarbling := by
  intro d hd i
  have : ∃ x o, d = exSealedDisk x o ∧ (¬ versionCode .v1 <+: x ∧ ¬ versionCode .v2 <+: x) ∧ (¬ versionCode .v1 <+: o.getD [] ∧ ¬ versionCode .v2 <+: o.getD []) := by
    simp only [exGarbling, List.mem_append, List.mem_replicate, List.mem_cons, List.not_mem_nil, or_false] at hd
    rcases hd with ((⟨_, rfl⟩ | ⟨_, rfl⟩) | rfl | rfl) | ⟨_, rfl⟩ <;> exact ⟨_, _, rfl, by decide, by decide⟩
  obtain ⟨x, o, rfl, hx, ho⟩ := this
  simp only [exSealedDisk]
  split
  · exact hx
  · split
    · exact ho
    · decide

def exRevealed : Proc := ⟨exReveal.self, exReveal.cmd.steps exReveal.s⟩

/-- C102 is not vacuous: the cipher has been used once, nobody can forge, the input is replaced while it is decrypted and the output written to by somebody else; the plaintext is written nevertheless, the command ends with success, and erases what is then called `x`. -/
example : exReveal.s.C.Lawful ∧ ProperlyMade exReveal.s.C (· = exOnlyFile) ∧ NoneOld exGarbling ∧ (∀ pw, MaySupply exErasing.key exReveal.self exGarbling pw → NothingForged exReveal.s.C (· = exOnlyFile) pw exGarbling) ∧
    (Proc.after exGarbling exRevealed).rest = .done (.ok ()) ∧
    (Proc.among exGarbling exRevealed).any (fun st => st.1.file 1 == [] && st.2.file 1 == [1, 2, 3]) = true ∧
    (Proc.among exGarbling exRevealed).any (fun st => st.1.file 0 == [9, 9, 9] && st.2.file 0 == []) = true := by
  refine ⟨exOnly_lawful, exOnly_made, exGarbling_new, fun pw _ => exOnly_unforged pw _, ?_, by decide +kernel, by decide +kernel⟩
  have h : (match (Proc.after exGarbling exRevealed).rest with | .done (.ok _) => true | _ => false) = true := by decide +kernel
  revert h
  split
  · next e => intro _; exact e
  · intro h; cases h

/-- Somebody replaces `x` by a file that was not made under the key before it is read: nothing is written, and the command fails. -/
example : (Proc.among (List.replicate 5 (exSealedDisk (exOnlyHead ++ exOnlySealed) none) ++ List.replicate 20 (exSealedDisk (exOnlyHead ++ List.replicate 19 0) (some []))) exRevealed).all (fun st => st.2.file 1 == []) = true := by
  decide +kernel
end Volaris.Props
