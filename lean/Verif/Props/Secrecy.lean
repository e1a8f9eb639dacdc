import Verif.Proofs.Secrecy
import Verif.Props.Crash
/-!
# C84–C86: what a run shows, and on what it depends

The statements compare a run with the run on a second machine.  For C84 and C85 the cipher and the password hash are the usual idealised ones: `LengthOnly`, `HidesChange` and `PasswordBlind` say that their *results* show nothing,
so a theorem under this assumption says that the program hands the secret to them and to nothing else: there is no way around them, neither into a file, nor into a name, nor into what is done and in which order.
-/
namespace Volaris.Props
open Spec Cli
variable {σ : Type}

/-! ### C84 -/

/-- **C84.** Two machines that differ only in the contents of files, not in their lengths, and have the same key: an `encrypt` command does the same on both, under every schedule of faults.  It ends in the same way, prints the same and makes
the same modifying system calls with the same bytes in the same order, and the disks look the same at the end and at every moment before.  So from what is written, from when and where it is written and from how the command ends
nobody learns more of the plaintext than its length. -/
theorem C84_encrypt (s : Sys σ) (hC : LengthOnly s.C) (input output : List Char) (params : CryptoParams) (a : Algorithm) (w : World) (g : Nat → Bytes) (hg : SameLengths w g) (hk : SameKey w g s.cwd params.key)
    (ho : params.hashMode = .calculateHash → SameAt w g (onPaper (toPath s.cwd output))) :
    LooksSame (encryptMode s input output params a) w (withFiles g w) ∧ SameDisks (encryptMode s input output params a) w (withFiles g w) g := by
  have hR := alike_start (f := id) (P := fun q => SameAt w g q) hg.content hg.there (fun q h => h)
  rw [← twin_id]
  have h := looksSame_of_both (w := w) (v := twin id g w) rfl (both_encryptMode s (d := .content) (output := output) (input := input) (L := publicAt .content fun q => SameAt w g q) trivial (sameText_content hC) (covers_same _) a publicAt_content
    (keyPlace fun p h1 h2 => hk p h1 h2) (fun h => publicAt_no (ho h)) (fun _ _ => publicAt_content) hR)
  exact ⟨h, sameDisks_of_looksSame (encryptMode_crashes _ _ _ _ _) h⟩

/-- A cipher that shows the length of the message and nothing else. -/
def exSilent : Crypto := { Example.toy with enc := fun _ _ _ _ msg => some (List.replicate (msg.length + 16) 0) }

/-- The second machine has another file `z`. -/
def exOther (j : Nat) : Bytes := if j = 2 then [7, 7, 7] else (exWorld [] []).file j

example : LengthOnly exSilent := fun _ _ _ _ msg msg' h => by simp only [exSilent, h]

example : SameLengths (exWorld [] []) exOther :=
  ⟨fun j => by
    by_cases h : j = 2
    · subst h; rfl
    · simp only [exOther, if_neg h], fun j hj => by
    have : j ≠ 2 := fun h => by subst h; exact absurd hj (by decide +kernel)
    simp only [exOther, if_neg this]⟩

example : SameKey (exWorld [] []) exOther [] exErasing.key := fun _ h => by cases h

def exWithSilent : Sys Bytes := { exSys with C := exSilent }

example : exOther 2 ≠ (exWorld [] []).file 2 ∧ (exWorld [] []).look [['z']] = some (.file 2) ∧ (encryptMode exWithSilent ['z'] ['o'] exErasing .aes256Gcm (exWorld [] [])).1 = .ok () ∧
    ((encryptMode exWithSilent ['z'] ['o'] exErasing .aes256Gcm (exWorld [] [])).2.file 1000).length = 435 :=
  ⟨by decide +kernel, by decide +kernel, by decide +kernel, by decide +kernel⟩

/-- With a cipher that shows more the runs can be told apart. -/
example : ¬ LooksSame (encryptMode exSys ['z'] ['o'] exErasing .aes256Gcm) (exWorld [] []) (withFiles exOther (exWorld [] [])) := fun h => by
  have := (h.2.1 (encryptMode exSys ['z'] ['o'] exErasing .aes256Gcm (exWorld [] [])).2.log.reverse).2 (by unfold Calls; rw [List.reverse_reverse]; decide +kernel)
  revert this
  unfold Calls
  decide +kernel

/-! ### C85 -/

/-- **C85, passwords.** Two machines that differ in the passwords, in the environment or to be typed, where the password hash gives the same for the one and the other, and in the contents of files that the command does not
read: a command does and prints the same on both, under every schedule of faults, and the disks look the same at the end and at every moment before.  So a password reaches the disk and the outcome only through the password hash; all that
can be seen besides is whether two typed passwords are the same and whether one is empty. -/
theorem C85_password (s : Sys σ) (cmd : Prog Error Unit) (reads : List (List Char)) (keys : List Key) (hu : UsesPassword s cmd reads keys) (f : Bytes → Bytes) (hC : HidesChange s.C f) (hf : Renames f) (w : World) (g : Nat → Bytes)
    (hg : SameLengths w g) (hr : ∀ r ∈ reads, ∀ q, onPaper (toPath s.cwd r) <+: q → SameAt w g q) (hk : ∀ key ∈ keys, SameKey w g s.cwd key) :
    LooksSame cmd w (twin f g w) ∧ SameDisks cmd w (twin f g w) g := by
  have hR := alike_start (f := f) (P := fun q => SameAt w g q) hg.content hg.there (fun q h => h)
  have h := looksSame_of_both (w := w) (v := twin f g w) rfl (usesPassword_both hu (d := .no) ⟨trivial, fun k fn s => (hC fn k s).symm, fun k k' h => by cases h; exact fun _ _ => rfl, hf.distinct, hf.empty⟩ hr (fun key h => keyPlace fun p h1 h2 => hk key h p h1 h2) hR)
  exact ⟨h, sameDisks_of_looksSame (usesPassword_crashes hu) h⟩

/-- **C85, key files.** The same when also the contents of the key files differ, but not in their lengths. -/
theorem C85_keyfile (s : Sys σ) (cmd : Prog Error Unit) (reads : List (List Char)) (keys : List Key) (hu : UsesPassword s cmd reads keys) (f : Bytes → Bytes) (hC : PasswordBlind s.C) (hf : Renames f) (w : World) (g : Nat → Bytes)
    (hg : SameLengths w g) (hr : ∀ r ∈ reads, ∀ q, onPaper (toPath s.cwd r) <+: q → SameAt w g q) :
    LooksSame cmd w (twin f g w) ∧ SameDisks cmd w (twin f g w) g := by
  have hR := alike_start (f := f) (P := fun q => SameAt w g q) hg.content hg.there (fun q h => h)
  have h := looksSame_of_both (w := w) (v := twin f g w) rfl (usesPassword_both hu (covers_blind hC hf.distinct hf.empty) hr (fun key _ => keyPlace_content) hR)
  exact ⟨h, sameDisks_of_looksSame (usesPassword_crashes hu) h⟩

/-- A password hash that shows only the length of the password. -/
def exHiding : Crypto := { Example.toy with kdf := fun fn password salt => some (Example.toyKdf fn (List.replicate password.length 0) salt) }

def exWithHiding : Sys Bytes := { exSys with C := exHiding }

example : HidesChange exHiding List.reverse := fun fn password salt => by simp only [exHiding, List.length_reverse]

example : Renames List.reverse := ⟨fun _ _ h => List.reverse_inj.1 h, fun _ => List.reverse_eq_nil_iff⟩

example : UsesPassword exWithHiding (encryptMode exWithHiding ['z'] ['o'] exErasing .aes256Gcm) [['z']] [.env] := .encrypt _ _ exErasing _

example : (exWorld [] []).env = some [112, 119] ∧ (twin List.reverse (exWorld [] []).file (exWorld [] [])).env = some [119, 112] ∧
    (encryptMode exWithHiding ['z'] ['o'] exErasing .aes256Gcm (exWorld [] [])).1 = .ok () :=
  ⟨by decide +kernel, by decide +kernel, by decide +kernel⟩

/-- With a hash that shows more the runs can be told apart. -/
example : ¬ LooksSame (encryptMode exSys ['z'] ['o'] exErasing .aes256Gcm) (exWorld [] []) (twin List.reverse (exWorld [] []).file (exWorld [] [])) := fun h => by
  have := (h.2.1 (encryptMode exSys ['z'] ['o'] exErasing .aes256Gcm (exWorld [] [])).2.log.reverse).2 (by unfold Calls; rw [List.reverse_reverse]; decide +kernel)
  revert this
  unfold Calls
  decide +kernel

/-- A password hash that shows nothing. -/
def exBlind : Crypto := { Example.toy with kdf := fun _ _ _ => some (List.replicate 32 5) }

/-- The key is in the file `a/x`. -/
def exKeyfile : CryptoParams := { exErasing with key := .keyfile ['a', '/', 'x'] }

/-- The second machine has another key in it. -/
def exOtherKey (j : Nat) : Bytes := if j = 0 then (exWorld [] []).file 0 |>.map (· + 1) else (exWorld [] []).file j

example : PasswordBlind exBlind ∧ SameLengths (exWorld [] []) exOtherKey ∧ ∀ q, onPaper (toPath [] ['z']) <+: q → SameAt (exWorld [] []) exOtherKey q := by
  refine ⟨fun _ _ _ _ => rfl, ⟨fun j => ?_, fun j hj => ?_⟩, fun q hq j hj => ?_⟩
  · by_cases h : j = 0
    · subst h; simp [exOtherKey]
    · simp only [exOtherKey, if_neg h]
  · have : j ≠ 0 := fun h => by subst h; exact absurd hj (by decide +kernel)
    simp only [exOtherKey, if_neg this]
  · have : j ≠ 0 := fun h => by
      subst h
      have hm : (q, Node.file 0) ∈ (exWorld [] []).dir := World.mem_of_look (fun h => by subst h; cases hj) hj
      have hm : (q, Node.file 0) ∈ ([([['a'], ['b'], ['y']], .file 1), ([['a'], ['b']], .dir), ([['a'], ['x']], .file 0), ([['a']], .dir), ([['z']], .file 2)] : List (Path × Node)) := hm
      simp at hm
      subst hm
      revert hq
      decide
    simp only [exOtherKey, if_neg this]

example : exOtherKey 0 ≠ (exWorld [] []).file 0 ∧ (encryptMode { exSys with C := exBlind } ['z'] ['o'] exKeyfile .aes256Gcm (exWorld [] [])).1 = .ok () :=
  ⟨by decide +kernel, by decide +kernel⟩

/-! ### C86 -/

/-- **C86.** Two machines that differ only in the contents of files that are neither at nor below a path that the line carries: the line does the same on both, under every schedule of faults, whatever those contents are.  It ends
in the same way, prints the same and makes the same modifying system calls with the same bytes in the same order, and the disks look the same at the end and at every moment before. -/
theorem C86_line (s : Sys σ) (debug : Bool) (argv : List (List Char)) (run : Prog Error (List String)) (h : Cli.main s debug argv = some run) (w : World) (g : Nat → Bytes) (hn : ∀ j, w.nextIno ≤ j → g j = w.file j)
    (hc : ∀ v, Carries argv v → ∀ q, onPaper (toPath s.cwd v) <+: q → SameAt w g q) :
    LooksSame run w (withFiles g w) ∧ SameDisks run w (withFiles g w) g := by
  have hR := alike_start (d := .anyhow) (f := id) (P := fun q => ∃ v, Carries argv v ∧ onPaper (toPath s.cwd v) <+: q) (g := g) (w := w) (fun _ => trivial) hn (fun q ⟨v, h1, h2⟩ => hc v h1 q h2)
  rw [← twin_id]
  have hl := looksSame_of_both_eq (w := w) (v := twin id g w) rfl (both_main (L := publicAt .anyhow fun q => ∃ v, Carries argv v ∧ onPaper (toPath s.cwd v) <+: q) h (fun v hv q hq => publicAt_no ⟨v, hv, hq⟩) hR)
  exact ⟨hl, sameDisks_of_looksSame (line_either (l := ⟨s, debug, argv⟩) h).1 hl⟩

/-- The line `encrypt z o --force 1`; the second machine has another file `a/x`, and of another length. -/
def exForced : List (List Char) := ["encrypt".toList, "z".toList, "o".toList, "--force".toList, "1".toList]

def exForcedRun : Prog Error (List String) := Cli.encrypt exSys { args := encryptArgs, given := [(.input, [['z']]), (.output, [['o']]), (.force, [['1']])] } >>= fun _ => pure []

def exLonger (j : Nat) : Bytes := if j = 0 then [1, 2, 3, 4, 5, 6, 7, 8, 9] else (exWorld [] []).file j

example : Cli.main exSys false exForced = some exForcedRun ∧ exLonger 0 ≠ (exWorld [] []).file 0 ∧ (exForcedRun (exWorld [] [])).1 = .ok [] ∧ (exForcedRun (exWorld [] [])).2.log ≠ [] :=
  ⟨rfl, by decide +kernel, by decide +kernel, by decide +kernel⟩

example : (∀ j, (exWorld [] []).nextIno ≤ j → exLonger j = (exWorld [] []).file j) ∧ ∀ v, Carries exForced v → ∀ q, onPaper (toPath exSys.cwd v) <+: q → SameAt (exWorld [] []) exLonger q := by
  refine ⟨fun j hj => ?_, fun v hv q hq j hj => ?_⟩
  · have : j ≠ 0 := fun h => by subst h; exact absurd hj (by decide +kernel)
    simp only [exLonger, if_neg this]
  · have : j ≠ 0 := fun h => by
      subst h
      have hm : (q, Node.file 0) ∈ (exWorld [] []).dir := World.mem_of_look (fun h => by subst h; cases hj) hj
      have hm : (q, Node.file 0) ∈ ([([['a'], ['b'], ['y']], .file 1), ([['a'], ['b']], .dir), ([['a'], ['x']], .file 0), ([['a']], .dir), ([['z']], .file 2)] : List (Path × Node)) := hm
      simp at hm
      subst hm
      revert hq
      cases hv with
      | word h =>
        simp only [exForced, List.tail_cons, List.mem_cons, List.not_mem_nil, or_false] at h
        rcases h with rfl | rfl | rfl | rfl <;> decide
      | long h =>
        simp [exForced] at h
        have := congrArg (fun l => decide ('=' ∈ l)) h
        simp at this
      | short hv h => 
        simp [exForced] at h
        obtain ⟨rfl, rfl⟩ := h
        decide
      | shortEq h => simp [exForced] at h
      | first hv h => simp [exForced] at h
      | firstEq h => simp [exForced] at h
    simp only [exLonger, if_neg this]

end Volaris.Props
