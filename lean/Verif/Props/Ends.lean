import Verif.Proofs.EndsLine
import Verif.Props.Announced
/-!
# C91: how commands end
-/
namespace Volaris.Props
open Volaris.Spec Volaris.Cli Volaris.Cli.Argv Volaris.Example
variable {σ : Type}

/-- **C91, encrypting.** Under every schedule of faults: if encrypting neither succeeds nor reports an error, then the user has declined a question about the output or the header file, or the one about a directory that
is to be erased, or the passphrase that was to be made up could not be. -/
theorem C91_encrypt (s : Sys σ) (hC : s.C.Lawful) (input output : List Char) (params : CryptoParams) (a : Algorithm) (w w' : World) (b : Abort) (h : encryptMode s input output params a w = (.abort b, w')) :
    GivesUp s.words (some params.key) (questionsFor (output :: params.header.toList)) w w' b := by
  have := (encryptMode_quits s hC input output params a w).2 b (by rw [h])
  rw [h] at this
  exact this

/-- **C91, decrypting.** The same, for any input whatever; the header file is only read. -/
theorem C91_decrypt (s : Sys σ) (hC : s.C.Lawful) (input output : List Char) (params : CryptoParams) (w w' : World) (b : Abort) (h : decryptMode s input output params w = (.abort b, w')) :
    GivesUp s.words (some params.key) (questionsFor [output]) w w' b := by
  have := (decryptMode_quits s hC input output params w).2 b (by rw [h])
  rw [h] at this
  exact this

/-- **C91, packing.** The same, for any trees of files and any format of archives. -/
theorem C91_pack (s : Sys σ) (hC : s.C.Lawful) (inputs : List (List Char)) (output : List Char) (pp : PackParams) (params : CryptoParams) (a : Algorithm) (w w' : World) (b : Abort)
    (h : packMode s inputs output pp params a w = (.abort b, w')) : GivesUp s.words (some params.key) (questionsFor (output :: params.header.toList)) w w' b := by
  have := (packMode_quits s hC inputs output pp params a w).2 b (by rw [h])
  rw [h] at this
  exact this

/-- **C91, erasing.** In whichever order the threads run. -/
theorem C91_erase (s : Sys σ) (input : List Char) (passes : Int) (force : ForceMode) (w w' : World) (b : Abort) (h : secureErase s input passes force w = (.abort b, w')) :
    GivesUp s.words none (questionsFor []) w w' b := by
  obtain ⟨rfl, t, d, hm, hd⟩ := (secureErase_ends (q := questionsFor []) s input passes force (fun _ => mem_erase _) w).2 b (by rw [h])
  rw [h] at hd
  exact .declined t d hm hd

/-- **C91, headers.** Copying out a header gives up only when the user declines to overwrite the output; restoring, stripping and showing headers, and hashing, always succeed or report an error, whatever the files contain. -/
theorem C91_headers (s : Sys σ) (input output : List Char) (force : ForceMode) (files : List (List Char)) (w : World) (b : Abort) :
    (∀ w', headerDump s input output force w = (.abort b, w') → b = .exit 0 ∧ Declined (overwriteQuestion output) true w w') ∧ (headerRestore s input output w).1 ≠ .abort b ∧ (headerStrip s input w).1 ≠ .abort b ∧
      (headerDetails s input w).1 ≠ .abort b ∧ (hashStream s files w).1 ≠ .abort b := by
  refine ⟨fun w' h => ?_, Ends.returns (headerRestore_ends s input output) w b, Ends.returns (headerStrip_ends s input) w b, Ends.returns (headerDetails_ends s input) w b, Ends.returns (hashStream_ends s files) w b⟩
  obtain ⟨rfl, t, d, hm, hd⟩ := (headerDump_ends (q := [(overwriteQuestion output, true)]) s input output force (fun _ => by simp) w).2 b (by rw [h])
  cases List.mem_singleton.1 hm
  rw [h] at hd
  exact ⟨rfl, hd⟩

/-- **C91, keys.** The key commands give up only when a passphrase that was to be made up could not be: the new one, or the only one. -/
theorem C91_keys (s : Sys σ) (hC : s.C.Lawful) (params : KeyManipulationParams) (hk : ∀ n, params.keyOld ≠ .generate n) (key : Key) (cmd : Prog Error Unit) (hc : (TwoKeys s params cmd ∧ key = params.keyNew) ∨ OneKey s key cmd)
    (w w' : World) (b : Abort) (h : cmd w = (.abort b, w')) : GivesUp s.words (some key) [] w w' b := by
  have : Quits s.words key [] cmd := by
    rcases hc with ⟨hc, rfl⟩ | hc
    · cases hc with
      | add input => exact keyAdd_quits s hC input params hk
      | change input => exact keyChange_quits s hC input params hk
    · cases hc with
      | delete input => exact keyDelete_quits s hC input key
      | verify input => exact keyVerify_quits s hC input key
  have := (this w).2 b (by rw [h])
  rw [h] at this
  exact this

/-- **C91.** Every command line that is not refused comes to an end, whatever is on the disk, whatever the user types and whichever operations fail; and it ends with success, with an error that is reported, or in one of
three ways: it is a line for unpacking, which panics at once; the user has just declined a question, about a file that the line names or about a directory, and the program exits; or there is no passphrase in the
environment and the one that was to be made up could not be, and the program panics. -/
theorem C91_line (s : Sys σ) (hC : s.C.Lawful) (argv : List (List Char)) (run : Prog Error (List String)) (hm : Cli.main s false argv = some run) (w w' : World) (r : Res Error (List String)) (h : run w = (r, w')) :
    (∃ out, r = .ok out) ∨ (∃ e, r = .err e) ∨ (UnpackLine argv ∧ r = .abort .panic ∧ w' = w) ∨
      (r = .abort (.exit 0) ∧ ∃ question default, AskedBy argv question default ∧ Declined question default w w') ∨ (r = .abort .panic ∧ w.env = none ∧ ∃ n, Unlucky s.words n w) := by
  cases r with
  | ok out => exact .inl ⟨out, rfl⟩
  | err e => exact .inr (.inl ⟨e, rfl⟩)
  | abort a =>
    rcases line_gives_up s hC hm h with ⟨h1, rfl, h2⟩ | ⟨rfl, g⟩ | ⟨rfl, g⟩
    · exact .inr (.inr (.inl ⟨h1, rfl, h2⟩))
    · exact .inr (.inr (.inr (.inl ⟨rfl, g⟩)))
    · exact .inr (.inr (.inr (.inr ⟨rfl, g⟩)))

/-! ### Each of the ways is taken -/

/-- What a line comes to on a machine with the small disk. -/
def exEnds (argv : List String) (w : World) : Option (Res Error (List String) × List (List Char)) :=
  (Cli.main exSys false (argv.map String.toList)).map fun run => ((run w).1, (run w).2.out.map (·.text))

/-- A machine without a passphrase in the environment whose random numbers are all `k`. -/
def exDice (k : UInt8) : World := { exWorld [] [] with env := none, rng := fun _ => k }

/-- A line that succeeds, one that reports an error, one for unpacking, two in which the user declines, and two that make up a passphrase, one with luck. -/
example : exEnds ["encrypt", "z", "o"] (exWorld [] []) = some (.ok [], []) ∧
    (exEnds ["encrypt", "q", "o"] (exWorld [] [])).map (·.1) = some (.err (.storage (.openFile .read))) ∧
    exEnds ["unpack", "z", "o"] (exWorld [] []) = some (.abort .panic, []) ∧
    exEnds ["encrypt", "z", "a/x"] (exWorld ["maybe\n", "no\n"] []) = some (.abort (.exit 0), [overwriteQuestion "a/x".toList, unrecognised, overwriteQuestion "a/x".toList]) ∧
    exEnds ["erase", "a"] (exWorld ["\n"] []) = some (.abort (.exit 0), [eraseQuestion]) ∧
    exEnds ["encrypt", "z", "o"] (exDice 1) = some (.abort .panic, []) ∧
    exEnds ["encrypt", "z", "o"] (exDice 0) = some (.ok [], ["[-] Your generated passphrase is: ab-ab-ab-ab-ab-ab-ab".toList]) :=
  ⟨by decide +kernel, by decide +kernel, by decide +kernel, by decide +kernel, by decide +kernel, by decide +kernel, by decide +kernel⟩

/-- What the theorem says of these lines is true of them. -/
example : exSys.C.Lawful ∧ Unlucky exSys.words 7 (exDice 1) ∧ UnpackLine ["unpack".toList, "z".toList, "o".toList] ∧ AskedBy ["encrypt".toList, "z".toList, "a/x".toList] (overwriteQuestion "a/x".toList) true :=
  ⟨Example.toy_lawful _ (by decide), ⟨0, by decide, by decide +kernel⟩, .inl rfl, .overwrite _ (.word (by simp))⟩

/-- Adding a made-up passphrase, with the old key in the environment; and with bad luck. -/
def exAddMadeUp (k : UInt8) : Res Error Unit × World :=
  keyAdd exSys ['z'] { exKeyParams with keyOld := .env, keyNew := .generate 3 } { exKeyWorld exTyped [] with env := some [112, 119], rng := fun _ => k }

example : TwoKeys exSys { exKeyParams with keyOld := .env, keyNew := .generate 3 } (keyAdd exSys ['z'] { exKeyParams with keyOld := .env, keyNew := .generate 3 }) ∧ (∀ n, Key.env ≠ .generate n) ∧
    (exAddMadeUp 0).1 = .ok () ∧ (exAddMadeUp 1).1 = .abort .panic :=
  ⟨.add ['z'], ⟨fun _ h => (by cases h), by decide +kernel, by decide +kernel⟩⟩

end Volaris.Props
