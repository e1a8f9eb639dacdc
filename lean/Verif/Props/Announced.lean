import Verif.Proofs.Announced
import Verif.Props.Commands
/-!
# C89: the key commands say which key they want before they take one
-/
namespace Volaris.Props
open Spec Cli Example
variable {σ : Type}

/-- **C89, the key.** `key add` and `key change`, whatever the schedule, the file and the outcome: if the key is to be typed, then no password is taken before the line that asks for the old key is on the screen, and
then nothing has been modified. -/
theorem C89_old (s : Sys σ) (params : KeyManipulationParams) (cmd : Prog Error Unit) (hc : TwoKeys s params cmd) (hk : params.keyOld = .user) (w : World) (ht : (cmd w).2.tty ≠ w.tty) :
    SaidBefore "[i] Please enter your old key below" w.tty w (cmd w).2 := by
  cases hc with
  | add input =>
    refine first_announced s input (fun h => ?_) hk w ht
    exact .bind (getSecret_crashes _ _ _ _) fun _ => .bind (announce_crashes _ _) fun _ => .bind (getSecret_crashes _ _ _ _) fun _ => .mapErr _ (.keyAdd _ _)
  | change input =>
    refine first_announced s input (fun h => ?_) hk w ht
    exact .bind (getSecret_crashes _ _ _ _) fun _ => .bind (announce_crashes _ _) fun _ => .bind (getSecret_crashes _ _ _ _) fun _ => .mapErr _ (.keyChange _ _)

/-- **C89, the new key.** And if the new key is to be typed, then no password is taken for it before the line that asks for the new key is on the screen: all that was taken before is one password
for the old key, if that is to be typed too. -/
theorem C89_new (s : Sys σ) (params : KeyManipulationParams) (cmd : Prog Error Unit) (hc : TwoKeys s params cmd) (hk : params.keyNew = .user) (w : World) :
    (cmd w).2.tty = w.tty ∨ (params.keyOld = .user ∧ (cmd w).2.tty = w.tty.drop 1) ∨
    SaidBefore "[i] Please enter your new key below" (if params.keyOld = .user then w.tty.drop 1 else w.tty) w (cmd w).2 := by
  cases hc with
  | add input => exact second_announced s input (fun h x => .bind (getSecret_crashes _ _ _ _) fun _ => .mapErr _ (.keyAdd _ _)) hk w
  | change input => exact second_announced s input (fun h x => .bind (getSecret_crashes _ _ _ _) fun _ => .mapErr _ (.keyChange _ _)) hk w

/-- **C89, one key.** The same for `key del` and `key verify`. -/
theorem C89_one (s : Sys σ) (key : Key) (cmd : Prog Error Unit) (hc : OneKey s key cmd) (hk : key = .user) (w : World) (ht : (cmd w).2.tty ≠ w.tty) :
    SaidBefore "[i] Please enter your key below" w.tty w (cmd w).2 := by
  cases hc with
  | delete input => exact first_announced s input (fun h => .bind (getSecret_crashes _ _ _ _) fun _ => .mapErr _ (.keyDelete _ _ _)) hk w ht
  | verify input => exact first_announced s input (fun h => .bind (getSecret_crashes _ _ _ _) fun _ => .mapErr _ (.keyVerify _ _ _)) hk w ht

/-- **C89, silence.** With keys from files, from standard input or from the environment the key commands print nothing. -/
theorem C89_silent (s : Sys σ) (params : KeyManipulationParams) (cmd : Prog Error Unit) (hc : TwoKeys s params cmd ∨ OneKey s params.keyOld cmd)
    (ho : params.keyOld ≠ .user ∧ ∀ n, params.keyOld ≠ .generate n) (hn : params.keyNew ≠ .user ∧ ∀ n, params.keyNew ≠ .generate n) (w : World) : (cmd w).2.out = w.out := by
  have h1 : ∀ input, Wordless (openV5 s input) := fun input => (openV5_still s input).wordless
  rcases hc with hc | hc
  · cases hc with
    | add input =>
      exact Wordless.bind (h1 input) (fun _ => .bind (announce_wordless ho.1 _) fun _ => .bind (getSecret_wordless _ _ _ ho.1 ho.2) fun _ => .bind (announce_wordless hn.1 _) fun _ =>
        .bind (getSecret_wordless _ _ _ hn.1 hn.2) fun _ => .mapErr _ (within_wordless (KeyOps.add_within _ _))) w
    | change input =>
      exact Wordless.bind (h1 input) (fun _ => .bind (announce_wordless ho.1 _) fun _ => .bind (getSecret_wordless _ _ _ ho.1 ho.2) fun _ => .bind (announce_wordless hn.1 _) fun _ =>
        .bind (getSecret_wordless _ _ _ hn.1 hn.2) fun _ => .mapErr _ (within_wordless (KeyOps.change_within _ _))) w
  · cases hc with
    | delete input =>
      exact Wordless.bind (h1 input) (fun _ => .bind (announce_wordless ho.1 _) fun _ => .bind (getSecret_wordless _ _ _ ho.1 ho.2) fun _ => .mapErr _ (within_wordless (KeyOps.delete_within _ _ _))) w
    | verify input =>
      exact Wordless.bind (h1 input) (fun _ => .bind (announce_wordless ho.1 _) fun _ => .bind (getSecret_wordless _ _ _ ho.1 ho.2) fun _ => .mapErr _ (within_wordless (verify_within _ _ _))) w

/-- The password for `z` and two different new ones are typed, then the new one twice: both lines are on the screen, the first before any password was typed, the second after the first; and then the warning.  If the first call
fails (the file cannot be opened) no password is taken; if the read of the first password fails, only the first line is on the screen. -/
example : TwoKeys exSys exKeyParams (keyAdd exSys ['z'] exKeyParams) ∧ exKeyParams.keyOld = .user ∧ exKeyParams.keyNew = .user ∧
    (exKeyAdd [[112, 119], [9], [8], [9, 9], [9, 9]] []).1 = .ok () ∧ (exKeyAdd [[112, 119], [9], [8], [9, 9], [9, 9]] []).2.tty = [] ∧
    (exKeyAdd [[112, 119], [9], [8], [9, 9], [9, 9]] []).2.out =
      [⟨0, 0, 2, "[-] The passwords aren't the same, please try again.".toList⟩, ⟨0, 0, 4, "[i] Please enter your new key below".toList⟩, ⟨0, 0, 5, "[i] Please enter your old key below".toList⟩] ∧
    (exKeyAdd exTyped [.fail]).2.out = [] ∧ (exKeyAdd exTyped [.fail]).2.tty = exTyped :=
  ⟨.add _, rfl, rfl, by decide +kernel, by decide +kernel, by decide +kernel, by decide +kernel, by decide +kernel⟩

/-- `key del` and `key verify`. -/
example : OneKey exSys .user (keyDelete exSys ['z'] .user) ∧ (exKeyDelete exTyped []).2.tty ≠ exTyped ∧ (exKeyDelete exTyped []).2.out = [⟨0, 0, 3, "[i] Please enter your key below".toList⟩] ∧
    (exKeyVerify exTyped []).2.out = [⟨0, 0, 3, "[i] Please enter your key below".toList⟩] :=
  ⟨.delete _, by decide +kernel, by decide +kernel, by decide +kernel⟩

/-- With keys from elsewhere the command works as well, without a word. -/
example : (keyAdd exSys ['z'] { exKeyParams with keyOld := .env, keyNew := .keyfile ['a', '/', 'x'] } { exKeyWorld exTyped [] with env := some [112, 119] }).1 = .ok () ∧
    (keyAdd exSys ['z'] { exKeyParams with keyOld := .env, keyNew := .keyfile ['a', '/', 'x'] } { exKeyWorld exTyped [] with env := some [112, 119] }).2.out = [] := ⟨by decide +kernel, by decide +kernel⟩

end Volaris.Props
