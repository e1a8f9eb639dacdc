import Verif.Proofs.Shown
import Verif.Props.CmdRoundTrip
import Verif.Props.Commands
import Verif.Props.Crash
/-!
# C87: generated passphrases
-/
namespace Volaris.Props
open Spec Cli
variable {σ : Type}

/-! ### C87 -/

/-- **C87, shown first.** Under every schedule of faults and however it ends: if a command that generates a passphrase has modified anything or succeeds, then it has printed the passphrase, before the first
call that modifies anything. -/
theorem C87_shown_first (s : Sys σ) (n : Int) (cmd : Prog Error Unit) (hg : Generates s n cmd) (w : World) (h : (cmd w).2.log ≠ w.log ∨ (cmd w).1 = .ok ()) :
    ∃ p, IsPassphrase s.words n w p ∧ ShownFirst w (cmd w).2 p :=
  generates_shown hg w (h.imp id fun h => ⟨(), h⟩)

/-- **C87, killed.** The same if the command is killed at any moment: the disk is as it was, or the passphrase is already on the screen. -/
theorem C87_killed (s : Sys σ) (n : Int) (cmd : Prog Error Unit) (hg : Generates s n cmd) (w v : World) (h : StoppedAt cmd w v) :
    v.disk = w.disk ∨ ∃ p, IsPassphrase s.words n w p ∧ ShownFirst w (cmd w).2 p := by
  obtain ⟨es, hc, hm⟩ := h
  by_cases hl : (cmd w).2.log = w.log
  · left
    unfold Calls at hc
    rw [hl] at hc
    have : es = [] := by
      have := congrArg List.length hc
      simp at this
      exact this
    subst this
    exact hm
  · exact .inr (C87_shown_first s n cmd hg w (.inl hl))

/-- **C87, it opens.** When everything is in place and the passphrase is to be generated, the encrypt command succeeds, and the output decrypts with the passphrase that was shown to what the input was. -/
theorem C87_opens (s : Sys σ) (hC : s.C.Lawful) (input output : List Char) (params : CryptoParams) (a : Algorithm) (secret : Bytes) (q : Path) (i : Nat) (n : Int) (w : World) (hk : params.key = .generate n)
    (h : EncryptReady s input output params a secret q i w) :
    ∃ w' p, encryptMode s input output params a w = (.ok (), w') ∧ ShownFirst w w' p ∧ Spec.Encrypted s.C s.cwd output params.header (stringBytes p) (w.file i) w' := by
  obtain ⟨w', he, hen⟩ := C68_encrypt s hC input output params a secret q i w h
  obtain ⟨p, hp, hs⟩ := C87_shown_first s n _ (.encrypt input output params a hk) w (.inr (by rw [he]))
  rw [he] at hs
  obtain ⟨-, u, hu, hsup⟩ := h.key
  rw [hk] at hsup
  have hr : u.rng = w.rng := by rcases hu with ⟨_, rfl⟩ | ⟨_, _, rest, _, rfl⟩ <;> rfl
  exact ⟨w', p, he, hs, passphrase_of_supplies hr hp hsup ▸ hen⟩

/-- **C87, nothing is lost.** Under every schedule of faults without short transfers and however the command ends: if the passphrase is generated and the three files are different, then afterwards the input is where it was with its
content, or it was to be erased and the output decrypts to its content with the passphrase on the screen. -/
theorem C87_safe (s : Sys σ) (hC : s.C.Lawful) (input output : List Char) (params : CryptoParams) (a : Algorithm) (w w' : World) (r : Res Cli.Error Unit) (q : Path) (i : Nat) (n : Int) (hk : params.key = .generate n)
    (hns : ∀ k, Io.short k ∉ w.sched) (hsep : Separate s.cwd input output params.header w) (hin : LeadsToFile w (toPath s.cwd input) q i)
    (he : encryptMode s input output params a w = (r, w')) :
    (LeadsToFile w' (toPath s.cwd input) q i ∧ w'.file i = w.file i) ∨
    (params.erase ≠ .ignoreFile ∧ ∃ p, ShownFirst w w' p ∧ Preserves s.C s.cwd output params.header (stringBytes p) (w.file i) q i w') := by
  by_cases hl : w'.log = w.log
  · left
    obtain ⟨es, hc, hd, _⟩ := (encryptMode_crashes s input output params a w).log
    rw [he] at hd
    unfold Calls at hc
    rw [he, hl] at hc
    have : es = [] := by
      have := congrArg List.length hc
      simp at this
      exact this
    subst this
    have hd : w'.disk = w.disk := hd
    exact ⟨leads_congr (congrArg Disk.dir hd) hin, congrFun (congrArg Disk.file hd) i⟩
  · rcases C48_encrypt_partial s hC input output params a w w' r q i hns hsep hin he with h | ⟨h1, secret, ⟨-, u, hu, hsup⟩, h3⟩
    · exact .inl h
    · right
      obtain ⟨p, hp, hs⟩ := C87_shown_first s n _ (.encrypt input output params a hk) w (.inl (by rw [he]; exact hl))
      rw [he] at hs
      rw [hk] at hsup
      exact ⟨h1, p, hs, passphrase_of_supplies (by rw [hu.1]) hp hsup ▸ h3⟩

/-- Two words of the list are generated and used as the key; the input is erased. -/
def exGenerated : CryptoParams := { exErasing with key := .generate 2 }

/-- The first random bytes choose the words `cd` and `ab`. -/
def exChoosing (sched : List Io) : World := { exWorld [] sched with rng := fun j => if j = 0 then 1 else if j < 16 then 0 else (j * 7).toUInt8 }

example : Generates exSys 2 (encryptMode exSys ['z'] ['o'] exGenerated .aes256Gcm) ∧ IsPassphrase exSys.words 2 (exChoosing []) "cd-ab".toList :=
  ⟨.encrypt _ _ exGenerated _ rfl, [['c', 'd'], ['a', 'b']], by decide +kernel, by decide +kernel, by decide +kernel⟩

example : (encryptMode exSys ['z'] ['o'] exGenerated .aes256Gcm (exChoosing [])).1 = .ok () ∧ (encryptMode exSys ['z'] ['o'] exGenerated .aes256Gcm (exChoosing [])).2.log ≠ [] ∧
    (encryptMode exSys ['z'] ['o'] exGenerated .aes256Gcm (exChoosing [])).2.out = [⟨0, 0, 0, "[-] Your generated passphrase is: cd-ab".toList⟩] ∧
    (encryptMode exSys ['z'] ['o'] exGenerated .aes256Gcm (exChoosing [])).2.look [['z']] = none ∧
    (decryptMode exSys ['o'] ['p'] exParams { (encryptMode exSys ['z'] ['o'] exGenerated .aes256Gcm (exChoosing [])).2 with env := some (stringBytes "cd-ab".toList) }).1 = .ok () :=
  ⟨by decide +kernel, by decide +kernel, by decide +kernel, by decide +kernel, by decide +kernel⟩

/-- Everything is in place for it. -/
example : EncryptReady exSys ['z'] ['o'] exGenerated .aes256Gcm (stringBytes "cd-ab".toList) [['z']] 2 (exChoosing []) where
  faultless := rfl
  names := by decide
  source := ⟨by rfl, by decide +kernel⟩
  separate := ⟨(exSeparate [] []).allocated, apart_congr (w := exWorld [] []) (w' := exChoosing []) rfl (exSeparate [] []).out, fun hd h => by cases h⟩
  target := ⟨[['o']], by rfl, .inr ⟨by decide +kernel, by decide +kernel⟩⟩
  header := fun hd h => by cases h
  key := by
    refine ⟨by decide, exChoosing [], .inl ⟨.inl ?_, rfl⟩, [['c', 'd'], ['a', 'b']], by decide +kernel, by decide +kernel, by decide +kernel⟩
    rintro ⟨q, n, h1, h2⟩
    have e : (exChoosing []).resolve (toPath exSys.cwd ['o']) = .ok [['o']] := by rfl
    rw [e] at h1
    cases h1
    have e2 : (exChoosing []).look [['o']] = none := by decide +kernel
    rw [e2] at h2
    cases h2
  primitives := toy_works _ _ _ (by decide)
  size := by decide +kernel

end Volaris.Props
