import Verif.Proofs.PowerLoss
import Verif.Props.Crash
import Verif.Props.Session
/-!
# C81: losing power
-/
namespace Volaris.Props
open Volaris.Spec Volaris.Cli Volaris.Cli.Argv

theorem leads_dir {v u : World} (h : v.dir = u.dir) {p : PathBuf} {q : Path} {i : Nat} (hl : LeadsToFile u p q i) : LeadsToFile v p q i := leads_congr h hl

/-- What every run of a program keeps, whatever fails, a power failure keeps too. -/
theorem power_leads {ε α : Type} {x : Prog ε α} {w v : World} {p : PathBuf} {q : Path} {i : Nat} (hx : Crashes x) (hal : Allocated w) (hin : LeadsToFile w p q i)
    (h : ∀ sc r w', x (w.withSched sc) = (r, w') → LeadsToFile w' p q i ∧ w'.file i = w.file i) (hv : AfterPowerLoss x w v) : LeadsToFile v p q i ∧ v.file i = w.file i := by
  have key : ∀ u, StoppedAt x w u → LeadsToFile u p q i ∧ u.file i = w.file i := by
    intro u hu
    obtain ⟨sc, r, w', he, hd⟩ := hx.stopped hu
    obtain ⟨h1, h2⟩ := h sc r w' he
    exact ⟨leads_disk hd h1, by rw [disk_file hd]; exact h2⟩
  obtain ⟨⟨u, hu, hd⟩, h2⟩ := power_keeps hv
  exact ⟨leads_dir hd (key u hu).1, h2 i (hal q i hin.look) fun u hu => (key u hu).2⟩

/-! ### Commands that erase -/

/-- **C81, encrypt.** Each time an encrypt command that was to erase its input succeeds, the power may fail so that the input is gone, with its name and its content, and nothing of what was written has
reached the disk: every file holds what it held before, or nothing. -/
theorem C81_encrypt_loses (s : Sys σ) (input output : List Char) (params : CryptoParams) (a : Algorithm) (w w' : World) (hal : Allocated w) (hm : params.erase ≠ .ignoreFile)
    (he : encryptMode s input output params a w = (.ok (), w')) :
    ∃ q i v, LeadsToFile w (toPath s.cwd input) q i ∧ AfterPowerLoss (encryptMode s input output params a) w v ∧ v.look q = none ∧ v.file i = [] ∧ NothingNew w v := by
  obtain ⟨v, h1, h2, h3, h4⟩ := power_dry (C71_complete s _ (.inl ⟨input, output, params, a, rfl⟩) w) hal
  rw [he] at h2 h3
  rcases encryptMode_cases s input output params a w he with ⟨_, h⟩ | ⟨u, q, i, secret, ht, hq, hsup, hp, ⟨h, _⟩ | ⟨_, h, _⟩ | ⟨n, u', hn, _, _, ⟨_, g1, g2⟩ | ⟨h, _⟩⟩⟩
  · exact absurd rfl h
  · exact absurd h hm
  · exact absurd rfl h
  · exact ⟨q, i, v, hq, h1, by rw [h2]; exact g1, h3 i g2, h4⟩
  · exact absurd rfl h

/-- **C81, decrypt.** The same for the decrypt command and the encrypted file. -/
theorem C81_decrypt_loses (s : Sys σ) (input output : List Char) (params : CryptoParams) (w w' : World) (hal : Allocated w) (hm : params.erase ≠ .ignoreFile)
    (he : decryptMode s input output params w = (.ok (), w')) :
    ∃ q i v, LeadsToFile w (toPath s.cwd input) q i ∧ AfterPowerLoss (decryptMode s input output params) w v ∧ v.look q = none ∧ v.file i = [] ∧ NothingNew w v := by
  obtain ⟨v, h1, h2, h3, h4⟩ := power_dry (C71_complete s _ (.inr (.inl ⟨input, output, params, rfl⟩)) w) hal
  rw [he] at h2 h3
  rcases decryptMode_cases s input output params w he with ⟨_, h⟩ | ⟨u, q, i, secret, ht, hq, hsup, hp, ⟨h, _⟩ | ⟨_, h, _⟩ | ⟨n, u', hn, _, _, ⟨_, g1, g2⟩ | ⟨h, _⟩⟩⟩
  · exact absurd rfl h
  · exact absurd h hm
  · exact absurd rfl h
  · exact ⟨q, i, v, hq, h1, by rw [h2]; exact g1, h3 i g2, h4⟩
  · exact absurd rfl h

/-- **C81, pack.** The same for the pack command that was to erase its sources: all that was below them is gone. -/
theorem C81_pack_loses (s : Sys σ) (hC : s.C.Lawful) (inputs : List (List Char)) (output : List Char) (pp : PackParams) (params : CryptoParams) (a : Algorithm) (w w' : World)
    (hns : ∀ k, Io.short k ∉ w.sched) (ht : TreeOk w) (ho : Outside s.cwd inputs output params.header w) (hm : pp.eraseSource = true)
    (he : packMode s inputs output pp params a w = (.ok (), w')) :
    ∃ v, AfterPowerLoss (packMode s inputs output pp params a) w v ∧ NothingNew w v ∧
      ∀ x, InSource s.cwd inputs w x → x ≠ [] → v.look x = none ∧ ∀ i, w.look x = some (.file i) → v.file i = [] := by
  obtain ⟨v, h1, h2, h3, h4⟩ := power_dry (C71_complete s _ (.inr (.inr (.inl ⟨inputs, output, pp, params, a, rfl⟩))) w) ho.allocated
  rw [he] at h2 h3
  refine ⟨v, h1, h4, fun x hx hne => ?_⟩
  obtain ⟨g1, g2⟩ := (C67_success s hC inputs output pp params a w w' hns ht ho he).2.2 hm x hx hne
  exact ⟨by rw [h2]; exact g1, fun i hi => h3 i (g2 i hi)⟩

/-- **C81, command lines.** Since `encrypt` and `decrypt` always erase (C49), this is so after each line that has succeeded, whatever its options are. -/
theorem C81_line (s : Sys σ) {command : String} (hcmd : command = "encrypt" ∨ command = "decrypt") {opts : List (String × List Char)} {input output : List Char} {words argv : List (List Char)}
    (hw : Words (optionsOf command) opts [input, output] words) (hc : Consistent opts) (hi : Invokes command words argv) :
    ∃ run, Cli.main s false argv = some run ∧ ∀ w out w', Allocated w → run w = (.ok out, w') →
      ∃ q i v, LeadsToFile w (toPath s.cwd input) q i ∧ AfterPowerLoss run w v ∧ v.look q = none ∧ v.file i = [] ∧ NothingNew w v := by
  obtain ⟨run, hr, h0⟩ := C49_line s hcmd hw hc hi
  refine ⟨run, hr, fun w out w' hal hrun => ?_⟩
  obtain ⟨q, i, hq, g1, g2⟩ := h0 w out w' hrun
  have hlog : ∃ es, Calls run w es ∧ (run w).2.disk = effects es w.disk := by
    have key : ∀ x : Prog Cli.Error Unit, Crashes x → run w = (x >>= fun _ => pure []) w → ∃ es, Calls run w es ∧ (run w).2.disk = effects es w.disk := by
      intro x hx he
      obtain ⟨es, h1, h2, _⟩ := ((hx.bind fun _ => Crashes.pure ([] : List String)) w).log
      unfold Calls
      rw [he]
      exact ⟨es, h1, h2⟩
    rcases hcmd with rfl | rfl
    · obtain ⟨run', hr', h⟩ := C77_encrypt s hw hc hi
      rw [hr] at hr'; cases hr'
      obtain ⟨params, _, _, _, _, _, h⟩ := h w
      exact key _ (encryptMode_crashes _ _ _ _ _) h
    · obtain ⟨run', hr', h⟩ := C77_decrypt s hw hc hi
      rw [hr] at hr'; cases hr'
      obtain ⟨params, _, _, _, _, _, h⟩ := h w
      exact key _ (decryptMode_crashes _ _ _ _) h
  obtain ⟨v, h1, h2, h3, h4⟩ := power_dry hlog hal
  rw [hrun] at h2 h3
  exact ⟨q, i, v, hq, h1, by rw [h2]; exact g1, h3 i g2, h4⟩

/-! ### Commands that do not erase -/

/-- **C81, partial: encrypt.** If nothing is to be erased, the input is on the disk with its content after any power failure, whatever has failed before. -/
theorem C81_encrypt_partial (s : Sys σ) (input output : List Char) (params : CryptoParams) (a : Algorithm) (w v : World) (q : Path) (i : Nat) (hm : params.erase = .ignoreFile)
    (hsep : Separate s.cwd input output params.header w) (hin : LeadsToFile w (toPath s.cwd input) q i) (hv : AfterPowerLoss (encryptMode s input output params a) w v) :
    LeadsToFile v (toPath s.cwd input) q i ∧ v.file i = w.file i :=
  power_leads (encryptMode_crashes _ _ _ _ _) hsep.allocated hin
    (fun sc r w' he => encrypt_kept s input output params a (w.withSched sc) w' r q i hm (separate_withSched sc hsep) ((leads_withSched w sc _ _ _).2 hin) he) hv

/-- **C81, partial: decrypt.** The same for the decrypt command. -/
theorem C81_decrypt_partial (s : Sys σ) (input output : List Char) (params : CryptoParams) (w v : World) (q : Path) (i : Nat) (hm : params.erase = .ignoreFile)
    (hsep : OutputApart s.cwd input output params.header w) (hin : LeadsToFile w (toPath s.cwd input) q i) (hv : AfterPowerLoss (decryptMode s input output params) w v) :
    LeadsToFile v (toPath s.cwd input) q i ∧ v.file i = w.file i := by
  refine power_leads (decryptMode_crashes _ _ _ _) hsep.allocated hin (fun sc r w' he => ?_) hv
  have hsep := outputApart_withSched sc hsep
  have hin := (leads_withSched w sc _ _ _).2 hin
  have hkeep : ∀ v, Trail (OutputPlace s.cwd params.force output (w.withSched sc)) (w.withSched sc) v → v.file i = w.file i := fun v ht => output_kept hsep.allocated ht hsep.inp hin
  rcases decryptMode_cases s input output _ _ he with ⟨h, _⟩ | ⟨u, q', i', secret, ht, hq, hsup, hp, ⟨_, _, rfl⟩ | ⟨⟨n, hn⟩, _⟩ | ⟨n, _, hn, _⟩⟩
  · exact ⟨h.leads hin, hkeep _ h⟩
  · exact ⟨ht.leads hin, hkeep _ ht⟩
  · rw [hm] at hn; cases hn
  · rw [hm] at hn; cases hn

/-- **C81, partial: pack.** If the sources are not to be erased, everything below them is on the disk after any power failure. -/
theorem C81_pack_partial (s : Sys σ) (inputs : List (List Char)) (output : List Char) (pp : PackParams) (params : CryptoParams) (a : Algorithm) (w v : World) (hm : pp.eraseSource = false)
    (ht : TreeOk w) (ho : Outside s.cwd inputs output params.header w) (hv : AfterPowerLoss (packMode s inputs output pp params a) w v) : Intact s.cwd inputs w v := by
  obtain ⟨_⟩ := pp
  cases hm
  have key : ∀ u, StoppedAt (packMode s inputs output ⟨false⟩ params a) w u → Intact s.cwd inputs w u := by
    intro u hu
    obtain ⟨sc, r, w', he, hd⟩ := (packMode_crashes _ _ _ _ _ _).stopped hu
    have := pack_kept s inputs output params a _ _ r (treeOk_withSched sc ht) (outside_withSched sc ho) he
    refine intact_disk hd fun x hx n hn => this x (by rw [inSource_withSched]; exact hx) n hn
  obtain ⟨⟨u, hu, hd⟩, h2⟩ := power_keeps hv
  intro x hx n hn
  refine ⟨by rw [World.look_congr hd]; exact (key u hu x hx n hn).1, ?_⟩
  rintro i rfl
  exact h2 i (ho.allocated x i hn) fun u hu => (key u hu x hx _ hn).2 i rfl

/-- `encrypt z o` on the small disk succeeds, and a power failure may leave neither `z` nor any content in `o`. -/
example : ∃ v, AfterPowerLoss (encryptMode exSys ['z'] ['o'] exErasing .aes256Gcm) (exWorld [] []) v ∧ (exWorld [] []).file 2 = [1, 2, 3] ∧ v.look [['z']] = none ∧ v.file 2 = [] ∧ NothingNew (exWorld [] []) v := by
  obtain ⟨q, i, v, h1, h2, h3, h4, h5⟩ := C81_encrypt_loses exSys ['z'] ['o'] exErasing .aes256Gcm (exWorld [] []) _ (exSeparate [] []).allocated (by decide) (run_of_fst (by decide +kernel))
  obtain ⟨rfl, rfl⟩ := leads_unique h1 (⟨rfl, rfl⟩ : LeadsToFile (exWorld [] []) (toPath exSys.cwd ['z']) [['z']] 2)
  exact ⟨v, h2, rfl, h3, h4, h5⟩

/-- The hypotheses for the commands that do not erase are met as well. -/
example : exParams.erase = .ignoreFile ∧ Separate exSys.cwd ['z'] ['o'] exParams.header (exWorld [] []) ∧ LeadsToFile (exWorld [] []) (toPath exSys.cwd ['z']) [['z']] 2 ∧
    exEncrypt ['z'] ['o'] exParams (exWorld [] []) = (.ok (), (exEncrypt ['z'] ['o'] exParams (exWorld [] [])).2) :=
  ⟨rfl, exSeparate [] [], ⟨rfl, rfl⟩, run_of_fst (by decide +kernel)⟩

end Volaris.Props
