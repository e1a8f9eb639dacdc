import Verif.Proofs.ArgvParams
/-!
# C77, C78: what is written on the command line is what is done
-/
namespace Volaris.Props
open Volaris.Spec Volaris.Cli Volaris.Cli.Argv

/-! ### C77 -/

/-- The line `encrypt` with an input, an output and options, in any order and however they are written, encrypts that input to that output as the options say. -/
theorem C77_encrypt (s : Sys σ) {opts : List (String × List Char)} {input output : List Char} {words argv : List (List Char)} (hw : Words (optionsOf "encrypt") opts [input, output] words) (hc : Consistent opts)
    (hi : Invokes "encrypt" words argv) :
    ∃ run, Cli.main s false argv = some run ∧ ∀ w, ∃ params passes, Selects opts params ∧ KeyChoice opts w params.key ∧ params.erase = .eraseFile passes ∧ NumberOr (valueOf opts "erase") 1 passes ∧
      run w = (encryptMode s input output params (algorithmOf opts) >>= fun _ => pure []) w := by
  have hd := encrypt_declared
  obtain ⟨m, hm, hr, hf⟩ := read_simple (c := ⟨['e', 'n', 'c', 'r', 'y', 'p', 't'], some 'e', encryptArgs⟩) hd (by decide +kernel : ∀ p ∈ positionals encryptArgs, p.multiple = false) hw hc (by rw [show (positionals encryptArgs).length = 2 by decide +kernel]; rfl)
  have hg := getMatches_invokes (command := "encrypt") (c := ⟨['e', 'n', 'c', 'r', 'y', 'p', 't'], some 'e', encryptArgs⟩) rfl rfl (fun f hf => by cases hf; exact ⟨rfl, by decide⟩) hi
  refine ⟨dispatch s ['e', 'n', 'c', 'r', 'y', 'p', 't'] m none, by unfold Cli.main; rw [hg, hm]; rfl, fun w => ?_⟩
  have hin := getParam_given hr.accepted (id := .input) (by decide +kernel) (hf 0 { id := .input, required := true } input (by decide +kernel) rfl) w
  have hout := getParam_given hr.accepted (id := .output) (by decide +kernel) (hf 1 { id := .output, required := true } output (by decide +kernel) rfl) w
  have hkd : m.default .keyfile = none := by rw [default_eq hr.accepted]; decide +kernel
  obtain ⟨params, hp, hsrc, her, hforce, hheader, hhash, hargon⟩ := parameterHandler_run hr.accepted hkd w
  have v1 := value_plain hd hr (o := ⟨"hash", some 'H', false⟩) (by decide +kernel) (by decide +kernel)
  have v2 := value_plain hd hr (o := ⟨"force", some 'f', false⟩) (by decide +kernel) (by decide +kernel)
  have v3 := value_plain hd hr (o := ⟨"header", none, false⟩) (by decide +kernel) (by decide +kernel)
  have v4 := value_plain hd hr (o := ⟨"argon", none, false⟩) (by decide +kernel) (by decide +kernel)
  have v5 := value_plain hd hr (o := ⟨"aes", none, false⟩) (by decide +kernel) (by decide +kernel)
  obtain ⟨passes, herase, hpasses⟩ := eraseChoice_of hr (o := ⟨"erase", none, true⟩) (by decide +kernel) rfl rfl (by decide +kernel) her
  refine ⟨params, passes, ⟨?_, ?_, ?_, ?_⟩, ?_, herase, hpasses, ?_⟩
  · rw [hhash]; exact congrArg (fun b : Bool => if b = true then HashMode.calculateHash else .noHash) v1.2
  · rw [hforce]; exact congrArg (fun b : Bool => if b = true then ForceMode.forced else .prompt) v2.2
  · rw [hheader]; exact v3.1
  · rw [hargon]; exact congrArg (fun b : Bool => if b = true then HashingAlgorithm.argon2id 3 else .blake3Balloon 5) v4.2
  · exact keyChoice_of hr (ok := ⟨"keyfile", some 'k', false⟩) (oa := ⟨"auto", none, true⟩) (by decide +kernel) (by decide +kernel) rfl rfl rfl rfl (by decide +kernel) hsrc
  · refine bind_congr_left (x := Cli.encrypt s m) ?_
    unfold Cli.encrypt
    have ha := algorithm_run hr.accepted.release w
    rw [show (m.values .aes).isSome = (valueOf opts "aes").isSome from v5.2] at ha
    rw [Prog.bind_ok hp, Prog.bind_ok ha, Prog.bind_ok hin, Prog.bind_ok hout]
    rfl

/-- The same for `decrypt`; without a key file and an environment variable, the user is asked. -/
theorem C77_decrypt (s : Sys σ) {opts : List (String × List Char)} {input output : List Char} {words argv : List (List Char)} (hw : Words (optionsOf "decrypt") opts [input, output] words) (hc : Consistent opts)
    (hi : Invokes "decrypt" words argv) :
    ∃ run, Cli.main s false argv = some run ∧ ∀ w, ∃ params passes, Selects opts params ∧ OpenKeyChoice opts w params.key ∧ params.erase = .eraseFile passes ∧ NumberOr (valueOf opts "erase") 1 passes ∧
      run w = (decryptMode s input output params >>= fun _ => pure []) w := by
  have hd := decrypt_declared
  obtain ⟨m, hm, hr, hf⟩ := read_simple (c := ⟨['d', 'e', 'c', 'r', 'y', 'p', 't'], some 'd', decryptArgs⟩) hd (by decide +kernel : ∀ p ∈ positionals decryptArgs, p.multiple = false) hw hc (by rw [show (positionals decryptArgs).length = 2 by decide +kernel]; rfl)
  have hg := getMatches_invokes (command := "decrypt") (c := ⟨['d', 'e', 'c', 'r', 'y', 'p', 't'], some 'd', decryptArgs⟩) rfl rfl (fun f hf => by cases hf; exact ⟨rfl, by decide⟩) hi
  refine ⟨dispatch s ['d', 'e', 'c', 'r', 'y', 'p', 't'] m none, by unfold Cli.main; rw [hg, hm]; rfl, fun w => ?_⟩
  have hin := getParam_given hr.accepted (id := .input) (by decide +kernel) (hf 0 { id := .input, required := true } input (by decide +kernel) rfl) w
  have hout := getParam_given hr.accepted (id := .output) (by decide +kernel) (hf 1 { id := .output, required := true } output (by decide +kernel) rfl) w
  have hkd : m.default .keyfile = none := by rw [default_eq hr.accepted]; decide +kernel
  obtain ⟨params, hp, hsrc, her, hforce, hheader, hhash, hargon⟩ := parameterHandler_run hr.accepted hkd w
  have v1 := value_plain hd hr (o := ⟨"hash", some 'H', false⟩) (by decide +kernel) (by decide +kernel)
  have v2 := value_plain hd hr (o := ⟨"force", some 'f', false⟩) (by decide +kernel) (by decide +kernel)
  have v3 := value_plain hd hr (o := ⟨"header", none, false⟩) (by decide +kernel) (by decide +kernel)
  have v4 : m.values .argon = none := values_undefined hr.accepted (by decide +kernel)
  have v5 : valueOf opts "argon" = none := valueOf_none (words_names hw) (by decide +kernel)
  obtain ⟨passes, herase, hpasses⟩ := eraseChoice_of hr (o := ⟨"erase", none, true⟩) (by decide +kernel) rfl rfl (by decide +kernel) her
  refine ⟨params, passes, ⟨?_, ?_, ?_, ?_⟩, ?_, herase, hpasses, ?_⟩
  · rw [hhash]; exact congrArg (fun b : Bool => if b = true then HashMode.calculateHash else .noHash) v1.2
  · rw [hforce]; exact congrArg (fun b : Bool => if b = true then ForceMode.forced else .prompt) v2.2
  · rw [hheader]; exact v3.1
  · rw [hargon, v4, v5]; rfl
  · exact openKeyChoice_of hr (ok := ⟨"keyfile", some 'k', false⟩) (by decide +kernel) rfl rfl (by decide +kernel) hsrc
  · refine bind_congr_left (x := Cli.decrypt s m) ?_
    unfold Cli.decrypt
    rw [Prog.bind_ok hp, Prog.bind_ok hin, Prog.bind_ok hout]

/-- `erase`. -/
theorem C77_erase (s : Sys σ) {opts : List (String × List Char)} {input : List Char} {words argv : List (List Char)} (hw : Words (optionsOf "erase") opts [input] words) (hc : Consistent opts) (hi : Invokes "erase" words argv) :
    ∃ run passes, Cli.main s false argv = some run ∧ NumberOr (valueOf opts "passes") 1 passes ∧
      ∀ w, run w = (secureErase s input passes (if (valueOf opts "force").isSome then .forced else .prompt) >>= fun _ => pure []) w := by
  have hd := erase_declared
  obtain ⟨m, hm, hr, hf⟩ := read_simple (c := ⟨['e', 'r', 'a', 's', 'e'], none, eraseArgs⟩) hd (by decide +kernel : ∀ p ∈ positionals eraseArgs, p.multiple = false) hw hc (by rw [show (positionals eraseArgs).length = 1 by decide +kernel]; rfl)
  have hg := getMatches_invokes (command := "erase") (c := ⟨['e', 'r', 'a', 's', 'e'], none, eraseArgs⟩) rfl rfl (fun f hf => by cases hf) hi
  have hv := values_opt hd hr (o := ⟨"passes", none, true⟩) (by decide +kernel)
  have hdef : m.default (idOf eraseArgs "passes") = some ['1'] := by rw [default_eq hr.accepted]; decide +kernel
  have v2 := value_plain hd hr (o := ⟨"force", some 'f', false⟩) (by decide +kernel) (by decide +kernel)
  refine ⟨dispatch s ['e', 'r', 'a', 's', 'e'] m none, (parseI32 ((valueOf opts "passes").getD ['1'])).getD 1, by unfold Cli.main; rw [hg, hm]; rfl, numberOr_value (d := ['1']) (by decide +kernel) rfl, fun w => ?_⟩
  have hin := getParam_given hr.accepted (id := .input) (by decide +kernel) (hf 0 { id := .input, required := true } input (by decide +kernel) rfl) w
  refine bind_congr_left (x := Cli.erase s m) ?_
  have hval : m.values .passes = some [(valueOf opts "passes").getD ['1']] := by
    show m.values (idOf eraseArgs "passes") = _
    rw [hv]
    show (match valueOf opts "passes" with | some v => some [v] | none => (m.default (idOf eraseArgs "passes")).map fun v => [v]) = _
    rw [hdef]
    cases valueOf opts "passes" <;> rfl
  have hpp : eraseParams m w = (.ok ((parseI32 ((valueOf opts "passes").getD ['1'])).getD 1, if (valueOf opts "force").isSome then .forced else .prompt), w) := by
    unfold eraseParams
    have h1 := containsId_release (ε := Cli.Error) hr.accepted.release .passes w
    rw [hval] at h1
    have h2 := getParam_release hr.accepted.release .passes w
    rw [hval] at h2
    have h3 : (do if ← containsId m .passes then let v ← getParam m .passes; pure ((parseI32 v).getD 1) else pure 1 : Prog Cli.Error Int) w
        = (.ok ((parseI32 ((valueOf opts "passes").getD ['1'])).getD 1), w) := by
      rw [Prog.bind_ok h1]
      show (getParam m .passes >>= _) w = _
      rw [Prog.bind_ok h2]; rfl
    rw [Prog.bind_ok h3, Prog.bind_ok (forcemode_run hr.accepted.release w)]
    exact congrArg (fun b : Bool => ((.ok ((parseI32 ((valueOf opts "passes").getD ['1'])).getD 1, if b = true then ForceMode.forced else .prompt), w) : Res Cli.Error (Int × ForceMode) × World)) v2.2
  unfold Cli.erase
  rw [Prog.bind_ok hpp]
  show (getParam m .input >>= _) w = _
  rw [Prog.bind_ok hin]

/-- `pack`: all words but the last are directories, the last one is the output.  Here, the file names stand together. -/
theorem C77_pack (s : Sys σ) {before after : List (String × List Char)} {wb wa : List (List Char)} (hb : OptionWords (optionsOf "pack") before wb) (ha : OptionWords (optionsOf "pack") after wa)
    {inputs : List (List Char)} {output : List Char} {argv : List (List Char)} (hne : inputs ≠ []) (hpi : ∀ f ∈ inputs, NotOption f) (hpo : NotOption output) (hc : Consistent (before ++ after))
    (hi : Invokes "pack" (wb ++ inputs ++ output :: wa) argv) :
    ∃ run, Cli.main s false argv = some run ∧ ∀ w, ∃ params, Selects (before ++ after) params ∧ KeyChoice (before ++ after) w params.key ∧ params.erase = .ignoreFile ∧
      run w = (packMode s inputs output { eraseSource := (valueOf (before ++ after) "erase").isSome } params (algorithmOf (before ++ after)) >>= fun _ => pure []) w := by
  have hd := pack_declared
  obtain ⟨m, hm, hr, hf1, hf2⟩ := read_pack (c := ⟨['p', 'a', 'c', 'k'], some 'p', packArgs⟩) rfl hb ha hne hpi hpo hc
  have hg := getMatches_invokes (command := "pack") (c := ⟨['p', 'a', 'c', 'k'], some 'p', packArgs⟩) rfl rfl (fun f hf => by cases hf; exact ⟨rfl, by decide⟩) hi
  refine ⟨dispatch s ['p', 'a', 'c', 'k'] m none, by unfold Cli.main; rw [hg, hm]; rfl, fun w => ?_⟩
  have hout := getParam_given hr.accepted (id := .output) (by decide +kernel) hf2 w
  have hkd : m.default .keyfile = none := by rw [default_eq hr.accepted]; decide +kernel
  obtain ⟨params, pp, hp, hsrc, her, hes, hforce, hheader, hhash, hargon⟩ := packParams_run hr.accepted hkd w
  have v1 := value_plain hd hr (o := ⟨"hash", some 'H', false⟩) (by decide +kernel) (by decide +kernel)
  have v2 := value_plain hd hr (o := ⟨"force", some 'f', false⟩) (by decide +kernel) (by decide +kernel)
  have v3 := value_plain hd hr (o := ⟨"header", none, false⟩) (by decide +kernel) (by decide +kernel)
  have v4 := value_plain hd hr (o := ⟨"argon", none, false⟩) (by decide +kernel) (by decide +kernel)
  have v5 := value_plain hd hr (o := ⟨"aes", none, false⟩) (by decide +kernel) (by decide +kernel)
  have v6 := value_plain hd hr (o := ⟨"erase", none, false⟩) (by decide +kernel) (by decide +kernel)
  refine ⟨params, ⟨?_, ?_, ?_, ?_⟩, ?_, her, ?_⟩
  · rw [hhash]; exact congrArg (fun b : Bool => if b = true then HashMode.calculateHash else .noHash) v1.2
  · rw [hforce]; exact congrArg (fun b : Bool => if b = true then ForceMode.forced else .prompt) v2.2
  · rw [hheader]; exact v3.1
  · rw [hargon]; exact congrArg (fun b : Bool => if b = true then HashingAlgorithm.argon2id 3 else .blake3Balloon 5) v4.2
  · exact keyChoice_of hr (ok := ⟨"keyfile", some 'k', false⟩) (oa := ⟨"auto", none, true⟩) (by decide +kernel) (by decide +kernel) rfl rfl rfl rfl (by decide +kernel) hsrc
  · refine bind_congr_left (x := Cli.pack s m) ?_
    have hin : getParams m .input w = (.ok inputs, w) := by
      unfold getParams
      rw [getMany_release hr.accepted.release]
      have : m.values .input = some inputs := by
        unfold Matches.values Matches.defines
        rw [hr.accepted.args, show packArgs.any (·.id = .input) = true by decide +kernel, hf1]; rfl
      rw [this]; rfl
    have hpp : pp = { eraseSource := (valueOf (before ++ after) "erase").isSome } := by
      cases pp
      simp only at hes
      rw [hes]
      exact congrArg PackParams.mk v6.2
    unfold Cli.pack
    have ha := algorithm_run hr.accepted.release w
    rw [show (m.values .aes).isSome = (valueOf (before ++ after) "aes").isSome from v5.2] at ha
    rw [Prog.bind_ok hp]
    show (algorithm m >>= _) w = _
    rw [Prog.bind_ok ha, Prog.bind_ok hin, Prog.bind_ok hout, hpp]
    rfl

/-- `hash`: all words are files. -/
theorem C77_hash (s : Sys σ) {opts : List (String × List Char)} {files words argv : List (List Char)} (hw : Words (optionsOf "hash") opts files words) (hne : files ≠ []) (hi : Invokes "hash" words argv) :
    ∃ run, Cli.main s false argv = some run ∧ ∀ w, run w = hashStream s files w := by
  obtain ⟨m, hm, hr, hf⟩ := read_hash (c := ⟨['h', 'a', 's', 'h'], none, hashArgs⟩) rfl hw hne
  have hg := getMatches_invokes (command := "hash") (c := ⟨['h', 'a', 's', 'h'], none, hashArgs⟩) rfl rfl (fun f hf => by cases hf) hi
  refine ⟨dispatch s ['h', 'a', 's', 'h'] m none, by unfold Cli.main; rw [hg, hm]; rfl, fun w => ?_⟩
  show Cli.hash s m w = _
  unfold Cli.hash
  rw [getMany_release hr.release]
  have : m.values .input = some files := by
    unfold Matches.values Matches.defines
    rw [hr.args, show hashArgs.any (·.id = .input) = true by decide +kernel, hf]; rfl
  rw [this]; rfl

/-- A line of `encrypt` with options in between, some with their letters, and a file name after `--` that begins with `-`. -/
def exArgv : List (List Char) := ["-ekz".toList, "--erase=3".toList, "a".toList, "--force".toList, "1".toList, "--".toList, "-o".toList]

theorem exArgv_words : Words (optionsOf "encrypt") [("keyfile", ['z']), ("erase", ['3']), ("force", ['1'])] [['a'], ['-', 'o']] ["-kz".toList, "--erase=3".toList, "a".toList, "--force".toList, "1".toList, "--".toList, "-o".toList] :=
  .opt (o := ⟨"keyfile", some 'k', false⟩) (by decide) (.letter 'k' rfl (by decide) (by decide))
    (.opt (o := ⟨"erase", none, true⟩) (by decide) .attached (.file (.inr (by decide)) (.opt (o := ⟨"force", some 'f', false⟩) (by decide) (.separate rfl (.inr (by decide))) .escape)))

example : Consistent [("keyfile", ['z']), ("erase", ['3']), ("force", ['1'])] ∧ Invokes "encrypt" ["-kz".toList, "--erase=3".toList, "a".toList, "--force".toList, "1".toList, "--".toList, "-o".toList] exArgv :=
  ⟨⟨by decide, .inr rfl⟩, .fused 'e' 'k' ['z'] rfl (by decide)⟩

example : Numeral ['3'] 3 := ⟨['3'], by decide, by decide, .inl ⟨rfl, by decide⟩, by decide, by decide⟩

/-! ### C78 -/

/-- A switch such as `--force` cannot be used as one: a line with the files that the command needs, to which the name of any option is added without a value at any place, is refused. -/
theorem C78_switch_refused (s : Sys σ) {command : String} (hcmd : command ∈ ["encrypt", "decrypt", "erase", "unpack"]) {o1 o2 : List (String × List Char)} {f1 f2 w1 w2 : List (List Char)}
    (h1 : Words (optionsOf command) o1 f1 w1) (hne : ['-', '-'] ∉ w1) (h2 : Words (optionsOf command) o2 f2 w2) (hl : (f1 ++ f2).length = if command = "erase" then 1 else 2)
    {o : OptionName} (ho : o ∈ optionsOf command) {t : List Char} (hb : Bare o t) {argv : List (List Char)} (hi : Invokes command (w1 ++ t :: w2) argv) : Cli.main s false argv = none := by
  obtain ⟨c, hn, hs, hf, hd, hsi, hreq, hlen⟩ := simple_commands hcmd
  unfold Cli.main
  rw [getMatches_invokes hn hs hf hi, refused_bare hd hsi hreq h1 hne h2 ho hb (by rw [hl, hlen]; exact Nat.le_refl _) (by rw [hlen]; split <;> decide)]
  rfl

/-- `volaris encrypt --force in out` and `volaris decrypt in -f out`. -/
example (s : Sys σ) : Cli.main s false ["encrypt".toList, "--force".toList, "in".toList, "out".toList] = none ∧ Cli.main s false ["decrypt".toList, "in".toList, "-f".toList, "out".toList] = none :=
  ⟨C78_switch_refused s (command := "encrypt") (by decide) (o1 := []) (o2 := []) (f1 := []) (f2 := ["in".toList, "out".toList]) .nil (by decide) (.file (.inr (by decide)) (.file (.inr (by decide)) .nil)) rfl
      (o := ⟨"force", some 'f', false⟩) (by decide) (.inl rfl) .name,
    C78_switch_refused s (command := "decrypt") (by decide) (o1 := []) (o2 := []) (f1 := ["in".toList]) (f2 := ["out".toList]) (.file (.inr (by decide)) .nil) (by decide) (.file (.inr (by decide)) .nil) rfl
      (o := ⟨"force", some 'f', false⟩) (by decide) (.inr ⟨'f', rfl, rfl⟩) .name⟩

/-- `pack` takes the directory after a switch as its value: only the second directory is packed, without any message. -/
theorem C78_pack_swallows (s : Sys σ) {o : OptionName} (ho : o ∈ optionsOf "pack") (heq : o.equals = false) {t a b out : List Char} (ht : Bare o t) (ha : NotOption a) (hb : NotOption b) (hout : NotOption out) :
    ∃ run, Cli.main s false ["pack".toList, t, a, b, out] = some run ∧ ∀ w, ∃ params, run w = (packMode s [b] out { eraseSource := (valueOf [(o.long, a)] "erase").isSome } params (algorithmOf [(o.long, a)]) >>= fun _ => pure []) w := by
  have hw : Words (optionsOf "pack") [(o.long, a)] [] [t, a] := by
    rcases ht with rfl | ⟨c, hc, rfl⟩
    · exact .opt ho (.separate heq ha) .nil
    · exact .opt ho (.letterSeparate c hc heq ha) .nil
  have hesc : ['-', '-'] ∉ [t, a] := by
    simp only [List.mem_cons, List.not_mem_nil, or_false, not_or]
    constructor
    · rcases ht with rfl | ⟨c, hc, rfl⟩
      · obtain ⟨_, e⟩ := pack_declared.wf.entry o ho
        intro h
        cases hl : o.long.toList with
        | nil => exact e.ne hl
        | cons x xs => rw [hl] at h; cases h
      · obtain ⟨_, e⟩ := pack_declared.wf.entry o ho
        intro h
        exact (e.short c hc).2 (by injection h with _ h; injection h with h _; exact h.symm)
    · rintro rfl
      rcases ha with h | h
      · cases h
      · exact h rfl
  obtain ⟨run, h1, h2⟩ := C77_pack s (before := [(o.long, a)]) (after := []) (wb := [t, a]) (wa := []) ⟨hw, hesc⟩ ⟨.nil, by simp⟩ (inputs := [b]) (output := out) (by simp) (by simpa using hb) hout
    ⟨by simp, by
      by_cases e : o.long = "keyfile"
      · right; show List.lookup "auto" [(o.long, a)] = none; rw [e]; rfl
      · left; show List.lookup "keyfile" [(o.long, a)] = none
        rw [List.lookup_eq_none_iff]; simpa using Ne.symm e⟩ .name
  refine ⟨run, h1, fun w => ?_⟩
  obtain ⟨params, _, _, _, h⟩ := h2 w
  exact ⟨params, h⟩

/-- `volaris pack -r a b out`. -/
example (s : Sys σ) : ∃ run, Cli.main s false ["pack".toList, "-r".toList, "a".toList, "b".toList, "out".toList] = some run ∧
    ∀ w, ∃ params, run w = (packMode s ["b".toList] "out".toList { eraseSource := false } params .xChaCha20Poly1305 >>= fun _ => pure []) w :=
  C78_pack_swallows s (o := ⟨"recursive", some 'r', false⟩) (by decide) rfl (t := "-r".toList) (.inr ⟨'r', rfl, rfl⟩) (.inr (by decide)) (.inr (by decide)) (.inr (by decide))

/-- The commands for headers and keys cannot be reached: the words `header` and `key` are refused, whatever follows. -/
theorem C78_header_key_refused (s : Sys σ) (debug : Bool) (rest : List (List Char)) : Cli.main s debug ("header".toList :: rest) = none ∧ Cli.main s debug ("key".toList :: rest) = none := by
  constructor <;> rfl

/-- Whatever the line is: it is refused, or one of the six other commands is run on what was given to it. -/
theorem C78_six_commands (s : Sys σ) (argv : List (List Char)) :
    Cli.main s false argv = none ∨ ∃ m run, Cli.main s false argv = some run ∧
      ((Accepted encryptArgs m ∧ run = (Cli.encrypt s m >>= fun _ => pure [])) ∨ (Accepted decryptArgs m ∧ run = (Cli.decrypt s m >>= fun _ => pure [])) ∨ (Accepted eraseArgs m ∧ run = (Cli.erase s m >>= fun _ => pure [])) ∨
       (Accepted packArgs m ∧ run = (Cli.pack s m >>= fun _ => pure [])) ∨ (Accepted unpackArgs m ∧ run = (Cli.unpack s m >>= fun _ => pure [])) ∨ (Accepted hashArgs m ∧ run = Cli.hash s m)) := by
  unfold Cli.main
  cases h : getMatches false argv with
  | none => exact .inl rfl
  | some x =>
    obtain ⟨name, m⟩ := x
    obtain ⟨⟨c, hc, hn, ha⟩, hacc, hdeb, _⟩ := getMatches_some h
    refine .inr ⟨m, _, rfl, ?_⟩
    have hA : Accepted c.args m := ⟨ha, hacc, hdeb⟩
    subst hn
    simp only [commands, List.mem_cons, List.not_mem_nil, or_false] at hc
    rcases hc with rfl | rfl | rfl | rfl | rfl | rfl
    · exact .inl ⟨hA, rfl⟩
    · exact .inr (.inl ⟨hA, rfl⟩)
    · exact .inr (.inr (.inl ⟨hA, rfl⟩))
    · exact .inr (.inr (.inr (.inr (.inr ⟨hA, rfl⟩))))
    · exact .inr (.inr (.inr (.inl ⟨hA, rfl⟩)))
    · exact .inr (.inr (.inr (.inr (.inl ⟨hA, rfl⟩))))

/-! ### C79 -/

/-- A build with debug assertions refuses the same lines; it does the same for `encrypt`, `erase`, `pack` and `hash`, but every line of `decrypt` and `unpack` panics before anything is read or changed. -/
theorem C79_debug_partial (s : Sys σ) (argv : List (List Char)) :
    match Cli.main s false argv, Cli.main s true argv with
    | none, none => True
    | some release, some debug => (∀ w, debug w = release w) ∨ ((∃ m, (Accepted decryptArgs m ∧ release = (Cli.decrypt s m >>= fun _ => pure [])) ∨ (Accepted unpackArgs m ∧ release = (Cli.unpack s m >>= fun _ => pure []))) ∧
        ∀ w, debug w = (.abort .panic, w))
    | _, _ => False := by
  unfold Cli.main
  cases h : getMatches true argv with
  | none => rw [getMatches_none h]; trivial
  | some x =>
    obtain ⟨name, m⟩ := x
    obtain ⟨⟨c, hc, hn, ha⟩, hacc, hdeb, hrel⟩ := getMatches_some h
    rw [hrel]
    show (∀ w, dispatch s name m none w = dispatch s name { m with debug := false } none w) ∨ _
    subst hn
    simp only [commands, List.mem_cons, List.not_mem_nil, or_false] at hc
    rcases hc with rfl | rfl | rfl | rfl | rfl | rfl
    · left; intro w
      have : Cli.encrypt s m = Cli.encrypt s { m with debug := false } := by
        unfold Cli.encrypt algorithm
        rw [parameterHandler_defined fun id hid => defines_of ha id ((by decide +kernel : ∀ id ∈ [Id.keyfile, .autogenerate, .hash, .force, .erase, .header, .argon], encryptArgs.any (·.id = id) = true) id hid),
          containsId_defined (defines_of ha .aes (by decide +kernel)), getParam_defined (defines_of ha .input (by decide +kernel)), getParam_defined (defines_of ha .output (by decide +kernel))]
      show (Cli.encrypt s m >>= _) w = (Cli.encrypt s _ >>= _) w
      rw [this]
    · right
      refine ⟨⟨{ m with debug := false }, .inl ⟨⟨ha, hacc, rfl⟩, rfl⟩⟩, fun w => ?_⟩
      have hp := parameterHandler_debug hacc hdeb (defines_of ha _ (by decide +kernel)) (defines_of ha _ (by decide +kernel)) (defines_of ha _ (by decide +kernel)) (defines_of ha _ (by decide +kernel)) (defines_of ha _ (by decide +kernel))
        (by unfold Matches.defines; rw [ha]; decide +kernel) (by unfold Matches.defines; rw [ha]; decide +kernel) (by unfold Matches.default; rw [ha]; decide +kernel) w
      exact Prog.bind_abort (Prog.bind_abort hp)
    · left; intro w
      have : Cli.erase s m = Cli.erase s { m with debug := false } := by
        unfold Cli.erase eraseParams forcemode
        rw [containsId_defined (defines_of ha .passes (by decide +kernel)), getParam_defined (defines_of ha .passes (by decide +kernel)), containsId_defined (defines_of ha .force (by decide +kernel)),
          getParam_defined (defines_of ha .input (by decide +kernel))]
      show (Cli.erase s m >>= _) w = (Cli.erase s _ >>= _) w
      rw [this]
    · left; intro w
      show Cli.hash s m w = Cli.hash s _ w
      unfold Cli.hash
      rw [getMany_defined (defines_of ha .input (by decide +kernel))]
    · left; intro w
      have : Cli.pack s m = Cli.pack s { m with debug := false } := by
        unfold Cli.pack algorithm getParams
        rw [packParams_defined fun id hid => defines_of ha id ((by decide +kernel : ∀ id ∈ [Id.keyfile, .autogenerate, .hash, .force, .erase, .header, .argon, .verbose, .recursive, .zstd], packArgs.any (·.id = id) = true) id hid),
          containsId_defined (defines_of ha .aes (by decide +kernel)), getMany_defined (defines_of ha .input (by decide +kernel)), getParam_defined (defines_of ha .output (by decide +kernel))]
      show (Cli.pack s m >>= _) w = (Cli.pack s _ >>= _) w
      rw [this]
    · right
      refine ⟨⟨{ m with debug := false }, .inr ⟨⟨ha, hacc, rfl⟩, rfl⟩⟩, fun w => ?_⟩
      have hp := parameterHandler_debug hacc hdeb (defines_of ha _ (by decide +kernel)) (defines_of ha _ (by decide +kernel)) (defines_of ha _ (by decide +kernel)) (defines_of ha _ (by decide +kernel)) (defines_of ha _ (by decide +kernel))
        (by unfold Matches.defines; rw [ha]; decide +kernel) (by unfold Matches.defines; rw [ha]; decide +kernel) (by unfold Matches.default; rw [ha]; decide +kernel) w
      exact Prog.bind_abort (Prog.bind_abort hp)

/-- So the two builds differ: a line that decrypts in one of them panics in the other. -/
theorem C79_decrypt_panics (s : Sys σ) {opts : List (String × List Char)} {input output : List Char} {words argv : List (List Char)} (hw : Words (optionsOf "decrypt") opts [input, output] words) (hc : Consistent opts)
    (hi : Invokes "decrypt" words argv) : ∃ run, Cli.main s true argv = some run ∧ ∀ w, run w = (.abort .panic, w) := by
  obtain ⟨m, hm, hr, -⟩ := read_simple (c := ⟨['d', 'e', 'c', 'r', 'y', 'p', 't'], some 'd', decryptArgs⟩) decrypt_declared (by decide +kernel : ∀ p ∈ positionals decryptArgs, p.multiple = false) hw hc (by rw [show (positionals decryptArgs).length = 2 by decide +kernel]; rfl)
  have hg := getMatches_invokes (command := "decrypt") (c := ⟨['d', 'e', 'c', 'r', 'y', 'p', 't'], some 'd', decryptArgs⟩) rfl rfl (fun f hf => by cases hf; exact ⟨rfl, by decide⟩) hi
  have h := C79_debug_partial s argv
  have hrel : Cli.main s false argv = some (Cli.decrypt s m >>= fun _ => pure []) := by unfold Cli.main; rw [hg, hm]; rfl
  rw [hrel] at h
  cases hdbg : getMatches true argv with
  | none => unfold Cli.main at h; rw [hdbg] at h; exact absurd h id
  | some x =>
    obtain ⟨name, m'⟩ := x
    obtain ⟨⟨c, hcm, hn, ha⟩, hacc, hdeb, hrel'⟩ := getMatches_some hdbg
    rw [hg, hm] at hrel'
    cases hrel'
    refine ⟨dispatch s ['d', 'e', 'c', 'r', 'y', 'p', 't'] m' none, by unfold Cli.main; rw [hdbg]; rfl, fun w => ?_⟩
    have ha : m'.args = decryptArgs := hr.accepted.args
    have hp := parameterHandler_debug hacc hdeb (defines_of ha _ (by decide +kernel)) (defines_of ha _ (by decide +kernel)) (defines_of ha _ (by decide +kernel)) (defines_of ha _ (by decide +kernel)) (defines_of ha _ (by decide +kernel))
        (by unfold Matches.defines; rw [ha]; decide +kernel) (by unfold Matches.defines; rw [ha]; decide +kernel) (by unfold Matches.default; rw [ha]; decide +kernel) w
    exact Prog.bind_abort (Prog.bind_abort hp)

example : Words (optionsOf "decrypt") [("keyfile", ['z'])] [['a'], ['b']] ["-k".toList, ['z'], ['a'], ['b']] ∧ Consistent [("keyfile", ['z'])] ∧ Invokes "decrypt" ["-k".toList, ['z'], ['a'], ['b']] ["-d".toList, "-k".toList, ['z'], ['a'], ['b']] :=
  ⟨.opt (o := ⟨"keyfile", some 'k', false⟩) (by decide) (.letterSeparate 'k' rfl rfl (.inr (by decide))) (.file (.inr (by decide)) (.file (.inr (by decide)) .nil)), ⟨by decide, .inr rfl⟩, .letter 'd' rfl⟩

/-! ### C64: the secrets of the key commands -/

/-- Where the key commands take their secrets from: the present one from the file named for it or from the user, and never from the environment; the new one from its file, or else it is made up if the
line says so, or else from the user. -/
theorem C64_sources (m : Matches) (hrel : m.debug = false) (hacc : m.accepted = true) (hd : ∀ id, m.default id = none) (w : World) :
    ∃ params, keyManipulationParams m w = (.ok params, w) ∧
      params.keyOld = (match m.explicit .keyfileOld with | some (path :: _) => .keyfile path | _ => .user) ∧
      (match m.explicit .keyfileNew, m.explicit .autogenerate with
        | some (path :: _), _ => params.keyNew = .keyfile path
        | _, some (v :: _) => ∃ n, params.keyNew = .generate n ∧ NumberOr (some v) 7 n
        | _, _ => params.keyNew = .user) ∧
      params.hashingAlgorithm = (if (m.explicit .argon).isSome then .argon2id 3 else .blake3Balloon 5) := by
  have hA : Accepted m.args m := ⟨rfl, hacc, hrel⟩
  have hcase : ∀ id, (∃ v vs, m.explicit id = some (v :: vs) ∧ Gives m id v ∧ (m.values id).bind List.head? = some v ∧ (m.values id).isSome = true) ∨
      (m.explicit id = none ∧ (m.values id).isSome = false) := by
    intro id
    rcases value_cases hA id with ⟨v, ⟨vs, e⟩, h1, h2⟩ | ⟨ho, _, h2⟩
    · exact .inl ⟨v, vs, e, ⟨vs, e⟩, h1, h2⟩
    · rw [hd id] at h2; exact .inr ⟨ho, h2⟩
  have hold : Key.init m { env := false, autogenerate := false } .keyfileOld w = (.ok (match m.explicit .keyfileOld with | some (path :: _) => .keyfile path | _ => .user), w) := by
    rcases hcase .keyfileOld with ⟨v, vs, e, hg, _⟩ | ⟨e, _⟩
    · rw [init_keyfile hA rfl hg, e]
    · rw [init_other hA _ e (hd _), initOther_rest hrel (.inr rfl), e, Bool.and_false]; rfl
  have hnew : ∃ k, Key.init m { env := false } .keyfileNew w = (.ok k, w) ∧ (match m.explicit .keyfileNew, m.explicit .autogenerate with
        | some (path :: _), _ => k = .keyfile path
        | _, some (v :: _) => ∃ n, k = .generate n ∧ NumberOr (some v) 7 n
        | _, _ => k = .user) := by
    rcases hcase .keyfileNew with ⟨v, vs, e, hg, _⟩ | ⟨e, _⟩
    · exact ⟨_, init_keyfile hA rfl hg w, by rw [e]⟩
    · rw [init_other hA _ e (hd _), initOther_rest hrel (.inr rfl), e]
      rcases hcase .autogenerate with ⟨v, vs, ea, hg, h1, h2⟩ | ⟨ea, h2⟩
      · rw [h2, ea]
        exact ⟨_, initGenerate_run hrel h1 w, _, rfl, Argv.numberOr_getD (some v) 7⟩
      · rw [h2, ea]
        exact ⟨.user, rfl, rfl⟩
  obtain ⟨k, hk, hk'⟩ := hnew
  refine ⟨{ keyOld := (match m.explicit .keyfileOld with | some (path :: _) => .keyfile path | _ => .user), keyNew := k, hashingAlgorithm := if (m.values .argon).isSome then .argon2id 3 else .blake3Balloon 5 }, ?_, rfl, hk', ?_⟩
  · unfold keyManipulationParams
    rw [Prog.bind_ok hold, Prog.bind_ok hk, Prog.bind_ok (hashingAlgorithm_run hrel w)]
    rfl
  · rcases hcase .argon with ⟨v, vs, e, _, _, h2⟩ | ⟨e, h2⟩
    · rw [h2, e]; rfl
    · rw [h2, e]; rfl

/-- The arguments that `key change` could have. -/
def exKeyLine : Matches :=
  { args := [{ id := .input, required := true }, { id := .keyfileOld }, { id := .keyfileNew }, { id := .autogenerate }], given := [(.input, [['f']]), (.keyfileOld, [['k']]), (.autogenerate, [['5']])] }

example : exKeyLine.accepted = true ∧ ∀ id, exKeyLine.default id = none := ⟨by decide, fun id => by cases id <;> decide⟩

end Volaris.Props
