import Verif.Proofs.Session
import Verif.Props.CommandLine
/-!
# C80: one command line after the other; and what C48, C49, C60 and C67 mean for command lines
-/
namespace Volaris.Props
open Volaris.Spec Volaris.Cli Volaris.Cli.Argv

/-! ### Lines that name a file twice -/

/-- **C48, the same name.** A line that names the same file as input and output is refused, and nothing is changed. -/
theorem C48_same_name (s : Sys σ) {command : String} (hcmd : command = "encrypt" ∨ command = "decrypt") {opts : List (String × List Char)} {file : List Char} {words argv : List (List Char)}
    (hw : Words (optionsOf command) opts [file, file] words) (hc : Consistent opts) (hi : Invokes command words argv) :
    ∃ run, Cli.main s false argv = some run ∧ ∀ w, run w = (.err .sameName, w) := by
  rcases hcmd with rfl | rfl
  · obtain ⟨run, h1, h2⟩ := C77_encrypt s hw hc hi
    refine ⟨run, h1, fun w => ?_⟩
    obtain ⟨params, _, _, _, _, _, h⟩ := h2 w
    rw [h]
    refine Prog.bind_err (e := Cli.Error.sameName) ?_
    unfold encryptMode
    rw [if_pos rfl]; rfl
  · obtain ⟨run, h1, h2⟩ := C77_decrypt s hw hc hi
    refine ⟨run, h1, fun w => ?_⟩
    obtain ⟨params, _, _, _, _, _, h⟩ := h2 w
    rw [h]
    refine Prog.bind_err (e := Cli.Error.sameName) ?_
    unfold decryptMode
    rw [if_pos rfl]; rfl

example (s : Sys σ) : ∃ run, Cli.main s false ["encrypt".toList, "-k".toList, "z".toList, "f".toList, "f".toList] = some run ∧ ∀ w, run w = (.err .sameName, w) :=
  C48_same_name s (.inl rfl) (opts := [("keyfile", ['z'])]) (file := ['f'])
    (.opt (o := ⟨"keyfile", some 'k', false⟩) (by decide) (.letterSeparate 'k' rfl rfl (.inr (by decide))) (.file (.inr (by decide)) (.file (.inr (by decide)) .nil))) ⟨by decide, .inr rfl⟩ .name

/-- **C67, the same name.** A `pack` line whose output is one of the directories is refused, and nothing is changed. -/
theorem C67_same_name (s : Sys σ) {before after : List (String × List Char)} {wb wa : List (List Char)} (hb : OptionWords (optionsOf "pack") before wb) (ha : OptionWords (optionsOf "pack") after wa)
    {inputs : List (List Char)} {output : List Char} {argv : List (List Char)} (hpi : ∀ f ∈ inputs, NotOption f) (hmem : output ∈ inputs) (hc : Consistent (before ++ after))
    (hi : Invokes "pack" (wb ++ inputs ++ output :: wa) argv) : ∃ run, Cli.main s false argv = some run ∧ ∀ w, run w = (.err .sameName, w) := by
  obtain ⟨run, h1, h2⟩ := C77_pack s hb ha (List.ne_nil_of_mem hmem) hpi (hpi _ hmem) hc hi
  refine ⟨run, h1, fun w => ?_⟩
  obtain ⟨params, _, _, _, h⟩ := h2 w
  rw [h]
  refine Prog.bind_err (e := Cli.Error.sameName) ?_
  unfold packMode
  rw [if_pos (List.any_eq_true.2 ⟨output, hmem, by simp⟩)]; rfl

example (s : Sys σ) : ∃ run, Cli.main s false ["pack".toList, "a".toList, "b".toList, "a".toList] = some run ∧ ∀ w, run w = (.err .sameName, w) :=
  C67_same_name s (before := []) (after := []) (wb := []) (wa := []) ⟨.nil, by simp⟩ ⟨.nil, by simp⟩ (inputs := [['a'], ['b']]) (output := ['a']) (by
    intro f hf
    simp only [List.mem_cons, List.not_mem_nil, or_false] at hf
    rcases hf with rfl | rfl <;> exact .inr (by decide)) (by simp) ⟨by simp, .inl rfl⟩ .name

/-! ### Lines that succeed erase their input -/

/-- **C49, for command lines.** Whatever the options are, and also if erasing is not among them: after an `encrypt` or a `decrypt` line that has succeeded, the input is empty and its name is gone. -/
theorem C49_line (s : Sys σ) {command : String} (hcmd : command = "encrypt" ∨ command = "decrypt") {opts : List (String × List Char)} {input output : List Char} {words argv : List (List Char)}
    (hw : Words (optionsOf command) opts [input, output] words) (hc : Consistent opts) (hi : Invokes command words argv) :
    ∃ run, Cli.main s false argv = some run ∧ ∀ w out w', run w = (.ok out, w') → ∃ q i, LeadsToFile w (toPath s.cwd input) q i ∧ w'.look q = none ∧ w'.file i = [] := by
  have key : ∀ {mode : EraseMode} {q : Path} {i : Nat} {u w' : World}, Erased mode q i u (.ok ()) w' → (∃ n, mode = .eraseFile n) → w'.look q = none ∧ w'.file i = [] := by
    rintro mode q i u w' h ⟨n, rfl⟩
    rcases h with ⟨hm, _⟩ | ⟨_, h, _⟩ | ⟨n, u', hn, _, _, ⟨_, h1, h2⟩ | ⟨h, _⟩⟩
    · cases hm
    · exact absurd rfl h
    · exact ⟨h1, h2⟩
    · exact absurd rfl h
  have bound : ∀ {x : Prog Cli.Error Unit} {w w' : World} {out : List String}, (x >>= fun _ => pure []) w = (.ok out, w') → x w = (.ok (), w') := by
    intro x w w' out h
    rw [Prog.bind_run] at h
    rcases hx : x w with ⟨_ | _ | _, v⟩ <;> rw [hx] at h <;> cases h
    rfl
  rcases hcmd with rfl | rfl
  · obtain ⟨run, h1, h2⟩ := C77_encrypt s hw hc hi
    refine ⟨run, h1, fun w out w' hr => ?_⟩
    obtain ⟨params, n, _, _, hn, _, h⟩ := h2 w
    rw [h] at hr
    rcases encryptMode_cases s input output params _ w (bound hr) with ⟨_, h⟩ | ⟨u, q, i, secret, ht, hq, hsup, hp, h⟩
    · exact absurd rfl h
    · exact ⟨q, i, hq, key h ⟨n, hn⟩⟩
  · obtain ⟨run, h1, h2⟩ := C77_decrypt s hw hc hi
    refine ⟨run, h1, fun w out w' hr => ?_⟩
    obtain ⟨params, n, _, _, hn, _, h⟩ := h2 w
    rw [h] at hr
    rcases decryptMode_cases s input output params w (bound hr) with ⟨_, h⟩ | ⟨u, q, i, secret, ht, hq, hsup, hp, h⟩
    · exact absurd rfl h
    · exact ⟨q, i, hq, key h ⟨n, hn⟩⟩

/-! ### Lines of unpack -/

/-- **C60, for command lines.** Every `unpack` line panics, and nothing is changed. -/
theorem C60_line (s : Sys σ) {opts : List (String × List Char)} {input output : List Char} {words argv : List (List Char)} (hw : Words (optionsOf "unpack") opts [input, output] words) (hc : Consistent opts)
    (hi : Invokes "unpack" words argv) : ∃ run, Cli.main s false argv = some run ∧ ∀ w, run w = (.abort .panic, w) := by
  obtain ⟨m, hm, hr, -⟩ := read_simple (c := ⟨['u', 'n', 'p', 'a', 'c', 'k'], some 'u', unpackArgs⟩) unpack_declared (by decide +kernel : ∀ p ∈ positionals unpackArgs, p.multiple = false) hw hc (by rw [show (positionals unpackArgs).length = 2 by decide +kernel]; rfl)
  have hg := getMatches_invokes (command := "unpack") (c := ⟨['u', 'n', 'p', 'a', 'c', 'k'], some 'u', unpackArgs⟩) rfl rfl (fun f hf => by cases hf; exact ⟨rfl, by decide⟩) hi
  refine ⟨dispatch s ['u', 'n', 'p', 'a', 'c', 'k'] m none, by unfold Cli.main; rw [hg, hm]; rfl, fun w => ?_⟩
  exact Prog.bind_abort (C60_unpack_panics s m hr.accepted w)

example (s : Sys σ) : ∃ run, Cli.main s false ["-u".toList, "in".toList, "-v=1".toList, "out".toList] = some run ∧ ∀ w, run w = (.abort .panic, w) :=
  C60_line s (opts := [("verbose", ['1'])]) (input := "in".toList) (output := "out".toList)
    (.file (.inr (by decide)) (.opt (o := ⟨"verbose", some 'v', false⟩) (by decide) (.letterAttached 'v' rfl) (.file (.inr (by decide)) .nil))) ⟨by decide, .inl rfl⟩ (.letter 'u' rfl)

/-! ### C80 -/

/-- **C80.** Two lines, the first with `encrypt`, the second with `decrypt`, that name the same secret (in a key file or in the environment): both succeed, in between there is only the encrypted file, and in
the end the content is back, under the old or a new name; the encrypted file is gone, and no other file, name or directory has changed. -/
theorem C80_session (s : Sys σ) (hC : s.C.Lawful) {o1 o2 : List (String × List Char)} {input output back : List Char} {words1 words2 argv1 argv2 : List (List Char)}
    (h1 : Words (optionsOf "encrypt") o1 [input, output] words1) (c1 : Consistent o1) (i1 : Invokes "encrypt" words1 argv1)
    (h2 : Words (optionsOf "decrypt") o2 [output, back] words2) (c2 : Consistent o2) (i2 : Invokes "decrypt" words2 argv2)
    (hh : valueOf o1 "header" = none ∧ valueOf o2 "header" = none) {i : Nat} {secret : Bytes} {w : World} (hd : Desk s input output back i w)
    (hk : KeyFrom s.cwd o1 i secret w ∧ KeyFrom s.cwd o2 i secret w)
    (hp : PrimitivesWork s.C (algorithmOf o1) (if (valueOf o1 "argon").isSome then .argon2id 3 else .blake3Balloon 5) secret) (hlim : (w.file i).length / 2 ^ 20 ≤ s.C.ctrMax) :
    ∃ run1 run2 w1 w2, Cli.main s false argv1 = some run1 ∧ run1 w = (.ok [], w1) ∧ Cli.main s false argv2 = some run2 ∧ run2 w1 = (.ok [], w2) ∧
      (w1.look (s.cwd ++ [input]) = none ∧ ∃ j, w1.look (s.cwd ++ [output]) = some (.file j) ∧ DecryptsTo s.C secret (w1.file j) (w.file i)) ∧
      (∃ j, w2.look (s.cwd ++ [back]) = some (.file j) ∧ w2.file j = w.file i) ∧ (back ≠ input → w2.look (s.cwd ++ [input]) = none) ∧
      (∀ x, x ≠ s.cwd ++ [input] → x ≠ s.cwd ++ [back] → w2.look x = w.look x) ∧ ∀ j, j < w.nextIno → j ≠ i → w2.file j = w.file j := by
  obtain ⟨hp1, hp2, hp3⟩ := hd.names
  -- the first line
  obtain ⟨run1, m1, r1⟩ := C77_encrypt s h1 c1 i1
  obtain ⟨params1, n1, sel1, key1, er1, _, e1⟩ := r1 w
  have sup1 : Supplies s.words s.cwd .validate params1.key w secret := supplies_from hd.directory hk.1 ⟨fun path hv => by
      unfold KeyChoice at key1; rw [hv] at key1; exact key1, fun hv he => by
      unfold KeyChoice at key1; rw [hv] at key1; simp only [he, if_true] at key1; exact key1⟩ _
  obtain ⟨w1, c, f1, mv1, dec⟩ := encrypt_moves s hC hd.faultless hd.allocated hd.directory hp1 hp2 hd.source hd.target hk.1.1 sup1 (by rw [sel1.header]; exact hh.1) ⟨n1, er1⟩ (by rw [sel1.argon]; exact hp) hlim
  obtain ⟨j1, l1, g1, rfl⟩ := mv1.there
  have hii : i < w.nextIno := hd.allocated _ _ hd.source
  have hone : input ≠ output := by
    rintro rfl
    have := hd.source; rw [hd.target] at this; cases this
  -- in between
  have hdir1 : w1.look s.cwd = some .dir := by rw [mv1.others _ (cwd_ne _ _) (cwd_ne _ _)]; exact hd.directory
  have hob : back ≠ output := by
    rcases hd.last with rfl | ⟨h, _⟩
    · exact hone
    · exact h
  have hfree1 : w1.look (s.cwd ++ [back]) = none := by
    by_cases hb : back = input
    · rw [hb]; exact mv1.gone
    · rcases hd.last with h | ⟨_, h⟩
      · exact absurd h hb
      · rw [mv1.others _ (name_ne hb) (name_ne hob)]; exact h
  have hk2 : KeyFrom s.cwd o2 j1 secret w1 := by
    obtain ⟨hne, hk⟩ := hk.2
    refine ⟨hne, ?_⟩
    cases hv : valueOf o2 "keyfile" with
    | some path =>
      rw [hv] at hk
      obtain ⟨a1, a2, k, a3, a4, a5⟩ := hk
      have hk : k < w.nextIno := hd.allocated _ _ a3
      refine ⟨a1, a2, k, ?_, by omega, ?_⟩
      · rw [mv1.others]
        · exact a3
        · rintro e
          rw [e, hd.source] at a3
          cases a3
          exact a4 rfl
        · rintro e
          rw [e, hd.target] at a3
          cases a3
      · rw [mv1.files k hk a4]; exact a5
    | none => rw [hv] at hk; show w1.env = _; rw [mv1.env]; exact hk
  -- the second line
  obtain ⟨run2, m2, r2⟩ := C77_decrypt s h2 c2 i2
  obtain ⟨params2, n2, sel2, key2, er2, _, e2⟩ := r2 w1
  have sup2 : Supplies s.words s.cwd .direct params2.key w1 secret := supplies_from hdir1 hk2 ⟨fun path hv => by
      unfold OpenKeyChoice at key2; rw [hv] at key2; exact key2, fun hv he => by
      unfold OpenKeyChoice at key2; rw [hv] at key2; simp only [he, if_true] at key2; exact key2⟩ _
  obtain ⟨w2, f2, mv2⟩ := decrypt_moves s mv1.sched mv1.allocated hdir1 hp2 hp3 l1 hfree1 hk2.1 sup2 (by rw [sel2.header]; exact hh.2) ⟨n2, er2⟩ dec
  refine ⟨run1, run2, w1, w2, m1, by rw [e1]; exact Prog.bind_ok f1, m2, by rw [e2]; exact Prog.bind_ok f2, ⟨mv1.gone, j1, l1, dec⟩, ?_, ?_, ?_, ?_⟩
  · obtain ⟨j, a, _, b⟩ := mv2.there
    exact ⟨j, a, b⟩
  · intro hb
    rw [mv2.others _ (name_ne hone) (name_ne (Ne.symm hb))]; exact mv1.gone
  · intro x hx1 hx2
    by_cases hx : x = s.cwd ++ [output]
    · rw [hx, mv2.gone, hd.target]
    · rw [mv2.others x hx hx2, mv1.others x hx1 hx]
  · intro j hj hne
    have hle : w.nextIno ≤ w1.nextIno := Nat.le_trans g1 (Nat.le_of_lt (mv1.allocated _ _ l1))
    rw [mv2.files j (Nat.lt_of_lt_of_le hj hle) (by omega), mv1.files j hj hne]

/-- `encrypt z --argon=1 o` and `-d --force 1 o q` on the small disk, with the key in the environment: afterwards `q` holds what `z` held. -/
example : ∃ run1 run2 w1 w2, Cli.main exSys false ["encrypt".toList, "z".toList, "--argon=1".toList, "o".toList] = some run1 ∧ run1 (exWorld [] []) = (.ok [], w1) ∧
    Cli.main exSys false ["-d".toList, "--force".toList, "1".toList, "o".toList, "q".toList] = some run2 ∧ run2 w1 = (.ok [], w2) ∧ w1.look [['z']] = none ∧ w2.look [['z']] = none ∧
    ∃ j, w2.look [['q']] = some (.file j) ∧ w2.file j = [1, 2, 3] := by
  have hd : Desk exSys ['z'] ['o'] ['q'] 2 (exWorld [] []) :=
    ⟨rfl, (exSeparate [] []).allocated, rfl, by unfold Plain; decide, rfl, rfl, .inr ⟨by decide, rfl⟩⟩
  obtain ⟨run1, run2, w1, w2, h1, h2, h3, h4, ⟨h5, _⟩, h6, h7, _⟩ := C80_session exSys (Example.toy_lawful _ (by decide)) (o1 := [("argon", ['1'])]) (o2 := [("force", ['1'])])
    (.file (.inr (by decide)) (.opt (o := ⟨"argon", none, false⟩) (by decide) .attached (.file (.inr (by decide)) .nil))) ⟨by decide, .inl rfl⟩ .name
    (.opt (o := ⟨"force", some 'f', false⟩) (by decide) (.separate rfl (.inr (by decide))) (.file (.inr (by decide)) (.file (.inr (by decide)) .nil))) ⟨by decide, .inl rfl⟩ (.letter 'd' rfl)
    ⟨rfl, rfl⟩ hd (secret := [112, 119]) ⟨⟨by decide, rfl⟩, ⟨by decide, rfl⟩⟩ (toy_works _ _ _ (by decide)) (by decide)
  exact ⟨run1, run2, w1, w2, h1, h2, h3, h4, h5, h7 (by decide), h6⟩

end Volaris.Props
