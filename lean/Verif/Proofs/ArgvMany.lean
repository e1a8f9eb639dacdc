import Verif.Proofs.ArgvCmd
/-!
# The command lines of `pack` and `hash`
-/
namespace Volaris.Cli.Argv
open Volaris.Spec

/-- Options, before other words. -/
theorem run_options {args : List Arg} {options : List OptionName} (hwf : Wf args options) {opts : List (String × List Char)} {files ws : List (List Char)} (h : Words options opts files ws) :
    files = [] → ['-', '-'] ∉ ws → ∀ {st : State} (rest : List (List Char)), (opts.map (·.1)).Nodup → Free args options st opts [] → st.want = none → st.trailing = false →
      ∃ st1, run args st (ws ++ rest) = run args st1 rest ∧ st1.trailing = false ∧ Parsed args options st opts [] st1 := by
  induction h with
  | nil => intro _ _ st rest _ _ hw ht; exact ⟨st, rfl, ht, parsed_nil hw⟩
  | file _ _ _ => intro h; cases h
  | escape => intro _ h; simp at h
  | opt ho hwr _ ih =>
    intro hfs hne st rest hn hf hw ht
    subst hfs
    rw [List.append_assoc]
    obtain ⟨st1, h1, hw1, ht1, _, hf1, _, hp⟩ := parsed_option hwf ho hn hf hw ht hwr _
    simp only [List.map_cons, List.nodup_cons] at hn
    obtain ⟨st', h2, h3, h4⟩ := ih rfl (fun h => hne (List.mem_append_right _ h)) rest hn.2 hf1 hw1 ht1
    exact ⟨st', h1.trans h2, h3, hp _ h4⟩

/-- Options begin with what looks like one. -/
theorem options_head {args : List Arg} {options : List OptionName} (hwf : Wf args options) {opts : List (String × List Char)} {files ws : List (List Char)} (h : Words options opts files ws) (hfs : files = []) (hne : ['-', '-'] ∉ ws) :
    ws = [] ∨ ∃ t, ws.head? = some t ∧ newArg t = true := by
  cases h with
  | nil => exact .inl rfl
  | file _ _ => cases hfs
  | escape => simp at hne
  | @opt o v ws' opts files rest ho hwr _ =>
    right
    obtain ⟨a, e⟩ := hwf.entry o ho
    cases hwr with
    | attached =>
      refine ⟨_, rfl, ?_⟩
      unfold newArg
      rw [List.cons_append, List.cons_append, shape_long (by simp)]
    | separate => refine ⟨_, rfl, ?_⟩; unfold newArg; rw [shape_long e.ne]
    | letter c hc => refine ⟨_, rfl, ?_⟩; unfold newArg; rw [shape_short (e.short c hc).2]
    | letterAttached c hc => refine ⟨_, rfl, ?_⟩; unfold newArg; rw [shape_short (e.short c hc).2]
    | letterSeparate c hc => refine ⟨_, rfl, ?_⟩; unfold newArg; rw [shape_short (e.short c hc).2]

theorem lookup_append (as bs : List (String × List Char)) (n : String) : (as ++ bs).lookup n = ((as.lookup n).or (bs.lookup n)) := by
  induction as with
  | nil => rfl
  | cons a as ih =>
    rw [List.cons_append, List.lookup_cons, List.lookup_cons]
    cases n == a.1
    · exact ih
    · rfl

/-! ### pack -/

theorem pack_positionals : positionals packArgs = [{ id := .input, required := true, multiple := true }, { id := .output, required := true }] := by decide +kernel

theorem pack_input {st : State} (hw : st.want = none) (hp : st.pos = 0) (t : List Char) {n : List Char} (hn : newArg n = false) :
    positional packArgs st t (some n) = (record st.given .input true t).map fun g => { st with given := g, pos := 0 } := by
  unfold positional
  rw [pack_positionals, hp, hw]
  simp [hn]

theorem pack_output {st : State} (hw : st.want = none) (hp : st.pos = 0) (t : List Char) {next : Option (List Char)} (hn : ∀ n, next = some n → newArg n = true) :
    positional packArgs st t next = (record st.given .output false t).map fun g => { st with given := g, pos := 2 } := by
  unfold positional
  rw [pack_positionals, hp, hw]
  cases next with
  | none => simp
  | some n => simp [hn n rfl]

/-- The names of the directories and the output. -/
theorem pack_files (output : List Char) (houtput : NotOption output) (rest : List (List Char)) (hrest : ∀ n, rest.head? = some n → newArg n = true) (inputs : List (List Char)) :
    (∀ f ∈ inputs, NotOption f) → ∀ {st : State}, st.want = none → st.trailing = false → st.pos = 0 → ex st.given .output = none → (∀ g ∈ st.given, (∃ a ∈ packArgs, a.id = g.1) ∧ g.2 ≠ []) →
      ∃ st1, run packArgs st (inputs ++ output :: rest) = run packArgs st1 rest ∧ st1.want = none ∧ st1.trailing = false ∧ st1.pos = 2 ∧
        ex st1.given .output = some [output] ∧ ex st1.given .input = (if inputs = [] then ex st.given .input else some ((ex st.given .input).getD [] ++ inputs)) ∧
        (∀ id, id ≠ .input → id ≠ .output → ex st1.given id = ex st.given id) ∧ (∀ g ∈ st1.given, (∃ a ∈ packArgs, a.id = g.1) ∧ g.2 ≠ []) := by
  induction inputs with
  | nil =>
    intro _ st hw ht hp hf hg
    refine ⟨{ st with given := st.given ++ [(.output, [output])], pos := 2 }, ?_, hw, ht, rfl, ?_, ?_, fun id _ ho => ?_, fun g hm => ?_⟩
    · show run packArgs st (output :: rest) = _
      rw [run_cons, step_file hw (.inl houtput), pack_output hw hp output hrest, record_fresh hf]; rfl
    · rw [ex_append _ _ _ _ hf]; simp
    · rw [ex_append _ _ _ _ hf]; simp
    · rw [ex_append _ _ _ _ hf, if_neg ho]
    · rcases List.mem_append.1 hm with hm | hm
      · exact hg g hm
      · rw [List.mem_singleton] at hm; subst hm
        exact ⟨⟨{ id := .output, required := true }, by decide +kernel, rfl⟩, by simp⟩
  | cons f fs ih =>
    intro hpl st hw ht hp hf hg
    obtain ⟨g, hr, hex, hmem⟩ := record_multiple st.given .input f
    have hnext : ∃ n, (fs ++ output :: rest).head? = some n ∧ newArg n = false := by
      cases fs with
      | nil => exact ⟨output, rfl, newArg_plain houtput⟩
      | cons f' fs' => exact ⟨f', rfl, newArg_plain (hpl f' (by simp))⟩
    obtain ⟨n, hn, hn'⟩ := hnext
    obtain ⟨st1, h1, h2, h3, h4, h5, h6, h7, h8⟩ := ih (fun x hx => hpl x (List.mem_cons_of_mem _ hx)) (st := { st with given := g, pos := 0 }) hw ht rfl (by rw [hex]; simpa using hf) (fun x hx => by
      rcases hmem x hx with ⟨y, hy, e, hne⟩ | e
      · obtain ⟨⟨a, ha, ea⟩, hy2⟩ := hg y hy
        exact ⟨⟨a, ha, ea.trans e.symm⟩, hne hy2⟩
      · subst e
        exact ⟨⟨{ id := .input, required := true, multiple := true }, by decide +kernel, rfl⟩, by simp⟩)
    refine ⟨st1, ?_, h2, h3, h4, h5, ?_, fun id hi ho => ?_, h8⟩
    · show run packArgs st (f :: (fs ++ output :: rest)) = _
      rw [run_cons, step_file hw (.inl (hpl f (by simp))), hn, pack_input hw hp f hn', hr]
      exact h1
    · rw [h6, hex]
      by_cases e : fs = []
      · subst e; simp
      · simp [e]
    · rw [h7 id hi ho, hex, if_neg hi]

/-- A line of `pack`: options, then the directories and the output, then options. -/
theorem read_pack {c : Command} (hcargs : c.args = packArgs) {before after : List (String × List Char)} {wb wa : List (List Char)} (hb : OptionWords (optionsOf "pack") before wb) (ha : OptionWords (optionsOf "pack") after wa)
    {inputs : List (List Char)} {output : List Char} (hi : inputs ≠ []) (hpi : ∀ f ∈ inputs, NotOption f) (hpo : NotOption output) (hc : Consistent (before ++ after)) :
    ∃ m, finish c false (run c.args {} (wb ++ inputs ++ output :: wa)) = some (c.name, m) ∧ Read packArgs (optionsOf "pack") (before ++ after) m ∧ m.explicit .input = some inputs ∧ m.explicit .output = some [output] := by
  have hd := pack_declared
  have hn := hc.once
  rw [List.map_append, List.nodup_append] at hn
  obtain ⟨hnb, hna, hdis⟩ := hn
  obtain ⟨st1, h1, ht1, hp1⟩ := run_options hd.wf hb.1 rfl hb.2 (st := {}) (inputs ++ output :: wa) hnb ⟨fun _ _ _ => rfl, fun _ _ _ _ => rfl, Nat.zero_le _⟩ rfl rfl
  have hps := pack_positionals
  have e1 : ex st1.given .output = none := by
    rw [hp1.file 1 { id := .output, required := true } (by rw [hps]; rfl)]; rfl
  have e2 : ex st1.given .input = none := by
    rw [hp1.file 0 { id := .input, required := true, multiple := true } (by rw [hps]; rfl)]; rfl
  obtain ⟨st2, h2, hw2, ht2, hpos2, ho2, hi2, hother2, hg2⟩ := pack_files output hpo wa (fun n hn => by
      rcases options_head hd.wf ha.1 rfl ha.2 with h | ⟨t, h, h'⟩
      · rw [h] at hn; cases hn
      · rw [h] at hn; cases hn; exact h') inputs hpi hp1.want ht1 hp1.pos e1 (fun g hg => by
      rcases hp1.given g hg with h | h
      · cases h
      · exact h)
  rw [if_neg hi, e2] at hi2
  have hnot : ∀ o ∈ optionsOf "pack", idOf packArgs o.long ≠ .input ∧ idOf packArgs o.long ≠ .output := fun o ho =>
    ⟨fun e => hd.wf.pos { id := .input, required := true, multiple := true } (by rw [hps]; simp) o ho e.symm, fun e => hd.wf.pos { id := .output, required := true } (by rw [hps]; simp) o ho e.symm⟩
  have hopt1 : ∀ o ∈ optionsOf "pack", ex st2.given (idOf packArgs o.long) = (valueOf before o.long).map fun v => [v] := by
    intro o ho
    rw [hother2 _ (hnot o ho).1 (hnot o ho).2, hp1.opt o ho]
    cases valueOf before o.long <;> rfl
  obtain ⟨st3, h3, _, hp3⟩ := run_options hd.wf ha.1 rfl ha.2 (st := st2) [] hna ⟨fun o ho hm => by
      rw [hopt1 o ho]
      have : before.lookup o.long = none := by
        rw [List.lookup_eq_none_iff]
        intro x hx
        have := hdis x.1 (List.mem_map.2 ⟨x, hx, rfl⟩) o.long hm
        simpa using Ne.symm this
      show (before.lookup o.long).map _ = _
      rw [this]; rfl, fun i p hp hle => by
      rw [hps] at hp
      have hlt := (List.getElem?_eq_some_iff.1 hp).1
      simp only [List.length_cons, List.length_nil] at hlt
      omega, by rw [hps, hpos2]; exact Nat.le_refl _⟩ hw2 ht2
  have hopt : ∀ o ∈ optionsOf "pack", ex st3.given (idOf packArgs o.long) = (valueOf (before ++ after) o.long).map fun v => [v] := by
    intro o ho
    rw [hp3.opt o ho, hopt1 o ho]
    unfold valueOf
    rw [lookup_append]
    cases hb' : before.lookup o.long with
    | none => cases after.lookup o.long <;> rfl
    | some v =>
      have hm : o.long ∈ before.map (·.1) := by
        rw [List.lookup_eq_some_iff] at hb'
        obtain ⟨l1, l2, e, _⟩ := hb'
        rw [e]; simp
      have : after.lookup o.long = none := by
        rw [List.lookup_eq_none_iff]
        intro x hx
        simpa using hdis o.long hm x.1 (List.mem_map.2 ⟨x, hx, rfl⟩)
      rw [this]; rfl
  have hfi : ex st3.given .input = some inputs := by
    rw [hp3.file 0 { id := .input, required := true, multiple := true } (by rw [hps]; rfl), hpos2, hi2]; rfl
  have hfo : ex st3.given .output = some [output] := by
    rw [hp3.file 1 { id := .output, required := true } (by rw [hps]; rfl), hpos2, ho2]; rfl
  have hread := accepted_of hd hc hopt (fun p hp _ => by
      rw [hps] at hp
      simp only [List.mem_cons, List.not_mem_nil, or_false] at hp
      rcases hp with rfl | rfl
      · rw [hfi]; rfl
      · rw [hfo]; rfl)
    (fun g hg => by
      rcases hp3.given g hg with h | h
      · exact hg2 g h
      · exact h)
  refine ⟨{ args := packArgs, given := st3.given }, ?_, hread, hfi, hfo⟩
  rw [hcargs]
  have hrun : run packArgs {} (wb ++ inputs ++ output :: wa) = some st3 := by
    rw [List.append_assoc, h1, h2]
    have := h3
    rw [List.append_nil] at this
    rw [this]
    unfold run
    rw [hp3.want]; rfl
  rw [hrun]
  unfold finish
  simp only
  rw [hcargs, hread.accepted.accepted]; rfl

/-! ### hash -/

theorem hash_positionals : positionals hashArgs = [{ id := .input, required := true, multiple := true }] := by decide +kernel

theorem hash_file {st : State} (hw : st.want = none) (hp : st.pos = 0) (t : List Char) (next : Option (List Char)) :
    positional hashArgs st t next = (record st.given .input true t).map fun g => { st with given := g, pos := 0 } := by
  unfold positional
  rw [hash_positionals, hp, hw]
  simp

theorem hash_run {files words : List (List Char)} {trailing : Bool} (hshape : ∀ (st : State) (f : List Char), st.want = none → st.trailing = trailing → f ∈ files → ∀ next, step hashArgs st f next = positional hashArgs st f next) :
    ∀ {st : State}, st.want = none → st.trailing = trailing → st.pos = 0 → (∀ g ∈ st.given, (∃ a ∈ hashArgs, a.id = g.1) ∧ g.2 ≠ []) →
      ∃ st1, run hashArgs st (files ++ words) = run hashArgs st1 words ∧ st1.want = none ∧ st1.trailing = trailing ∧ st1.pos = 0 ∧
        ex st1.given .input = (if files = [] then ex st.given .input else some ((ex st.given .input).getD [] ++ files)) ∧ (∀ g ∈ st1.given, (∃ a ∈ hashArgs, a.id = g.1) ∧ g.2 ≠ []) := by
  induction files with
  | nil => intro st hw ht hp hg; exact ⟨st, rfl, hw, ht, hp, rfl, hg⟩
  | cons f fs ih =>
    intro st hw ht hp hg
    obtain ⟨g, hr, hex, hmem⟩ := record_multiple st.given .input f
    obtain ⟨st1, h1, h2, h3, h4, h5, h6⟩ := ih (fun st f' hw ht hf => hshape st f' hw ht (List.mem_cons_of_mem _ hf)) (st := { st with given := g, pos := 0 }) hw ht rfl (fun x hx => by
      rcases hmem x hx with ⟨y, hy, e, hne⟩ | e
      · obtain ⟨⟨a, ha, ea⟩, hy2⟩ := hg y hy
        exact ⟨⟨a, ha, ea.trans e.symm⟩, hne hy2⟩
      · subst e
        exact ⟨⟨{ id := .input, required := true, multiple := true }, by decide +kernel, rfl⟩, by simp⟩)
    refine ⟨st1, ?_, h2, h3, h4, ?_, h6⟩
    · show run hashArgs st (f :: (fs ++ words)) = _
      rw [run_cons, hshape st f hw ht (by simp), hash_file hw hp, hr]
      exact h1
    · rw [h5, hex]
      by_cases e : fs = []
      · subst e; simp
      · simp [e]

/-- The words of a line without options. -/
theorem words_files {opts : List (String × List Char)} {files words : List (List Char)} (h : Words [] opts files words) :
    opts = [] ∧ ((words = files ∧ ∀ f ∈ files, NotOption f) ∨ ∃ fs fs', files = fs ++ fs' ∧ words = fs ++ ['-', '-'] :: fs' ∧ ∀ f ∈ fs, NotOption f) := by
  induction h with
  | nil => exact ⟨rfl, .inl ⟨rfl, by simp⟩⟩
  | opt ho => cases ho
  | escape => exact ⟨rfl, .inr ⟨[], _, rfl, rfl, by simp⟩⟩
  | @file f opts files rest hf _ ih =>
    obtain ⟨h1, h2⟩ := ih
    refine ⟨h1, ?_⟩
    rcases h2 with ⟨e, hp⟩ | ⟨fs, fs', e1, e2, hp⟩
    · exact .inl ⟨by rw [e], by simpa using ⟨hf, hp⟩⟩
    · exact .inr ⟨f :: fs, fs', by rw [e1]; rfl, by rw [e2]; rfl, by simpa using ⟨hf, hp⟩⟩

/-- A line of `hash`. -/
theorem read_hash {c : Command} (hcargs : c.args = hashArgs) {opts : List (String × List Char)} {files words : List (List Char)} (h : Words (optionsOf "hash") opts files words) (hne : files ≠ []) :
    ∃ m, finish c false (run c.args {} words) = some (c.name, m) ∧ Accepted hashArgs m ∧ m.explicit .input = some files := by
  have key : ∃ st, run hashArgs {} words = some st ∧ ex st.given .input = some files ∧ (∀ g ∈ st.given, (∃ a ∈ hashArgs, a.id = g.1) ∧ g.2 ≠ []) := by
    obtain ⟨_, hh⟩ := words_files h
    rcases hh with ⟨e, hp⟩ | ⟨fs, fs', e1, e2, hp⟩
    · subst e
      obtain ⟨st1, h1, h2, _, _, h5, h6⟩ := hash_run (files := words) (words := []) (trailing := false) (fun st f hw ht hf next => step_file hw (.inl (hp f hf)) next) (st := {}) rfl rfl rfl (by simp)
      rw [List.append_nil] at h1
      refine ⟨st1, ?_, ?_, h6⟩
      · rw [h1]; unfold run; rw [h2]; rfl
      · rw [h5, if_neg hne]; rfl
    · obtain ⟨st1, h1, h2, ht1, hp1, h5, h6⟩ := hash_run (files := fs) (words := ['-', '-'] :: fs') (trailing := false) (fun st f hw ht hf next => step_file hw (.inl (hp f hf)) next) (st := {}) rfl rfl rfl (by simp)
      obtain ⟨st2, g1, g2, _, _, g5, g6⟩ := hash_run (files := fs') (words := []) (trailing := true) (fun st f hw ht hf next => step_file hw (.inr ht) next) (st := { st1 with trailing := true }) h2 rfl hp1 h6
      rw [List.append_nil] at g1
      refine ⟨st2, ?_, ?_, g6⟩
      · rw [e2, h1, run_cons]
        unfold step
        rw [ht1]
        show run hashArgs { st1 with trailing := true } fs' = _
        rw [g1]; unfold run; rw [g2]; rfl
      · rw [g5, e1]
        show (if fs' = [] then ex st1.given .input else some ((ex st1.given .input).getD [] ++ fs')) = _
        rw [h5]
        by_cases ef : fs = []
        · subst ef
          by_cases ef' : fs' = []
          · subst ef'; rw [e1] at hne; simp at hne
          · simp [ef']; rfl
        · by_cases ef' : fs' = []
          · subst ef'; simp [ef]; rfl
          · simp [ef, ef']; rfl
  obtain ⟨st, h1, h2, h3⟩ := key
  have hread := accepted_of hash_declared (opts := []) ⟨by simp, .inl rfl⟩ (given := st.given) (fun o ho => by cases ho) (fun p hp _ => by
      rw [hash_positionals, List.mem_singleton] at hp
      subst hp; rw [h2]; rfl) h3
  refine ⟨{ args := hashArgs, given := st.given }, ?_, hread.accepted, h2⟩
  rw [hcargs, h1]
  unfold finish
  simp only
  rw [hcargs, hread.accepted.accepted]; rfl

end Volaris.Cli.Argv
