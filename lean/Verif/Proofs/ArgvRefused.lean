import Verif.Proofs.ArgvMany
/-!
# Command lines that are refused
-/
namespace Volaris.Cli.Argv
open Volaris.Spec

theorem record_other {given g : List (Id × List (List Char))} {id : Id} {v : List Char} (h : record given id false v = some g) {id' : Id} (hne : id' ≠ id) : ex g id' = ex given id' := by
  obtain ⟨hf, e⟩ := record_single h
  rw [e, ex_append _ _ _ _ hf, if_neg hne]

/-- The positional arguments from the `n`-th on are as before. -/
def Kept (args : List Arg) (n : Nat) (st st' : State) : Prop := ∀ i p, (positionals args)[i]? = some p → n ≤ i → ex st'.given p.id = ex st.given p.id

theorem Kept.trans {args : List Arg} {n k : Nat} {a b c : State} (h1 : Kept args n a b) (h2 : Kept args k b c) : Kept args (max n k) a c :=
  fun i p hp hi => (h2 i p hp (by omega)).trans (h1 i p hp (by omega))

theorem Kept.mono {args : List Arg} {n k : Nat} {a b : State} (h : Kept args n a b) (hk : n ≤ k) : Kept args k a b := fun i p hp hi => h i p hp (by omega)

/-- One file name, or none. -/
theorem loose_file {args : List Arg} {options : List OptionName} (hwf : Wf args options) (hs : Simple args) {st : State} (hw : st.want = none) {f : List Char} (hp : NotOption f ∨ st.trailing = true) (next : Option (List Char)) :
    step args st f next = none ∨ ∃ st1, step args st f next = some st1 ∧ st1.want = none ∧ st1.trailing = st.trailing ∧ st1.pos = st.pos + 1 ∧ Kept args (st.pos + 1) st st1 := by
  rw [step_file hw hp, positional_simple hs hw]
  cases hpp : (positionals args)[st.pos]? with
  | none => exact .inl rfl
  | some p =>
    simp only
    cases hr : record st.given p.id false f with
    | none => exact .inl rfl
    | some g =>
      refine .inr ⟨_, rfl, hw, rfl, rfl, fun i q hq hi => ?_⟩
      exact record_other hr (posNodup_ne hwf.posNodup hq hpp (by omega))

theorem loose_trailing {args : List Arg} {options : List OptionName} (hwf : Wf args options) (hs : Simple args) (files : List (List Char)) :
    ∀ {st : State}, st.want = none → st.trailing = true → run args st files = none ∨ ∃ st1, run args st files = some st1 ∧ Kept args (st.pos + files.length) st st1 := by
  induction files with
  | nil =>
    intro st hw _
    exact .inr ⟨st, by unfold run; rw [hw]; rfl, fun _ _ _ _ => rfl⟩
  | cons f fs ih =>
    intro st hw ht
    rw [run_cons]
    rcases loose_file hwf hs hw (.inr ht) fs.head? with h | ⟨st1, h, hw1, ht1, hp1, hk1⟩
    · rw [h]; exact .inl rfl
    · rw [h]
      rcases ih hw1 (ht1.trans ht) with h2 | ⟨st2, h2, hk2⟩
      · exact .inl h2
      · exact .inr ⟨st2, h2, (hk1.trans hk2).mono (by rw [hp1, List.length_cons]; omega)⟩

/-- An option, or nothing. -/
theorem loose_option {args : List Arg} {options : List OptionName} (hwf : Wf args options) {st : State} (hw : st.want = none) (ht : st.trailing = false) {o : OptionName} (ho : o ∈ options) {v : List Char} {ws : List (List Char)}
    (h : Written o v ws) (rest : List (List Char)) :
    run args st (ws ++ rest) = none ∨ ∃ st1, run args st (ws ++ rest) = run args st1 rest ∧ st1.want = none ∧ st1.trailing = false ∧ st1.pos = st.pos ∧ Kept args 0 st st1 := by
  obtain ⟨a, e⟩ := hwf.entry o ho
  rw [run_written e h hw ht]
  cases hr : record st.given a.id false v with
  | none => exact .inl rfl
  | some g => exact .inr ⟨_, rfl, hw, ht, rfl, fun i p hp _ => record_other hr (e.id ▸ hwf.pos p (List.mem_of_getElem? hp) o ho)⟩

/-- A line, or nothing. -/
theorem loose_words {args : List Arg} {options : List OptionName} (hwf : Wf args options) (hs : Simple args) {opts : List (String × List Char)} {files words : List (List Char)} (h : Words options opts files words) :
    ∀ {st : State}, st.want = none → st.trailing = false → run args st words = none ∨ ∃ st1, run args st words = some st1 ∧ Kept args (st.pos + files.length) st st1 := by
  induction h with
  | nil => intro st hw _; exact .inr ⟨st, by unfold run; rw [hw]; rfl, fun _ _ _ _ => rfl⟩
  | opt ho hwr _ ih =>
    intro st hw ht
    rcases loose_option hwf hw ht ho hwr _ with h | ⟨st1, h, hw1, ht1, hp1, hk1⟩
    · exact .inl h
    · rw [h]
      rcases ih hw1 ht1 with h2 | ⟨st2, h2, hk2⟩
      · exact .inl h2
      · exact .inr ⟨st2, h2, (hk1.trans hk2).mono (by rw [hp1]; omega)⟩
  | file hpl _ ih =>
    intro st hw ht
    rw [run_cons]
    rcases loose_file hwf hs hw (.inl hpl) _ with h | ⟨st1, h, hw1, ht1, hp1, hk1⟩
    · rw [h]; exact .inl rfl
    · rw [h]
      rcases ih hw1 (ht1.trans ht) with h2 | ⟨st2, h2, hk2⟩
      · exact .inl h2
      · exact .inr ⟨st2, h2, (hk1.trans hk2).mono (by rw [hp1, List.length_cons]; omega)⟩
  | @escape files =>
    intro st hw ht
    have : run args st (['-', '-'] :: files) = run args { st with trailing := true } files := by
      rw [run_cons]; unfold step; rw [ht]; rfl
    rw [this]
    exact loose_trailing hwf hs files (st := { st with trailing := true }) hw rfl

/-- The first words of a line, or nothing. -/
theorem loose_prefix {args : List Arg} {options : List OptionName} (hwf : Wf args options) (hs : Simple args) {opts : List (String × List Char)} {files words : List (List Char)} (h : Words options opts files words) :
    ['-', '-'] ∉ words → ∀ {st : State} (rest : List (List Char)), st.want = none → st.trailing = false →
      run args st (words ++ rest) = none ∨ ∃ st1, run args st (words ++ rest) = run args st1 rest ∧ st1.want = none ∧ st1.trailing = false ∧ st1.pos = st.pos + files.length ∧ Kept args (st.pos + files.length) st st1 := by
  induction h with
  | nil => intro _ st rest hw ht; exact .inr ⟨st, rfl, hw, ht, rfl, fun _ _ _ _ => rfl⟩
  | escape => intro h; simp at h
  | opt ho hwr _ ih =>
    intro hne st rest hw ht
    rw [List.append_assoc]
    rcases loose_option hwf hw ht ho hwr _ with h | ⟨st1, h, hw1, ht1, hp1, hk1⟩
    · exact .inl h
    · rw [h]
      rcases ih (fun h => hne (List.mem_append_right _ h)) rest hw1 ht1 with h2 | ⟨st2, h2, hw2, ht2, hp2, hk2⟩
      · exact .inl h2
      · exact .inr ⟨st2, h2, hw2, ht2, by rw [hp2, hp1], (hk1.trans hk2).mono (by rw [hp1]; omega)⟩
  | @file f opts files words' hpl _ ih =>
    intro hne st rest hw ht
    rw [List.cons_append, run_cons]
    rcases loose_file hwf hs hw (.inl hpl) (words' ++ rest).head? with h | ⟨st1, h, hw1, ht1, hp1, hk1⟩
    · rw [h]; exact .inl rfl
    · rw [h]
      rcases ih (fun h => hne (List.mem_cons_of_mem _ h)) rest hw1 (ht1.trans ht) with h2 | ⟨st2, h2, hw2, ht2, hp2, hk2⟩
      · exact .inl h2
      · exact .inr ⟨st2, h2, hw2, ht2, by rw [hp2, hp1, List.length_cons]; omega, (hk1.trans hk2).mono (by rw [hp1, List.length_cons]; omega)⟩

/-- While an option waits for its value, there must not be an option, `--` or the end; a file name becomes the value. -/
theorem waiting_words {args : List Arg} {options : List OptionName} (hwf : Wf args options) (hs : Simple args) {opts : List (String × List Char)} {files words : List (List Char)} (h : Words options opts files words)
    {st : State} {o : OptionName} (ho : o ∈ options) (hw : st.want = some (idOf args o.long)) (ht : st.trailing = false) :
    run args st words = none ∨ ∃ st1, run args st words = some st1 ∧ Kept args (st.pos + (files.length - 1)) st st1 := by
  have hne : st.want ≠ none := by rw [hw]; simp
  cases h with
  | nil => left; unfold run; rw [hw]; rfl
  | @escape =>
    left
    have : run args st (['-', '-'] :: files) = run args { st with trailing := true } files := by
      rw [run_cons]; unfold step; rw [ht]; rfl
    rw [this]
    cases files with
    | nil => unfold run; rw [hw]; rfl
    | cons f fs =>
      rw [run_cons]
      unfold step positional
      simp [hw]
  | @opt o' v ws opts files rest ho' hwr _ =>
    left
    obtain ⟨a, e⟩ := hwf.entry o' ho'
    cases hwr with
    | attached => rw [List.cons_append, run_cons, step_longEq ht e, option_waiting hne]
    | separate => rw [List.cons_append, run_cons, step_long ht e, option_waiting hne]
    | letter c hc => rw [List.cons_append, run_cons, step_short ht e hc, option_waiting hne]
    | letterAttached c hc => rw [List.cons_append, run_cons, step_short ht e hc, option_waiting hne]
    | letterSeparate c hc => rw [List.cons_append, run_cons, step_short ht e hc, option_waiting hne]
  | @file f opts files rest hpl hrest =>
    rw [run_cons, step_value ht hw hpl]
    cases hr : record st.given (idOf args o.long) false f with
    | none => exact .inl rfl
    | some g =>
      show run args { st with given := g, want := none } rest = none ∨ _
      rcases loose_words hwf hs hrest (st := { st with given := g, want := none }) rfl ht with h2 | ⟨st2, h2, hk2⟩
      · exact .inl h2
      · refine .inr ⟨st2, h2, fun i p hp hi => ?_⟩
        rw [hk2 i p hp (by rw [List.length_cons] at hi; show st.pos + files.length ≤ i; omega)]
        exact record_other hr (hwf.pos p (List.mem_of_getElem? hp) o ho)

/-- A line with all the files it needs, in which an option has no value. -/
theorem refused_bare {c : Command} {options : List OptionName} (hd : Declared c.args options) (hs : Simple c.args) (hreq : ∀ p ∈ positionals c.args, p.required = true)
    {o1 o2 : List (String × List Char)} {f1 f2 w1 w2 : List (List Char)} (h1 : Words options o1 f1 w1) (hne : ['-', '-'] ∉ w1) (h2 : Words options o2 f2 w2) {o : OptionName} (ho : o ∈ options) {t : List Char} (hb : Bare o t)
    (hl : (f1 ++ f2).length ≤ (positionals c.args).length) (h0 : 0 < (positionals c.args).length) :
    finish c false (run c.args {} (w1 ++ t :: w2)) = none := by
  have main : run c.args {} (w1 ++ t :: w2) = none ∨ ∃ st, run c.args {} (w1 ++ t :: w2) = some st ∧ ∃ p ∈ positionals c.args, ex st.given p.id = none := by
    rcases loose_prefix hd.wf hs h1 hne (st := {}) (t :: w2) rfl rfl with h | ⟨st1, h, hw1, ht1, hp1, hk1⟩
    · exact .inl h
    · rw [h]
      obtain ⟨a, e⟩ := hd.wf.entry o ho
      have hstep : step c.args st1 t w2.head? = option st1 a none := by
        rcases hb with rfl | ⟨ch, hc, rfl⟩
        · exact step_long ht1 e _
        · exact step_short ht1 e hc [] _
      rw [run_cons, hstep]
      cases hq : a.equals with
      | true => left; unfold option; rw [hw1, hq]; rfl
      | false =>
        rw [option_wait hw1 hq]
        rcases waiting_words hd.wf hs h2 (st := { st1 with want := some a.id }) ho (by rw [e.id]) ht1 with h3 | ⟨st2, h3, hk2⟩
        · exact .inl h3
        · right
          refine ⟨st2, h3, ?_⟩
          cases f2 with
          | nil =>
            exfalso
            revert h3
            cases h2 with
            | nil => intro h3; unfold run at h3; simp at h3
            | escape =>
              intro h3
              rw [run_cons] at h3
              unfold step at h3
              rw [show ({ st1 with want := some a.id } : State).trailing = false from ht1] at h3
              simp [shape, run] at h3
            | @opt o' v ws opts files rest ho' hwr _ =>
              intro h3
              obtain ⟨a', e'⟩ := hd.wf.entry o' ho'
              have hwn : ({ st1 with want := some a.id } : State).want ≠ none := by simp
              have htf : ({ st1 with want := some a.id } : State).trailing = false := ht1
              cases hwr with
              | attached => rw [List.cons_append, run_cons, step_longEq htf e', option_waiting hwn] at h3; cases h3
              | separate => rw [List.cons_append, run_cons, step_long htf e', option_waiting hwn] at h3; cases h3
              | letter c hc => rw [List.cons_append, run_cons, step_short htf e' hc, option_waiting hwn] at h3; cases h3
              | letterAttached c hc => rw [List.cons_append, run_cons, step_short htf e' hc, option_waiting hwn] at h3; cases h3
              | letterSeparate c hc => rw [List.cons_append, run_cons, step_short htf e' hc, option_waiting hwn] at h3; cases h3
          | cons f fs =>
            have hlen : f1.length + (fs.length + 1) ≤ (positionals c.args).length := by simpa using hl
            have hi : (positionals c.args).length - 1 < (positionals c.args).length := by omega
            refine ⟨(positionals c.args)[(positionals c.args).length - 1], List.getElem_mem hi, ?_⟩
            have hpp := List.getElem?_eq_getElem hi
            rw [hk2 _ _ hpp (by show st1.pos + _ ≤ _; rw [hp1]; show 0 + f1.length + (fs.length + 1 - 1) ≤ _; omega)]
            show ex st1.given _ = none
            rw [hk1 _ _ hpp (by show 0 + f1.length ≤ _; omega)]
            rfl
  rcases main with h | ⟨st, h, p, hp, hnone⟩
  · rw [h]; rfl
  · rw [h]
    unfold finish
    simp only
    have : (({ args := c.args, given := st.given, debug := false } : Matches)).accepted = false := by
      unfold Matches.accepted
      rw [Bool.and_eq_false_iff]
      right
      rw [List.all_eq_false]
      refine ⟨p, hd.wf.posMem p hp, ?_⟩
      rw [explicit_eq]
      simp only [hnone, hreq p hp]
      simp
    rw [this]; rfl

theorem finish_some {c : Command} {debug : Bool} {st : Option State} {name : List Char} {m : Matches} (h : finish c debug st = some (name, m)) :
    name = c.name ∧ m.args = c.args ∧ m.accepted = true ∧ m.debug = debug ∧ finish c false st = some (name, { m with debug := false }) := by
  unfold finish at h ⊢
  cases st with
  | none => cases h
  | some st =>
    simp only at h ⊢
    split at h
    · rename_i ha
      cases h
      have : ({ args := c.args, given := st.given, debug := false } : Matches).accepted = true := ha
      refine ⟨rfl, rfl, ha, rfl, ?_⟩
      rw [this]; rfl
    · cases h

theorem finish_none {c : Command} {debug : Bool} {st : Option State} (h : finish c debug st = none) : finish c false st = none := by
  unfold finish at h ⊢
  cases st with
  | none => rfl
  | some st =>
    simp only at h ⊢
    split at h
    · cases h
    · rename_i ha
      have : ({ args := c.args, given := st.given, debug := false } : Matches).accepted = false := by
        cases h : ({ args := c.args, given := st.given, debug := false } : Matches).accepted with
        | false => rfl
        | true => exact absurd h ha
      rw [this]; rfl

/-- How a line gets to a command. -/
theorem getMatches_finish (argv : List (List Char)) : (∀ debug, getMatches debug argv = none) ∨ ∃ c ∈ commands, ∃ st, ∀ debug, getMatches debug argv = finish c debug st := by
  cases argv with
  | nil => exact .inl fun _ => rfl
  | cons t ts =>
    cases hs : shape t with
    | escape => exact .inl fun _ => by simp only [getMatches, hs]
    | long n v => exact .inl fun _ => by simp only [getMatches, hs]
    | word =>
      cases hf : commands.find? (·.name = t) with
      | none => exact .inl fun _ => by simp only [getMatches, hs, hf]
      | some c => exact .inr ⟨c, List.mem_of_find?_eq_some hf, _, fun _ => by simp only [getMatches, hs, hf]; rfl⟩
    | short f rest =>
      cases hf : commands.find? (·.flag = some f) with
      | none => exact .inl fun _ => by simp only [getMatches, hs, hf]
      | some c =>
        right
        cases rest with
        | nil => exact ⟨c, List.mem_of_find?_eq_some hf, _, fun _ => by simp only [getMatches, hs, hf]; rfl⟩
        | cons o rest => exact ⟨c, List.mem_of_find?_eq_some hf, _, fun _ => by simp only [getMatches, hs, hf]; rfl⟩

/-- What the parser hands over is a line of one of the commands. -/
theorem getMatches_some {argv : List (List Char)} {debug : Bool} {name : List Char} {m : Matches} (h : getMatches debug argv = some (name, m)) :
    (∃ c ∈ commands, name = c.name ∧ m.args = c.args) ∧ m.accepted = true ∧ m.debug = debug ∧ getMatches false argv = some (name, { m with debug := false }) := by
  rcases getMatches_finish argv with hn | ⟨c, hc, st, hf⟩
  · rw [hn] at h; cases h
  · rw [hf] at h
    obtain ⟨h1, h2, h3, h4, h5⟩ := finish_some h
    exact ⟨⟨c, hc, h1, h2⟩, h3, h4, by rw [hf]; exact h5⟩

theorem getMatches_none {argv : List (List Char)} {debug : Bool} (h : getMatches debug argv = none) : getMatches false argv = none := by
  rcases getMatches_finish argv with hn | ⟨c, hc, st, hf⟩
  · exact hn false
  · rw [hf] at h ⊢; exact finish_none h

end Volaris.Cli.Argv
