import Verif.Proofs.Args
import Verif.Spec.CommandLine
/-!
# The parser of the command line
-/
namespace Volaris.Cli.Argv
open Volaris.Spec

/-- What was given for an argument. -/
def ex (given : List (Id × List (List Char))) (id : Id) : Option (List (List Char)) := (given.find? (·.1 = id)).map (·.2)

theorem ex_append (given : List (Id × List (List Char))) (id id' : Id) (vs : List (List Char)) (h : ex given id = none) :
    ex (given ++ [(id, vs)]) id' = if id' = id then some vs else ex given id' := by
  unfold ex at *
  rw [List.find?_append]
  by_cases e : id' = id
  · subst e
    have : given.find? (·.1 = id') = none := by simpa using h
    rw [this]
    simp
  · have : (id = id') = False := by simp [Ne.symm e]
    simp [e, List.find?_cons, this]

theorem record_fresh {given : List (Id × List (List Char))} {id : Id} (h : ex given id = none) (mult : Bool) (v : List Char) : record given id mult v = some (given ++ [(id, [v])]) := by
  unfold record
  unfold ex at h
  have : given.find? (·.1 = id) = none := by simpa using h
  rw [this]

theorem record_single {given g : List (Id × List (List Char))} {id : Id} {v : List Char} (h : record given id false v = some g) : ex given id = none ∧ g = given ++ [(id, [v])] := by
  unfold record at h
  unfold ex
  cases hf : given.find? (·.1 = id) with
  | none => rw [hf] at h; exact ⟨rfl, (Option.some.inj h).symm⟩
  | some _ => rw [hf] at h; cases h

theorem ex_map (given : List (Id × List (List Char))) (id id' : Id) (v : List Char) :
    ex (given.map fun g => if g.1 = id then (g.1, g.2 ++ [v]) else g) id' = (ex given id').map fun vs => if id' = id then vs ++ [v] else vs := by
  unfold ex
  induction given with
  | nil => rfl
  | cons g gs ih =>
    have h1 : (if g.1 = id then (g.1, g.2 ++ [v]) else g).1 = g.1 := by split <;> rfl
    rw [List.map_cons, List.find?_cons, List.find?_cons, h1]
    by_cases e : g.1 = id'
    · subst e
      simp only [decide_true, Option.map_some]
      split <;> simp_all
    · simp only [e, decide_false]
      exact ih

/-- A value of an argument that takes several. -/
theorem record_multiple (given : List (Id × List (List Char))) (id : Id) (v : List Char) :
    ∃ g, record given id true v = some g ∧ (∀ id', ex g id' = if id' = id then some ((ex given id).getD [] ++ [v]) else ex given id') ∧
      (∀ x ∈ g, (∃ y ∈ given, x.1 = y.1 ∧ (y.2 ≠ [] → x.2 ≠ [])) ∨ x = (id, [v])) := by
  cases hf : ex given id with
  | none =>
    refine ⟨_, record_fresh hf true v, fun id' => ?_, fun x hx => ?_⟩
    · rw [ex_append _ _ _ _ hf]; simp
    · rcases List.mem_append.1 hx with hx | hx
      · exact .inl ⟨x, hx, rfl, fun h => h⟩
      · exact .inr (by simpa using hx)
  | some vs =>
    refine ⟨given.map fun g => if g.1 = id then (g.1, g.2 ++ [v]) else g, ?_, fun id' => ?_, fun x hx => ?_⟩
    · unfold record
      unfold ex at hf
      cases h : given.find? (·.1 = id) with
      | none => rw [h] at hf; cases hf
      | some _ => rfl
    · rw [ex_map]
      by_cases e : id' = id
      · subst e; rw [hf]; simp
      · simp [e]
    · obtain ⟨y, hy, e⟩ := List.mem_map.1 hx
      subst e
      refine .inl ⟨y, hy, ?_, ?_⟩
      · split <;> rfl
      · split
        · simp
        · exact fun h => h

/-! ### Shapes -/

theorem splitEq_of_not_mem {n : List Char} (h : '=' ∉ n) : splitEq n = (n, none) := by
  induction n with
  | nil => rfl
  | cons c cs ih =>
    simp only [List.mem_cons, not_or] at h
    unfold splitEq
    rw [if_neg (Ne.symm h.1), ih h.2]

theorem splitEq_append {n : List Char} (h : '=' ∉ n) (v : List Char) : splitEq (n ++ '=' :: v) = (n, some v) := by
  induction n with
  | nil => rfl
  | cons c cs ih =>
    simp only [List.mem_cons, not_or] at h
    show splitEq (c :: (cs ++ '=' :: v)) = _
    unfold splitEq
    rw [if_neg (Ne.symm h.1), ih h.2]

theorem shape_long {n : List Char} (hn : n ≠ []) : shape ('-' :: '-' :: n) = .long (splitEq n).1 (splitEq n).2 := by
  cases n with
  | nil => exact absurd rfl hn
  | cons c cs => rfl

theorem shape_short {c : Char} (hc : c ≠ '-') (rest : List Char) : shape ('-' :: c :: rest) = .short c rest := by
  unfold shape
  split <;> simp_all

theorem shape_plain {v : List Char} (h : NotOption v) : shape v = .word := by
  unfold shape
  rcases h with rfl | h
  · rfl
  · split <;> simp_all

theorem newArg_plain {v : List Char} (h : NotOption v) : newArg v = false := by
  unfold newArg
  rw [shape_plain h]

/-! ### Options -/

/-- The argument that is named like this. -/
def idOf (args : List Arg) (name : String) : Id :=
  match args.find? (·.long = some name.toList) with
  | some a => a.id
  | none => .input

/-- The option belongs to the argument. -/
structure Entry (args : List Arg) (o : OptionName) (a : Arg) : Prop where
  mem : a ∈ args
  id : a.id = idOf args o.long
  long : args.find? (·.long = some o.long.toList) = some a
  short : ∀ c, o.letter = some c → args.find? (·.short = some c) = some a ∧ c ≠ '-'
  equals : a.equals = o.equals
  ne : o.long.toList ≠ []
  noEq : '=' ∉ o.long.toList

/-- The table of options fits the arguments. -/
structure Wf (args : List Arg) (options : List OptionName) : Prop where
  entry : ∀ o ∈ options, ∃ a, Entry args o a
  inj : ∀ o ∈ options, ∀ o' ∈ options, idOf args o.long = idOf args o'.long → o.long = o'.long
  pos : ∀ p ∈ positionals args, ∀ o ∈ options, p.id ≠ idOf args o.long
  posMem : ∀ p ∈ positionals args, p ∈ args
  posNodup : ((positionals args).map (·.id)).Nodup

theorem option_value {st : State} (hw : st.want = none) (a : Arg) (v : List Char) :
    option st a (some v) = (record st.given a.id false v).map fun g => { st with given := g } := by
  unfold option; rw [hw]; rfl

theorem option_wait {st : State} (hw : st.want = none) {a : Arg} (h : a.equals = false) : option st a none = some { st with want := some a.id } := by
  unfold option; rw [hw, h]; rfl

theorem option_waiting {st : State} (hw : st.want ≠ none) (a : Arg) (v : Option (List Char)) : option st a v = none := by
  unfold option
  cases h : st.want with
  | none => exact absurd h hw
  | some _ => rfl

theorem step_long {args : List Arg} {st : State} (ht : st.trailing = false) {o : OptionName} {a : Arg} (e : Entry args o a) (next : Option (List Char)) :
    step args st ('-' :: '-' :: o.long.toList) next = option st a none := by
  unfold step
  rw [ht, shape_long e.ne, splitEq_of_not_mem e.noEq]
  show longOption args st _ _ = _
  unfold longOption; rw [e.long]

theorem step_longEq {args : List Arg} {st : State} (ht : st.trailing = false) {o : OptionName} {a : Arg} (e : Entry args o a) (v : List Char) (next : Option (List Char)) :
    step args st (('-' :: '-' :: o.long.toList) ++ '=' :: v) next = option st a (some v) := by
  unfold step
  rw [ht, List.cons_append, List.cons_append, shape_long (by simp), splitEq_append e.noEq]
  show longOption args st _ _ = _
  unfold longOption; rw [e.long]

theorem shortOption_entry {args : List Arg} (st : State) {o : OptionName} {a : Arg} (e : Entry args o a) {c : Char} (hc : o.letter = some c) (rest : List Char) :
    shortOption args st c rest = option st a (attached rest) := by
  unfold shortOption
  rw [(e.short c hc).1]

theorem step_short {args : List Arg} {st : State} (ht : st.trailing = false) {o : OptionName} {a : Arg} (e : Entry args o a) {c : Char} (hc : o.letter = some c) (rest : List Char) (next : Option (List Char)) :
    step args st ('-' :: c :: rest) next = option st a (attached rest) := by
  unfold step
  rw [ht, shape_short (e.short c hc).2]
  exact shortOption_entry st e hc rest

theorem run_cons (args : List Arg) (st : State) (t : List Char) (ts : List (List Char)) :
    run args st (t :: ts) = match step args st t ts.head? with | none => none | some st' => run args st' ts := rfl

theorem step_value {args : List Arg} {st : State} (ht : st.trailing = false) {id : Id} (hw : st.want = some id) {v : List Char} (hv : NotOption v) (next : Option (List Char)) :
    step args st v next = (record st.given id false v).map fun g => { st with given := g, want := none } := by
  unfold step
  rw [ht, shape_plain hv, hw]; rfl

/-- The words of an option are taken as such. -/
theorem run_written {args : List Arg} {o : OptionName} {a : Arg} (e : Entry args o a) {v : List Char} {ws : List (List Char)} (h : Written o v ws) {st : State} (hw : st.want = none) (ht : st.trailing = false)
    (rest : List (List Char)) :
    run args st (ws ++ rest) = match record st.given a.id false v with | none => none | some g => run args { st with given := g } rest := by
  cases h with
  | attached =>
    show run args st (_ :: rest) = _
    rw [run_cons, step_longEq ht e, option_value hw]
    cases record st.given a.id false v <;> rfl
  | separate hq hp =>
    show run args st (_ :: v :: rest) = _
    rw [run_cons, step_long ht e, option_wait hw (e.equals.trans hq)]
    show run args _ (v :: rest) = _
    rw [run_cons, step_value (st := { st with want := some a.id }) (id := a.id) ht rfl hp]
    cases record st.given a.id false v with
    | none => rfl
    | some g => show run args { st with given := g, want := none } rest = _; rw [← hw]
  | letter c hc hne hh =>
    show run args st (_ :: rest) = _
    rw [run_cons, step_short ht e hc]
    have : attached v = some v := by
      unfold attached
      split <;> simp_all
    rw [this, option_value hw]
    cases record st.given a.id false v <;> rfl
  | letterAttached c hc =>
    show run args st (_ :: rest) = _
    rw [run_cons, step_short ht e hc]
    show (match option st a (some v) with | none => none | some st' => run args st' rest) = _
    rw [option_value hw]
    cases record st.given a.id false v <;> rfl
  | letterSeparate c hc hq hp =>
    show run args st (_ :: v :: rest) = _
    rw [run_cons, step_short ht e hc]
    show (match option st a none with | none => none | some st' => run args st' (v :: rest)) = _
    rw [option_wait hw (e.equals.trans hq)]
    show run args _ (v :: rest) = _
    rw [run_cons, step_value (st := { st with want := some a.id }) (id := a.id) ht rfl hp]
    cases record st.given a.id false v with
    | none => rfl
    | some g => show run args { st with given := g, want := none } rest = _; rw [← hw]

theorem run_written_fresh {args : List Arg} {o : OptionName} {a : Arg} (e : Entry args o a) {v : List Char} {ws : List (List Char)} (h : Written o v ws) {st : State} (hw : st.want = none) (ht : st.trailing = false)
    (hf : ex st.given a.id = none) (rest : List (List Char)) :
    run args st (ws ++ rest) = run args { st with given := st.given ++ [(a.id, [v])] } rest := by
  rw [run_written e h hw ht, record_fresh hf]

/-! ### File names -/

/-- No positional argument before the last takes several values. -/
def Simple (args : List Arg) : Prop := ∀ p ∈ positionals args, p.multiple = false

theorem positional_simple {args : List Arg} (hs : Simple args) {st : State} (hw : st.want = none) (t : List Char) (next : Option (List Char)) :
    positional args st t next = match (positionals args)[st.pos]? with
      | none => none
      | some a => (record st.given a.id false t).map fun g => { st with given := g, pos := st.pos + 1 } := by
  unfold positional
  have hl : ((positionals args).take ((positionals args).length - 1)).any (·.multiple) = false := by
    rw [List.any_eq_false]
    intro p hp
    rw [hs p (List.mem_of_mem_take hp)]
    exact Bool.false_ne_true
  simp only [hl, Bool.and_false, Bool.false_and, Bool.false_eq_true, if_false, hw, Option.isSome_none]
  cases h : (positionals args)[st.pos]? with
  | none => rfl
  | some a =>
    have := hs a (List.mem_of_getElem? h)
    simp only [this, Bool.false_eq_true, if_false]

theorem step_file {args : List Arg} {st : State} (hw : st.want = none) {f : List Char} (hf : NotOption f ∨ st.trailing = true) (next : Option (List Char)) :
    step args st f next = positional args st f next := by
  unfold step
  cases ht : st.trailing with
  | true => rfl
  | false =>
    rcases hf with hf | hf
    · rw [shape_plain hf, hw]; rfl
    · rw [ht] at hf; cases hf

/-- What a line leads to. -/
structure Parsed (args : List Arg) (options : List OptionName) (st : State) (opts : List (String × List Char)) (files : List (List Char)) (st' : State) : Prop where
  want : st'.want = none
  pos : st'.pos = st.pos + files.length
  opt : ∀ o ∈ options, ex st'.given (idOf args o.long) = match valueOf opts o.long with | some v => some [v] | none => ex st.given (idOf args o.long)
  file : ∀ i p, (positionals args)[i]? = some p → ex st'.given p.id = match (if st.pos ≤ i then files[i - st.pos]? else none) with | some f => some [f] | none => ex st.given p.id
  given : ∀ g ∈ st'.given, g ∈ st.given ∨ (∃ a ∈ args, a.id = g.1) ∧ g.2 ≠ []

/-- The line can be parsed from this state. -/
structure Free (args : List Arg) (options : List OptionName) (st : State) (opts : List (String × List Char)) (files : List (List Char)) : Prop where
  opt : ∀ o ∈ options, o.long ∈ opts.map (·.1) → ex st.given (idOf args o.long) = none
  file : ∀ i p, (positionals args)[i]? = some p → st.pos ≤ i → ex st.given p.id = none
  room : st.pos + files.length ≤ (positionals args).length

theorem posNodup_ne {args : List Arg} (h : ((positionals args).map (·.id)).Nodup) {i j : Nat} {p q : Arg} (hi : (positionals args)[i]? = some p) (hj : (positionals args)[j]? = some q) (hij : i ≠ j) : p.id ≠ q.id := by
  obtain ⟨hi', ei⟩ := List.getElem?_eq_some_iff.1 hi
  obtain ⟨hj', ej⟩ := List.getElem?_eq_some_iff.1 hj
  intro e
  have hall := List.pairwise_iff_getElem.1 h
  rcases Nat.lt_or_gt_of_ne hij with hlt | hlt
  · exact hall i j (by simpa using hi') (by simpa using hj') hlt (by simp [ei, ej, e])
  · exact hall j i (by simpa using hj') (by simpa using hi') hlt (by simp [ei, ej, e])

/-- One file name. -/
theorem parsed_file {args : List Arg} {options : List OptionName} (hwf : Wf args options) (hs : Simple args) {st : State} {opts : List (String × List Char)} {f : List Char} {files : List (List Char)}
    (hf : Free args options st opts (f :: files)) (hw : st.want = none) (hp : NotOption f ∨ st.trailing = true) (next : Option (List Char)) :
    ∃ st1, step args st f next = some st1 ∧ st1.want = none ∧ st1.trailing = st.trailing ∧ Free args options st1 opts files ∧
      ∀ st', Parsed args options st1 opts files st' → Parsed args options st opts (f :: files) st' := by
  have hroom := hf.room
  rw [List.length_cons] at hroom
  obtain ⟨p, hpp⟩ : ∃ p, (positionals args)[st.pos]? = some p := ⟨_, List.getElem?_eq_getElem (by omega)⟩
  have hfresh := hf.file _ _ hpp (Nat.le_refl _)
  have hmem := List.mem_of_getElem? hpp
  refine ⟨{ st with given := st.given ++ [(p.id, [f])], pos := st.pos + 1 }, ?_, hw, rfl, ?_, ?_⟩
  · rw [step_file hw hp, positional_simple hs hw, hpp]
    simp only
    rw [record_fresh hfresh]; rfl
  · refine ⟨fun o ho hm => ?_, fun i q hq hi => ?_, ?_⟩
    · rw [ex_append _ _ _ _ hfresh, if_neg (Ne.symm (hwf.pos p hmem o ho))]
      exact hf.opt o ho hm
    · have hi' : st.pos + 1 ≤ i := hi
      rw [ex_append _ _ _ _ hfresh, if_neg (posNodup_ne hwf.posNodup hq hpp (by omega))]
      exact hf.file i q hq (by omega)
    · show st.pos + 1 + _ ≤ _
      omega
  · intro st' h
    refine ⟨h.want, ?_, fun o ho => ?_, fun i q hq => ?_, fun g hg => ?_⟩
    · rw [h.pos, List.length_cons]; show st.pos + 1 + _ = _; omega
    · rw [h.opt o ho, ex_append _ _ _ _ hfresh, if_neg (Ne.symm (hwf.pos p hmem o ho))]
    · rw [h.file i q hq, ex_append _ _ _ _ hfresh]
      show (match (if st.pos + 1 ≤ i then files[i - (st.pos + 1)]? else none) with | some f => some [f] | none => if q.id = p.id then some [f] else ex st.given q.id) = _
      by_cases hi : i = st.pos
      · subst hi
        rw [hpp] at hq; cases hq
        rw [if_neg (by omega : ¬ st.pos + 1 ≤ st.pos), if_pos (Nat.le_refl _)]
        simp
      · rw [if_neg (posNodup_ne hwf.posNodup hq hpp hi)]
        by_cases hlt : st.pos ≤ i
        · rw [if_pos (by omega : st.pos + 1 ≤ i), if_pos hlt]
          obtain ⟨k, hk⟩ : ∃ k, i - st.pos = k + 1 := ⟨i - st.pos - 1, by omega⟩
          rw [hk, show i - (st.pos + 1) = k by omega]; rfl
        · rw [if_neg (by omega : ¬ st.pos + 1 ≤ i), if_neg hlt]
    · rcases h.given g hg with hg | hg
      · rcases List.mem_append.1 hg with hg | hg
        · exact .inl hg
        · rw [List.mem_singleton] at hg
          subst hg
          exact .inr ⟨⟨p, hwf.posMem p hmem, rfl⟩, by simp⟩
      · exact .inr hg

theorem parsed_nil {args : List Arg} {options : List OptionName} {st : State} (hw : st.want = none) : Parsed args options st [] [] st := by
  refine ⟨hw, rfl, fun o _ => rfl, fun i p _ => ?_, fun g hg => .inl hg⟩
  split <;> simp_all

/-- File names after `--`. -/
theorem run_trailing {args : List Arg} {options : List OptionName} (hwf : Wf args options) (hs : Simple args) (files : List (List Char)) :
    ∀ {st : State}, Free args options st [] files → st.want = none → st.trailing = true → ∃ st', run args st files = some st' ∧ Parsed args options st [] files st' := by
  induction files with
  | nil =>
    intro st _ hw _
    exact ⟨st, by unfold run; rw [hw]; rfl, parsed_nil hw⟩
  | cons f fs ih =>
    intro st hf hw ht
    obtain ⟨st1, h1, hw1, ht1, hf1, hp⟩ := parsed_file hwf hs hf hw (.inr ht) fs.head?
    obtain ⟨st', h2, h3⟩ := ih hf1 hw1 (ht1.trans ht)
    refine ⟨st', ?_, hp _ h3⟩
    rw [run_cons, h1]; exact h2

/-- One option. -/
theorem parsed_option {args : List Arg} {options : List OptionName} (hwf : Wf args options) {st : State} {opts : List (String × List Char)} {o : OptionName} {v : List Char} {files ws : List (List Char)} (ho : o ∈ options)
    (hn : (((o.long, v) :: opts).map (·.1)).Nodup) (hf : Free args options st ((o.long, v) :: opts) files) (hw : st.want = none) (ht : st.trailing = false) (h : Written o v ws) (rest : List (List Char)) :
    ∃ st1, run args st (ws ++ rest) = run args st1 rest ∧ st1.want = none ∧ st1.trailing = false ∧ st1.pos = st.pos ∧ Free args options st1 opts files ∧
      (∀ id, id ≠ idOf args o.long → ex st1.given id = ex st.given id) ∧
      ∀ st', Parsed args options st1 opts files st' → Parsed args options st ((o.long, v) :: opts) files st' := by
  obtain ⟨a, ha⟩ := hwf.entry o ho
  have hfresh : ex st.given a.id = none := by rw [ha.id]; exact hf.opt o ho (by simp)
  simp only [List.map_cons, List.nodup_cons] at hn
  refine ⟨{ st with given := st.given ++ [(a.id, [v])] }, run_written_fresh ha h hw ht hfresh rest, hw, ht, rfl, ?_, ?_, ?_⟩
  · refine ⟨fun o' ho' hm => ?_, fun i p hp hi => ?_, hf.room⟩
    · have hne : o'.long ≠ o.long := fun e => hn.1 (e ▸ hm)
      rw [ex_append _ _ _ _ hfresh, ha.id, if_neg (fun e => hne (hwf.inj o' ho' o ho e))]
      exact hf.opt o' ho' (List.mem_cons_of_mem _ hm)
    · rw [ex_append _ _ _ _ hfresh, ha.id, if_neg (hwf.pos p (List.mem_of_getElem? hp) o ho)]
      exact hf.file i p hp hi
  · intro id hid
    rw [ex_append _ _ _ _ hfresh, ha.id, if_neg hid]
  · intro st' h
    refine ⟨h.want, h.pos, fun o' ho' => ?_, fun i p hp => ?_, fun g hg => ?_⟩
    · rw [h.opt o' ho', ex_append _ _ _ _ hfresh, ha.id]
      unfold valueOf
      rw [List.lookup_cons]
      by_cases e : o'.long = o.long
      · have : opts.lookup o'.long = none := by
          rw [e]
          rw [List.lookup_eq_none_iff]
          intro x hx
          have : x.1 ≠ o.long := fun e => hn.1 (List.mem_map.2 ⟨x, hx, e⟩)
          simpa using Ne.symm this
        rw [this, e]
        simp
      · have hb : (o'.long == o.long) = false := by simpa using e
        rw [hb, if_neg (fun e' => e (hwf.inj o' ho' o ho e'))]
    · rw [h.file i p hp, ex_append _ _ _ _ hfresh, ha.id, if_neg (hwf.pos p (List.mem_of_getElem? hp) o ho)]
    · rcases h.given g hg with hg | hg
      · rcases List.mem_append.1 hg with hg | hg
        · exact .inl hg
        · rw [List.mem_singleton] at hg
          subst hg
          exact .inr ⟨⟨a, ha.mem, rfl⟩, by simp⟩
      · exact .inr hg

/-- A line of options and file names. -/
theorem run_words {args : List Arg} {options : List OptionName} (hwf : Wf args options) (hs : Simple args) {opts : List (String × List Char)} {files words : List (List Char)} (h : Words options opts files words) :
    ∀ {st : State}, (opts.map (·.1)).Nodup → Free args options st opts files → st.want = none → st.trailing = false → ∃ st', run args st words = some st' ∧ Parsed args options st opts files st' := by
  induction h with
  | nil =>
    intro st _ _ hw _
    exact ⟨st, by unfold run; rw [hw]; rfl, parsed_nil hw⟩
  | opt ho hwr _ ih =>
    intro st hn hf hw ht
    obtain ⟨st1, h1, hw1, ht1, _, hf1, _, hp⟩ := parsed_option hwf ho hn hf hw ht hwr _
    simp only [List.map_cons, List.nodup_cons] at hn
    obtain ⟨st', h2, h3⟩ := ih hn.2 hf1 hw1 ht1
    exact ⟨st', h1.trans h2, hp _ h3⟩
  | file hpl _ ih =>
    intro st hn hf hw ht
    obtain ⟨st1, h1, hw1, ht1, hf1, hp⟩ := parsed_file hwf hs hf hw (.inl hpl) _
    obtain ⟨st', h2, h3⟩ := ih hn hf1 hw1 (ht1.trans ht)
    refine ⟨st', ?_, hp _ h3⟩
    rw [run_cons, h1]; exact h2
  | @escape files =>
    intro st _ hf hw ht
    obtain ⟨st', h2, h3⟩ := run_trailing hwf hs files (st := { st with trailing := true }) ⟨hf.opt, hf.file, hf.room⟩ hw rfl
    refine ⟨st', ?_, h3.want, h3.pos, h3.opt, h3.file, h3.given⟩
    rw [run_cons]
    unfold step
    rw [ht]
    exact h2

end Volaris.Cli.Argv
