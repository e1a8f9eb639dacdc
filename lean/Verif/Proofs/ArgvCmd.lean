import Verif.Proofs.Argv
/-!
# The command lines of the commands
-/
namespace Volaris.Cli.Argv
open Volaris.Spec

/-! ### Numbers -/

theorem parseDigits_eq (ds : List Char) (acc : Nat) :
    parseDigits ds acc = if ∀ c ∈ ds, c.isDigit = true then some (ds.foldl (fun n c => 10 * n + (c.toNat - '0'.toNat)) acc) else none := by
  induction ds generalizing acc with
  | nil => simp [parseDigits]
  | cons c cs ih =>
    unfold parseDigits
    cases hc : c.isDigit with
    | false => simp [hc]
    | true =>
      simp only [if_true]
      rw [ih, Nat.mul_comm]
      simp [hc]

theorem parseI32_iff (v : List Char) (n : Int) : parseI32 v = some n ↔ Numeral v n := by
  have key : ∀ (neg : Bool) (ds : List Char), (if ds = [] then none else match parseDigits ds 0 with
      | none => none
      | some k => let v : Int := if neg then -(k : Int) else k; if -2147483648 ≤ v ∧ v ≤ 2147483647 then some v else none) = some n ↔
      ds ≠ [] ∧ (∀ c ∈ ds, c.isDigit = true) ∧ n = (if neg then -(digitsValue ds : Int) else digitsValue ds) ∧ -2147483648 ≤ n ∧ n ≤ 2147483647 := by
    intro neg ds
    by_cases h0 : ds = []
    · simp [h0]
    · rw [if_neg h0, parseDigits_eq]
      by_cases hd : ∀ c ∈ ds, c.isDigit = true
      · rw [if_pos hd]
        show (if -2147483648 ≤ (if neg then -(digitsValue ds : Int) else digitsValue ds) ∧ (if neg then -(digitsValue ds : Int) else digitsValue ds) ≤ 2147483647 then
          some (if neg then -(digitsValue ds : Int) else digitsValue ds) else none) = some n ↔ _
        by_cases hr : -2147483648 ≤ (if neg then -(digitsValue ds : Int) else digitsValue ds) ∧ (if neg then -(digitsValue ds : Int) else digitsValue ds) ≤ 2147483647
        · rw [if_pos hr]
          constructor
          · intro e; cases e; exact ⟨h0, hd, rfl, hr⟩
          · rintro ⟨_, _, e, _⟩; rw [e]
        · rw [if_neg hr]
          constructor
          · intro e; cases e
          · rintro ⟨_, _, e, h⟩; rw [e] at h; exact absurd h hr
      · rw [if_neg hd]
        constructor
        · intro e; cases e
        · rintro ⟨_, h, _⟩; exact absurd h hd
  have nd : ('-').isDigit = false := by decide
  have pd : ('+').isDigit = false := by decide
  unfold parseI32
  split
  rename_i neg ds hm
  refine (key neg ds).trans ?_
  unfold Numeral
  split at hm
  · rename_i ds'
    cases hm
    constructor
    · rintro ⟨h1, h2, h3, h4⟩; exact ⟨ds, h1, h2, .inr (.inr ⟨rfl, h3⟩), h4⟩
    · rintro ⟨ds', h1, h2, h3, h4⟩
      rcases h3 with ⟨e, _⟩ | ⟨e, _⟩ | ⟨e, h3⟩
      · subst e; rw [h2 '-' (by simp)] at nd; cases nd
      · cases e
      · cases e; exact ⟨h1, h2, h3, h4⟩
  · rename_i ds'
    cases hm
    constructor
    · rintro ⟨h1, h2, h3, h4⟩; exact ⟨ds, h1, h2, .inr (.inl ⟨rfl, h3⟩), h4⟩
    · rintro ⟨ds', h1, h2, h3, h4⟩
      rcases h3 with ⟨e, _⟩ | ⟨e, h3⟩ | ⟨e, _⟩
      · subst e; rw [h2 '+' (by simp)] at pd; cases pd
      · cases e; exact ⟨h1, h2, h3, h4⟩
      · cases e
  · rename_i hn1 hn2
    cases hm
    constructor
    · rintro ⟨h1, h2, h3, h4⟩; exact ⟨_, h1, h2, .inl ⟨rfl, h3⟩, h4⟩
    · rintro ⟨ds', h1, h2, h3, h4⟩
      rcases h3 with ⟨e, h3⟩ | ⟨e, _⟩ | ⟨e, _⟩
      · subst e; exact ⟨h1, h2, h3, h4⟩
      · exact absurd e (hn2 ds')
      · exact absurd e (hn1 ds')

theorem numberOr_getD (v : Option (List Char)) (d : Int) : NumberOr v d ((v.bind parseI32).getD d) := by
  unfold NumberOr
  cases v with
  | none => exact .inr ⟨fun x m h => (nomatch h), rfl⟩
  | some x =>
    cases h : parseI32 x with
    | none =>
      refine .inr ⟨fun y m hy hn => ?_, by simp [h]⟩
      cases hy
      rw [(parseI32_iff x m).2 hn] at h; cases h
    | some n => exact .inl ⟨x, rfl, by simpa [h] using (parseI32_iff x n).1 h⟩

/-! ### The tables -/

/-- The option belongs to an argument: a check. -/
def entryOk (args : List Arg) (o : OptionName) : Bool :=
  match args.find? (·.long = some o.long.toList) with
  | none => false
  | some a => (match o.letter with | none => true | some c => decide (args.find? (·.short = some c) = some a) && decide (c ≠ '-'))
      && decide (a.equals = o.equals) && decide (o.long.toList ≠ []) && decide ('=' ∉ o.long.toList)

theorem entry_of_ok {args : List Arg} {o : OptionName} (h : entryOk args o = true) : ∃ a, Entry args o a := by
  unfold entryOk at h
  cases hf : args.find? (·.long = some o.long.toList) with
  | none => rw [hf] at h; cases h
  | some a =>
    rw [hf] at h
    simp only [Bool.and_eq_true, decide_eq_true_eq] at h
    obtain ⟨⟨⟨h1, h2⟩, h3⟩, h4⟩ := h
    refine ⟨a, List.mem_of_find?_eq_some hf, by unfold idOf; rw [hf], hf, fun c hc => ?_, h2, h3, h4⟩
    rw [hc] at h1
    simpa using h1

/-- A command and its options. -/
structure Declared (args : List Arg) (options : List OptionName) : Prop where
  wf : Wf args options
  required : ∀ a ∈ args, a.required = true → a ∈ positionals args
  conflicts : ∀ a ∈ args, ∀ c ∈ a.conflicts, a.id = idOf args "auto" ∧ c = idOf args "keyfile" ∧ "auto" ∈ options.map (·.long) ∧ "keyfile" ∈ options.map (·.long)

theorem encrypt_declared : Declared encryptArgs (optionsOf "encrypt") :=
  ⟨⟨fun o ho => entry_of_ok ((by decide +kernel : ∀ o ∈ optionsOf "encrypt", entryOk encryptArgs o = true) o ho), by decide +kernel, by decide +kernel, by decide +kernel, by decide +kernel⟩, by decide +kernel, by decide +kernel⟩

theorem decrypt_declared : Declared decryptArgs (optionsOf "decrypt") :=
  ⟨⟨fun o ho => entry_of_ok ((by decide +kernel : ∀ o ∈ optionsOf "decrypt", entryOk decryptArgs o = true) o ho), by decide +kernel, by decide +kernel, by decide +kernel, by decide +kernel⟩, by decide +kernel, by decide +kernel⟩

theorem erase_declared : Declared eraseArgs (optionsOf "erase") :=
  ⟨⟨fun o ho => entry_of_ok ((by decide +kernel : ∀ o ∈ optionsOf "erase", entryOk eraseArgs o = true) o ho), by decide +kernel, by decide +kernel, by decide +kernel, by decide +kernel⟩, by decide +kernel, by decide +kernel⟩

theorem hash_declared : Declared hashArgs (optionsOf "hash") :=
  ⟨⟨fun o ho => entry_of_ok ((by decide +kernel : ∀ o ∈ optionsOf "hash", entryOk hashArgs o = true) o ho), by decide +kernel, by decide +kernel, by decide +kernel, by decide +kernel⟩, by decide +kernel, by decide +kernel⟩

theorem pack_declared : Declared packArgs (optionsOf "pack") :=
  ⟨⟨fun o ho => entry_of_ok ((by decide +kernel : ∀ o ∈ optionsOf "pack", entryOk packArgs o = true) o ho), by decide +kernel, by decide +kernel, by decide +kernel, by decide +kernel⟩, by decide +kernel, by decide +kernel⟩

theorem unpack_declared : Declared unpackArgs (optionsOf "unpack") :=
  ⟨⟨fun o ho => entry_of_ok ((by decide +kernel : ∀ o ∈ optionsOf "unpack", entryOk unpackArgs o = true) o ho), by decide +kernel, by decide +kernel, by decide +kernel, by decide +kernel⟩, by decide +kernel, by decide +kernel⟩

/-! ### From the words to the matches -/

/-- The matches say what the line says. -/
structure Read (args : List Arg) (options : List OptionName) (opts : List (String × List Char)) (m : Matches) : Prop where
  accepted : Accepted args m
  opt : ∀ o ∈ options, m.explicit (idOf args o.long) = (valueOf opts o.long).map fun v => [v]

theorem explicit_eq (m : Matches) (id : Id) : m.explicit id = ex m.given id := rfl

/-- The checks after parsing. -/
theorem accepted_of {args : List Arg} {options : List OptionName} (hd : Declared args options) {opts : List (String × List Char)} (hc : Consistent opts) {given : List (Id × List (List Char))}
    (hopt : ∀ o ∈ options, ex given (idOf args o.long) = (valueOf opts o.long).map fun v => [v])
    (hpos : ∀ p ∈ positionals args, p.required = true → (ex given p.id).isSome = true)
    (hgiven : ∀ g ∈ given, (∃ a ∈ args, a.id = g.1) ∧ g.2 ≠ []) :
    Read args options opts { args, given } := by
  refine ⟨⟨rfl, ?_, rfl⟩, hopt⟩
  unfold Matches.accepted
  simp only [Bool.and_eq_true, List.all_eq_true]
  refine ⟨fun g hg => ?_, fun a ha => ⟨?_, ?_⟩⟩
  · obtain ⟨⟨a, ha, e⟩, hne⟩ := hgiven g hg
    refine ⟨?_, by simpa using hne⟩
    unfold Matches.defines
    rw [List.any_eq_true]
    exact ⟨a, ha, by simpa using e⟩
  · cases hr : a.required with
    | false => rfl
    | true => exact hpos a (hd.required a ha hr) hr
  · cases hcs : a.conflicts with
    | nil => simp
    | cons c cs =>
      rw [← hcs]
      obtain ⟨e1, -, hm1, -⟩ := hd.conflicts a ha c (by rw [hcs]; simp)
      obtain ⟨o1, ho1, en1⟩ := List.mem_map.1 hm1
      have h1 := hopt o1 ho1
      rw [en1] at h1
      rcases hc.conflict with hk | hk
      · rw [Bool.or_eq_true]; right
        rw [List.all_eq_true]
        intro c' hc'
        obtain ⟨-, e2, -, hm2⟩ := hd.conflicts a ha c' hc'
        obtain ⟨o2, ho2, en2⟩ := List.mem_map.1 hm2
        have h2 := hopt o2 ho2
        rw [en2, hk] at h2
        rw [explicit_eq, e2]
        simp only [h2]; rfl
      · rw [Bool.or_eq_true]; left
        rw [explicit_eq, e1]
        simp only [h1, hk]; rfl

/-- A line of a command with a fixed number of files. -/
theorem read_simple {c : Command} {options : List OptionName} (hd : Declared c.args options) (hs : Simple c.args) {opts : List (String × List Char)} {files words : List (List Char)} (hw : Words options opts files words)
    (hc : Consistent opts) (hl : files.length = (positionals c.args).length) :
    ∃ m, finish c false (run c.args {} words) = some (c.name, m) ∧ Read c.args options opts m ∧ ∀ (i : Nat) (p : Arg) (f : List Char), (positionals c.args)[i]? = some p → files[i]? = some f → m.explicit p.id = some [f] := by
  obtain ⟨st', h1, h2⟩ := run_words hd.wf hs hw (st := {}) hc.once ⟨fun _ _ _ => rfl, fun _ _ _ _ => rfl, by simp [hl]⟩ rfl rfl
  have hopt : ∀ o ∈ options, ex st'.given (idOf c.args o.long) = (valueOf opts o.long).map fun v => [v] := by
    intro o ho
    rw [h2.opt o ho]
    cases valueOf opts o.long <;> rfl
  have hfile : ∀ (i : Nat) (p : Arg) (f : List Char), (positionals c.args)[i]? = some p → files[i]? = some f → ex st'.given p.id = some [f] := by
    intro i p f hp hf
    rw [h2.file i p hp]
    show (match (if 0 ≤ i then files[i - 0]? else none) with | some f => some [f] | none => ex [] p.id) = _
    rw [if_pos (Nat.zero_le _), Nat.sub_zero, hf]
  have hread := accepted_of hd hc hopt (fun p hp _ => by
      obtain ⟨i, hi, e⟩ := List.getElem_of_mem hp
      rw [hfile i p (files[i]'(by omega)) (by rw [← e]; exact List.getElem?_eq_getElem hi) (List.getElem?_eq_getElem _)]; rfl)
    (fun g hg => by
      rcases h2.given g hg with h | h
      · cases h
      · exact h)
  refine ⟨{ args := c.args, given := st'.given }, ?_, hread, hfile⟩
  unfold finish
  rw [h1]
  simp only
  rw [hread.accepted.accepted]; rfl

/-- Naming the command. -/
theorem getMatches_invokes {command : String} {c : Command} (hname : commands.find? (·.name = command.toList) = some c) (hshape : shape command.toList = .word)
    (hflag : ∀ f, letterOf command = some f → commands.find? (·.flag = some f) = some c ∧ f ≠ '-') {words argv : List (List Char)} (h : Invokes command words argv) :
    getMatches false argv = finish c false (run c.args {} words) := by
  cases h with
  | name => simp only [getMatches, hshape, hname]
  | letter f hf => simp only [getMatches, shape_short (hflag f hf).2, (hflag f hf).1]
  | fused f o rest hf ho =>
    simp only [getMatches, shape_short (hflag f hf).2, (hflag f hf).1, run_cons, step, shape_short ho, Bool.false_eq_true, if_false]
    cases shortOption c.args {} o rest <;> rfl

end Volaris.Cli.Argv
