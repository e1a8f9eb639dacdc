import Verif.Proofs.ArgvRefused
/-!
# From the matches to the parameters
-/
namespace Volaris.Cli.Argv
open Volaris.Spec


theorem values_opt {args : List Arg} {options : List OptionName} (hd : Declared args options) {opts : List (String × List Char)} {m : Matches} (h : Read args options opts m) {o : OptionName} (ho : o ∈ options) :
    m.values (idOf args o.long) = match valueOf opts o.long with | some v => some [v] | none => (m.default (idOf args o.long)).map fun v => [v] := by
  obtain ⟨a, e⟩ := hd.wf.entry o ho
  have hdef : m.defines (idOf args o.long) = true := by
    unfold Matches.defines
    rw [h.accepted.args, List.any_eq_true]
    exact ⟨a, e.mem, by simpa using e.id⟩
  unfold Matches.values
  rw [hdef, h.opt o ho]
  cases valueOf opts o.long <;> rfl

theorem default_eq {args : List Arg} {m : Matches} (h : Accepted args m) (id : Id) : m.default id = (args.find? (·.id = id)).bind (·.default) := by
  unfold Matches.default; rw [h.args]

/-- An option without a default. -/
theorem value_plain {args : List Arg} {options : List OptionName} (hd : Declared args options) {opts : List (String × List Char)} {m : Matches} (h : Read args options opts m) {o : OptionName} (ho : o ∈ options)
    (hdef : (args.find? (·.id = idOf args o.long)).bind (·.default) = none) :
    (m.values (idOf args o.long)).bind List.head? = valueOf opts o.long ∧ (m.values (idOf args o.long)).isSome = (valueOf opts o.long).isSome := by
  rw [values_opt hd h ho, default_eq h.accepted, hdef]
  cases valueOf opts o.long <;> exact ⟨rfl, rfl⟩

theorem gives_opt {args : List Arg} {options : List OptionName} {opts : List (String × List Char)} {m : Matches} (h : Read args options opts m) {o : OptionName} (ho : o ∈ options) {v : List Char} (hv : valueOf opts o.long = some v) :
    Gives m (idOf args o.long) v := ⟨[], by rw [h.opt o ho, hv]; rfl⟩

theorem omits_opt {args : List Arg} {options : List OptionName} {opts : List (String × List Char)} {m : Matches} (h : Read args options opts m) {o : OptionName} (ho : o ∈ options) (hv : valueOf opts o.long = none) :
    Omits m (idOf args o.long) := by unfold Omits; rw [h.opt o ho, hv]; rfl

/-- A line names only options of the command. -/
theorem words_names {options : List OptionName} {opts : List (String × List Char)} {files words : List (List Char)} (h : Words options opts files words) : ∀ x ∈ opts, x.1 ∈ options.map (·.long) := by
  induction h with
  | nil => simp
  | escape => simp
  | opt ho _ _ ih =>
    intro x hx
    rcases List.mem_cons.1 hx with rfl | hx
    · exact List.mem_map.2 ⟨_, ho, rfl⟩
    · exact ih x hx
  | file _ _ ih => exact ih

theorem valueOf_none {options : List OptionName} {opts : List (String × List Char)} (h : ∀ x ∈ opts, x.1 ∈ options.map (·.long)) {n : String} (hn : n ∉ options.map (·.long)) : valueOf opts n = none := by
  unfold valueOf
  rw [List.lookup_eq_none_iff]
  intro x hx
  have : n ≠ x.1 := fun e => hn (e ▸ h x hx)
  simpa using this

theorem values_undefined {args : List Arg} {m : Matches} (h : Accepted args m) {id : Id} (hid : args.any (·.id = id) = false) : m.values id = none := by
  unfold Matches.values Matches.defines
  rw [h.args, hid]; rfl

/-- The number of an option with a default. -/
theorem numberOr_value {v : Option (List Char)} {d : List Char} {n : Int} (hd : parseI32 d = some n) {x : List Char} (hx : x = v.getD d) : NumberOr v n ((parseI32 x).getD n) := by
  have := numberOr_getD v n
  cases v with
  | none => subst hx; simpa [hd] using this
  | some y => subst hx; exact this

theorem getParam_given {args : List Arg} {m : Matches} (h : Accepted args m) {id : Id} {v : List Char} {vs : List (List Char)} (hd : args.any (·.id = id) = true) (he : m.explicit id = some (v :: vs)) (w : World) :
    getParam m id w = (.ok v, w) := by
  rw [getParam_release h.release]
  unfold Matches.values Matches.defines
  rw [h.args, hd, he]; rfl


/-- Where the key comes from if a passphrase can be made up. -/
theorem keyChoice_of {args : List Arg} {options : List OptionName} {opts : List (String × List Char)} {m : Matches} (h : Read args options opts m) {ok oa : OptionName} (hok : ok ∈ options) (hoa : oa ∈ options)
    (ek : ok.long = "keyfile") (ea : oa.long = "auto") (ik : idOf args "keyfile" = .keyfile) (ia : idOf args "auto" = .autogenerate)
    (hda : (args.find? (·.id = .autogenerate)).bind (·.default) = some ['7']) {w : World} {key : Key} (hs : Source m .keyfile w key) : KeyChoice opts w key := by
  unfold KeyChoice
  cases hv : valueOf opts "keyfile" with
  | some path =>
    have := gives_opt h hok (ek ▸ hv)
    rw [ek, ik] at this
    exact hs.keyfile path this
  | none =>
    have hom := omits_opt h hok (ek ▸ hv)
    rw [ek, ik] at hom
    cases he : w.env with
    | some e => exact hs.env hom (by rw [he]; simp)
    | none =>
      refine ⟨_, hs.auto hom he ((valueOf opts "auto").getD ['7']) ?_, numberOr_value (d := ['7']) (by decide +kernel) rfl⟩
      cases hv2 : valueOf opts "auto" with
      | some v =>
        have := gives_opt h hoa (ea ▸ hv2)
        rw [ea, ia] at this
        exact .inl this
      | none =>
        have := omits_opt h hoa (ea ▸ hv2)
        rw [ea, ia] at this
        exact .inr ⟨this, (default_eq h.accepted _).trans hda⟩

/-- Where the key comes from if it has to be there already. -/
theorem openKeyChoice_of {args : List Arg} {options : List OptionName} {opts : List (String × List Char)} {m : Matches} (h : Read args options opts m) {ok : OptionName} (hok : ok ∈ options)
    (ek : ok.long = "keyfile") (ik : idOf args "keyfile" = .keyfile) (hna : args.any (·.id = .autogenerate) = false) {w : World} {key : Key} (hs : Source m .keyfile w key) : OpenKeyChoice opts w key := by
  unfold OpenKeyChoice
  cases hv : valueOf opts "keyfile" with
  | some path =>
    have := gives_opt h hok (ek ▸ hv)
    rw [ek, ik] at this
    exact hs.keyfile path this
  | none =>
    have hom := omits_opt h hok (ek ▸ hv)
    rw [ek, ik] at hom
    cases he : w.env with
    | some e => exact hs.env hom (by rw [he]; simp)
    | none =>
      refine hs.user hom he ?_ ?_
      · unfold Omits
        cases hx : m.explicit .autogenerate with
        | none => rfl
        | some vs =>
          have := (explicit_nonempty h.accepted.accepted hx).2
          unfold Matches.defines at this
          rw [h.accepted.args, hna] at this; cases this
      · rw [default_eq h.accepted, List.find?_eq_none.2 (fun a ha => List.any_eq_false.1 hna a ha)]; rfl

/-- How often the input is overwritten. -/
theorem eraseChoice_of {args : List Arg} {options : List OptionName} {opts : List (String × List Char)} {m : Matches} (h : Read args options opts m) {o : OptionName} (ho : o ∈ options)
    (eo : o.long = "erase") (io : idOf args "erase" = .erase) (hd : (args.find? (·.id = .erase)).bind (·.default) = some ['1']) {mode : EraseMode} (he : EraseChoice m mode) :
    ∃ passes, mode = .eraseFile passes ∧ NumberOr (valueOf opts "erase") 1 passes := by
  refine ⟨_, he.some ((valueOf opts "erase").getD ['1']) ?_, numberOr_value (d := ['1']) (by decide +kernel) rfl⟩
  cases hv : valueOf opts "erase" with
  | some v =>
    have := gives_opt h ho (eo ▸ hv)
    rw [eo, io] at this
    exact .inl this
  | none =>
    have := omits_opt h ho (eo ▸ hv)
    rw [eo, io] at this
    exact .inr ⟨this, (default_eq h.accepted _).trans hd⟩

theorem bind_congr_left {ε α β : Type} {x y : Prog ε α} {f : α → Prog ε β} {w : World} (h : x w = y w) : (x >>= f) w = (y >>= f) w := by
  show Prog.bind _ _ w = Prog.bind _ _ w
  unfold Prog.bind
  rw [h]

/-- The commands that take a fixed number of files. -/
theorem simple_commands {command : String} (h : command ∈ ["encrypt", "decrypt", "erase", "unpack"]) :
    ∃ c : Command, commands.find? (·.name = command.toList) = some c ∧ shape command.toList = .word ∧ (∀ f, letterOf command = some f → commands.find? (·.flag = some f) = some c ∧ f ≠ '-') ∧
      Declared c.args (optionsOf command) ∧ Simple c.args ∧ (∀ p ∈ positionals c.args, p.required = true) ∧ (positionals c.args).length = if command = "erase" then 1 else 2 := by
  simp only [List.mem_cons, List.not_mem_nil, or_false] at h
  rcases h with rfl | rfl | rfl | rfl
  · exact ⟨⟨['e', 'n', 'c', 'r', 'y', 'p', 't'], some 'e', encryptArgs⟩, rfl, rfl, fun f hf => by cases hf; exact ⟨rfl, by decide⟩, encrypt_declared, by unfold Simple; decide +kernel, by decide +kernel, by decide +kernel⟩
  · exact ⟨⟨['d', 'e', 'c', 'r', 'y', 'p', 't'], some 'd', decryptArgs⟩, rfl, rfl, fun f hf => by cases hf; exact ⟨rfl, by decide⟩, decrypt_declared, by unfold Simple; decide +kernel, by decide +kernel, by decide +kernel⟩
  · exact ⟨⟨['e', 'r', 'a', 's', 'e'], none, eraseArgs⟩, rfl, rfl, (fun f hf => by cases hf), erase_declared, by unfold Simple; decide +kernel, by decide +kernel, by decide +kernel⟩
  · exact ⟨⟨['u', 'n', 'p', 'a', 'c', 'k'], some 'u', unpackArgs⟩, rfl, rfl, fun f hf => by cases hf; exact ⟨rfl, by decide⟩, unpack_declared, by unfold Simple; decide +kernel, by decide +kernel, by decide +kernel⟩

/-! ### Builds with debug assertions -/

theorem getMany_defined {ε : Type} {m : Matches} {id : Id} (h : m.defines id = true) : (getMany m id : Prog ε _) = getMany { m with debug := false } id := by
  unfold getMany
  rw [h]
  simp only [Bool.not_true, Bool.and_false, Bool.false_and, Bool.false_eq_true, if_false]
  rfl

theorem containsId_defined {ε : Type} {m : Matches} {id : Id} (h : m.defines id = true) : (containsId m id : Prog ε _) = containsId { m with debug := false } id := by
  unfold containsId; rw [getMany_defined h]

theorem getOne_defined {ε : Type} {m : Matches} {id : Id} (h : m.defines id = true) : (getOne m id : Prog ε _) = getOne { m with debug := false } id := by
  unfold getOne; rw [getMany_defined h]

theorem getParam_defined {m : Matches} {id : Id} (h : m.defines id = true) : getParam m id = getParam { m with debug := false } id := by
  unfold getParam; rw [getOne_defined h]

theorem init_defined {m : Matches} (h1 : m.defines .keyfile = true) (h2 : m.defines .autogenerate = true) (p : KeyParams) : Key.init m p .keyfile = Key.init { m with debug := false } p .keyfile := by
  unfold Key.init initOther initGenerate
  rw [containsId_defined h1, containsId_defined h2, getParam_defined h1, getParam_defined h2]

theorem parameterHandler_defined {m : Matches} (h : ∀ id ∈ [Id.keyfile, .autogenerate, .hash, .force, .erase, .header, .argon], m.defines id = true) : parameterHandler m = parameterHandler { m with debug := false } := by
  unfold parameterHandler hashmode forcemode erasemode hashingAlgorithm
  rw [init_defined (h _ (by simp)) (h _ (by simp)), containsId_defined (h .hash (by simp)), containsId_defined (h .force (by simp)), containsId_defined (h .erase (by simp)), getParam_defined (h .erase (by simp)),
    getOne_defined (h .header (by simp)), containsId_defined (h .argon (by simp))]

theorem packParams_defined {m : Matches} (h : ∀ id ∈ [Id.keyfile, .autogenerate, .hash, .force, .erase, .header, .argon, .verbose, .recursive, .zstd], m.defines id = true) : packParams m = packParams { m with debug := false } := by
  unfold packParams hashmode forcemode hashingAlgorithm
  rw [init_defined (h _ (by simp)) (h _ (by simp)), containsId_defined (h .hash (by simp)), containsId_defined (h .force (by simp)), containsId_defined (h .erase (by simp)),
    getOne_defined (h .header (by simp)), containsId_defined (h .argon (by simp)), containsId_defined (h .verbose (by simp)), containsId_defined (h .recursive (by simp)), containsId_defined (h .zstd (by simp))]

theorem defines_of {args : List Arg} {m : Matches} (h : m.args = args) (id : Id) (hd : args.any (·.id = id) = true) : m.defines id = true := by
  unfold Matches.defines; rw [h]; exact hd

/-- The parameters of a command without `--argon` cannot be read in a build with debug assertions. -/
theorem parameterHandler_debug {m : Matches} (hacc : m.accepted = true) (hdeb : m.debug = true) (hk : m.defines .keyfile = true) (hh : m.defines .hash = true) (hf : m.defines .force = true) (he : m.defines .erase = true) (hhd : m.defines .header = true)
    (hau : m.defines .autogenerate = false) (har : m.defines .argon = false) (hkd : m.default .keyfile = none) (w : World) : parameterHandler m w = (.abort .panic, w) := by
  have hA : Accepted m.args { m with debug := false } := ⟨rfl, hacc, rfl⟩
  have hpan : ∀ (ε : Type) (id : Id), m.defines id = false → (containsId m id : Prog ε Bool) w = (.abort .panic, w) := by
    intro ε id hid
    unfold containsId getMany
    rw [hdeb, hid]; rfl
  have hrest : ∀ key : Key, (do
      let hashMode ← hashmode m
      let force ← forcemode m
      let erase ← erasemode m
      let header ← getOne m .header
      let hashingAlgorithm ← Cli.hashingAlgorithm m
      pure { hashMode, force, erase, key, header, hashingAlgorithm } : Prog Cli.Error CryptoParams) w = (.abort .panic, w) := by
    intro key
    have e1 : hashmode m = hashmode { m with debug := false } := by unfold hashmode; rw [containsId_defined hh]
    have e2 : forcemode m = forcemode { m with debug := false } := by unfold forcemode; rw [containsId_defined hf]
    have e3 : erasemode m = erasemode { m with debug := false } := by unfold erasemode; rw [containsId_defined he, getParam_defined he]
    obtain ⟨mode, hm, _⟩ := erasemode_run hA w
    rw [e1, e2, e3, getOne_defined hhd, Prog.bind_ok (hashmode_run rfl w), Prog.bind_ok (forcemode_run rfl w), Prog.bind_ok hm, Prog.bind_ok (getOne_release rfl .header w)]
    unfold Cli.hashingAlgorithm
    exact Prog.bind_abort (Prog.bind_abort (hpan _ .argon har))
  unfold parameterHandler
  cases hv : (m.values .keyfile).isSome with
  | true =>
    have hi : ∃ path, Key.init m {} .keyfile w = (.ok (.keyfile path), w) := by
      rcases value_cases hA .keyfile with ⟨v, hg, h1, h2⟩ | ⟨_, _, h2⟩
      · refine ⟨v, ?_⟩
        unfold Key.init
        rw [containsId_defined hk, getParam_defined hk, Prog.bind_ok (containsId_release rfl .keyfile w), h2]
        have := getParam_release (m := { m with debug := false }) rfl .keyfile w
        rw [h1] at this
        show (getParam { m with debug := false } .keyfile >>= _) w = _
        rw [Prog.bind_ok this]; rfl
      · exfalso
        have h3 : (({ m with debug := false } : Matches).values .keyfile).isSome = false := by rw [h2]; show (m.default .keyfile).isSome = false; rw [hkd]; rfl
        have h4 : (({ m with debug := false } : Matches).values .keyfile).isSome = true := hv
        rw [h3] at h4; cases h4
    obtain ⟨path, hi⟩ := hi
    rw [Prog.bind_ok hi]; exact hrest _
  | false =>
    have hinit : Key.init m {} .keyfile w = initOther m {} w := by
      unfold Key.init
      have hc := containsId_release (ε := Cli.Error) (m := { m with debug := false }) rfl .keyfile w
      rw [containsId_defined hk, Prog.bind_ok hc]
      have : (({ m with debug := false } : Matches).values .keyfile).isSome = false := hv
      rw [this]; rfl
    cases hw : w.env with
    | some e =>
      have hi : Key.init m {} .keyfile w = (.ok .env, w) := by
        rw [hinit]; exact initOther_env rfl (by rw [hw]; simp)
      rw [Prog.bind_ok hi]; exact hrest _
    | none =>
      have hi : Key.init m {} .keyfile w = (.abort .panic, w) := by
        rw [hinit]
        unfold initOther
        rw [Prog.bind_ok (envSet_run w), hw]
        exact Prog.bind_abort (hpan _ .autogenerate hau)
      exact Prog.bind_abort hi

end Volaris.Cli.Argv
