import Verif.Proofs.Secret
/-!
# Command lines
-/
namespace Volaris.Cli
open Volaris.Spec

theorem getMany_release {ε : Type} {m : Matches} (h : m.debug = false) (id : Id) : (getMany m id : Prog ε _) = pure (m.values id) := by
  unfold getMany
  rw [h]
  rfl

theorem containsId_release {ε : Type} {m : Matches} (h : m.debug = false) (id : Id) (w : World) : (containsId m id : Prog ε _) w = (.ok (m.values id).isSome, w) := by
  unfold containsId
  rw [getMany_release h]
  rfl

theorem getOne_release {ε : Type} {m : Matches} (h : m.debug = false) (id : Id) (w : World) : (getOne m id : Prog ε _) w = (.ok ((m.values id).bind List.head?), w) := by
  unfold getOne
  rw [getMany_release h]
  rfl

theorem getParam_release {m : Matches} (h : m.debug = false) (id : Id) (w : World) :
    getParam m id w = match (m.values id).bind List.head? with | some v => (.ok v, w) | none => (.err (.noValue id), w) := by
  unfold getParam
  rw [Prog.bind_ok (getOne_release h id w)]
  cases (m.values id).bind List.head? <;> rfl

theorem explicit_nonempty {m : Matches} (ha : m.accepted = true) {id : Id} {vs : List (List Char)} (h : m.explicit id = some vs) : vs ≠ [] ∧ m.defines id = true := by
  unfold Matches.explicit at h
  cases hf : m.given.find? (·.1 = id) with
  | none => rw [hf] at h; cases h
  | some g =>
    rw [hf] at h
    simp only [Option.map_some, Option.some.injEq] at h
    have hm := List.mem_of_find?_eq_some hf
    have hp := List.find?_some hf
    unfold Matches.accepted at ha
    simp only [Bool.and_eq_true, List.all_eq_true] at ha
    have := ha.1 g hm
    simp only [Bool.not_eq_true', List.isEmpty_eq_false_iff] at this
    simp only [decide_eq_true_eq] at hp
    exact ⟨h ▸ this.2, hp ▸ this.1⟩

theorem required_given {m : Matches} (ha : m.accepted = true) {a : Arg} (hm : a ∈ m.args) (hr : a.required = true) : ∃ v, Gives m a.id v := by
  unfold Matches.accepted at ha
  simp only [Bool.and_eq_true, List.all_eq_true] at ha
  have := (ha.2 a hm).1
  rw [hr] at this
  simp only [Bool.not_true, Bool.false_or] at this
  cases he : m.explicit a.id with
  | none => rw [he] at this; cases this
  | some vs =>
    obtain ⟨hne, _⟩ := explicit_nonempty (by unfold Matches.accepted; simp only [Bool.and_eq_true, List.all_eq_true]; exact ha) he
    cases vs with
    | nil => exact absurd rfl hne
    | cons v vs => exact ⟨v, vs, he⟩

/-- What an argument has as first value. -/
theorem value_cases {args : List Arg} {m : Matches} (h : Accepted args m) (id : Id) :
    (∃ v, Gives m id v ∧ (m.values id).bind List.head? = some v ∧ (m.values id).isSome = true) ∨
    (Omits m id ∧ (m.values id).bind List.head? = m.default id ∧ (m.values id).isSome = (m.default id).isSome) := by
  unfold Matches.values
  cases he : m.explicit id with
  | some vs =>
    obtain ⟨hne, hd⟩ := explicit_nonempty h.accepted he
    rw [hd]
    cases vs with
    | nil => exact absurd rfl hne
    | cons v vs => exact .inl ⟨v, ⟨vs, he⟩, rfl, rfl⟩
  | none =>
    right
    refine ⟨he, ?_⟩
    cases hd : m.defines id with
    | true => cases hdef : m.default id <;> simp
    | false =>
      have : m.default id = none := by
        unfold Matches.default
        unfold Matches.defines at hd
        rw [List.find?_eq_none.2]
        · rfl
        · intro a ha
          have := List.any_eq_false.1 hd a ha
          simpa using this
      simp [this]

/-! ### The source of the key -/

theorem envSet_run {ε : Type} (w : World) : (envSet : Prog ε Bool) w = (.ok w.env.isSome, w) := rfl

theorem initGenerate_run {m : Matches} (h : m.debug = false) {v : List Char} (hv : (m.values .autogenerate).bind List.head? = some v) (w : World) :
    initGenerate m w = (.ok (.generate ((parseI32 v).getD 7)), w) := by
  unfold initGenerate
  have := getParam_release h .autogenerate w
  rw [hv] at this
  rw [Prog.bind_ok this]; rfl

/-- The key file comes first. -/
theorem init_keyfile {args : List Arg} {m : Matches} (h : Accepted args m) {params : KeyParams} (hp : params.keyfile = true) {id : Id} {path : List Char} (hg : Gives m id path) (w : World) :
    Key.init m params id w = (.ok (.keyfile path), w) := by
  rcases value_cases h id with ⟨v, hv, h1, h2⟩ | ⟨ho, _⟩
  · have hvp : v = path := by
      obtain ⟨vs, e1⟩ := hv; obtain ⟨vs', e2⟩ := hg
      rw [e1] at e2; cases e2; rfl
    subst hvp
    unfold Key.init
    rw [Prog.bind_ok (containsId_release h.release id w), h2, hp]
    have := getParam_release h.release id w
    rw [h1] at this
    show (getParam m id >>= fun path => pure (Key.keyfile path)) w = _
    rw [Prog.bind_ok this]; rfl
  · obtain ⟨vs, e⟩ := hg
    rw [ho] at e; cases e

/-- Without one, and without a default for it. -/
theorem init_other {args : List Arg} {m : Matches} (h : Accepted args m) (params : KeyParams) {id : Id} (hg : Omits m id) (hd : m.default id = none) (w : World) :
    Key.init m params id w = initOther m params w := by
  rcases value_cases h id with ⟨v, ⟨vs, e⟩, h1, h2⟩ | ⟨_, _, h2⟩
  · rw [hg] at e; cases e
  · unfold Key.init
    rw [Prog.bind_ok (containsId_release h.release id w), h2, hd]
    rfl

theorem initOther_env {m : Matches} {params : KeyParams} (hp : params.env = true) {w : World} (he : w.env ≠ none) : initOther m params w = (.ok .env, w) := by
  unfold initOther
  rw [Prog.bind_ok (envSet_run w)]
  cases hw : w.env with
  | none => exact absurd hw he
  | some v => rw [hp]; rfl

theorem initOther_rest {m : Matches} (h : m.debug = false) {params : KeyParams} {w : World} (he : w.env = none ∨ params.env = false) :
    initOther m params w = (if (m.values .autogenerate).isSome && params.autogenerate then initGenerate m
      else if params.user then pure .user else Prog.throw .noKeySource) w := by
  unfold initOther
  rw [Prog.bind_ok (envSet_run w)]
  have : (w.env.isSome && params.env) = false := by
    rcases he with he | he
    · rw [he]; rfl
    · rw [he]; simp
  rw [this]
  show (containsId m .autogenerate >>= _) w = _
  rw [Prog.bind_ok (containsId_release h .autogenerate w)]

/-- The key source that `Key::init` decides on, for the commands that take a key file. -/
structure Source (m : Matches) (id : Id) (w : World) (key : Key) : Prop where
  keyfile : ∀ path, Gives m id path → key = .keyfile path
  env : Omits m id → w.env ≠ none → key = .env
  auto : Omits m id → w.env = none → ∀ v, (Gives m .autogenerate v ∨ Omits m .autogenerate ∧ m.default .autogenerate = some v) → key = .generate ((parseI32 v).getD 7)
  user : Omits m id → w.env = none → Omits m .autogenerate → m.default .autogenerate = none → key = .user

theorem init_run {args : List Arg} {m : Matches} (h : Accepted args m) {id : Id} (hd : m.default id = none) (w : World) :
    ∃ key, Key.init m {} id w = (.ok key, w) ∧ Source m id w key := by
  rcases value_cases h id with ⟨path, hg, _⟩ | ⟨ho, _⟩
  · refine ⟨.keyfile path, init_keyfile h rfl hg w, ?_⟩
    obtain ⟨vs, e⟩ := hg
    refine ⟨fun p hp => ?_, ?_, ?_, ?_⟩
    · obtain ⟨vs', e'⟩ := hp
      rw [e] at e'; cases e'; rfl
    all_goals
      intro ho
      rw [ho] at e; cases e
  · rw [init_other h {} ho hd]
    have hno : ∀ path, ¬ Gives m id path := by rintro path ⟨vs, e⟩; rw [ho] at e; cases e
    by_cases he : w.env = none
    · rw [initOther_rest h.release (.inl he)]
      rcases value_cases h .autogenerate with ⟨v, hg, h1, h2⟩ | ⟨hoa, h1, h2⟩
      · rw [h2]
        refine ⟨_, initGenerate_run h.release h1 w, fun p hp => absurd hp (hno p), fun _ hne => absurd he hne, fun _ _ v' hv' => ?_, fun _ _ hoa => ?_⟩
        · obtain ⟨vs, e⟩ := hg
          rcases hv' with ⟨vs', e'⟩ | ⟨e', _⟩
          · rw [e] at e'; cases e'; rfl
          · rw [e'] at e; cases e
        · obtain ⟨vs, e⟩ := hg
          rw [hoa] at e; cases e
      · rw [h2]
        cases hdef : m.default .autogenerate with
        | none =>
          refine ⟨.user, rfl, fun p hp => absurd hp (hno p), fun _ hne => absurd he hne, fun _ _ v' hv' => ?_, fun _ _ _ _ => rfl⟩
          rcases hv' with ⟨vs', e'⟩ | ⟨_, e'⟩
          · rw [hoa] at e'; cases e'
          · cases hdef ▸ e'
        | some v =>
          refine ⟨_, initGenerate_run h.release (h1.trans hdef) w, fun p hp => absurd hp (hno p), fun _ hne => absurd he hne, fun _ _ v' hv' => ?_, fun _ _ _ e => ?_⟩
          · rcases hv' with ⟨vs', e'⟩ | ⟨_, e'⟩
            · rw [hoa] at e'; cases e'
            · rw [hdef] at e'; cases e'; rfl
          · rw [hdef] at e; cases e
    · exact ⟨.env, initOther_env rfl he, fun p hp => absurd hp (hno p), fun _ _ => rfl, fun _ e => absurd e he, fun _ e => absurd e he⟩

/-- How often the input is overwritten before it is removed; `none`: it is kept. -/
structure EraseChoice (m : Matches) (mode : EraseMode) : Prop where
  some : ∀ v, (Gives m .erase v ∨ Omits m .erase ∧ m.default .erase = some v) → mode = .eraseFile ((parseI32 v).getD 1)
  none : Omits m .erase → m.default .erase = none → mode = .ignoreFile

theorem erasemode_run {args : List Arg} {m : Matches} (h : Accepted args m) (w : World) : ∃ mode, erasemode m w = (.ok mode, w) ∧ EraseChoice m mode := by
  unfold erasemode
  rw [Prog.bind_ok (containsId_release h.release .erase w)]
  have hp := getParam_release h.release .erase w
  rcases value_cases h .erase with ⟨v, hg, h1, h2⟩ | ⟨ho, h1, h2⟩
  · rw [h1] at hp
    rw [h2]
    refine ⟨.eraseFile ((parseI32 v).getD 1), ?_, fun v' hv' => ?_, fun ho => ?_⟩
    · show (getParam m .erase >>= _) w = _
      rw [Prog.bind_ok hp]; rfl
    · obtain ⟨vs, e⟩ := hg
      rcases hv' with ⟨vs', e'⟩ | ⟨e', _⟩
      · rw [e] at e'; cases e'; rfl
      · rw [e'] at e; cases e
    · obtain ⟨vs, e⟩ := hg
      rw [ho] at e; cases e
  · rw [h2]
    rw [h1] at hp
    cases hdef : m.default .erase with
    | none =>
      refine ⟨.ignoreFile, rfl, fun v' hv' => ?_, fun _ _ => rfl⟩
      rcases hv' with ⟨vs', e'⟩ | ⟨_, e'⟩
      · rw [ho] at e'; cases e'
      · cases hdef ▸ e'
    | some v =>
      rw [hdef] at hp
      refine ⟨.eraseFile ((parseI32 v).getD 1), ?_, fun v' hv' => ?_, fun _ e => by cases hdef ▸ e⟩
      · show (getParam m .erase >>= _) w = _
        rw [Prog.bind_ok hp]; rfl
      · rcases hv' with ⟨vs', e'⟩ | ⟨_, e'⟩
        · rw [ho] at e'; cases e'
        · rw [hdef] at e'; cases e'; rfl

theorem hashmode_run {m : Matches} (h : m.debug = false) (w : World) : hashmode m w = (.ok (if (m.values .hash).isSome then .calculateHash else .noHash), w) := by
  unfold hashmode
  rw [Prog.bind_ok (containsId_release h .hash w)]; rfl

theorem forcemode_run {m : Matches} (h : m.debug = false) (w : World) : forcemode m w = (.ok (if (m.values .force).isSome then .forced else .prompt), w) := by
  unfold forcemode
  rw [Prog.bind_ok (containsId_release h .force w)]; rfl

theorem hashingAlgorithm_run {m : Matches} (h : m.debug = false) (w : World) :
    hashingAlgorithm m w = (.ok (if (m.values .argon).isSome then .argon2id ARGON2ID_LATEST else .blake3Balloon BLAKE3BALLOON_LATEST), w) := by
  unfold hashingAlgorithm
  rw [Prog.bind_ok (containsId_release h .argon w)]; rfl

theorem algorithm_run {m : Matches} (h : m.debug = false) (w : World) :
    algorithm m w = (.ok (if (m.values .aes).isSome then .aes256Gcm else .xChaCha20Poly1305), w) := by
  unfold algorithm
  rw [Prog.bind_ok (containsId_release h .aes w)]; rfl

theorem parameterHandler_run {args : List Arg} {m : Matches} (h : Accepted args m) (hd : m.default .keyfile = none) (w : World) :
    ∃ params, parameterHandler m w = (.ok params, w) ∧ Source m .keyfile w params.key ∧ EraseChoice m params.erase ∧
      params.force = (if (m.values .force).isSome then .forced else .prompt) ∧ params.header = (m.values .header).bind List.head? ∧
      params.hashMode = (if (m.values .hash).isSome then .calculateHash else .noHash) ∧
      params.hashingAlgorithm = (if (m.values .argon).isSome then .argon2id ARGON2ID_LATEST else .blake3Balloon BLAKE3BALLOON_LATEST) := by
  obtain ⟨key, hk, hs⟩ := init_run h hd w
  obtain ⟨mode, hm, he⟩ := erasemode_run h w
  refine ⟨{ hashMode := if (m.values .hash).isSome then .calculateHash else .noHash, force := if (m.values .force).isSome then .forced else .prompt,
            erase := mode, key, header := (m.values .header).bind List.head?,
            hashingAlgorithm := if (m.values .argon).isSome then .argon2id ARGON2ID_LATEST else .blake3Balloon BLAKE3BALLOON_LATEST },
    ?_, hs, he, rfl, rfl, rfl, rfl⟩
  unfold parameterHandler
  rw [Prog.bind_ok hk, Prog.bind_ok (hashmode_run h.release w), Prog.bind_ok (forcemode_run h.release w), Prog.bind_ok hm,
    Prog.bind_ok (getOne_release h.release .header w), Prog.bind_ok (hashingAlgorithm_run h.release w)]
  rfl

theorem packParams_run {args : List Arg} {m : Matches} (h : Accepted args m) (hd : m.default .keyfile = none) (w : World) :
    ∃ params pp, packParams m w = (.ok (params, pp), w) ∧ Source m .keyfile w params.key ∧ params.erase = .ignoreFile ∧
      pp.eraseSource = (m.values .erase).isSome ∧
      params.force = (if (m.values .force).isSome then .forced else .prompt) ∧ params.header = (m.values .header).bind List.head? ∧
      params.hashMode = (if (m.values .hash).isSome then .calculateHash else .noHash) ∧
      params.hashingAlgorithm = (if (m.values .argon).isSome then .argon2id ARGON2ID_LATEST else .blake3Balloon BLAKE3BALLOON_LATEST) := by
  obtain ⟨key, hk, hs⟩ := init_run h hd w
  refine ⟨{ hashMode := if (m.values .hash).isSome then .calculateHash else .noHash, force := if (m.values .force).isSome then .forced else .prompt,
            erase := .ignoreFile, key, header := (m.values .header).bind List.head?,
            hashingAlgorithm := if (m.values .argon).isSome then .argon2id ARGON2ID_LATEST else .blake3Balloon BLAKE3BALLOON_LATEST },
    { eraseSource := (m.values .erase).isSome }, ?_, hs, rfl, rfl, rfl, rfl, rfl, rfl⟩
  unfold packParams
  rw [Prog.bind_ok hk, Prog.bind_ok (hashmode_run h.release w), Prog.bind_ok (forcemode_run h.release w),
    Prog.bind_ok (getOne_release h.release .header w), Prog.bind_ok (hashingAlgorithm_run h.release w),
    Prog.bind_ok (containsId_release h.release .verbose w), Prog.bind_ok (containsId_release h.release .recursive w),
    Prog.bind_ok (containsId_release h.release .erase w), Prog.bind_ok (containsId_release h.release .zstd w)]
  rfl

end Volaris.Cli
