import Verif.Proofs.BothCli
import Verif.Props.CommandLine
import Verif.Props.Cli
import Verif.Proofs.Names
/-!
# Running a command line on two machines
-/
namespace Volaris.Cli
open Volaris.Spec Volaris.Cli.Argv Volaris.Props
variable {ε α σ : Type} {K : Nat → Differ} {L : Path → Differ} {f : Bytes → Bytes}

/-! ## Arguments -/

theorem both_getMany (m : Matches) (id : Id) {w v : World} (hR : Alike K L f w v) : Both (ε := ε) K L f (fun a b _ => a = b ∧ a = m.values id) (getMany m id) (getMany m id) w v := by
  unfold getMany
  split
  · exact .panic hR
  · exact .pure hR ⟨rfl, rfl⟩

theorem both_containsId (m : Matches) (id : Id) {w v : World} (hR : Alike K L f w v) : Both (ε := ε) K L f (fun a b _ => a = b ∧ a = (m.values id).isSome) (containsId m id) (containsId m id) w v := by
  refine (both_getMany m id hR).bind ?_
  rintro a _ w v ⟨rfl, rfl⟩ hR _
  exact .pure hR ⟨rfl, rfl⟩

theorem both_getOne (m : Matches) (id : Id) {w v : World} (hR : Alike K L f w v) : Both (ε := ε) K L f (fun a b _ => a = b ∧ a = (m.values id).bind List.head?) (getOne m id) (getOne m id) w v := by
  refine (both_getMany m id hR).bind ?_
  rintro a _ w v ⟨rfl, rfl⟩ hR _
  exact .pure hR ⟨rfl, rfl⟩

/-- The value is one of those of the argument. -/
def Value (m : Matches) (id : Id) (v : List Char) : Prop := ∃ vs, m.values id = some vs ∧ v ∈ vs

theorem value_head {m : Matches} {id : Id} {v : List Char} (h : (m.values id).bind List.head? = some v) : Value m id v := by
  cases e : m.values id with
  | none => rw [e] at h; cases h
  | some vs =>
    rw [e] at h
    cases vs with
    | nil => cases h
    | cons x xs => cases h; exact ⟨_, e, by simp⟩

theorem both_getParam (m : Matches) (id : Id) {w v : World} (hR : Alike K L f w v) : Both K L f (fun a b _ => a = b ∧ Value m id a) (getParam m id) (getParam m id) w v := by
  unfold getParam
  refine (both_getOne m id hR).bind ?_
  rintro a _ w v ⟨rfl, h⟩ hR _
  cases a with
  | none => exact .throw hR _
  | some x => exact .pure hR ⟨rfl, value_head h.symm⟩

theorem both_getParams (m : Matches) (id : Id) {w v : World} (hR : Alike K L f w v) : Both K L f (fun a b _ => a = b ∧ ∀ x ∈ a, Value m id x) (getParams m id) (getParams m id) w v := by
  unfold getParams
  refine (both_getMany m id hR).bind ?_
  rintro a _ w v ⟨rfl, h⟩ hR _
  cases a with
  | none => exact .throw hR _
  | some vs => exact .pure hR ⟨rfl, fun x hx => ⟨vs, h.symm, hx⟩⟩

theorem both_envSet {w v : World} (hR : Alike K L f w v) : Both (ε := ε) K L f (fun a b _ => a = b) envSet envSet w v :=
  .looked hR (.ok w.env.isSome) rfl (by unfold envSet; rw [hR.env]; cases w.env <;> rfl) fun _ _ => rfl

/-- The file of the key is named by the argument. -/
def KeyFrom (m : Matches) (id : Id) (key : Key) : Prop := ∀ path, key = .keyfile path → Value m id path

theorem both_initOther (m : Matches) (params : KeyParams) (id : Id) {w v : World} (hR : Alike K L f w v) : Both K L f (fun a b _ => a = b ∧ KeyFrom m id a) (initOther m params) (initOther m params) w v := by
  unfold initOther
  refine (both_envSet hR).bind ?_
  rintro e _ w v rfl hR _
  split
  · exact .pure hR ⟨rfl, fun _ h => by cases h⟩
  · refine (both_containsId m _ hR).bind ?_
    rintro a _ w v ⟨rfl, _⟩ hR _
    split
    · unfold initGenerate
      refine (both_getParam m _ hR).bind ?_
      rintro x _ w v ⟨rfl, _⟩ hR _
      exact .pure hR ⟨rfl, fun _ h => by cases h⟩
    · split
      · exact .pure hR ⟨rfl, fun _ h => by cases h⟩
      · exact .throw hR _

theorem both_init (m : Matches) (params : KeyParams) (id : Id) {w v : World} (hR : Alike K L f w v) : Both K L f (fun a b _ => a = b ∧ KeyFrom m id a) (Key.init m params id) (Key.init m params id) w v := by
  unfold Key.init
  refine (both_containsId m id hR).bind ?_
  rintro a _ w v ⟨rfl, _⟩ hR _
  split
  · refine (both_getParam m id hR).bind ?_
    rintro x _ w v ⟨rfl, hx⟩ hR _
    exact .pure hR ⟨rfl, fun p h => by cases h; exact hx⟩
  · exact both_initOther m params id hR

/-- An argument is there or not. -/
theorem both_flag {β : Type} (m : Matches) (id : Id) (y n : β) {w v : World} (hR : Alike K L f w v) : Both (ε := ε) K L f (fun a b _ => a = b) (do pure (if ← containsId m id then y else n)) (do pure (if ← containsId m id then y else n)) w v := by
  refine (both_containsId m id hR).bind ?_
  rintro a _ w v ⟨rfl, _⟩ hR _
  exact .pure hR rfl

theorem both_erasemode (m : Matches) {w v : World} (hR : Alike K L f w v) : Both K L f (fun a b _ => a = b) (erasemode m) (erasemode m) w v := by
  unfold erasemode
  refine (both_containsId m _ hR).bind ?_
  rintro a _ w v ⟨rfl, _⟩ hR _
  split
  · refine (both_getParam m _ hR).bind ?_
    rintro x _ w v ⟨rfl, _⟩ hR _
    exact .pure hR rfl
  · exact .pure hR rfl

theorem both_parameterHandler (m : Matches) {w v : World} (hR : Alike K L f w v) :
    Both K L f (fun a b _ => a = b ∧ KeyFrom m .keyfile a.key ∧ ∀ p, a.header = some p → Value m .header p) (parameterHandler m) (parameterHandler m) w v := by
  unfold parameterHandler
  refine (both_init m _ _ hR).bind ?_
  rintro key _ w v ⟨rfl, hk⟩ hR _
  refine (both_flag m _ _ _ hR).bind ?_
  rintro hm _ w v rfl hR _
  refine (both_flag m _ _ _ hR).bind ?_
  rintro fm _ w v rfl hR _
  refine (both_erasemode m hR).bind ?_
  rintro em _ w v rfl hR _
  refine (both_getOne m _ hR).bind ?_
  rintro hd _ w v ⟨rfl, hh⟩ hR _
  refine (both_flag m _ _ _ hR).bind ?_
  rintro ha _ w v rfl hR _
  exact .pure hR ⟨rfl, hk, fun p e => value_head (by rw [← hh]; exact e)⟩

theorem both_packParams (m : Matches) {w v : World} (hR : Alike K L f w v) :
    Both K L f (fun a b _ => a = b ∧ KeyFrom m .keyfile a.1.key) (packParams m) (packParams m) w v := by
  unfold packParams
  refine (both_init m _ _ hR).bind ?_
  rintro key _ w v ⟨rfl, hk⟩ hR _
  refine (both_flag m _ _ _ hR).bind ?_
  rintro hm _ w v rfl hR _
  refine (both_flag m _ _ _ hR).bind ?_
  rintro fm _ w v rfl hR _
  refine (both_getOne m _ hR).bind ?_
  rintro hd _ w v ⟨rfl, hh⟩ hR _
  refine (both_flag m _ _ _ hR).bind ?_
  rintro ha _ w v rfl hR _
  refine (both_containsId m _ hR).bind fun _ _ w v _ hR _ => ?_
  refine (both_containsId m _ hR).bind fun _ _ w v _ hR _ => ?_
  refine (both_containsId m _ hR).bind ?_
  rintro es _ w v ⟨rfl, _⟩ hR _
  refine (both_containsId m _ hR).bind fun _ _ w v _ hR _ => ?_
  exact .pure hR ⟨rfl, hk⟩

theorem both_eraseParams (m : Matches) {w v : World} (hR : Alike K L f w v) : Both K L f (fun a b _ => a = b) (eraseParams m) (eraseParams m) w v := by
  unfold eraseParams
  refine Both.bind (P := fun a b _ => a = b) ?_ ?_
  · refine (both_containsId m _ hR).bind ?_
    rintro a _ w v ⟨rfl, _⟩ hR _
    split
    · refine (both_getParam m _ hR).bind ?_
      rintro x _ w v ⟨rfl, _⟩ hR _
      exact .pure hR rfl
    · exact .pure hR rfl
  · rintro n _ w v rfl hR _
    refine (both_flag m _ _ _ hR).bind ?_
    rintro fm _ w v rfl hR _
    exact .pure hR rfl

/-! ## Commands -/

/-- Nothing differs at and below what the command line names. -/
def Public (L : Path → Differ) (cwd : Path) (m : Matches) : Prop := ∀ id v, id ∈ [Id.input, .output, .keyfile, .header] → Value m id v → Under L .no (onPaper (toPath cwd v))

theorem Public.key {cwd : Path} {m : Matches} (h : Public L cwd m) {key : Key} (hk : KeyFrom m .keyfile key) : KeyPlace L cwd .no key := by
  cases key with
  | keyfile path => exact .inr (h .keyfile path (by simp) (hk path rfl)).self
  | env => trivial
  | generate n => trivial
  | user => trivial

theorem _root_.Volaris.Under.mono {d d' : Differ} (hd : d.within d') {p : Path} (h : Under L d p) : Under L d' p := fun q hq => Differ.within_trans (h q hq) hd

variable {s : Sys σ} {m : Matches}

theorem both_encryptCmd (h : Public L s.cwd m) {w v : World} (hR : Alike K L id w v) : Both K L id (fun _ _ _ => True) (Cli.encrypt s m) (Cli.encrypt s m) w v := by
  unfold Cli.encrypt
  refine (both_parameterHandler m hR).bind ?_
  rintro params _ w v ⟨rfl, hk, _⟩ hR _
  refine (both_flag m _ _ _ hR).bind ?_
  rintro a _ w v rfl hR _
  refine (both_getParam m _ hR).bind ?_
  rintro input _ w v ⟨rfl, hi⟩ hR _
  refine (both_getParam m _ hR).bind ?_
  rintro output _ w v ⟨rfl, ho⟩ hR _
  have hi := h _ _ (by simp) hi
  exact both_encryptMode s (d := .no) trivial (sameText_no _) (covers_same _) a hi.self (h.key hk) (fun _ => (h _ _ (by simp) ho).self) (hi.mono (d := .no) trivial) hR

theorem both_decryptCmd (h : Public L s.cwd m) {w v : World} (hR : Alike K L id w v) : Both K L id (fun _ _ _ => True) (Cli.decrypt s m) (Cli.decrypt s m) w v := by
  unfold Cli.decrypt
  refine (both_parameterHandler m hR).bind ?_
  rintro params _ w v ⟨rfl, hk, hh⟩ hR _
  refine (both_getParam m _ hR).bind ?_
  rintro input _ w v ⟨rfl, hi⟩ hR _
  refine (both_getParam m _ hR).bind ?_
  rintro output _ w v ⟨rfl, ho⟩ hR _
  have hi := h _ _ (by simp) hi
  exact both_decryptMode s (covers_same _) output hi.self (fun p e => (h _ _ (by simp) (hh p e)).self) (h.key hk) (hi.mono (d := .no) trivial) hR

theorem both_eraseCmd (h : Public L s.cwd m) {w v : World} (hR : Alike K L id w v) : Both K L id (fun _ _ _ => True) (Cli.erase s m) (Cli.erase s m) w v := by
  unfold Cli.erase
  refine (both_eraseParams m hR).bind ?_
  rintro ⟨passes, force⟩ _ w v rfl hR _
  refine (both_getParam m _ hR).bind ?_
  rintro input _ w v ⟨rfl, hi⟩ hR _
  exact both_secureErase s (d := .no) trivial (h _ _ (by simp) hi) passes force hR

theorem both_packCmd (h : Public L s.cwd m) {w v : World} (hR : Alike K L id w v) : Both K L id (fun _ _ _ => True) (Cli.pack s m) (Cli.pack s m) w v := by
  unfold Cli.pack
  refine (both_packParams m hR).bind ?_
  rintro ⟨params, pp⟩ _ w v ⟨rfl, hk⟩ hR _
  refine (both_flag m _ _ _ hR).bind ?_
  rintro a _ w v rfl hR _
  refine (both_getParams m _ hR).bind ?_
  rintro inputs _ w v ⟨rfl, hi⟩ hR _
  refine (both_getParam m _ hR).bind ?_
  rintro output _ w v ⟨rfl, ho⟩ hR _
  exact both_packMode s (covers_same _) pp a (fun x hx => h _ _ (by simp) (hi x hx)) (h.key hk) (fun _ => (h _ _ (by simp) ho).self) hR

theorem both_hashCmd (h : Public L s.cwd m) {w v : World} (hR : Alike K L id w v) : Both K L id (fun a b _ => a = b) (Cli.hash s m) (Cli.hash s m) w v := by
  unfold Cli.hash
  refine (both_getMany m _ hR).bind ?_
  rintro files _ w v ⟨rfl, hf⟩ hR _
  refine both_hashStream s (files.getD []) (fun x hx => ?_) hR
  cases files with
  | none => cases hx
  | some vs => exact (h .input x (by simp) ⟨vs, hf.symm, hx⟩).self

/-! ## Lines -/

/-- All values found so far are on the line. -/
def Carried (argv : List (List Char)) (given : List (Id × List (List Char))) : Prop := ∀ id vs, (id, vs) ∈ given → ∀ v ∈ vs, Carries argv v

theorem record_carried {argv : List (List Char)} {given g : List (Id × List (List Char))} {id : Id} {multiple : Bool} {v : List Char} (hg : Carried argv given) (hv : Carries argv v)
    (h : record given id multiple v = some g) : Carried argv g := by
  unfold record at h
  split at h
  · cases h
    intro id' vs hm x hx
    rcases List.mem_append.1 hm with hm | hm
    · exact hg id' vs hm x hx
    · simp only [List.mem_singleton, Prod.mk.injEq] at hm
      obtain ⟨rfl, rfl⟩ := hm
      simp only [List.mem_singleton] at hx
      subst hx
      exact hv
  · split at h
    · cases h
      intro id' vs hm x hx
      obtain ⟨⟨k, us⟩, hk, he⟩ := List.mem_map.1 hm
      by_cases hki : k = id
      · simp only [hki, if_true, Prod.mk.injEq] at he
        obtain ⟨rfl, rfl⟩ := he
        rcases List.mem_append.1 hx with hx | hx
        · exact hg _ us (hki ▸ hk) x hx
        · simp only [List.mem_singleton] at hx
          subst hx
          exact hv
      · simp only [hki, if_false, Prod.mk.injEq] at he
        obtain ⟨rfl, rfl⟩ := he
        exact hg _ us hk x hx
    · cases h

theorem option_carried {argv : List (List Char)} {st st' : State} {a : Arg} {v : Option (List Char)} (hg : Carried argv st.given) (hv : ∀ x, v = some x → Carries argv x)
    (h : option st a v = some st') : Carried argv st'.given := by
  unfold option at h
  split at h
  · cases h
  · cases v with
    | some v =>
      simp only [Option.map_eq_some_iff] at h
      obtain ⟨g, hr, rfl⟩ := h
      exact record_carried hg (hv v rfl) hr
    | none =>
      simp only at h
      split at h
      · cases h
      · cases h; exact hg

theorem positional_carried {argv : List (List Char)} {args : List Arg} {st st' : State} {t : List Char} {next : Option (List Char)} (hg : Carried argv st.given) (ht : t ∈ argv.tail)
    (h : positional args st t next = some st') : Carried argv st'.given := by
  unfold positional at h
  simp only at h
  split at h
  · cases h
  · split at h
    · cases h
    · simp only [Option.map_eq_some_iff] at h
      obtain ⟨g, hr, rfl⟩ := h
      exact record_carried hg (.word ht) hr

theorem attached_some {rest v : List Char} (h : attached rest = some v) : (v ≠ [] ∧ rest = v) ∨ rest = '=' :: v := by
  unfold attached at h
  split at h
  · cases h
  · cases h; exact .inr rfl
  · next hn _ => cases h; exact .inl ⟨hn, rfl⟩

theorem shortOption_carried {argv : List (List Char)} {args : List Arg} {st st' : State} {l : Char} {rest : List Char} (hg : Carried argv st.given) (hv : ∀ x, attached rest = some x → Carries argv x)
    (h : shortOption args st l rest = some st') : Carried argv st'.given := by
  unfold shortOption at h
  split at h
  · cases h
  · exact option_carried hg hv h

theorem short_shape {t : List Char} {c : Char} {rest : List Char} (h : shape t = .short c rest) : t = '-' :: c :: rest := by
  unfold shape at h
  split at h <;> first | cases h | skip
  rfl

theorem step_carried {argv : List (List Char)} {args : List Arg} {st st' : State} {t : List Char} {next : Option (List Char)} (hg : Carried argv st.given) (ht : t ∈ argv.tail)
    (h : step args st t next = some st') : Carried argv st'.given := by
  unfold step at h
  split at h
  · exact positional_carried hg ht h
  · split at h
    · cases h; exact hg
    · rename_i n v hs
      unfold longOption at h
      split at h
      · cases h
      · refine option_carried hg (fun x hx => ?_) h
        subst hx
        exact .long (name := n) (by rw [← long_shape hs]; exact ht)
    · rename_i c rest hs
      refine shortOption_carried hg (fun x hx => ?_) h
      have := short_shape hs
      rcases attached_some hx with ⟨hne, rfl⟩ | rfl
      · exact .short (c := c) hne (this ▸ ht)
      · exact .shortEq (c := c) (this ▸ ht)
    · split at h
      · simp only [Option.map_eq_some_iff] at h
        obtain ⟨g, hr, rfl⟩ := h
        exact record_carried hg (.word ht) hr
      · exact positional_carried hg ht h

theorem run_carried {argv : List (List Char)} {args : List Arg} : ∀ {ts : List (List Char)} {st st' : State}, Carried argv st.given → (∀ t ∈ ts, t ∈ argv.tail) → run args st ts = some st' → Carried argv st'.given
  | [], st, st', hg, _, h => by
    unfold run at h
    split at h
    · cases h
    · cases h; exact hg
  | t :: ts, st, st', hg, ht, h => by
    unfold run at h
    split at h
    · cases h
    · rename_i st1 hs
      exact run_carried (step_carried hg (ht t (by simp)) hs) (fun x hx => ht x (by simp [hx])) h

theorem finish_carried {argv : List (List Char)} {c : Command} {debug : Bool} {st : Option State} {name : List Char} {m : Matches} (hst : ∀ st', st = some st' → Carried argv st'.given)
    (h : Argv.finish c debug st = some (name, m)) : Carried argv m.given := by
  unfold Argv.finish at h
  cases st with
  | none => cases h
  | some st =>
    simp only at h
    split at h
    · cases h; exact hst st rfl
    · cases h

theorem getMatches_carried {argv : List (List Char)} {debug : Bool} {name : List Char} {m : Matches} (h : getMatches debug argv = some (name, m)) : Carried argv m.given := by
  have nil : Carried argv [] := fun _ _ h => by cases h
  cases argv with
  | nil => cases h
  | cons t ts =>
    have sub : ∀ x ∈ ts, x ∈ (t :: ts).tail := fun x hx => hx
    simp only [getMatches] at h
    split at h
    · split at h
      · cases h
      · exact finish_carried (fun st' hr => run_carried nil sub hr) h
    · rename_i e rest hs
      have ht := short_shape hs
      split at h
      · cases h
      · split at h
        · exact finish_carried (fun st' hr => run_carried nil sub hr) h
        · rename_i o rest'
          refine finish_carried (fun st' hr => ?_) h
          obtain ⟨st1, h1, h2⟩ := Option.bind_eq_some_iff.1 hr
          refine run_carried (shortOption_carried nil (fun x hx => ?_) h1) sub h2
          rcases attached_some hx with ⟨hne, rfl⟩ | rfl
          · exact .first (e := e) (c := o) hne (by rw [ht]; rfl)
          · exact .firstEq (e := e) (c := o) (by rw [ht]; rfl)
    · cases h

theorem path_defaults : ∀ c ∈ commands, ∀ id ∈ [Id.input, .output, .keyfile, .header], (c.args.find? (·.id = id)).bind (·.default) = none := by decide +kernel

theorem value_carried {argv : List (List Char)} {debug : Bool} {name : List Char} {m : Matches} (h : getMatches debug argv = some (name, m)) {id : Id} (hid : id ∈ [Id.input, .output, .keyfile, .header]) {v : List Char}
    (hv : Value m id v) : Carries argv v := by
  obtain ⟨vs, hvs, hm⟩ := hv
  obtain ⟨⟨c, hc, _, ha⟩, _⟩ := getMatches_some h
  unfold Matches.values at hvs
  split at hvs
  · cases he : m.explicit id with
    | some us =>
      rw [he] at hvs
      cases hvs
      unfold Matches.explicit at he
      obtain ⟨⟨k, us⟩, hf, rfl⟩ := Option.map_eq_some_iff.1 he
      exact getMatches_carried h _ _ (List.mem_of_find?_eq_some hf) v hm
    | none =>
      rw [he] at hvs
      have : m.default id = none := by unfold Matches.default; rw [ha]; exact path_defaults c hc id hid
      rw [this] at hvs
      cases hvs
  · cases hvs

theorem both_then {x : Prog Error Unit} {w v : World} (h : Both K L f (fun _ _ _ => True) x x w v) : Both K L f (fun a b _ => a = b) (x >>= fun _ => (pure [] : Prog Error (List String))) (x >>= fun _ => pure []) w v :=
  h.bind fun _ _ _ _ _ hR _ => .pure hR rfl

theorem both_line {argv : List (List Char)} {run : Prog Error (List String)} (h : Cli.main s false argv = some run) (hL : ∀ v, Carries argv v → Under L .no (onPaper (toPath s.cwd v))) {w v : World} (hR : Alike K L id w v) :
    Both K L id (fun a b _ => a = b) run run w v := by
  unfold Cli.main at h
  cases hg : getMatches false argv with
  | none => rw [hg] at h; cases h
  | some x =>
    obtain ⟨name, m⟩ := x
    rw [hg] at h
    cases h
    obtain ⟨⟨c, hc, hn, ha⟩, hacc, hdeb, _⟩ := getMatches_some hg
    have hA : Accepted c.args m := ⟨ha, hacc, hdeb⟩
    have hP : Public L s.cwd m := fun id v hid hv => hL v (value_carried hg hid hv)
    subst hn
    simp only [commands, List.mem_cons, List.not_mem_nil, or_false] at hc
    rcases hc with rfl | rfl | rfl | rfl | rfl | rfl
    · exact both_then (both_encryptCmd hP hR)
    · exact both_then (both_decryptCmd hP hR)
    · exact both_then (both_eraseCmd hP hR)
    · exact both_hashCmd hP hR
    · exact both_then (both_packCmd hP hR)
    · refine both_then (.done (C60_unpack_panics s m hA w) (C60_unpack_panics s m hA v) hR (Later.refl _) fun _ _ => trivial)

theorem both_main {debug : Bool} {argv : List (List Char)} {run : Prog Error (List String)} (h : Cli.main s debug argv = some run) (hL : ∀ v, Carries argv v → Under L .no (onPaper (toPath s.cwd v))) {w v : World} (hR : Alike K L id w v) :
    Both K L id (fun a b _ => a = b) run run w v := by
  cases debug with
  | false => exact both_line h hL hR
  | true =>
    have := C79_debug_partial s argv
    rw [h] at this
    cases hr : Cli.main s false argv with
    | none => rw [hr] at this; exact this.elim
    | some release =>
      rw [hr] at this
      rcases this with g | ⟨_, g⟩
      · have : run = release := funext g
        subst this
        exact both_line hr hL hR
      · have : run = Prog.lift (.abort .panic) := funext g
        subst this
        exact .lift hR (.abort _)

end Volaris.Cli
