import Verif.Spec.History
import Verif.Proofs.ArgvRefused
/-!
# Every path that a command gets is one that its line mentions
-/
namespace Volaris.Cli.Argv
open Volaris.Spec

/-- The arguments whose values are paths that a command may change. -/
def pathIds : List Id := [.input, .output, .header]

/-- Such an argument has no letter, and no name but `header`. -/
theorem path_names : ∀ c ∈ commands, ∀ a ∈ c.args, a.id ∈ pathIds → a.short = none ∧ (a.long = none ∨ a.long = some ['h', 'e', 'a', 'd', 'e', 'r']) := by decide +kernel

theorem splitEq_some {cs n v : List Char} (h : splitEq cs = (n, some v)) : cs = n ++ '=' :: v := by
  induction cs generalizing n with
  | nil => simp [splitEq] at h
  | cons c cs ih =>
    unfold splitEq at h
    by_cases hc : c = '='
    · rw [if_pos hc] at h
      simp only [Prod.mk.injEq, Option.some.injEq] at h
      obtain ⟨rfl, rfl⟩ := h
      rw [hc]; rfl
    · rw [if_neg hc] at h
      simp only [Prod.mk.injEq] at h
      obtain ⟨rfl, h⟩ := h
      rw [List.cons_append, ← ih (n := (splitEq cs).1) (Prod.ext rfl h)]

theorem long_shape {t n v : List Char} (h : shape t = .long n (some v)) : t = '-' :: '-' :: (n ++ '=' :: v) := by
  unfold shape at h
  split at h <;> try cases h
  · rename_i cs _
    simp only [Shape.long.injEq] at h
    rw [splitEq_some (cs := cs) (Prod.ext h.1 h.2)]

/-- All paths found so far are mentioned. -/
def Mentioned (argv : List (List Char)) (given : List (Id × List (List Char))) : Prop := ∀ id vs, (id, vs) ∈ given → id ∈ pathIds → ∀ v ∈ vs, Mentions argv v

theorem record_mentioned {argv : List (List Char)} {given g : List (Id × List (List Char))} {id : Id} {multiple : Bool} {v : List Char} (hg : Mentioned argv given) (hv : id ∈ pathIds → Mentions argv v)
    (h : record given id multiple v = some g) : Mentioned argv g := by
  unfold record at h
  split at h
  · cases h
    intro id' vs hm hp x hx
    rcases List.mem_append.1 hm with hm | hm
    · exact hg id' vs hm hp x hx
    · simp only [List.mem_singleton, Prod.mk.injEq] at hm
      obtain ⟨rfl, rfl⟩ := hm
      simp only [List.mem_singleton] at hx
      subst hx
      exact hv hp
  · split at h
    · cases h
      intro id' vs hm hp x hx
      obtain ⟨⟨k, us⟩, hk, he⟩ := List.mem_map.1 hm
      by_cases hki : k = id
      · simp only [hki, if_true, Prod.mk.injEq] at he
        obtain ⟨rfl, rfl⟩ := he
        rcases List.mem_append.1 hx with hx | hx
        · exact hg _ us (hki ▸ hk) hp x hx
        · simp only [List.mem_singleton] at hx
          subst hx
          exact hv hp
      · simp only [hki, if_false, Prod.mk.injEq] at he
        obtain ⟨rfl, rfl⟩ := he
        exact hg _ us hk hp x hx
    · cases h

theorem option_mentioned {argv : List (List Char)} {st st' : State} {a : Arg} {v : Option (List Char)} (hg : Mentioned argv st.given) (hv : a.id ∈ pathIds → ∀ x, v = some x → Mentions argv x)
    (h : option st a v = some st') : Mentioned argv st'.given := by
  unfold option at h
  split at h
  · cases h
  · cases v with
    | some v =>
      simp only [Option.map_eq_some_iff] at h
      obtain ⟨g, hr, rfl⟩ := h
      exact record_mentioned hg (fun hp => hv hp v rfl) hr
    | none =>
      simp only at h
      split at h
      · cases h
      · cases h; exact hg

theorem positional_mentioned {argv : List (List Char)} {args : List Arg} {st st' : State} {t : List Char} {next : Option (List Char)} (hg : Mentioned argv st.given) (ht : t ∈ argv.tail)
    (h : positional args st t next = some st') : Mentioned argv st'.given := by
  unfold positional at h
  simp only at h
  split at h
  · cases h
  · split at h
    · cases h
    · simp only [Option.map_eq_some_iff] at h
      obtain ⟨g, hr, rfl⟩ := h
      exact record_mentioned hg (fun _ => .word ht) hr

/-- The letters of options are not those of paths. -/
theorem shortOption_mentioned {argv : List (List Char)} {c : Command} (hc : c ∈ commands) {st st' : State} {l : Char} {rest : List Char} (hg : Mentioned argv st.given)
    (h : shortOption c.args st l rest = some st') : Mentioned argv st'.given := by
  unfold shortOption at h
  split at h
  · cases h
  · rename_i a hf
    refine option_mentioned hg (fun hp => ?_) h
    have := List.find?_some hf
    rw [(path_names c hc a (List.mem_of_find?_eq_some hf) hp).1] at this
    simp at this

theorem step_mentioned {argv : List (List Char)} {c : Command} (hc : c ∈ commands) {st st' : State} {t : List Char} {next : Option (List Char)} (hg : Mentioned argv st.given) (ht : t ∈ argv.tail)
    (h : step c.args st t next = some st') : Mentioned argv st'.given := by
  unfold step at h
  split at h
  · exact positional_mentioned hg ht h
  · split at h
    · cases h; exact hg
    · rename_i n v hs
      unfold longOption at h
      split at h
      · cases h
      · rename_i a hf
        refine option_mentioned hg (fun hp x hx => ?_) h
        subst hx
        have hl := List.find?_some hf
        simp only [decide_eq_true_eq] at hl
        rcases (path_names c hc a (List.mem_of_find?_eq_some hf) hp).2 with g | g
        · rw [g] at hl; cases hl
        · rw [g] at hl
          cases hl
          have := long_shape hs
          subst this
          exact .header ht
    · exact shortOption_mentioned hc hg h
    · split at h
      · simp only [Option.map_eq_some_iff] at h
        obtain ⟨g, hr, rfl⟩ := h
        exact record_mentioned hg (fun _ => .word ht) hr
      · exact positional_mentioned hg ht h

theorem run_mentioned {argv : List (List Char)} {c : Command} (hc : c ∈ commands) : ∀ {ts : List (List Char)} {st st' : State}, Mentioned argv st.given → (∀ t ∈ ts, t ∈ argv.tail) →
    run c.args st ts = some st' → Mentioned argv st'.given
  | [], st, st', hg, _, h => by
    unfold run at h
    split at h
    · cases h
    · cases h; exact hg
  | t :: ts, st, st', hg, ht, h => by
    unfold run at h
    split at h
    · cases h
    · rename_i st1 hs
      exact run_mentioned hc (step_mentioned hc hg (ht t (by simp)) hs) (fun x hx => ht x (by simp [hx])) h

theorem finish_mentioned {argv : List (List Char)} {c : Command} {debug : Bool} {st : Option State} {name : List Char} {m : Matches} (hst : ∀ st', st = some st' → Mentioned argv st'.given)
    (h : finish c debug st = some (name, m)) : Mentioned argv m.given := by
  unfold finish at h
  cases st with
  | none => cases h
  | some st =>
    simp only at h
    split at h
    · cases h; exact hst st rfl
    · cases h

theorem Mentioned.nil (argv : List (List Char)) : Mentioned argv [] := fun _ _ h => (by cases h)

/-- The paths that the parser hands over are mentioned on the line. -/
theorem getMatches_mentioned {argv : List (List Char)} {debug : Bool} {name : List Char} {m : Matches} (h : getMatches debug argv = some (name, m)) {id : Id} (hp : id ∈ pathIds) {vs : List (List Char)}
    (he : m.explicit id = some vs) : ∀ v ∈ vs, Mentions argv v := by
  have key : Mentioned argv m.given := by
    cases argv with
    | nil => cases h
    | cons t ts =>
      have sub : ∀ x ∈ ts, x ∈ (t :: ts).tail := fun x hx => hx
      simp only [getMatches] at h
      split at h
      · split at h
        · cases h
        · rename_i c hf
          exact finish_mentioned (fun st' hr => run_mentioned (List.mem_of_find?_eq_some hf) (.nil _) sub hr) h
      · split at h
        · cases h
        · rename_i c hf
          have hc := List.mem_of_find?_eq_some hf
          split at h
          · exact finish_mentioned (fun st' hr => run_mentioned hc (.nil _) sub hr) h
          · refine finish_mentioned (fun st' hr => ?_) h
            obtain ⟨st1, h1, h2⟩ := Option.bind_eq_some_iff.1 hr
            exact run_mentioned hc (shortOption_mentioned hc (.nil _) h1) sub h2
      · cases h
  unfold Matches.explicit at he
  obtain ⟨⟨k, us⟩, hf, hv⟩ := Option.map_eq_some_iff.1 he
  have hk := List.find?_some hf
  simp only [decide_eq_true_eq] at hk
  subst hv hk
  exact key _ _ (List.mem_of_find?_eq_some hf) hp

end Volaris.Cli.Argv
