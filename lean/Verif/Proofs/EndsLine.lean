import Verif.Proofs.Ends
import Verif.Proofs.History
/-!
# Lemmas for C91: command lines
-/
namespace Volaris.Cli
open Volaris.Spec Volaris.Cli.Argv Volaris.Props
variable {σ : Type}

theorem shape_short {t : List Char} {f : Char} {rest : List Char} (h : shape t = .short f rest) : t = '-' :: f :: rest := by
  unfold shape at h
  split at h <;> cases h
  rfl

/-- Only a line that begins so is a line for unpacking. -/
theorem unpack_line {argv : List (List Char)} {debug : Bool} {m : Matches} (h : getMatches debug argv = some ("unpack".toList, m)) : UnpackLine argv := by
  cases argv with
  | nil => cases h
  | cons t ts =>
    cases hs : shape t with
    | escape => simp only [getMatches, hs] at h; cases h
    | long n v => simp only [getMatches, hs] at h; cases h
    | word =>
      simp only [getMatches, hs] at h
      cases hf : commands.find? (·.name = t) with
      | none => rw [hf] at h; cases h
      | some c =>
        rw [hf] at h
        have := List.find?_some hf
        exact .inl (by rw [(finish_some h).1]; simpa using (of_decide_eq_true this).symm)
    | short f rest =>
      simp only [getMatches, hs] at h
      cases hf : commands.find? (·.flag = some f) with
      | none => rw [hf] at h; cases h
      | some c =>
        rw [hf] at h
        have hn : "unpack".toList = c.name := by
          cases rest with
          | nil => exact (finish_some h).1
          | cons o r => exact (finish_some h).1
        have hc := List.mem_of_find?_eq_some hf
        have hfl : c.flag = some f := by simpa using List.find?_some hf
        have : c.flag = some 'u' := by
          revert hn
          exact (by decide : ∀ c ∈ commands, "unpack".toList = c.name → c.flag = some 'u') c hc
        rw [this] at hfl
        cases hfl
        exact .inr ⟨rest, by rw [shape_short hs]; rfl⟩

/-- A made-up passphrase is not used when the environment has one. -/
theorem generated_env {args : List Arg} {m : Matches} (hA : Accepted args m) {w : World} {key : Key} (hs : Source m .keyfile w key) {n : Int} (hk : key = .generate n) : w.env = none := by
  cases he : w.env with
  | none => rfl
  | some v =>
    rcases value_cases hA .keyfile with ⟨v', hg, _, _⟩ | ⟨ho, _, _⟩
    · rw [hs.keyfile v' hg] at hk; cases hk
    · rw [hs.env ho (by rw [he]; exact Option.some_ne_none _)] at hk; cases hk

/-- How a line can give up. -/
def LineGivesUp (words : List (List Char)) (argv : List (List Char)) (w w' : World) (a : Abort) : Prop :=
  (a = .exit 0 ∧ ∃ question default, AskedBy argv question default ∧ Declined question default w w') ∨ (a = .panic ∧ w.env = none ∧ ∃ n, Unlucky words n w)

theorem gives_up {words : List (List Char)} {argv : List (List Char)} {key : Key} {names : List (List Char)} {w w' : World} {a : Abort} (hn : ∀ n ∈ names, Mentions argv n) (hk : ∀ n, key = .generate n → w.env = none)
    (h : GivesUp words (some key) (questionsFor names) w w' a) : LineGivesUp words argv w w' a := by
  cases h with
  | declined t d hq hd =>
    refine .inl ⟨rfl, t, d, ?_, hd⟩
    rcases List.mem_append.1 hq with h | h
    · obtain ⟨n, hm, e⟩ := List.mem_map.1 h
      cases e
      exact .overwrite n (hn n hm)
    · cases List.mem_singleton.1 h
      exact .erase
  | unlucky n hk' hu => exact .inr ⟨rfl, hk n (Option.some.inj hk'), n, hu⟩

theorem bind_nil_abort {x : Prog Error Unit} {w w' : World} {a : Abort} (h : (x >>= fun _ => (pure [] : Prog Error (List String))) w = (.abort a, w')) : x w = (.abort a, w') := by
  rw [Prog.bind_run] at h
  rcases hx : x w with ⟨b | e | b, w1⟩ <;> rw [hx] at h <;> cases h
  rfl

theorem encrypt_gives_up (s : Sys σ) (hC : s.C.Lawful) {argv : List (List Char)} {name : List Char} {m : Matches} (h : getMatches false argv = some (name, m)) (hA : Accepted encryptArgs m) {w w' : World} {a : Abort}
    (he : Cli.encrypt s m w = (.abort a, w')) : LineGivesUp s.words argv w w' a := by
  obtain ⟨params, hp, hs, _, _, hh, _, _⟩ := parameterHandler_run hA (keyfile_default hA (by simp)) w
  obtain ⟨input, hi, hi'⟩ := required_value hA (a := { id := .input, required := true }) (by simp [encryptArgs]) rfl w
  obtain ⟨output, ho, ho'⟩ := required_value hA (a := { id := .output, required := true }) (by simp [encryptArgs]) rfl w
  unfold Cli.encrypt at he
  rw [Prog.bind_ok hp, Prog.bind_ok (algorithm_run hA.release w), Prog.bind_ok hi', Prog.bind_ok ho'] at he
  have := (encryptMode_quits s hC input output params _ w).2 a (by rw [he])
  rw [he] at this
  refine gives_up (fun n hn => ?_) (fun n hk => generated_env hA hs hk) this
  rcases List.mem_cons.1 hn with rfl | hn
  · exact gives_mentioned h (by simp [pathIds]) ho
  · exact header_mentioned h hA (header_default hA (by simp)) (hh ▸ Option.mem_toList.1 hn)

theorem decrypt_gives_up (s : Sys σ) (hC : s.C.Lawful) {argv : List (List Char)} {name : List Char} {m : Matches} (h : getMatches false argv = some (name, m)) (hA : Accepted decryptArgs m) {w w' : World} {a : Abort}
    (he : Cli.decrypt s m w = (.abort a, w')) : LineGivesUp s.words argv w w' a := by
  obtain ⟨params, hp, hs, _, _, hh, _, _⟩ := parameterHandler_run hA (keyfile_default hA (by simp)) w
  obtain ⟨input, hi, hi'⟩ := required_value hA (a := { id := .input, required := true }) (by simp [decryptArgs]) rfl w
  obtain ⟨output, ho, ho'⟩ := required_value hA (a := { id := .output, required := true }) (by simp [decryptArgs]) rfl w
  unfold Cli.decrypt at he
  rw [Prog.bind_ok hp, Prog.bind_ok hi', Prog.bind_ok ho'] at he
  have := (decryptMode_quits s hC input output params w).2 a (by rw [he])
  rw [he] at this
  refine gives_up (fun n hn => ?_) (fun n hk => generated_env hA hs hk) this
  rw [List.mem_singleton.1 hn]
  exact gives_mentioned h (by simp [pathIds]) ho

theorem pack_gives_up (s : Sys σ) (hC : s.C.Lawful) {argv : List (List Char)} {name : List Char} {m : Matches} (h : getMatches false argv = some (name, m)) (hA : Accepted packArgs m) {w w' : World} {a : Abort}
    (he : Cli.pack s m w = (.abort a, w')) : LineGivesUp s.words argv w w' a := by
  obtain ⟨params, pp, hp, hs, _, _, _, hh, _⟩ := packParams_run hA (keyfile_default hA (by simp)) w
  obtain ⟨output, ho, ho'⟩ := required_value hA (a := { id := .output, required := true }) (by simp [packArgs]) rfl w
  have hin : ∃ inputs, getParams m .input w = (.ok inputs, w) := by
    obtain ⟨v0, ⟨vs, hi⟩, _⟩ := required_value hA (a := { id := .input, required := true, multiple := true }) (by simp [packArgs]) rfl w
    refine ⟨v0 :: vs, ?_⟩
    unfold getParams
    have : (getMany m .input : Prog Error _) w = (.ok (m.values .input), w) := by rw [getMany_release hA.release]; rfl
    rw [Prog.bind_ok this]
    have hd : m.defines .input = true := by unfold Matches.defines; rw [hA.args]; rfl
    rw [show m.values .input = some (v0 :: vs) from by unfold Matches.values; rw [hd, show m.explicit .input = some (v0 :: vs) from hi]; rfl]
    rfl
  obtain ⟨inputs, hi'⟩ := hin
  unfold Cli.pack at he
  rw [Prog.bind_ok hp] at he
  dsimp only at he
  rw [Prog.bind_ok (algorithm_run hA.release w), Prog.bind_ok hi', Prog.bind_ok ho'] at he
  have := (packMode_quits s hC inputs output pp params _ w).2 a (by rw [he])
  rw [he] at this
  refine gives_up (fun n hn => ?_) (fun n hk => generated_env hA hs hk) this
  rcases List.mem_cons.1 hn with rfl | hn
  · exact gives_mentioned h (by simp [pathIds]) ho
  · exact header_mentioned h hA (header_default hA (by simp)) (hh ▸ Option.mem_toList.1 hn)

theorem erase_gives_up (s : Sys σ) {argv : List (List Char)} {m : Matches} (hA : Accepted eraseArgs m) {w w' : World} {a : Abort} (he : Cli.erase s m w = (.abort a, w')) : LineGivesUp s.words argv w w' a := by
  obtain ⟨input, hi, hi'⟩ := required_value hA (a := { id := .input, required := true }) (by simp [eraseArgs]) rfl w
  obtain ⟨n, force, _, _, hr⟩ := erase_run s hA hi w
  rw [hr] at he
  obtain ⟨rfl, t, d, hm, hd⟩ := (secureErase_ends (q := [(eraseQuestion, false)]) s input n force (fun _ => by simp) w).2 a (by rw [he])
  rw [he] at hd
  cases List.mem_singleton.1 hm
  exact .inl ⟨rfl, _, _, .erase, hd⟩

theorem hash_returns_line (s : Sys σ) {m : Matches} (hr : m.debug = false) {w w' : World} {a : Abort} (he : Cli.hash s m w = (.abort a, w')) : False := by
  unfold Cli.hash at he
  rw [Prog.bind_ok (show getMany m .input w = (.ok (m.values .input), w) by unfold getMany; rw [hr]; rfl)] at he
  exact Ends.returns (hashStream_ends s _) w a (by rw [he])

theorem line_gives_up (s : Sys σ) (hC : s.C.Lawful) {argv : List (List Char)} {run : Prog Error (List String)} (hm : Cli.main s false argv = some run) {w w' : World} {a : Abort} (he : run w = (.abort a, w')) :
    (UnpackLine argv ∧ a = .panic ∧ w' = w) ∨ LineGivesUp s.words argv w w' a := by
  unfold Cli.main at hm
  cases h : getMatches false argv with
  | none => rw [h] at hm; cases hm
  | some x =>
    obtain ⟨name, m⟩ := x
    rw [h] at hm
    obtain ⟨⟨c, hc, hn, ha⟩, hacc, hdeb, _⟩ := getMatches_some h
    have hA : Accepted c.args m := ⟨ha, hacc, hdeb⟩
    have hm : dispatch s name m none = run := Option.some.inj hm
    subst hm
    subst hn
    simp only [commands, List.mem_cons, List.not_mem_nil, or_false] at hc
    rcases hc with rfl | rfl | rfl | rfl | rfl | rfl
    · exact .inr (encrypt_gives_up s hC h hA (bind_nil_abort he))
    · exact .inr (decrypt_gives_up s hC h hA (bind_nil_abort he))
    · exact .inr (erase_gives_up s hA (bind_nil_abort he))
    · exact absurd (hash_returns_line s hdeb he) id
    · exact .inr (pack_gives_up s hC h hA (bind_nil_abort he))
    · have e := bind_nil_abort he
      rw [C60_unpack_panics s m hA w] at e
      cases e
      exact .inl ⟨unpack_line h, rfl, rfl⟩

end Volaris.Cli
