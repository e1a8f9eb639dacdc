import Verif.Spec.Shown
import Verif.Proofs.CrashCmd
import Verif.Proofs.EncryptCmd
/-!
# Lemmas for C87
-/
namespace Volaris.Cli
open Volaris.Spec
variable {σ ε ε' α β : Type}

/-- Nothing is modified, nothing is printed and no randomness is used. -/
def Stays (w w' : World) : Prop := w'.log = w.log ∧ w'.rng = w.rng ∧ w'.out = w.out

theorem Stays.refl (w : World) : Stays w w := ⟨rfl, rfl, rfl⟩
theorem Stays.trans {a b c : World} (h : Stays a b) (g : Stays b c) : Stays a c := ⟨g.1.trans h.1, g.2.1.trans h.2.1, g.2.2.trans h.2.2⟩

def Still (x : Prog ε α) : Prop := ∀ w, Stays w (x w).2

namespace Still

theorem lift (r : Res ε α) : Still (Prog.lift r) := fun w => .refl w
theorem throw (e : ε) : Still (Prog.throw e : Prog ε α) := fun w => .refl w
theorem panic : Still (Prog.panic : Prog ε α) := fun w => .refl w
theorem pure (a : α) : Still (Pure.pure a : Prog ε α) := fun w => .refl w
theorem bind {x : Prog ε α} {f : α → Prog ε β} (hx : Still x) (hf : ∀ a, Still (f a)) : Still (x >>= f) := by
  intro w
  have h := hx w
  rw [Prog.bind_run]
  revert h
  rcases x w with ⟨a | e | a, w'⟩ <;> intro h
  · exact h.trans (hf a w')
  · exact h
  · exact h
theorem mapErr {x : Prog ε α} (f : ε → ε') (hx : Still x) : Still (x.mapErr f) := fun w => by rw [Prog.mapErr_eq]; exact hx w
theorem ite {c : Prop} [Decidable c] {x y : Prog ε α} (hx : Still x) (hy : Still y) : Still (if c then x else y) := by split <;> assumption

theorem pop (w : World) : Stays w w.pop.2 := by unfold World.pop; split <;> exact ⟨rfl, rfl, rfl⟩

theorem sysRetry : Still Volaris.sysRetry := by
  intro w
  have h := pop w
  unfold Volaris.sysRetry
  revert h
  rcases w.pop with ⟨_ | _ | _ | _, w'⟩ <;> exact id

theorem sys : Still Volaris.sys := by
  intro w
  have h := pop w
  unfold Volaris.sys
  revert h
  rcases w.pop with ⟨_ | _ | _ | _, w'⟩ <;> exact id

theorem openFile (p : PathBuf) : Still (Volaris.openFile p) := by
  refine bind sysRetry fun _ w => ?_
  unfold openAt
  repeat' split
  all_goals exact ⟨rfl, rfl, rfl⟩

theorem readLoop (h : Nat) (s : List Io) : ∀ n acc (w : World), Stays w (readLoop h s n acc w).2 := by
  induction s with
  | nil => intro n acc w; exact ⟨rfl, rfl, rfl⟩
  | cons o s ih =>
    intro n acc w
    simp only [Volaris.readLoop]
    split
    · exact .refl w
    · cases o <;> dsimp only <;> (try split) <;> first | exact ⟨rfl, rfl, rfl⟩ | exact ih _ _ _

theorem readExact (h n : Nat) : Still (Volaris.readExact h n) := by
  unfold Volaris.readExact
  refine bind (fun w => readLoop h _ _ _ w) fun _ => ?_
  split
  · first | exact pure _ | exact throw _
  · first | exact pure _ | exact throw _
theorem readToEnd (h : Nat) : Still (Volaris.readToEnd h) := fun w => readLoop h _ _ _ w

theorem seekStart (h n : Nat) : Still (Volaris.seekStart h n) := by
  intro w
  have g := pop w
  unfold Volaris.seekStart
  revert g
  rcases w.pop with ⟨_ | _ | _ | _, w'⟩ <;> exact id

theorem seekCur (h : Nat) (d : Int) : Still (Volaris.seekCur h d) := by
  intro w
  have g := pop w
  unfold Volaris.seekCur
  revert g
  rcases w.pop with ⟨_ | _ | _ | _, w'⟩ <;> intro g <;> dsimp only <;> (try split) <;> exact g

end Still

theorem deserialize_still (h : Nat) : Still (deserialize h) := by
  unfold deserialize
  refine .bind (.mapErr _ (.readExact _ _)) fun _ => .bind (.mapErr _ (.seekCur _ _)) fun _ => ?_
  split
  · exact .throw _
  · exact .bind (.mapErr _ (.readExact _ _)) fun _ => .lift _

/-- Nothing is modified and no randomness is used; something may be printed. -/
def Calm (x : Prog ε α) : Prop := ∀ w, (x w).2.log = w.log ∧ (x w).2.rng = w.rng ∧ w.out <:+ (x w).2.out

theorem Still.calm {x : Prog ε α} (h : Still x) : Calm x := fun w => ⟨(h w).1, (h w).2.1, by rw [(h w).2.2]; exact List.suffix_refl _⟩

namespace Calm

theorem bind {x : Prog ε α} {f : α → Prog ε β} (hx : Calm x) (hf : ∀ a, Calm (f a)) : Calm (x >>= f) := by
  intro w
  have h := hx w
  rw [Prog.bind_run]
  revert h
  rcases x w with ⟨a | e | a, w'⟩ <;> intro h
  · exact ⟨(hf a w').1.trans h.1, (hf a w').2.1.trans h.2.1, h.2.2.trans (hf a w').2.2⟩
  · exact h
  · exact h
theorem ite {c : Prop} [Decidable c] {x y : Prog ε α} (hx : Calm x) (hy : Calm y) : Calm (if c then x else y) := by split <;> assumption
theorem say (line : List Char) : Calm (Cli.say line : Prog ε Unit) := fun _ => ⟨rfl, rfl, List.suffix_cons _ _⟩

end Calm

theorem answerLoop_calm (p : List Char) (d : Bool) : ∀ l, Calm (answerLoop p d l)
  | [] => .bind (.say _) fun _ => .bind (Still.mapErr _ .sys).calm fun _ => .bind (Still.mapErr _ .sysRetry).calm fun _ => (Still.throw _).calm
  | line :: lines => by
    rw [answerLoop]
    refine .bind (.say _) fun _ => .bind (Still.mapErr _ .sys).calm fun _ => .bind (Still.mapErr _ .sysRetry).calm fun _ => .bind (fun w => ⟨rfl, rfl, List.suffix_refl _⟩) fun _ => ?_
    split
    · exact (Still.throw _).calm
    · split
      · exact (Still.pure _).calm
      · exact .bind (.say _) fun _ => answerLoop_calm p d lines

theorem getAnswer_calm (p : List Char) (d : Bool) (force : ForceMode) : Calm (getAnswer p d force) := .ite (Still.pure _).calm fun w => answerLoop_calm p d _ w

theorem consent_calm (cwd : Path) (name : List Char) (force : ForceMode) : Calm (consent cwd name force) :=
  .bind (.bind (Still.calm fun w => .refl w) fun _ => .ite (getAnswer_calm _ _ _) (Still.pure _).calm) fun _ => .ite (Still.pure _).calm (Still.calm fun w => .refl w)

theorem announce_calm (key : Key) (line : String) : Calm (announce key line) := .ite (.say _) (Still.pure _).calm

theorem readInput_still (p : PathBuf) : Still (readInput p) :=
  .mapErr _ (.bind (fun w => .refl w) fun _ => .ite (.pure _) (.bind (.mapErr _ (.openFile _)) fun _ => .pure _))

theorem readInputs_still (s : Sys σ) : ∀ l, Still (readInputs s l)
  | [] => .pure _
  | _ :: fs => .bind (readInput_still _) fun _ => .bind (readInputs_still s fs) fun _ => .pure _

theorem openV5_still (s : Sys σ) (input : List Char) : Still (openV5 s input) :=
  .bind (.mapErr _ (.openFile _)) fun _ => .bind (.mapErr _ (deserialize_still _)) fun _ => .ite (.throw _) (.bind (.mapErr _ (.seekStart _ _)) fun _ => .pure _)

theorem getSecret_still (words : List (List Char)) (cwd : Path) (key : Key) (hk : ∀ n, key ≠ .generate n) : Still (getSecret words cwd key .direct) := by
  refine .bind ?_ fun _ => .ite (.throw _) (.pure _)
  cases key with
  | keyfile path =>
    refine .ite (.bind (fun w => ?_) fun _ => .ite (.throw _) (.pure _)) (.bind (.mapErr _ (.openFile _)) fun _ => .bind (.mapErr _ (.readToEnd _)) fun _ => .ite (.throw _) (.pure _))
    exact Still.bind (.mapErr _ .sysRetry) (fun _ => .bind (fun w => ⟨rfl, rfl, rfl⟩) fun _ => .pure _) w
  | env => intro w; show Stays w (readEnv w).2; unfold readEnv; split <;> exact .refl w
  | generate n => exact absurd rfl (hk n)
  | user =>
    intro w
    show Stays w (directPassword w.tty w).2
    cases w.tty with
    | nil => exact .refl w
    | cons a rest => exact Still.bind (.mapErr _ .sysRetry) (fun _ => .bind (fun w => ⟨rfl, rfl, rfl⟩) fun _ => .pure _) w

theorem supplied_stays {w w' : World} (h : w'.rng = w.rng) (i : Nat) : supplied w' i = supplied w i := by unfold supplied; rw [h]

theorem IsPassphrase.stays {words : List (List Char)} {n : Int} {w w' : World} {p : List Char} (h : w'.rng = w.rng) (hp : IsPassphrase words n w' p) : IsPassphrase words n w p := by
  obtain ⟨c, h1, h2, h3⟩ := hp
  exact ⟨c, h1, fun i hi => by rw [h2 i hi, supplied_stays h], h3⟩

theorem passphraseLoop_log (words : List (List Char)) : ∀ (k : Nat) (acc : List Char) (w : World), ((passphraseLoop words k acc : Prog ε (List Char)) w).2.log = w.log ∧ ((passphraseLoop words k acc : Prog ε (List Char)) w).2.out = w.out
  | 0, _, w => ⟨rfl, rfl⟩
  | k + 1, acc, w => by
    unfold passphraseLoop
    obtain ⟨v, w1, he, h1, h2⟩ : ∃ v w1, (genRangeIncl words.length : Prog ε Nat) w = (.ok v, w1) ∧ w1.log = w.log ∧ w1.out = w.out := ⟨_, _, rfl, rfl, rfl⟩
    rw [Prog.bind_ok he, ← h1, ← h2]
    cases words[v]? with
    | none => exact ⟨rfl, rfl⟩
    | some word => exact passphraseLoop_log words k _ _

/-- A generated secret: nothing is modified, and if there is one then it has been shown. -/
theorem generate_cases (words : List (List Char)) (cwd : Path) (n : Int) (w : World) :
    (getSecret words cwd (.generate n) .validate w).2.log = w.log ∧
      ∀ x, (getSecret words cwd (.generate n) .validate w).1 = .ok x → ∃ p, IsPassphrase words n w p ∧ x = stringBytes p ∧ ShownFirst w (getSecret words cwd (.generate n) .validate w).2 p := by
  have hl := passphraseLoop_log (ε := Error) words n.toNat [] w
  rcases hg : getSecret words cwd (.generate n) .validate w with ⟨r, w'⟩
  have hg' := hg
  unfold getSecret at hg
  have hf : fetch words cwd .validate (.generate n) w = (do let passphrase ← generatePassphrase words n; say ("[-] Your generated passphrase is: ".toList ++ passphrase); pure (stringBytes passphrase)) w := rfl
  rw [Prog.bind_run, hf, Prog.bind_run] at hg
  have hl' : ((generatePassphrase words n : Prog Error (List Char)) w).2.log = w.log ∧ ((generatePassphrase words n : Prog Error (List Char)) w).2.out = w.out := hl
  revert hg
  by_cases hc : ∀ j : Nat, (j : Int) < n → supplied w j % (words.length + 1) ≠ words.length
  · obtain ⟨chosen, w1, he, hlen, hch⟩ := Props.C51_passphrase_partial (ε := Error) words n w hc
    rw [he] at hl' ⊢
    intro hg
    have hg : (if stringBytes (dashed chosen) = [] then Prog.throw Error.keyEmpty else pure (stringBytes (dashed chosen))) (w1.said ("[-] Your generated passphrase is: ".toList ++ dashed chosen)) = (r, w') := hg
    have hw' : w' = w1.said ("[-] Your generated passphrase is: ".toList ++ dashed chosen) := by
      split at hg <;> cases hg <;> rfl
    subst hw'
    refine ⟨hl'.1, fun x hx => ⟨dashed chosen, ⟨chosen, hlen, fun i hi => (hch i hi).1, rfl⟩, ?_, [], w1.stdin.length, w1.tty.length, [], ?_⟩⟩
    · split at hg <;> cases hg
      · cases hx
      · cases hx; rfl
    · show Printed.mk w1.log.length _ _ _ :: w1.out = _
      rw [hl'.1, hl'.2]; rfl
  · have hex : ∃ j : Nat, (j : Int) < n ∧ supplied w j % (words.length + 1) = words.length := by
      simpa using hc
    have hp := (Props.C51_panics (ε := Error) words n).1 w hex
    rcases hg2 : (generatePassphrase words n : Prog Error (List Char)) w with ⟨r2, w2⟩
    rw [hg2] at hp hl'
    simp only at hp
    subst hp
    intro hg
    cases hg
    exact ⟨hl'.1, fun x hx => by cases hx⟩

/-- A program that first looks around, then generates a passphrase, then goes on. -/
theorem shown_generate {words : List (List Char)} {cwd : Path} {n : Int} {k : Bytes → Prog Error α} (hk : ∀ x, Crashes (k x)) (w : World)
    (h : ((getSecret words cwd (.generate n) .validate >>= k) w).2.log ≠ w.log ∨ ∃ a, ((getSecret words cwd (.generate n) .validate >>= k) w).1 = .ok a) : ∃ p, IsPassphrase words n w p ∧ ShownFirst w ((getSecret words cwd (.generate n) .validate >>= k) w).2 p := by
  have hg := generate_cases words cwd n w
  rw [Prog.bind_run] at h ⊢
  generalize getSecret words cwd (.generate n) .validate w = y at h hg ⊢
  rcases y with ⟨x | e | a, w1⟩
  · obtain ⟨p, h1, _, later, unread, untyped, earlier, h3⟩ := hg.2 x rfl
    obtain ⟨more, h4⟩ := (hk x w1).aside.2
    exact ⟨p, h1, more ++ later, unread, untyped, earlier, by simp only; rw [← h4, h3]; simp only [List.append_assoc, List.cons_append]⟩
  · rcases h with h | ⟨a, h⟩
    · exact absurd hg.1 h
    · cases h
  · rcases h with h | ⟨a, h⟩
    · exact absurd hg.1 h
    · cases h

theorem shown_bind {words : List (List Char)} {n : Int} {x : Prog Error β} (hx : Calm x) {f : β → Prog Error α}
    (hf : ∀ b w, ((f b w).2.log ≠ w.log ∨ ∃ a, (f b w).1 = .ok a) → ∃ p, IsPassphrase words n w p ∧ ShownFirst w (f b w).2 p) (w : World) (h : ((x >>= f) w).2.log ≠ w.log ∨ ∃ a, ((x >>= f) w).1 = .ok a) :
    ∃ p, IsPassphrase words n w p ∧ ShownFirst w ((x >>= f) w).2 p := by
  have hs := hx w
  rw [Prog.bind_run] at h ⊢
  generalize x w = y at h hs ⊢
  rcases y with ⟨a | e | a, w1⟩
  · obtain ⟨hl, hr, ho⟩ := hs
    simp only at hl hr ho h ⊢
    rw [← hl] at h
    obtain ⟨p, h1, later, unread, untyped, earlier, h2⟩ := hf a w1 h
    obtain ⟨new, hn⟩ := ho
    exact ⟨p, IsPassphrase.stays hr h1, later, unread, untyped, earlier ++ new, by rw [h2, hl, ← hn]; simp only [List.append_assoc, List.cons_append]⟩
  · rcases h with h | ⟨a, h⟩
    · exact absurd hs.1 h
    · cases h
  · rcases h with h | ⟨a, h⟩
    · exact absurd hs.1 h
    · cases h

theorem shown_throw {words : List (List Char)} {n : Int} (e : Error) (w : World) (h : ((Prog.throw e : Prog Error α) w).2.log ≠ w.log ∨ ∃ a, ((Prog.throw e : Prog Error α) w).1 = .ok a) :
    ∃ p, IsPassphrase words n w p ∧ ShownFirst w ((Prog.throw e : Prog Error α) w).2 p := by
  rcases h with h | ⟨a, h⟩
  · exact absurd rfl h
  · cases h

theorem generates_shown {s : Sys σ} {n : Int} {cmd : Prog Error Unit} (hg : Generates s n cmd) (w : World) (h : (cmd w).2.log ≠ w.log ∨ ∃ a, (cmd w).1 = .ok a) :
    ∃ p, IsPassphrase s.words n w p ∧ ShownFirst w (cmd w).2 p := by
  revert w
  cases hg with
  | encrypt input output params a hk =>
    unfold encryptMode encryptBody
    split
    · exact shown_throw _
    · rw [hk]
      refine shown_bind (consent_calm _ _ _) fun _ => shown_bind (readInput_still _).calm fun _ => shown_generate fun _ => ?_
      crash
  | pack inputs output pp params a hk =>
    unfold packMode packBody
    split
    · exact shown_throw _
    · refine shown_bind (Still.calm fun w => .refl w) fun _ => ?_
      split
      · exact shown_throw _
      · rw [hk]
        refine shown_bind (consent_calm _ _ _) fun _ => shown_bind (readInputs_still _ _).calm fun _ => shown_generate fun _ => ?_
        crash
  | keyAdd input params hk ho =>
    unfold Cli.keyAdd
    rw [hk]
    refine shown_bind (openV5_still _ _).calm fun _ => shown_bind (announce_calm _ _) fun _ => shown_bind (getSecret_still _ _ _ ho).calm fun _ => shown_bind (announce_calm _ _) fun _ => shown_generate fun _ => ?_
    crash
  | keyChange input params hk ho =>
    unfold Cli.keyChange
    rw [hk]
    refine shown_bind (openV5_still _ _).calm fun _ => shown_bind (announce_calm _ _) fun _ => shown_bind (getSecret_still _ _ _ ho).calm fun _ => shown_bind (announce_calm _ _) fun _ => shown_generate fun _ => ?_
    crash

theorem generates_crashes {s : Sys σ} {n : Int} {cmd : Prog Error Unit} (hg : Generates s n cmd) : Crashes cmd := by
  cases hg with
  | encrypt => exact encryptMode_crashes _ _ _ _ _
  | pack => exact packMode_crashes _ _ _ _ _ _
  | keyAdd => exact keyAdd_crashes _ _ _
  | keyChange => exact keyChange_crashes _ _ _

/-- There is one passphrase. -/
theorem passphrase_unique {words : List (List Char)} {n : Int} {w : World} {p p' : List Char} (h : IsPassphrase words n w p) (h' : IsPassphrase words n w p') : p = p' := by
  obtain ⟨c, h1, h2, rfl⟩ := h
  obtain ⟨c', h1', h2', rfl⟩ := h'
  congr 1
  apply List.ext_getElem?
  intro j
  by_cases hj : j < c.length
  · rw [h2 j hj, h2' j (by omega)]
  · rw [List.getElem?_eq_none (by omega), List.getElem?_eq_none (by omega)]

theorem passphrase_of_supplies {words : List (List Char)} {cwd : Path} {state : PasswordState} {n : Int} {w u : World} {x : Bytes} {p : List Char} (hr : u.rng = w.rng) (hp : IsPassphrase words n w p)
    (h : Supplies words cwd state (.generate n) u x) : x = stringBytes p := by
  obtain ⟨c, h1, h2, rfl⟩ := h
  rw [passphrase_unique hp (IsPassphrase.stays hr ⟨c, h1, h2, rfl⟩)]

end Volaris.Cli
