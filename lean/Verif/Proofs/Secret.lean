import Verif.Proofs.Looks
import Verif.Props.Utils
/-!
# Secrets
-/
namespace Volaris.Cli
open Volaris.Spec

/-! ### Answers -/

theorem getAnswer_forced (p : List Char) (d : Bool) (w : World) : getAnswer p d .forced w = (.ok true, w) := rfl

theorem getAnswer_cases (p : List Char) (d : Bool) (w : World) :
    (∃ b rest s, rest <:+ w.stdin ∧ s <:+ w.sched ∧ getAnswer p d .prompt w = (.ok b, { answered w (questionText p d) rest with sched := s }) ∧ FirstAnswer d w.stdin b rest) ∨
    (∃ e rest s o, rest <:+ w.stdin ∧ s <:+ w.sched ∧ getAnswer p d .prompt w = (.err e, { w with stdin := rest, sched := s, out := o ++ w.out }) ∧
      (w.sched = [] → e = .noFirstChar ∧ ¬ ∃ b r, FirstAnswer d w.stdin b r)) :=
  answerLoop_cases p d w.stdin w rfl

theorem looked_answered (n : Nat) (w : World) {l : List String} {s : List Io} {o : List Printed} (h1 : l <:+ w.stdin) (h2 : s <:+ w.sched) :
    Looked n w { w with stdin := l, sched := s, out := o } :=
  ⟨rfl, rfl, fun _ _ => rfl, Nat.le_refl _, rfl, rfl, h1, List.suffix_refl _, h2⟩

theorem getAnswer_looks (n : Nat) (p : List Char) (d : Bool) (force : ForceMode) : Looks n (fun _ => True) (getAnswer p d force) := by
  intro w _
  refine ⟨?_, fun _ _ _ => trivial⟩
  cases force with
  | forced => exact .refl _ _
  | prompt =>
    rcases getAnswer_cases p d w with ⟨b, rest, s, h1, h2, h3, _⟩ | ⟨b, rest, s, o, h1, h2, h3, _⟩ <;> rw [h3] <;> exact looked_answered n w h1 h2

theorem existsAt_iff {ε : Type} (p : PathBuf) (w : World) :
    ((existsAt p : Prog ε Bool) w = (.ok true, w) ∧ Occupied w p) ∨ ((existsAt p : Prog ε Bool) w = (.ok false, w) ∧ ¬ Occupied w p) := by
  unfold existsAt Occupied
  cases hr : w.resolve p with
  | error e => right; exact ⟨rfl, by rintro ⟨q, n, h, _⟩; cases h⟩
  | ok q =>
    cases hl : w.look q with
    | none => right; exact ⟨by simp [hl], by rintro ⟨q', n, h, h'⟩; cases h; rw [hl] at h'; cases h'⟩
    | some nd => left; exact ⟨by simp [hl], q, nd, rfl, hl⟩

theorem overwriteQuestion_eq (name : List Char) : questionText (overwritePrompt name) true = overwriteQuestion name := by
  unfold questionText overwritePrompt overwriteQuestion
  simp only [List.append_assoc, if_true]
  rfl

theorem overwriteCheck_free {cwd : Path} {name : List Char} {w : World} (force : ForceMode) (h : ¬ Occupied w (toPath cwd name)) : overwriteCheck cwd name force w = (.ok true, w) := by
  unfold overwriteCheck
  rcases existsAt_iff (ε := Error) (toPath cwd name) w with ⟨_, h2⟩ | ⟨h1, _⟩
  · exact absurd h2 h
  · rw [Prog.bind_ok h1]; rfl

theorem overwriteCheck_occupied {cwd : Path} {name : List Char} {w : World} (force : ForceMode) (h : Occupied w (toPath cwd name)) :
    overwriteCheck cwd name force w = getAnswer (overwritePrompt name) true force w := by
  unfold overwriteCheck
  rcases existsAt_iff (ε := Error) (toPath cwd name) w with ⟨h1, _⟩ | ⟨_, h2⟩
  · rw [Prog.bind_ok h1]; rfl
  · exact absurd h h2

theorem overwriteCheck_looks (n : Nat) (cwd : Path) (name : List Char) (force : ForceMode) : Looks n (fun _ => True) (overwriteCheck cwd name force) := by
  unfold overwriteCheck
  exact .bind (.existsAt _) fun b _ => .ite (getAnswer_looks n _ true force) (.pure trivial)

theorem consent_looks (n : Nat) (cwd : Path) (name : List Char) (force : ForceMode) : Looks n (fun _ => True) (consent cwd name force) := by
  unfold consent
  exact .bind (overwriteCheck_looks n cwd name force) fun b _ => .ite (.pure trivial) (.lift fun _ h => by cases h)

/-! ### Passwords -/

theorem say_looks {ε : Type} (n : Nat) (line : List Char) : Looks n (fun _ => True) (say line : Prog ε Unit) := by
  intro w _
  exact ⟨⟨rfl, rfl, fun _ _ => rfl, Nat.le_refl _, rfl, rfl, List.suffix_refl _, List.suffix_refl _, List.suffix_refl _⟩, fun _ _ _ => trivial⟩

theorem confirmLoop_cases : ∀ (entries : List Bytes) (w : World), w.tty = entries →
    (∃ x rest s o, rest <:+ entries ∧ s <:+ w.sched ∧ confirmLoop entries w = (.ok x, { w with tty := rest, sched := s, out := o }) ∧ FirstConfirmed entries x rest) ∨
    (∃ rest s o, rest <:+ entries ∧ s <:+ w.sched ∧ confirmLoop entries w = (.err .readPassword, { w with tty := rest, sched := s, out := o }) ∧
      (w.sched = [] → ¬ ∃ x r, FirstConfirmed entries x r))
  | [], w, hw => by
    right
    exact ⟨[], w.sched, w.out, List.suffix_refl _, List.suffix_refl _, by cases w; cases hw; rfl, fun _ => by rintro ⟨x, r, h⟩; cases h⟩
  | [a], w, hw => by
    right
    unfold confirmLoop
    rcases sysRetry_cases w with ⟨s, hs, he⟩ | ⟨s, e, hs, hn, he⟩
    · rw [Prog.bind_ok (Prog.mapErr_ok he)]
      exact ⟨[], s, _, List.nil_suffix, hs, rfl, fun _ => by rintro ⟨x, r, h⟩; cases h⟩
    · rw [Prog.bind_err (Prog.mapErr_err he)]
      exact ⟨[a], s, w.out, List.suffix_refl _, hs, by rw [← hw], fun h => absurd h hn⟩
  | a :: b :: more, w, hw => by
    rw [confirmLoop]
    rcases sysRetry_cases w with ⟨s, hs, he⟩ | ⟨s, e, hs, hn, he⟩
    · rw [Prog.bind_ok (Prog.mapErr_ok he)]
      rw [Prog.bind_ok (show setTty (ε := Error) (b :: more) { w with sched := s } = (.ok (), { w with sched := s, tty := b :: more }) from rfl)]
      rcases sysRetry_cases ({ w with sched := s, tty := b :: more } : World) with ⟨s2, hs2, he2⟩ | ⟨s2, e2, hs2, hn2, he2⟩
      · rw [Prog.bind_ok (Prog.mapErr_ok he2)]
        rw [Prog.bind_ok (show setTty (ε := Error) more { w with sched := s2, tty := b :: more } = (.ok (), { w with sched := s2, tty := more }) from rfl)]
        by_cases hab : a = b ∧ a ≠ []
        · rw [if_pos hab]
          obtain ⟨rfl, hne⟩ := hab
          exact .inl ⟨a, more, s2, _, ⟨[a, a], rfl⟩, hs2.trans hs, rfl, .here hne⟩
        · rw [if_neg hab]
          have hab' : a ≠ b ∨ a = [] := by
            by_cases h1 : a = b
            · right; by_cases h2 : a = []
              · exact h2
              · exact absurd ⟨h1, h2⟩ hab
            · exact .inl h1
          rw [Prog.bind_ok (say_run _ _)]
          rcases confirmLoop_cases more (({ w with sched := s2, tty := more } : World).said _) rfl with ⟨x, rest, s3, o, h1, h2, h3, h4⟩ | ⟨rest, s3, o, h1, h2, h3, h4⟩
          · left
            exact ⟨x, rest, s3, o, h1.trans ⟨[a, b], rfl⟩, h2.trans (hs2.trans hs), h3, .later hab' h4⟩
          · right
            refine ⟨rest, s3, o, h1.trans ⟨[a, b], rfl⟩, h2.trans (hs2.trans hs), h3, fun hn => ?_⟩
            have := h4 (by
              have h5 : s2 <:+ [] := hn ▸ hs2.trans hs
              exact List.suffix_nil.1 h5)
            rintro ⟨x, r, h⟩
            cases h with
            | here hne => exact hab ⟨rfl, hne⟩
            | later _ hm => exact this ⟨x, r, hm⟩
      · rw [Prog.bind_err (Prog.mapErr_err he2)]
        right
        refine ⟨b :: more, s2, w.out, ⟨[a], rfl⟩, hs2.trans hs, rfl, fun hn => ?_⟩
        have h5 : s <:+ [] := hn ▸ hs
        exact absurd (List.suffix_nil.1 h5) hn2
    · rw [Prog.bind_err (Prog.mapErr_err he)]
      right
      exact ⟨a :: b :: more, s, w.out, List.suffix_refl _, hs, by rw [← hw], fun h => absurd h hn⟩

theorem directPassword_cases (entries : List Bytes) (w : World) (hw : w.tty = entries) :
    (∃ x rest s, entries = x :: rest ∧ s <:+ w.sched ∧ directPassword entries w = (.ok x, { w with tty := rest, sched := s })) ∨
    (∃ s, s <:+ w.sched ∧ directPassword entries w = (.err .readPassword, { w with sched := s }) ∧ (w.sched = [] → entries = [])) := by
  cases entries with
  | nil => right; exact ⟨w.sched, List.suffix_refl _, rfl, fun _ => rfl⟩
  | cons a rest =>
    rw [directPassword]
    rcases sysRetry_cases w with ⟨s, hs, he⟩ | ⟨s, e, hs, hn, he⟩
    · left
      rw [Prog.bind_ok (Prog.mapErr_ok he)]
      exact ⟨a, rest, s, rfl, hs, rfl⟩
    · right
      rw [Prog.bind_err (Prog.mapErr_err he)]
      exact ⟨s, hs, rfl, fun h => absurd h hn⟩

theorem looked_typed (n : Nat) (w : World) {l : List Bytes} {s : List Io} {o : List Printed} (h1 : l <:+ w.tty) (h2 : s <:+ w.sched) :
    Looked n w { w with tty := l, sched := s, out := o } :=
  ⟨rfl, rfl, fun _ _ => rfl, Nat.le_refl _, rfl, rfl, List.suffix_refl _, h1, h2⟩

theorem getPassword_looks (n : Nat) (state : PasswordState) : Looks n (fun _ => True) (getPassword state) := by
  intro w _
  refine ⟨?_, fun _ _ _ => trivial⟩
  unfold getPassword
  cases state with
  | direct =>
    rcases directPassword_cases w.tty w rfl with ⟨x, rest, s, h1, h2, h3⟩ | ⟨s, h2, h3, _⟩
    · simp only [h3]; exact looked_typed n w ⟨[x], by rw [h1]; rfl⟩ h2
    · simp only [h3]; exact .of_sched n w h2
  | validate =>
    rcases confirmLoop_cases w.tty w rfl with ⟨x, rest, s, o, h1, h2, h3, _⟩ | ⟨rest, s, o, h1, h2, h3, _⟩ <;>
      simp only [h3] <;> exact looked_typed n w h1 h2

/-! ### Sources -/

theorem readStdin_cases (w : World) :
    (∃ s, s <:+ w.sched ∧ readStdin w = (.ok (stdinBytes w.stdin), { w with stdin := [], sched := s })) ∨
    (∃ e s, s <:+ w.sched ∧ w.sched ≠ [] ∧ readStdin w = (.err e, { w with sched := s })) := by
  unfold readStdin
  rcases sysRetry_cases w with ⟨s, hs, he⟩ | ⟨s, e, hs, hn, he⟩
  · left
    rw [Prog.bind_ok (Prog.mapErr_ok he)]
    exact ⟨s, hs, rfl⟩
  · right
    rw [Prog.bind_err (Prog.mapErr_err he)]
    exact ⟨_, s, hs, hn, rfl⟩

theorem readStdin_looks (n : Nat) : Looks n (fun _ => True) readStdin := by
  intro w _
  refine ⟨?_, fun _ _ _ => trivial⟩
  rcases readStdin_cases w with ⟨s, hs, he⟩ | ⟨e, s, hs, _, he⟩ <;> rw [he]
  · exact looked_answered n w List.nil_suffix hs
  · exact .of_sched n w hs

theorem readKeyfile_looks (n : Nat) (p : PathBuf) : Looks n (fun _ => True) (readKeyfile p) := by
  unfold readKeyfile
  refine .bind (.mapErr _ (.openFile p)) fun h hh => .bind (.mapErr _ (.within (R := [h]) (.readToEnd (by simp)) (.readToEnd h) (by simpa using hh))) fun b _ => ?_
  exact .ite (.throw _) (.pure trivial)

theorem openFile_any (p : PathBuf) (w : World) :
    (∃ q i s, s <:+ w.sched ∧ LeadsToFile w p q i ∧ openFile p w = (.ok w.nextFd, ({ w with sched := s } : World).opened i)) ∨
    (∃ e s, s <:+ w.sched ∧ openFile p w = (.err e, { w with sched := s }) ∧ (w.sched ≠ [] ∨ ¬ ∃ q i, LeadsToFile w p q i)) := by
  unfold openFile
  rcases sysRetry_cases w with ⟨s, hs, he⟩ | ⟨s, e, hs, hn, he⟩
  · rw [Prog.bind_ok he]
    unfold openAt
    rw [World.resolve_sched]
    cases hr : w.resolve p with
    | error e => exact .inr ⟨_, s, hs, rfl, .inr (by rintro ⟨q, i, h, _⟩; rw [hr] at h; cases h)⟩
    | ok q =>
      simp only [World.look_sched]
      have hno : (∀ i, w.look q ≠ some (.file i)) → ¬ ∃ q i, LeadsToFile w p q i := by
        rintro h ⟨q', i, h'⟩
        have := h'.resolve
        rw [hr] at this; cases this
        exact h i h'.look
      cases hl : w.look q with
      | none => exact .inr ⟨_, s, hs, rfl, .inr (hno (by rw [hl]; simp))⟩
      | some nd =>
        cases nd with
        | file i => exact .inl ⟨q, i, s, hs, ⟨hr, hl⟩, rfl⟩
        | dir => exact .inr ⟨_, s, hs, rfl, .inr (hno (by rw [hl]; simp))⟩
  · rw [Prog.bind_err he]
    exact .inr ⟨_, s, hs, rfl, .inl hn⟩

theorem opened_fd (w : World) (i : Nat) : (w.opened i).fd w.nextFd = { ino := i, pos := 0 } := by
  unfold World.opened
  simp

theorem opened_rest (w : World) (i : Nat) : (w.opened i).rest w.nextFd = w.file i := by
  simp only [World.rest, World.data, opened_fd, List.drop_zero]
  rfl

/-- What a key file supplies is its content. -/
theorem readKeyfile_ok {p : PathBuf} {w w' : World} {x : Bytes} (h : readKeyfile p w = (.ok x, w')) :
    x ≠ [] ∧ ∃ q i, LeadsToFile w p q i ∧ w.file i = x := by
  unfold readKeyfile at h
  rcases openFile_any p w with ⟨q, i, s, hs, hl, he⟩ | ⟨e, s, hs, he, _⟩
  · rw [Prog.bind_ok (Prog.mapErr_ok he)] at h
    have hrest : (({ w with sched := s } : World).opened i).rest w.nextFd = w.file i := opened_rest { w with sched := s } i
    rcases readUpTo_spec w.nextFd (((({ w with sched := s } : World).opened i).rest w.nextFd).length + 1) (({ w with sched := s } : World).opened i) with
      ⟨s', e1⟩ | ⟨k, s', _, e1⟩
    · rw [List.take_of_length_le (by omega)] at e1
      rw [Prog.bind_ok (Prog.mapErr_ok (show readToEnd w.nextFd _ = _ from e1)), hrest] at h
      split at h
      · cases h
      · cases h; exact ⟨‹_›, q, i, hl, rfl⟩
    · rw [Prog.bind_err (Prog.mapErr_err (show readToEnd w.nextFd _ = _ from e1))] at h
      cases h
  · rw [Prog.bind_err (Prog.mapErr_err he)] at h
    cases h

theorem genRangeIncl_looks {ε : Type} (n m : Nat) : Looks n (fun _ => True) (genRangeIncl m : Prog ε Nat) := by
  intro w _
  refine ⟨?_, fun _ _ _ => trivial⟩
  exact ⟨rfl, rfl, fun _ _ => rfl, Nat.le_refl _, rfl, rfl, List.suffix_refl _, List.suffix_refl _, List.suffix_refl _⟩

theorem passphraseLoop_looks {ε : Type} (n : Nat) (words : List (List Char)) : ∀ (k : Nat) (acc : List Char), Looks n (fun _ => True) (passphraseLoop words k acc : Prog ε (List Char))
  | 0, _ => .pure trivial
  | k + 1, acc => by
    unfold passphraseLoop
    refine .bind (genRangeIncl_looks n _) fun i _ => ?_
    split
    · exact .panic
    · exact passphraseLoop_looks n words k _

theorem fetch_looks (n : Nat) (words : List (List Char)) (cwd : Path) (state : PasswordState) (key : Key) : Looks n (fun _ => True) (fetch words cwd state key) := by
  cases key with
  | keyfile path =>
    exact .ite (.bind (readStdin_looks n) fun b _ => .ite (.throw _) (.pure trivial)) (readKeyfile_looks n _)
  | env =>
    intro w _
    refine ⟨?_, fun _ _ _ => trivial⟩
    show Looked n w (readEnv w).2
    unfold readEnv
    split <;> exact .refl _ _
  | generate i => exact .bind (passphraseLoop_looks n words _ _) fun p _ => .bind (say_looks n _) fun _ _ => .pure trivial
  | user => exact getPassword_looks n state

theorem getSecret_looks (n : Nat) (words : List (List Char)) (cwd : Path) (key : Key) (state : PasswordState) : Looks n (fun _ => True) (getSecret words cwd key state) :=
  .bind (fetch_looks n words cwd state key) fun b _ => .ite (.throw _) (.pure trivial)

theorem fetch_ok {words : List (List Char)} {cwd : Path} {state : PasswordState} {key : Key} {w w' : World} {x : Bytes}
    (h : fetch words cwd state key w = (.ok x, w')) : Supplies words cwd state key w x := by
  cases key with
  | keyfile path =>
    unfold Supplies
    simp only
    rw [fetch] at h
    split at h
    · rw [if_pos ‹_›]
      rcases readStdin_cases w with ⟨s, hs, he⟩ | ⟨e, s, hs, _, he⟩
      · rw [Prog.bind_ok he] at h
        split at h
        · cases h
        · cases h; rfl
      · rw [Prog.bind_err he] at h; cases h
    · rw [if_neg ‹_›]
      exact (readKeyfile_ok h).2
  | env =>
    change readEnv w = _ at h
    unfold readEnv at h
    show w.env = some x
    cases he : w.env with
    | none => rw [he] at h; cases h
    | some v => rw [he] at h; cases h; rfl
  | generate i =>
    rw [fetch] at h
    by_cases hc : ∀ j : Nat, (j : Int) < i → supplied w j % (words.length + 1) ≠ words.length
    · obtain ⟨chosen, w1, he, hl, hch⟩ := Props.C51_passphrase_partial (ε := Error) words i w hc
      rw [Prog.bind_ok he] at h
      cases h
      exact ⟨chosen, hl, fun j hj => (hch j hj).1, rfl⟩
    · have hex : ∃ j : Nat, (j : Int) < i ∧ supplied w j % (words.length + 1) = words.length := by
        simpa using hc
      have hp := (Props.C51_panics (ε := Error) words i).1 w hex
      rw [Prog.bind_run] at h
      rcases hg : (generatePassphrase words i : Prog Error (List Char)) w with ⟨r, w1⟩
      rw [hg] at h hp
      simp only at hp
      subst hp
      cases h
  | user =>
    change getPassword state w = _ at h
    unfold getPassword at h
    cases state with
    | direct =>
      rcases directPassword_cases w.tty w rfl with ⟨y, rest, s, h1, h2, h3⟩ | ⟨s, h2, h3, _⟩
      · simp only [h3] at h
        cases h
        exact ⟨rest, h1⟩
      · simp only [h3] at h
        cases h
    | validate =>
      rcases confirmLoop_cases w.tty w rfl with ⟨y, rest, s, o, h1, h2, h3, h4⟩ | ⟨rest, s, o, h1, h2, h3, _⟩
      · simp only [h3] at h
        cases h
        exact ⟨rest, h4⟩
      · simp only [h3] at h
        cases h

theorem getSecret_ok {words : List (List Char)} {cwd : Path} {state : PasswordState} {key : Key} {w w' : World} {x : Bytes}
    (h : getSecret words cwd key state w = (.ok x, w')) : x ≠ [] ∧ Supplies words cwd state key w x := by
  unfold getSecret at h
  rw [Prog.bind_run] at h
  rcases hf : fetch words cwd state key w with ⟨r, w1⟩
  rw [hf] at h
  cases r with
  | ok y =>
    simp only at h
    split at h
    · cases h
    · cases h; exact ⟨‹_›, fetch_ok hf⟩
  | err e => cases h
  | abort a => cases h

end Volaris.Cli
