import Verif.Spec.Announced
import Verif.Proofs.Printed
import Verif.Proofs.KeyCmd
/-!
# Lemmas for C89
-/
namespace Volaris.Cli
open Volaris.Spec
variable {σ : Type}

/-- Getting a key takes a password only if the key is one that is typed, and then only one. -/
theorem getSecret_tty (words : List (List Char)) (cwd : Path) (key : Key) (w : World) :
    (getSecret words cwd key .direct w).2.tty = w.tty ∨ (key = .user ∧ (getSecret words cwd key .direct w).2.tty = w.tty.drop 1) := by
  have hend : ∀ x : Bytes, Still ((if x = [] then Prog.throw .keyEmpty else pure x) : Prog Error Bytes) := fun x => .ite (.throw _) (.pure _)
  have key' : ∀ (x : Prog Error Bytes), ((x >>= fun y => if y = [] then Prog.throw .keyEmpty else pure y : Prog Error Bytes) w).2.tty = (x w).2.tty := by
    intro x
    rw [Prog.bind_run]
    rcases x w with ⟨y | e | a, w1⟩
    · show ((if y = [] then Prog.throw .keyEmpty else pure y : Prog Error Bytes) w1).2.tty = _
      split <;> rfl
    · rfl
    · rfl
  unfold getSecret
  rw [key']
  cases key with
  | keyfile path =>
    left
    rw [fetch]
    split
    · rcases readStdin_cases w with ⟨s, hs, he⟩ | ⟨e, s, hs, _, he⟩
      · rw [Prog.bind_ok he]; split <;> rfl
      · rw [Prog.bind_err he]
    · unfold readKeyfile
      rcases openFile_any (toPath cwd path) w with ⟨q, i, s, hs, hl, he⟩ | ⟨e, s, hs, he, _⟩
      · rw [Prog.bind_ok (Prog.mapErr_ok he)]
        rcases readUpTo_spec w.nextFd (((({ w with sched := s } : World).opened i).rest w.nextFd).length + 1) (({ w with sched := s } : World).opened i) with
          ⟨s', e1⟩ | ⟨k, s', _, e1⟩
        · rw [Prog.bind_ok (Prog.mapErr_ok (show readToEnd w.nextFd _ = _ from e1))]
          split <;> rfl
        · rw [Prog.bind_err (Prog.mapErr_err (show readToEnd w.nextFd _ = _ from e1))]
          rfl
      · rw [Prog.bind_err (Prog.mapErr_err he)]
  | env =>
    left
    show (readEnv w).2.tty = _
    unfold readEnv
    split <;> rfl
  | generate i =>
    left
    rw [fetch]
    obtain ⟨r, h2⟩ := passphraseLoop_same (ε := Error) words i.toNat [] w
    unfold generatePassphrase
    rcases hg : (passphraseLoop words i.toNat [] : Prog Error (List Char)) w with ⟨res, w1⟩
    rw [hg] at h2
    have h2 : w1 = { w with rng := r } := h2
    subst h2
    cases res with
    | ok y => rw [Prog.bind_ok hg]; rfl
    | err e => rw [Prog.bind_err hg]
    | abort a => rw [Prog.bind_run, hg]
  | user =>
    show (getPassword .direct w).2.tty = _ ∨ _ ∧ (getPassword .direct w).2.tty = _
    unfold getPassword
    rcases directPassword_cases w.tty w rfl with ⟨y, rest, s, h1, h2, h3⟩ | ⟨s, h2, h3, _⟩
    · right; simp only [h3]; rw [h1]; exact ⟨trivial, rfl⟩
    · left; simp only [h3]

theorem getSecret_log (words : List (List Char)) (cwd : Path) (key : Key) (w : World) : (getSecret words cwd key .direct w).2.log = w.log := by
  by_cases hk : ∀ n, key ≠ .generate n
  · exact (getSecret_still words cwd key hk w).1
  · obtain ⟨n, hn⟩ := Classical.not_forall.1 hk
    obtain rfl := Classical.not_not.1 hn
    exact (generate_cases words cwd n w).1

/-- The line before a typed key, then the rest of the command. -/
theorem announce_bind {key : Key} {line : String} {R : Prog Error Unit} (hR : Crashes R) (hk : key = .user) (w : World) :
    ∃ later, ((announce key line >>= fun _ => R) w).2.out = later ++ ⟨w.log.length, w.stdin.length, w.tty.length, line.toList⟩ :: w.out := by
  subst hk
  rw [Prog.bind_ok (show (announce .user line : Prog Error Unit) w = (.ok (), w.said line.toList) from rfl)]
  obtain ⟨later, h⟩ := (hR (w.said line.toList)).aside.2
  exact ⟨later, h.symm⟩

theorem announce_tty (key : Key) (line : String) (w : World) : ∃ o, announce key line w = (.ok (), { w with out := o ++ w.out }) := by
  unfold announce
  split
  · exact ⟨[_], rfl⟩
  · exact ⟨[], rfl⟩

/-- Opening the file, then the line, then the rest. -/
theorem first_announced (s : Sys σ) (input : List Char) {key : Key} {line : String} {R : Nat → Prog Error Unit} (hR : ∀ h, Crashes (R h)) (hk : key = .user) (w : World)
    (ht : ((openV5 s input >>= fun h => announce key line >>= fun _ => R h) w).2.tty ≠ w.tty) :
    SaidBefore line w.tty w ((openV5 s input >>= fun h => announce key line >>= fun _ => R h) w).2 := by
  have hs := openV5_still s input w
  rcases openV5_cases s input w with ⟨q, i, hd, aad, w1, h1, hS, -⟩ | ⟨e, w1, h1, hS, -⟩
  · rw [h1] at hs
    rw [Prog.bind_ok h1]
    obtain ⟨later, h2⟩ := announce_bind (line := line) (hR w.nextFd) hk w1
    refine ⟨w1.stdin.length, later, [], ?_⟩
    rw [h2, show w1.log = w.log from hs.1, hS.tty, show w1.out = w.out from hs.2.2, List.append_cons, List.append_assoc]
  · rw [Prog.bind_err h1] at ht
    exact absurd hS.tty ht

/-- The second line. -/
theorem second_announced (s : Sys σ) (input : List Char) {keyOld keyNew : Key} {line line2 : String} {R : Nat → Bytes → Prog Error Unit} (hR : ∀ h x, Crashes (R h x)) (hk : keyNew = .user) (w : World) :
    ((openV5 s input >>= fun h => announce keyOld line >>= fun _ => getSecret s.words s.cwd keyOld .direct >>= fun x => announce keyNew line2 >>= fun _ => R h x) w).2.tty = w.tty ∨
    (keyOld = .user ∧ ((openV5 s input >>= fun h => announce keyOld line >>= fun _ => getSecret s.words s.cwd keyOld .direct >>= fun x => announce keyNew line2 >>= fun _ => R h x) w).2.tty = w.tty.drop 1) ∨
    SaidBefore line2 (if keyOld = .user then w.tty.drop 1 else w.tty) w
      ((openV5 s input >>= fun h => announce keyOld line >>= fun _ => getSecret s.words s.cwd keyOld .direct >>= fun x => announce keyNew line2 >>= fun _ => R h x) w).2 := by
  have hs := openV5_still s input w
  rcases openV5_cases s input w with ⟨q, i, hd, aad, w1, h1, hS, -⟩ | ⟨e, w1, h1, hS, -⟩
  · rw [h1] at hs
    obtain ⟨o, h2⟩ := announce_tty keyOld line w1
    rw [Prog.bind_ok h1, Prog.bind_ok h2]
    have ht := getSecret_tty s.words s.cwd keyOld { w1 with out := o ++ w1.out }
    have hc := (getSecret_crashes s.words s.cwd keyOld .direct { w1 with out := o ++ w1.out }).aside.2
    have hl := getSecret_log s.words s.cwd keyOld { w1 with out := o ++ w1.out }
    rcases h3 : getSecret s.words s.cwd keyOld .direct { w1 with out := o ++ w1.out } with ⟨x | e | a, w3⟩
    · rw [h3] at hc hl
      rw [Prog.bind_ok h3]
      right; right
      obtain ⟨later, h4⟩ := announce_bind (line := line2) (hR w.nextFd x) hk w3
      obtain ⟨more, hc⟩ := hc
      have e3 : w3.tty = if keyOld = .user then w.tty.drop 1 else w.tty := by
        have := (getSecret_taken h3).tty
        have e : ({ w1 with out := o ++ w1.out } : World).tty = w.tty := hS.tty
        split
        · next hu => rw [if_pos hu, e] at this; rw [this]; rfl
        · next hu => rw [if_neg hu, e] at this; exact this
      refine ⟨w3.stdin.length, later, more ++ o, ?_⟩
      rw [h4, ← hc, e3, show w3.log = w.log from hl.trans hs.1]
      show _ ++ _ :: (more ++ (o ++ w1.out)) = _
      rw [show w1.out = w.out from hs.2.2]
      simp
    · rw [h3] at ht
      rw [Prog.bind_err h3]
      exact ht.elim (fun h => .inl (h.trans hS.tty)) fun h => .inr (.inl ⟨h.1, h.2.trans (by rw [show ({ w1 with out := o ++ w1.out } : World).tty = w.tty from hS.tty])⟩)
    · rw [h3] at ht
      rw [Prog.bind_abort h3]
      exact ht.elim (fun h => .inl (h.trans hS.tty)) fun h => .inr (.inl ⟨h.1, h.2.trans (by rw [show ({ w1 with out := o ++ w1.out } : World).tty = w.tty from hS.tty])⟩)
  · rw [Prog.bind_err h1]
    exact .inl hS.tty

/-- Nothing is printed. -/
def Wordless {ε α : Type} (x : Prog ε α) : Prop := ∀ w, (x w).2.out = w.out

theorem Wordless.bind {ε α β : Type} {x : Prog ε α} {f : α → Prog ε β} (hx : Wordless x) (hf : ∀ a, Wordless (f a)) : Wordless (x >>= f) := by
  intro w
  have h := hx w
  rw [Prog.bind_run]
  revert h
  rcases x w with ⟨a | e | a, w1⟩ <;> intro h
  · exact (hf a w1).trans h
  · exact h
  · exact h

theorem Wordless.mapErr {ε ε' α : Type} {x : Prog ε α} (f : ε → ε') (hx : Wordless x) : Wordless (x.mapErr f) := by
  intro w
  have h := hx w
  rw [Prog.mapErr_eq]
  exact h

theorem Still.wordless {ε α : Type} {x : Prog ε α} (h : Still x) : Wordless x := fun w => (h w).2.2

theorem within_wordless {ε α : Type} {R W : List Nat} {x : Prog ε α} (h : Within R W x) : Wordless x := fun w => (h w).out

theorem announce_wordless {key : Key} (h : key ≠ .user) (line : String) : Wordless (announce key line) := by
  unfold announce; rw [if_neg h]; exact fun _ => rfl

theorem getSecret_wordless (words : List (List Char)) (cwd : Path) {key : Key} (state : PasswordState) (hu : key ≠ .user) (hg : ∀ n, key ≠ .generate n) : Wordless (getSecret words cwd key state) := by
  have h := (getSecret_still words cwd key hg).wordless
  cases key with
  | user => exact absurd rfl hu
  | generate n => exact absurd rfl (hg n)
  | keyfile p => exact h
  | env => exact h

theorem verify_within (C : Crypto) (h : Nat) (pw : Bytes) : Within [] [h] (KeyOps.verify C h pw) := by
  unfold KeyOps.verify
  refine .bind (.mapErr _ (.deserialize (by simp))) fun a => .ite (.throw _) ?_
  split
  · exact .panic
  · exact .bind (.lift _) fun _ => .pure _

end Volaris.Cli
