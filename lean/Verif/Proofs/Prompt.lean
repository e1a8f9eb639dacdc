import Verif.Spec.Cli
import Verif.Proofs.Fs
import Verif.Proofs.Shrinks
/-!
# Prompts and secrets
-/
namespace Volaris.Cli
open Volaris.Spec

theorem toLower_eq_iff (c : Char) : (c.toLower = 'y' ↔ c = 'y' ∨ c = 'Y') ∧ (c.toLower = 'n' ↔ c = 'n' ∨ c = 'N') ∧
    (c.toLower = '\n' ↔ c = '\n') ∧ (c.toLower = '\r' ↔ c = '\r') := by
  by_cases h : c.toNat < 128
  · have : ∀ n : Fin 128, ((Char.ofNat n).toLower = 'y' ↔ Char.ofNat n = 'y' ∨ Char.ofNat n = 'Y') ∧
        ((Char.ofNat n).toLower = 'n' ↔ Char.ofNat n = 'n' ∨ Char.ofNat n = 'N') ∧
        ((Char.ofNat n).toLower = '\n' ↔ Char.ofNat n = '\n') ∧ ((Char.ofNat n).toLower = '\r' ↔ Char.ofNat n = '\r') := by decide +kernel
    have := this ⟨c.toNat, h⟩
    simpa using this
  · have hl : c.toLower = c := by
      unfold Char.toLower
      simp only [Char.toNat] at h
      rw [dif_neg]
      intro hc
      have h2 := UInt32.le_iff_toNat_le.1 hc.2
      have : 'Z'.val.toNat = 90 := rfl
      omega
    have hne : ∀ d : Char, d.toNat < 128 → c ≠ d := by rintro d hd rfl; exact h hd
    rw [hl]
    simp [hne 'Y' (by decide), hne 'N' (by decide)]

theorem meaning_some {d : Bool} {c : Char} {cs : List Char} {l : String} {b : Bool} (hl : l.toList = c :: cs) (h : meaning d c = some b) : Says d l b := by
  obtain ⟨hy, hn, hb, hr⟩ := toLower_eq_iff c
  unfold meaning at h
  simp only [hy, hn, hb, hr] at h
  split at h
  · cases h; exact .inr (.inr ⟨⟨c, cs, hl, ‹_›⟩, rfl⟩)
  · split at h
    · cases h; exact .inl ⟨⟨c, cs, hl, ‹_›⟩, rfl⟩
    · split at h
      · cases h; exact .inr (.inl ⟨⟨c, cs, hl, ‹_›⟩, rfl⟩)
      · cases h

theorem meaning_none {d : Bool} {c : Char} {cs : List Char} {l : String} (hl : l.toList = c :: cs) (h : meaning d c = none) : OtherLine l := by
  obtain ⟨hy, hn, hb, hr⟩ := toLower_eq_iff c
  unfold meaning at h
  simp only [hy, hn, hb, hr] at h
  refine ⟨c, cs, hl, ?_⟩
  split at h
  · cases h
  · split at h
    · cases h
    · split at h
      · cases h
      · simp_all

theorem says_meaning {d : Bool} {l : String} {b : Bool} (h : Says d l b) : ∃ c cs, l.toList = c :: cs ∧ meaning d c = some b := by
  rcases h with ⟨⟨c, cs, hl, hc⟩, rfl⟩ | ⟨⟨c, cs, hl, hc⟩, rfl⟩ | ⟨⟨c, cs, hl, hc⟩, rfl⟩ <;>
    exact ⟨c, cs, hl, by rcases hc with rfl | rfl <;> simp [meaning] <;> decide⟩

theorem other_meaning {l : String} (d : Bool) (h : OtherLine l) : ∃ c cs, l.toList = c :: cs ∧ meaning d c = none := by
  obtain ⟨c, cs, hl, hc⟩ := h
  refine ⟨c, cs, hl, ?_⟩
  obtain ⟨hy, hn, hb, hr⟩ := toLower_eq_iff c
  unfold meaning
  simp only [hy, hn, hb, hr]
  simp only [List.mem_cons, List.not_mem_nil, or_false, not_or] at hc
  simp [hc]

theorem answerLoop_cons (p : List Char) (d : Bool) (line : String) (lines : List String) : answerLoop p d (line :: lines) = (do
    say (questionText p d)
    sys.mapErr fun _ => Error.flushStdout
    sysRetry.mapErr fun _ => Error.readStdin
    setStdin lines
    match line.toList with
      | [] => Prog.throw .noFirstChar
      | c :: _ =>
          match meaning d c with
          | some b => pure b
          | none => do
              say unrecognised
              answerLoop p d lines) := rfl

/-- Something was printed. -/
def _root_.Volaris.World.said (w : World) (line : List Char) : World := { w with out := ⟨w.log.length, w.stdin.length, w.tty.length, line⟩ :: w.out }

theorem say_run {ε : Type} (line : List Char) (w : World) : (say line : Prog ε Unit) w = (.ok (), w.said line) := rfl

/-- The two system calls of a round of the loop. -/
theorem round_cases (w : World) {α : Type} (k : Prog Error α) :
    (∃ s, s <:+ w.sched ∧ ((do sys.mapErr (fun _ => Error.flushStdout); sysRetry.mapErr (fun _ => Error.readStdin); k) : Prog Error α) w = k { w with sched := s }) ∨
    (∃ s e, s <:+ w.sched ∧ w.sched ≠ [] ∧
      ((do sys.mapErr (fun _ => Error.flushStdout); sysRetry.mapErr (fun _ => Error.readStdin); k) : Prog Error α) w = (.err e, { w with sched := s })) := by
  rcases sys_cases w with ⟨s, hs, he⟩ | ⟨s, e, hs, hn, he⟩
  · rcases sysRetry_cases ({ w with sched := s } : World) with ⟨s2, hs2, he2⟩ | ⟨s2, e2, hs2, hn2, he2⟩
    · refine .inl ⟨s2, hs2.trans hs, ?_⟩
      rw [Prog.bind_ok (Prog.mapErr_ok he), Prog.bind_ok (Prog.mapErr_ok he2)]
    · refine .inr ⟨s2, .readStdin, hs2.trans hs, ?_, ?_⟩
      · intro h; rw [h] at hs; exact hn2 (List.suffix_nil.1 hs)
      · rw [Prog.bind_ok (Prog.mapErr_ok he), Prog.bind_err (Prog.mapErr_err he2)]
  · exact .inr ⟨s, _, hs, hn, Prog.bind_err (Prog.mapErr_err he)⟩

theorem exchange_succ (calls untyped : Nat) (q : List Char) (left k : Nat) :
    exchange calls untyped q (left + 1) (k + 1) = exchange calls untyped q left k ++ [⟨calls, left, untyped, unrecognised⟩, ⟨calls, left + 1, untyped, q⟩] := rfl

/-- The loop: what it returns is the first answer; only lines and schedule are consumed; it fails if a call fails, or when the lines end. -/
theorem answerLoop_cases (p : List Char) (d : Bool) : ∀ (lines : List String) (w : World), w.stdin = lines →
    (∃ b rest s, rest <:+ lines ∧ s <:+ w.sched ∧ answerLoop p d lines w = (.ok b, { answered w (questionText p d) rest with sched := s }) ∧ FirstAnswer d lines b rest) ∨
    (∃ e rest s o, rest <:+ lines ∧ s <:+ w.sched ∧ answerLoop p d lines w = (.err e, { w with stdin := rest, sched := s, out := o ++ w.out }) ∧
      (w.sched = [] → e = .noFirstChar ∧ ¬ ∃ b r, FirstAnswer d lines b r)) := by
  intro lines
  induction lines with
  | nil =>
    intro w hw
    right
    have hno : ¬ ∃ b r, FirstAnswer d [] b r := by rintro ⟨b, r, sk, l, h, _⟩; simp at h
    unfold answerLoop
    rw [Prog.bind_ok (say_run _ w)]
    rcases round_cases (w.said (questionText p d)) (Prog.throw .noFirstChar : Prog Error Bool) with ⟨s, hs, he⟩ | ⟨s, e, hs, hn, he⟩
    · exact ⟨_, [], s, [⟨w.log.length, w.stdin.length, w.tty.length, questionText p d⟩], List.suffix_refl _, hs, he.trans (by rw [← hw]; rfl), fun _ => ⟨rfl, hno⟩⟩
    · exact ⟨_, [], s, [⟨w.log.length, w.stdin.length, w.tty.length, questionText p d⟩], List.suffix_refl _, hs, he.trans (by rw [← hw]; rfl), fun h => absurd h hn⟩
  | cons l ls ih =>
    intro w hw
    rw [answerLoop_cons, Prog.bind_ok (say_run _ w)]
    rcases round_cases (w.said (questionText p d)) (do
        setStdin ls
        match l.toList with
          | [] => Prog.throw .noFirstChar
          | c :: _ =>
              match meaning d c with
              | some b => pure b
              | none => do
                  say unrecognised
                  answerLoop p d ls) with ⟨s, hs, he⟩ | ⟨s, e, hs, hn, he⟩
    · rw [he]
      rw [Prog.bind_ok (show setStdin (ε := Error) ls { w.said (questionText p d) with sched := s } = (.ok (), { w.said (questionText p d) with sched := s, stdin := ls }) from rfl)]
      cases hl : l.toList with
      | nil =>
        right
        refine ⟨_, ls, s, [⟨w.log.length, w.stdin.length, w.tty.length, questionText p d⟩], List.suffix_cons _ _, hs, rfl, fun _ => ⟨rfl, ?_⟩⟩
        rintro ⟨b, r, sk, l', h, hsk, hsay⟩
        cases sk with
        | nil =>
          rw [List.nil_append] at h; cases h
          obtain ⟨c, cs, hc, _⟩ := says_meaning hsay
          rw [hl] at hc; cases hc
        | cons x xs =>
          rw [List.cons_append] at h; cases h
          obtain ⟨c, cs, hc, _⟩ := hsk l (by simp)
          rw [hl] at hc; cases hc
      | cons c cs =>
        simp only
        cases hm : meaning d c with
        | some b =>
          left
          refine ⟨b, ls, s, List.suffix_cons _ _, hs, ?_, [], l, rfl, by simp, meaning_some hl hm⟩
          unfold answered
          rw [hw]
          have : (l :: ls).length - ls.length - 1 = 0 := by simp
          rw [this]
          show (Res.ok b, _) = _
          simp only [World.said, exchange, hw]; rfl
        | none =>
          simp only
          rw [Prog.bind_ok (say_run _ _)]
          rcases ih (World.said ({ w.said (questionText p d) with sched := s, stdin := ls } : World) unrecognised) rfl with ⟨b, rest, s2, hr, hs2, h2, sk, l', hsk, hoth, hsay⟩ | ⟨e, rest, s2, o, hr, hs2, h2, hno⟩
          · left
            refine ⟨b, rest, s2, hr.trans (List.suffix_cons _ _), hs2.trans hs, ?_, l :: sk, l', by rw [hsk]; rfl, ?_, hsay⟩
            · refine h2.trans ?_
              have hlen : ls.length = sk.length + 1 + rest.length := by rw [hsk, List.length_append, List.length_cons]; omega
              have e1 : w.stdin.length - rest.length - 1 = (ls.length - rest.length - 1) + 1 := by rw [hw, List.length_cons]; omega
              have e2 : w.stdin.length = ls.length + 1 := by rw [hw]; rfl
              have e3 : exchange w.log.length w.tty.length (questionText p d) w.stdin.length (w.stdin.length - rest.length - 1) ++ w.out =
                  exchange w.log.length w.tty.length (questionText p d) ls.length (ls.length - rest.length - 1) ++ ⟨w.log.length, ls.length, w.tty.length, unrecognised⟩ :: ⟨w.log.length, w.stdin.length, w.tty.length, questionText p d⟩ :: w.out := by
                rw [e1, e2, exchange_succ, List.append_assoc]; rfl
              unfold answered
              rw [e3]
              rfl
            · intro x hx
              rcases List.mem_cons.1 hx with rfl | hx
              · exact meaning_none hl hm
              · exact hoth x hx
          · right
            refine ⟨e, rest, s2, o ++ [⟨w.log.length, ls.length, w.tty.length, unrecognised⟩, ⟨w.log.length, w.stdin.length, w.tty.length, questionText p d⟩], hr.trans (List.suffix_cons _ _), hs2.trans hs, ?_, fun hn => ?_⟩
            · refine h2.trans ?_
              rw [List.append_assoc]
              rfl
            obtain ⟨he0, hno0⟩ := hno (by
              have : s <:+ [] := hn ▸ hs
              exact List.suffix_nil.1 this)
            refine ⟨he0, ?_⟩
            rintro ⟨b, r, sk, l', h, hsk, hsay⟩
            cases sk with
            | nil =>
              rw [List.nil_append] at h; cases h
              obtain ⟨c', cs', hc, hm'⟩ := says_meaning hsay
              rw [hl] at hc; cases hc
              rw [hm] at hm'; cases hm'
            | cons x xs =>
              rw [List.cons_append] at h; cases h
              exact hno0 ⟨b, r, xs, l', rfl, fun y hy => hsk y (by simp [hy]), hsay⟩
    · right
      exact ⟨e, l :: ls, s, [⟨w.log.length, w.stdin.length, w.tty.length, questionText p d⟩], List.suffix_refl _, hs, he.trans (by rw [← hw]; rfl), fun h => absurd h hn⟩

/-- The first answer is unique. -/
theorem firstAnswer_unique {d : Bool} : ∀ {lines : List String} {b b' : Bool} {r r' : List String}, FirstAnswer d lines b r → FirstAnswer d lines b' r' → b = b' ∧ r = r' := by
  intro lines
  induction lines with
  | nil => rintro b b' r r' ⟨sk, l, h, _⟩ _; simp at h
  | cons x xs ih =>
    rintro b b' r r' ⟨sk, l, h, hsk, hsay⟩ ⟨sk', l', h', hsk', hsay'⟩
    cases sk with
    | nil =>
      rw [List.nil_append] at h; cases h
      obtain ⟨c, cs, hc, hm⟩ := says_meaning hsay
      cases sk' with
      | nil =>
        rw [List.nil_append] at h'; cases h'
        obtain ⟨c', cs', hc', hm'⟩ := says_meaning hsay'
        rw [hc] at hc'; cases hc'
        rw [hm] at hm'; cases hm'
        exact ⟨rfl, rfl⟩
      | cons y ys =>
        rw [List.cons_append] at h'; cases h'
        obtain ⟨c', cs', hc', hm'⟩ := other_meaning d (hsk' x (by simp))
        rw [hc] at hc'; cases hc'
        rw [hm] at hm'; cases hm'
    | cons y ys =>
      rw [List.cons_append] at h; cases h
      obtain ⟨c, cs, hc, hm⟩ := other_meaning d (hsk x (by simp))
      cases sk' with
      | nil =>
        rw [List.nil_append] at h'; cases h'
        obtain ⟨c', cs', hc', hm'⟩ := says_meaning hsay'
        rw [hc] at hc'; cases hc'
        rw [hm] at hm'; cases hm'
      | cons z zs =>
        rw [List.cons_append] at h'
        have h2 := (List.cons.inj h').2
        exact ih ⟨ys, l, rfl, fun t ht => hsk t (by simp [ht]), hsay⟩ ⟨zs, l', h2, fun t ht => hsk' t (by simp [ht]), hsay'⟩

end Volaris.Cli
