import Verif.Proofs.Session
import Verif.Spec.PowerLoss
/-!
# Lemmas about losing power
-/
namespace Volaris
open Volaris.Spec

theorem writeAt_eq_nil {d : Bytes} {off : Nat} {bs : Bytes} (h : writeAt d off bs = []) : d = [] := by
  unfold writeAt at h
  split at h
  · exact h
  · simp only [List.append_eq_nil_iff] at h
    exact absurd h.1.2 (by assumption)

/-- All the written bytes lost. -/
def dry : List Ev → Disk → Disk
  | [], d => d
  | .write _ _ _ :: es, d => dry es d
  | e :: es, d => dry es (effect e d)

theorem dry_fails (es : List Ev) : ∀ d, PowerFails es d (dry es d) := by
  induction es with
  | nil => intro d; exact .off
  | cons e es ih =>
    intro d
    cases e with
    | write i off bs => exact .lost (ih d)
    | _ => exact .kept (ih _)

/-- The dry disk and the full one. -/
theorem dry_full (es : List Ev) : ∀ (d f : Disk) (g : Nat → Bytes) (n : Nat), d.dir = f.dir → d.nextIno = f.nextIno → n ≤ d.nextIno → (∀ j, f.file j = [] → d.file j = []) →
    (∀ j, d.file j = g j ∨ d.file j = []) → (∀ j, n ≤ j → j < d.nextIno → d.file j = []) →
    (dry es d).dir = (effects es f).dir ∧ (dry es d).nextIno = (effects es f).nextIno ∧ (∀ j, (effects es f).file j = [] → (dry es d).file j = []) ∧
      (∀ j, (dry es d).file j = g j ∨ (dry es d).file j = []) ∧ ∀ j, n ≤ j → j < (dry es d).nextIno → (dry es d).file j = [] := by
  induction es with
  | nil => intro d f g n h1 h2 h3 h4 h5 h6; exact ⟨h1, h2, h4, h5, h6⟩
  | cons e es ih =>
    intro d f g n h1 h2 h3 h4 h5 h6
    cases e with
    | write i off bs =>
      refine ih d (effect (.write i off bs) f) g n h1 h2 h3 (fun j hj => h4 j ?_) h5 h6
      simp only [effect] at hj
      split at hj
      · exact writeAt_eq_nil hj
      · exact hj
    | truncate i =>
      refine ih _ (effect (.truncate i) f) g n h1 h2 h3 (fun j hj => ?_) (fun j => ?_) (fun j hj hj' => ?_)
      · simp only [effect] at hj ⊢
        split at hj
        · rw [if_pos (by assumption)]
        · rw [if_neg (by assumption)]; exact h4 j hj
      · simp only [effect]
        split
        · exact .inr rfl
        · exact h5 j
      · simp only [effect]
        split
        · rfl
        · exact h6 j hj hj'
    | create p =>
      refine ih _ (effect (.create p) f) g n (by simp only [effect]; rw [h1, h2]) (by simp only [effect]; rw [h2]) (by simp only [effect]; omega) (fun j hj => ?_) (fun j => ?_) (fun j hj hj' => ?_)
      · simp only [effect] at hj ⊢
        rw [← h2] at hj
        split at hj
        · rw [if_pos (by assumption)]
        · rw [if_neg (by assumption)]; exact h4 j hj
      · simp only [effect]
        split
        · exact .inr rfl
        · exact h5 j
      · simp only [effect] at hj' ⊢
        split
        · rfl
        · exact h6 j hj (by omega)
    | mkdir p => exact ih _ (effect (.mkdir p) f) g n (by simp only [effect]; rw [h1]) h2 h3 h4 h5 h6
    | unlink p => exact ih _ (effect (.unlink p) f) g n (by simp only [effect]; rw [h1]) h2 h3 h4 h5 h6

/-- After any run, the power may fail in such a way that all names are as the run has left them, but all that was written is lost. -/
theorem power_dry {ε α : Type} {x : Prog ε α} {w : World} (hx : ∃ es, Calls x w es ∧ (x w).2.disk = effects es w.disk) (hw : Allocated w) :
    ∃ v, AfterPowerLoss x w v ∧ (∀ q, v.look q = (x w).2.look q) ∧ (∀ j, (x w).2.file j = [] → v.file j = []) ∧ NothingNew w v := by
  obtain ⟨es, h1, h2⟩ := hx
  obtain ⟨g1, g2, g3, g4, g5⟩ := dry_full es w.disk w.disk w.file w.nextIno rfl rfl (Nat.le_refl _) (fun _ h => h) (fun _ => .inl rfl) (fun j hj hj' => absurd hj' (Nat.not_lt.2 hj))
  let v : World := { w with file := (dry es w.disk).file, nextIno := (dry es w.disk).nextIno, dir := (dry es w.disk).dir }
  have hl : ∀ q, v.look q = (x w).2.look q := fun q => World.look_congr (by
    show (dry es w.disk).dir = _
    rw [g1, ← h2]; rfl) q
  have hf : ∀ j, (x w).2.file j = [] → v.file j = [] := fun j hj => g3 j (by rw [← h2]; exact hj)
  have hal : Allocated (x w).2 := by
    have := Cli.effects_allocated es w.disk hw
    rw [← h2] at this
    exact this
  refine ⟨v, ⟨es, h1, dry_fails es _⟩, hl, hf, fun j _ => g4 j, fun q j hq hj => g5 j hj ?_⟩
  rw [hl] at hq
  have := hal q j hq
  rw [g2, ← h2]
  exact this

/-- The names after a power failure are those at some moment, and so is a file that is the same at every moment. -/
theorem power_moment {es : List Ev} {d d' : Disk} (h : PowerFails es d d') : ∀ (f : Disk), d.dir = f.dir → d.nextIno = f.nextIno →
    (∃ m, Moment es f m ∧ d'.dir = m.dir ∧ d'.nextIno = m.nextIno) ∧ ∀ i c, i < d.nextIno → d.file i = c → (∀ m, Moment es f m → m.file i = c) → d'.file i = c := by
  induction h with
  | off => intro f h1 h2; exact ⟨⟨f, Moment.start _ _, h1, h2⟩, fun i c _ hc _ => hc⟩
  | @kept e es d d' _ ih =>
    intro f h1 h2
    have hd : (effect e d).dir = (effect e f).dir ∧ (effect e d).nextIno = (effect e f).nextIno ∧ d.nextIno ≤ (effect e d).nextIno := by
      cases e <;> simp only [effect] <;> simp [h1, h2]
    obtain ⟨⟨m, hm, hm'⟩, h3⟩ := ih _ hd.1 hd.2.1
    refine ⟨⟨m, .inr (.inr hm), hm'⟩, fun i c hi hc hall => h3 i c (Nat.lt_of_lt_of_le hi hd.2.2) ?_ fun m hm => hall m (.inr (.inr hm))⟩
    have hf : f.file i = c := hall f (Moment.start _ _)
    have he : (effect e f).file i = c := hall _ (.inr (.inr (Moment.start _ _)))
    rw [← he]
    cases e <;> simp only [effect, hf, hc, h2]
  | @lost i off bs es d d' _ ih =>
    intro f h1 h2
    obtain ⟨⟨m, hm, hm'⟩, h3⟩ := ih (effect (.write i off bs) f) h1 h2
    exact ⟨⟨m, .inr (.inr hm), hm'⟩, fun i c hi hc hall => h3 i c hi hc fun m hm => hall m (.inr (.inr hm))⟩
  | @part i off bs es d d' k _ ih =>
    intro f h1 h2
    obtain ⟨⟨m, hm, hm'⟩, h3⟩ := ih (effect (.write i off bs) f) h1 h2
    refine ⟨⟨m, .inr (.inr hm), hm'⟩, fun j c hj hc hall => h3 j c hj ?_ fun m hm => hall m (.inr (.inr hm))⟩
    have hf : f.file j = c := hall f (Moment.start _ _)
    have he : (effect (.write i off (bs.take k)) f).file j = c := hall _ (.inr (.inl ⟨k, rfl⟩))
    rw [← he]
    simp only [effect, hf, hc]

/-- The same for runs: if something that depends on the names and on the content of certain files is so at every moment, it is so after a power failure. -/
theorem power_keeps {ε α : Type} {x : Prog ε α} {w v : World} (h : AfterPowerLoss x w v) :
    (∃ u, StoppedAt x w u ∧ v.dir = u.dir) ∧
    ∀ i, i < w.nextIno → (∀ u, StoppedAt x w u → u.file i = w.file i) → v.file i = w.file i := by
  obtain ⟨es, hc, hp⟩ := h
  obtain ⟨⟨m, hm, hd, _⟩, h2⟩ := power_moment hp w.disk rfl rfl
  refine ⟨⟨{ w with file := m.file, nextIno := m.nextIno, dir := m.dir }, ⟨es, hc, hm⟩, hd⟩, fun i hi hall => h2 i _ hi rfl fun m hm => ?_⟩
  exact hall { w with file := m.file, nextIno := m.nextIno, dir := m.dir } ⟨es, hc, hm⟩

end Volaris
