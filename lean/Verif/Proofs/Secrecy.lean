import Verif.Proofs.BothLine
import Verif.Proofs.History
/-!
# Lemmas for C84–C86
-/
namespace Volaris.Cli
open Volaris.Spec
variable {σ : Type}

theorem twin_id (g : Nat → Bytes) (w : World) : twin id g w = withFiles g w := by
  unfold twin withFiles
  simp

open Classical in
/-- How the contents differ. -/
noncomputable def differing (d : Differ) (w : World) (g : Nat → Bytes) (j : Nat) : Differ := if g j = w.file j then .no else d

open Classical in
/-- How they may differ at a place. -/
noncomputable def publicAt (d : Differ) (P : Path → Prop) (q : Path) : Differ := if P q then .no else d

theorem differing_same {d : Differ} {w : World} {g : Nat → Bytes} {j : Nat} (h : g j = w.file j) : differing d w g j = .no := if_pos h
theorem publicAt_no {d : Differ} {P : Path → Prop} {q : Path} (h : P q) : (publicAt d P q).within .no := by unfold publicAt; rw [if_pos h]; trivial
theorem publicAt_content {P : Path → Prop} {q : Path} : (publicAt .content P q).within .content := by unfold publicAt; split <;> trivial

theorem alike_start {d : Differ} {f : Bytes → Bytes} {w : World} {g : Nat → Bytes} {P : Path → Prop} (hd : ∀ j, d.allows (w.file j) (g j)) (hn : ∀ j, w.nextIno ≤ j → g j = w.file j) (hP : ∀ q, P q → SameAt w g q) :
    Alike (differing d w g) (publicAt d P) f w (twin f g w) where
  twin := ⟨g, rfl, fun j => by
    unfold differing
    split
    · next h => exact h.symm
    · exact hd j⟩
  seen := fun q i hq => by
    unfold differing publicAt
    by_cases h : g i = w.file i
    · rw [if_pos h]; split <;> cases d <;> trivial
    · rw [if_neg h, if_neg fun hp => h (hP q hp i hq)]; cases d <;> trivial
  fresh := fun i hi => differing_same (hn i hi)

theorem _root_.Volaris.Spec.SameLengths.content {w : World} {g : Nat → Bytes} (h : SameLengths w g) : ∀ j, Differ.content.allows (w.file j) (g j) := fun j => (h.lengths j).symm

/-- The effect of a call on both disks. -/
theorem sameBut_effect {w : World} {g : Nat → Bytes} {d d' : Disk} (h : SameBut w g d d') (e : Ev) : SameBut w g (effect e d) (effect e d') := by
  obtain ⟨h1, h2, h3⟩ := h
  cases e with
  | write i off bs => exact ⟨h1, h2, fun j hj => by simp only [effect]; rw [h3 j hj]⟩
  | truncate i => exact ⟨h1, h2, fun j hj => by simp only [effect]; rw [h3 j hj]⟩
  | create p => exact ⟨by simp only [effect]; rw [h1, h2], by simp only [effect]; rw [h2], fun j hj => by simp only [effect]; rw [h2, h3 j hj]⟩
  | mkdir p => exact ⟨by simp only [effect]; rw [h1], h2, h3⟩
  | unlink p => exact ⟨by simp only [effect]; rw [h1], h2, h3⟩

theorem sameBut_moment {w : World} {g : Nat → Bytes} : ∀ {es : List Ev} {d d' u : Disk}, SameBut w g d d' → Moment es d u → ∃ u', Moment es d' u' ∧ SameBut w g u u'
  | [], d, d', u, h, hm => ⟨d', rfl, by cases hm; exact h⟩
  | e :: es, d, d', u, h, hm => by
    rcases hm with rfl | ht | hm
    · exact ⟨d', .inl rfl, h⟩
    · cases e with
      | write i off bs =>
        obtain ⟨k, rfl⟩ := ht
        exact ⟨_, .inr (.inl ⟨k, rfl⟩), sameBut_effect h _⟩
      | truncate i => exact ht.elim
      | create p => exact ht.elim
      | mkdir p => exact ht.elim
      | unlink p => exact ht.elim
    · obtain ⟨u', hu, hs⟩ := sameBut_moment (sameBut_effect h e) hm
      exact ⟨u', .inr (.inr hu), hs⟩

theorem sameBut_effects {w : World} {g : Nat → Bytes} : ∀ (es : List Ev) {d d' : Disk}, SameBut w g d d' → SameBut w g (effects es d) (effects es d')
  | [], _, _, h => h
  | e :: es, _, _, h => sameBut_effects es (sameBut_effect h e)

/-- What looks the same looks the same at every moment. -/
theorem sameDisks_of_looksSame {ε α : Type} {x : Prog ε α} (hx : Crashes x) {f : Bytes → Bytes} {w : World} {g : Nat → Bytes} (h : LooksSame x w (twin f g w)) : SameDisks x w (twin f g w) g := by
  have base : SameBut w g w.disk (twin f g w).disk := ⟨rfl, rfl, fun j hj => hj⟩
  constructor
  · obtain ⟨es, he, hd, _⟩ := (hx w).log
    obtain ⟨es', he', hd', _⟩ := (hx (twin f g w)).log
    have : es' = es := by
      have := (h.2.1 es).2 he
      unfold Calls at this he'
      rw [this] at he'
      exact (List.reverse_inj.1 (List.append_cancel_right he')).symm
    subst this
    rw [hd, hd']
    exact sameBut_effects _ base
  · rintro u ⟨es, hc, hm⟩
    obtain ⟨d, hd, hs⟩ := sameBut_moment base hm
    exact ⟨{ w with file := d.file, nextIno := d.nextIno, dir := d.dir }, ⟨es, (h.2.1 es).2 hc, hd⟩, hs⟩

theorem keyPlace {d : Differ} {P : Path → Prop} {cwd : Path} {key : Key} (h : ∀ path, key = .keyfile path → path ≠ ['-'] → P (onPaper (toPath cwd path))) : KeyPlace (publicAt d P) cwd .no key := by
  cases key with
  | keyfile path =>
    by_cases hd : path = ['-']
    · exact .inl hd
    · exact .inr (publicAt_no (h path rfl hd))
  | env => trivial
  | generate n => trivial
  | user => trivial

theorem keyPlace_content {P : Path → Prop} {cwd : Path} {key : Key} : KeyPlace (publicAt .content P) cwd .content key := by
  cases key with
  | keyfile path => exact .inr publicAt_content
  | env => trivial
  | generate n => trivial
  | user => trivial

theorem usesPassword_crashes {s : Sys σ} {cmd : Prog Error Unit} {reads : List (List Char)} {keys : List Key} (h : UsesPassword s cmd reads keys) : Crashes cmd := by
  cases h with
  | encrypt => exact encryptMode_crashes _ _ _ _ _
  | decrypt => exact decryptMode_crashes _ _ _ _
  | pack => exact packMode_crashes _ _ _ _ _ _
  | keyAdd => exact keyAdd_crashes _ _ _
  | keyChange => exact keyChange_crashes _ _ _
  | keyDelete => exact keyDelete_crashes _ _ _
  | keyVerify => exact keyVerify_crashes _ _ _

theorem usesPassword_both {s : Sys σ} {cmd : Prog Error Unit} {reads : List (List Char)} {keys : List Key} (h : UsesPassword s cmd reads keys) {K : Nat → Differ} {P : Path → Prop} {f : Bytes → Bytes} {d : Differ}
    (hK : Covers s.C f d) (hr : ∀ r ∈ reads, ∀ q, onPaper (toPath s.cwd r) <+: q → P q) (hk : ∀ key ∈ keys, KeyPlace (publicAt .content P) s.cwd d key) {w v : World} (hR : Alike K (publicAt .content P) f w v) :
    Both K (publicAt .content P) f (fun _ _ _ => True) cmd cmd w v := by
  have at' : ∀ r ∈ reads, (publicAt .content P (onPaper (toPath s.cwd r))).within .no := fun r h => publicAt_no (hr r h _ (List.prefix_refl _))
  have un : ∀ p, Under (publicAt .content P) .content p := fun _ _ _ => publicAt_content
  cases h with
  | encrypt input output params a => exact both_encryptMode s (d := .no) trivial (sameText_no _) hK a (at' _ (by simp)) (hk _ (by simp)) (fun h => at' _ (by simp [hashed, h])) (un _) hR
  | decrypt input output params =>
    exact both_decryptMode s hK output (at' _ (by simp)) (fun p e => at' _ (by simp [e])) (hk _ (by simp)) (un _) hR
  | pack inputs output pp params a => exact both_packMode s hK pp a (fun x hx q hq => publicAt_no (hr x (by simp [hx]) q hq)) (hk _ (by simp)) (fun h => at' _ (by simp [hashed, h])) hR
  | keyAdd input params => exact both_keyAddCmd s hK (at' _ (by simp)) (hk _ (by simp)) (hk _ (by simp)) hR
  | keyChange input params => exact both_keyChangeCmd s hK (at' _ (by simp)) (hk _ (by simp)) (hk _ (by simp)) hR
  | keyDelete input key => exact both_keyDeleteCmd s hK (at' _ (by simp)) (hk _ (by simp)) hR
  | keyVerify input key => exact both_keyVerifyCmd s hK (at' _ (by simp)) (hk _ (by simp)) hR

end Volaris.Cli
