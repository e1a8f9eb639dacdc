import Verif.Proofs.Commands
/-!
# The key commands
-/
namespace Volaris.KeyOps
open Volaris.Spec

theorem load_within (h : Nat) : Within [] [h] (load h) := by
  unfold load
  refine .bind (.mapErr _ (.deserialize (by simp))) fun a => .ite (.throw _) (.bind (.mapErr _ (.seekCur _ (by simp))) fun _ => ?_)
  split
  · exact .panic
  · exact .pure _

theorem store_within (h : Nat) (hd : Header) (ks : List Keyslot) : Within [] [h] (store h hd ks) :=
  .mapErr _ (.bind (.lift _) fun _ => .bind (.mapErr _ (.write _ (by simp))) fun _ => .pure _)

theorem add_within (C : Crypto) (req : NewKeyRequest) : Within [] [req.handle] (add C req) := by
  unfold add
  refine .bind (load_within _) fun a => .bind (.lift _) fun b => .ite (.throw _) ?_
  exact .bind (.genBytes _) fun _ => .bind (.genBytes _) fun _ => .bind (.lift _) fun _ => .bind (.lift _) fun _ => store_within _ _ _

theorem change_within (C : Crypto) (req : NewKeyRequest) : Within [] [req.handle] (change C req) := by
  unfold change
  refine .bind (load_within _) fun a => .bind (.lift _) fun b => ?_
  exact .bind (.genBytes _) fun _ => .bind (.lift _) fun _ => .bind (.genBytes _) fun _ => .bind (.lift _) fun _ => .ite (store_within _ _ _) .panic

theorem delete_within (C : Crypto) (h : Nat) (pw : Bytes) : Within [] [h] (delete C h pw) := by
  unfold delete
  exact .bind (load_within _) fun a => .bind (.lift _) fun b => .ite (store_within _ _ _) .panic

end Volaris.KeyOps

namespace Volaris.Cli
open Volaris.Spec
variable {σ : Type}

theorem wp_run {ε α : Type} {x : Prog ε α} {Q : Res ε α → World → Prop} {w w' : World} {r : Res ε α} (h : wp x Q w) (e : x w = (r, w')) : Q r w' := by
  unfold wp at h
  rw [e] at h
  exact h

theorem _root_.Volaris.Spec.OnlyEdits.of_same {p : PathBuf} {w w' : World} (hd : w'.dir = w.dir) (hf : w'.file = w.file) : OnlyEdits p w w' := ⟨hd, fun j _ => by rw [hf]⟩

/-- What a key operation on a handle guarantees. -/
structure Edits (op : Nat → Prog KeyOps.Error Unit) : Prop where
  within : ∀ h, Within [] [h] (op h)
  safe : ∀ h w, SafeRun w (op h w)

/-- The last stage of the key commands. -/
theorem edit_wp {op : Nat → Prog KeyOps.Error Unit} (hop : Edits op) {p : PathBuf} {q : Path} {i h : Nat} {w v : World} (hl : LeadsToFile w p q i)
    (hf : v.file = w.file) (hd : v.dir = w.dir) (hfd : v.fd h = { ino := i, pos := 0 }) :
    wp ((op h).mapErr Error.key) (fun r w' => OnlyEdits p w w' ∧ (r ≠ .ok () → w'.file = w.file) ∧ (r = .ok () → op h v = (.ok (), w'))) v := by
  unfold wp
  have ht := hop.within h v
  rcases hop.safe h v with ⟨a, w', he⟩ | ⟨e, w', he, h1, h2⟩
  · rw [Prog.mapErr_ok he]
    rw [he] at ht
    refine ⟨⟨ht.dir.trans hd, fun j hj => ?_⟩, fun hn => absurd rfl hn, fun _ => he⟩
    have hne : i ≠ j := by rintro rfl; exact hj q hl
    rw [ht.files j (by simp [hfd, hne]), hf]
  · rw [Prog.mapErr_err he]
    exact ⟨.of_same (h2.trans hd) (h1.trans hf), fun _ => h1.trans hf, fun hn => nomatch hn⟩

theorem announce_run (key : Key) (line : String) (w : World) : ∃ o, announce key line w = (.ok (), { w with out := o }) := by
  unfold announce
  split
  · exact ⟨_, rfl⟩
  · exact ⟨w.out, rfl⟩

theorem Same.printed (w : World) (o : List Printed) : Same w { w with out := o } := ⟨rfl, rfl, rfl, rfl, rfl, rfl, rfl, List.suffix_refl _⟩

theorem looked_printed (n : Nat) (w : World) (o : List Printed) : Looked n w { w with out := o } :=
  looked_answered n w (List.suffix_refl _) (List.suffix_refl _)

theorem keyTwo_wp (s : Sys σ) (input : List Char) (keyOld keyNew : Key) (line line' : String) {op : Bytes → Bytes → Nat → Prog KeyOps.Error Unit}
    (hop : ∀ o n, Edits (op o n)) (w : World) :
    wp (do
        let handle ← openV5 s input
        announce keyOld line
        let rawKeyOld ← getSecret s.words s.cwd keyOld .direct
        announce keyNew line'
        let rawKeyNew ← getSecret s.words s.cwd keyNew .validate
        (op rawKeyOld rawKeyNew handle).mapErr .key : Prog Error Unit)
      (fun r w' => OnlyEdits (toPath s.cwd input) w w' ∧ (r ≠ .ok () → w'.file = w.file) ∧
        (r = .ok () → ∃ q i hd aad old new v, LeadsToFile w (toPath s.cwd input) q i ∧ IsHeader (w.file i) hd aad ∧ hd.headerType.version = .v5 ∧
          SuppliesBoth s.words s.cwd keyOld keyNew w old new ∧ op old new w.nextFd v = (.ok (), w') ∧
          v.rest w.nextFd = w.file i ∧ v.file = w.file ∧ v.fd w.nextFd = { ino := i, pos := 0 } ∧ v.sched <:+ w.sched)) w := by
  rcases openV5_cases s input w with ⟨q, i, hd, aad, w1, h1, hS, hl, hi, hv, hfd, hnx⟩ | ⟨e, w1, h1, hS, _⟩
  · refine wp_bind (fun a w' e => ?_) (fun e w' he => by rw [h1] at he; cases he) (fun e w' he => by rw [h1] at he; cases he)
    rw [h1] at e; cases e
    obtain ⟨o, ho⟩ := announce_run keyOld line w1
    refine wp_bind (fun a w' e => ?_) (fun e w' he => by rw [ho] at he; cases he) (fun e w' he => by rw [ho] at he; cases he)
    rw [ho] at e; cases e
    replace hS := hS.trans (Same.printed w1 o)
    replace hfd : ({ w1 with out := o } : World).fd w.nextFd = { ino := i, pos := 0 } := hfd
    replace hnx : w.nextFd < ({ w1 with out := o } : World).nextFd := hnx
    clear h1 ho
    generalize ({ w1 with out := o } : World) = w1 at hS hfd hnx ⊢
    refine wp_bind (fun old w2 e2 => ?_) (fun e w' he => ?_) (fun e w' he => ?_)
    · have hlk2 := (getSecret_looks (w.nextFd + 1) s.words s.cwd keyOld .direct w1 (by omega)).1
      rw [e2] at hlk2
      replace hlk2 : Looked (w.nextFd + 1) w1 w2 := hlk2
      obtain ⟨o, ho⟩ := announce_run keyNew line' w2
      refine wp_bind (fun a w' e => ?_) (fun e w' he => by rw [ho] at he; cases he) (fun e w' he => by rw [ho] at he; cases he)
      rw [ho] at e; cases e
      have htk := getSecret_taken e2
      have hok := getSecret_ok e2
      replace hlk2 := hlk2.trans (looked_printed _ w2 o)
      replace htk : Taken keyOld old w1 { w2 with out := o } := ⟨htk.file, htk.dir, htk.env, htk.tty, htk.stdin, by have := htk.rng; revert this; cases keyOld <;> exact id⟩
      clear e2 ho
      generalize ({ w2 with out := o } : World) = w2 at hlk2 htk ⊢
      refine wp_bind (fun new w3 e3 => ?_) (fun e w' he => ?_) (fun e w' he => ?_)
      · have hlk3 := (getSecret_looks (w.nextFd + 1) s.words s.cwd keyNew .validate w2 (by have := hlk2.nextFd; omega)).1
        rw [e3] at hlk3
        replace hlk3 := hlk2.trans hlk3
        have hfd3 : w3.fd w.nextFd = { ino := i, pos := 0 } := by rw [hlk3.fds _ (by omega), hfd]
        refine wp_mono (edit_wp (hop old new) hl (hlk3.file.trans hS.file) (hlk3.dir.trans hS.dir) hfd3) ?_
        rintro r w' ⟨g1, g2, g3⟩
        refine ⟨g1, g2, fun hr => ⟨q, i, hd, aad, old, new, w3, hl, hi, hv, ?_, g3 hr, ?_, hlk3.file.trans hS.file, hfd3, hlk3.sched.trans hS.sched⟩⟩
        · obtain ⟨n1, s1⟩ := hok
          obtain ⟨n2, s2⟩ := getSecret_ok e3
          exact ⟨n1, n2, hS.supplies s1, w2, hS.taken htk, s2⟩
        · have : w3.file = w.file := hlk3.file.trans hS.file
          simp [World.rest, World.data, hfd3, this]
      · have hlk3 := (getSecret_looks (w.nextFd + 1) s.words s.cwd keyNew .validate w2 (by have := hlk2.nextFd; omega)).1
        rw [he] at hlk3
        replace hlk3 := hlk2.trans hlk3
        exact ⟨.of_same (hlk3.dir.trans hS.dir) (hlk3.file.trans hS.file), fun _ => hlk3.file.trans hS.file, fun h => nomatch h⟩
      · have hlk3 := (getSecret_looks (w.nextFd + 1) s.words s.cwd keyNew .validate w2 (by have := hlk2.nextFd; omega)).1
        rw [he] at hlk3
        replace hlk3 := hlk2.trans hlk3
        exact ⟨.of_same (hlk3.dir.trans hS.dir) (hlk3.file.trans hS.file), fun _ => hlk3.file.trans hS.file, fun h => nomatch h⟩
    · have hlk2 := (getSecret_looks (w.nextFd + 1) s.words s.cwd keyOld .direct w1 (by omega)).1
      rw [he] at hlk2
      exact ⟨.of_same (hlk2.dir.trans hS.dir) (hlk2.file.trans hS.file), fun _ => hlk2.file.trans hS.file, fun h => nomatch h⟩
    · have hlk2 := (getSecret_looks (w.nextFd + 1) s.words s.cwd keyOld .direct w1 (by omega)).1
      rw [he] at hlk2
      exact ⟨.of_same (hlk2.dir.trans hS.dir) (hlk2.file.trans hS.file), fun _ => hlk2.file.trans hS.file, fun h => nomatch h⟩
  · unfold wp
    rw [Prog.bind_err h1]
    exact ⟨.of_same hS.dir hS.file, fun _ => hS.file, fun h => nomatch h⟩

theorem keyOne_wp (s : Sys σ) (input : List Char) (key : Key) (line : String) {op : Bytes → Nat → Prog KeyOps.Error Unit}
    (hop : ∀ o, Edits (op o)) (w : World) :
    wp (do
        let handle ← openV5 s input
        announce key line
        let rawKey ← getSecret s.words s.cwd key .direct
        (op rawKey handle).mapErr .key : Prog Error Unit)
      (fun r w' => OnlyEdits (toPath s.cwd input) w w' ∧ (r ≠ .ok () → w'.file = w.file) ∧
        (r = .ok () → ∃ q i hd aad old v, LeadsToFile w (toPath s.cwd input) q i ∧ IsHeader (w.file i) hd aad ∧ hd.headerType.version = .v5 ∧
          old ≠ [] ∧ Supplies s.words s.cwd .direct key w old ∧ op old w.nextFd v = (.ok (), w') ∧
          v.rest w.nextFd = w.file i ∧ v.file = w.file ∧ v.fd w.nextFd = { ino := i, pos := 0 } ∧ v.sched <:+ w.sched)) w := by
  rcases openV5_cases s input w with ⟨q, i, hd, aad, w1, h1, hS, hl, hi, hv, hfd, hnx⟩ | ⟨e, w1, h1, hS, _⟩
  · refine wp_bind (fun a w' e => ?_) (fun e w' he => by rw [h1] at he; cases he) (fun e w' he => by rw [h1] at he; cases he)
    rw [h1] at e; cases e
    obtain ⟨o, ho⟩ := announce_run key line w1
    refine wp_bind (fun a w' e => ?_) (fun e w' he => by rw [ho] at he; cases he) (fun e w' he => by rw [ho] at he; cases he)
    rw [ho] at e; cases e
    replace hS := hS.trans (Same.printed w1 o)
    replace hfd : ({ w1 with out := o } : World).fd w.nextFd = { ino := i, pos := 0 } := hfd
    replace hnx : w.nextFd < ({ w1 with out := o } : World).nextFd := hnx
    clear h1 ho
    generalize ({ w1 with out := o } : World) = w1 at hS hfd hnx ⊢
    have hlk2 := (getSecret_looks (w.nextFd + 1) s.words s.cwd key .direct w1 (by omega)).1
    refine wp_bind (fun old w2 e2 => ?_) (fun e w' he => ?_) (fun e w' he => ?_)
    · rw [e2] at hlk2
      replace hlk2 : Looked (w.nextFd + 1) w1 w2 := hlk2
      have hfd3 : w2.fd w.nextFd = { ino := i, pos := 0 } := by rw [hlk2.fds _ (by omega), hfd]
      refine wp_mono (edit_wp (hop old) hl (hlk2.file.trans hS.file) (hlk2.dir.trans hS.dir) hfd3) ?_
      rintro r w' ⟨g1, g2, g3⟩
      obtain ⟨n1, s1⟩ := getSecret_ok e2
      refine ⟨g1, g2, fun hr => ⟨q, i, hd, aad, old, w2, hl, hi, hv, n1, hS.supplies s1, g3 hr, ?_, hlk2.file.trans hS.file, hfd3, hlk2.sched.trans hS.sched⟩⟩
      have : w2.file = w.file := hlk2.file.trans hS.file
      simp [World.rest, World.data, hfd3, this]
    · rw [he] at hlk2
      exact ⟨.of_same (hlk2.dir.trans hS.dir) (hlk2.file.trans hS.file), fun _ => hlk2.file.trans hS.file, fun h => nomatch h⟩
    · rw [he] at hlk2
      exact ⟨.of_same (hlk2.dir.trans hS.dir) (hlk2.file.trans hS.file), fun _ => hlk2.file.trans hS.file, fun h => nomatch h⟩
  · unfold wp
    rw [Prog.bind_err h1]
    exact ⟨.of_same hS.dir hS.file, fun _ => hS.file, fun h => nomatch h⟩

/-- A password that is typed, without faults. -/
theorem getSecret_typed {words : List (List Char)} {cwd : Path} {w : World} {x : Bytes} {rest : List Bytes} (hs : w.sched = []) (hx : x ≠ [])
    (ht : w.tty = x :: rest) : getSecret words cwd .user .direct w = (.ok x, { w with tty := rest }) := by
  have hf : fetch words cwd .direct .user w = (.ok x, { w with tty := rest }) := by
    show getPassword .direct w = _
    unfold getPassword
    rcases directPassword_cases w.tty w rfl with ⟨y, r, s, h1, h2, h3⟩ | ⟨s, h2, h3, h4⟩
    · rw [ht] at h1
      cases h1
      rw [hs] at h2
      rw [h3, List.suffix_nil.1 h2, ← hs]
    · have := h4 hs
      rw [ht] at this
      cases this
  unfold getSecret
  rw [Prog.bind_ok hf, if_neg hx]
  rfl

/-- A password that is typed and confirmed, without faults. -/
theorem getSecret_confirmed {words : List (List Char)} {cwd : Path} {w : World} {x : Bytes} {rest : List Bytes} (hs : w.sched = []) (hx : x ≠ [])
    (ht : w.tty = x :: x :: rest) : getSecret words cwd .user .validate w = (.ok x, { w with tty := rest }) := by
  have hf : fetch words cwd .validate .user w = (.ok x, { w with tty := rest }) := by
    show getPassword .validate w = _
    unfold getPassword
    show confirmLoop w.tty w = _
    rw [ht, confirmLoop]
    rcases sysRetry_cases w with ⟨s, h, he⟩ | ⟨s, e, h, hn, he⟩
    · rw [Prog.bind_ok (Prog.mapErr_ok he)]
      rw [hs] at h
      rw [List.suffix_nil.1 h, ← hs]
      rw [Prog.bind_ok (show setTty (ε := Error) (x :: rest) w = (.ok (), { w with tty := x :: rest }) from rfl)]
      rcases sysRetry_cases ({ w with tty := x :: rest } : World) with ⟨s2, h2, he2⟩ | ⟨s2, e2, h2, hn2, he2⟩
      · rw [Prog.bind_ok (Prog.mapErr_ok he2)]
        replace h2 : s2 <:+ [] := hs ▸ h2
        rw [List.suffix_nil.1 h2, ← hs]
        rw [Prog.bind_ok (show setTty (ε := Error) rest { w with tty := x :: rest } = (.ok (), { w with tty := rest }) from rfl), if_pos ⟨rfl, hx⟩]
        rfl
      · exact absurd hs hn2
    · exact absurd hs hn
  unfold getSecret
  rw [Prog.bind_ok hf, if_neg hx]
  rfl

/-- Opening without faults. -/
theorem openV5_nil {s : Sys σ} {input : List Char} {w : World} {q : Path} {i : Nat} {hd : Header} {aad : Bytes} (hs : w.sched = [])
    (hl : LeadsToFile w (toPath s.cwd input) q i) (hi : IsHeader (w.file i) hd aad) (hv : hd.headerType.version = .v5) :
    ∃ w', openV5 s input w = (.ok w.nextFd, w') ∧ Same w w' ∧ w'.sched = [] ∧ w'.rest w.nextFd = w.file i := by
  rcases openV5_cases s input w with ⟨q', i', hd', aad', w1, h1, hS, hl', hi', hv', hfd, hnx⟩ | ⟨e, w1, h1, hS, h2⟩
  · obtain ⟨rfl, rfl⟩ := LeadsToFile_unique hl hl'
    refine ⟨w1, h1, hS, ?_, ?_⟩
    · have := hS.sched; rw [hs] at this; exact List.suffix_nil.1 this
    · simp [World.rest, World.data, hfd, hS.file]
  · exact absurd hv (h2 hs q i hl hd aad hi).1

/-- A file without a header of version 5 is turned away. -/
theorem openV5_refuses {s : Sys σ} {input : List Char} {w : World}
    (hno : ∀ q i hd aad, LeadsToFile w (toPath s.cwd input) q i → IsHeader (w.file i) hd aad → hd.headerType.version ≠ .v5) :
    ∃ e w', openV5 s input w = (.err e, w') ∧ Same w w' := by
  rcases openV5_cases s input w with ⟨q', i', hd', aad', w1, h1, hS, hl', hi', hv', hfd, hnx⟩ | ⟨e, w1, h1, hS, h2⟩
  · exact absurd hv' (hno _ _ _ _ hl' hi')
  · exact ⟨e, w1, h1, hS⟩

end Volaris.Cli
