import Verif.Spec.Asked
import Verif.Proofs.Shown
import Verif.Proofs.PackCmd
import Verif.Proofs.CrashSafe
/-!
# Lemmas for C88
-/
namespace Volaris.Cli
open Volaris.Spec
variable {σ α β : Type}

theorem exchange_last (calls untyped : Nat) (q : List Char) : ∀ k left, ∃ later, exchange calls untyped q left k = later ++ [⟨calls, left, untyped, q⟩]
  | 0, _ => ⟨[], rfl⟩
  | k + 1, left => ⟨exchange calls untyped q (left - 1) k ++ [⟨calls, left - 1, untyped, "[-] Unrecognised answer - please try again".toList⟩], by rw [exchange]; simp⟩

theorem agreed_answered {d : Bool} {q : List Char} {w : World} {rest : List String} (s : List Io) (h : FirstAnswer d w.stdin true rest) :
    AgreedTo q d w.log.length w { answered w q rest with sched := s } := by
  obtain ⟨later, e⟩ := exchange_last w.log.length w.tty.length q (w.stdin.length - rest.length - 1) w.stdin.length
  refine ⟨w.stdin, rest, w.tty.length, later, [], List.suffix_refl _, h, ?_⟩
  show exchange _ _ _ _ _ ++ w.out = _
  rw [e]

/-- What was agreed to stays agreed to. -/
theorem agreed_wider {d : Bool} {q : List Char} {n : Nat} {w0 w w' w'' : World} (h : AgreedTo q d n w w') (h0 : w.stdin <:+ w0.stdin) (h1 : w0.out <:+ w.out) (h2 : w'.out <:+ w''.out) : AgreedTo q d n w0 w'' := by
  obtain ⟨lines, rest, untyped, later, earlier, a, b, c⟩ := h
  obtain ⟨more, h2⟩ := h2
  obtain ⟨less, h1⟩ := h1
  refine ⟨lines, rest, untyped, more ++ later, earlier ++ less, a.trans h0, b, ?_⟩
  rw [← h2, c, ← h1]
  simp

theorem consent_agreed {cwd : Path} {name : List Char} {w w' : World} (ho : Occupied w (toPath cwd name)) (h : consent cwd name .prompt w = (.ok (), w')) :
    AgreedTo (overwriteQuestion name) true w.log.length w w' := by
  unfold consent at h
  rw [Prog.bind_run, overwriteCheck_occupied .prompt ho] at h
  rcases getAnswer_cases (overwritePrompt name) true w with ⟨b, rest, s, h1, h2, h3, h4⟩ | ⟨e, rest, s, o, h1, h2, h3, _⟩
  · rw [h3] at h
    cases b with
    | true =>
      have h : (Res.ok (), { answered w (questionText (overwritePrompt name) true) rest with sched := s }) = (Res.ok (), w') := h
      cases h
      rw [show questionText (overwritePrompt name) true = overwriteQuestion name by unfold questionText overwritePrompt overwriteQuestion; simp]
      exact agreed_answered s h4
    | false => cases h
  · rw [h3] at h; cases h

/-- A program that first gets the agreement and then goes on. -/
theorem agreed_bind {d : Bool} {q : List Char} {x : Prog Error β} (hx : Calm x) {f : β → Prog Error α} (hf : ∀ b, Crashes (f b)) {w : World}
    (hok : ∀ b w', x w = (.ok b, w') → AgreedTo q d w.log.length w w') (h : ((x >>= f) w).2.log ≠ w.log ∨ ∃ a, ((x >>= f) w).1 = .ok a) :
    AgreedTo q d w.log.length w ((x >>= f) w).2 := by
  have hs := hx w
  rw [Prog.bind_run] at h ⊢
  generalize x w = y at h hs hok ⊢
  rcases y with ⟨a | e | a, w1⟩
  · exact agreed_wider (hok a w1 rfl) (List.suffix_refl _) (List.suffix_refl _) (hf a w1).aside.2
  · rcases h with h | ⟨a, h⟩
    · exact absurd hs.1 h
    · cases h
  · rcases h with h | ⟨a, h⟩
    · exact absurd hs.1 h
    · cases h

/-- A program that first looks around. -/
theorem agreed_after {d : Bool} {q : List Char} {Q : β → Prop} {x : Prog Error β} (hx : Still x) {f : β → Prog Error α} {w : World} (hl : Looks w.nextFd Q x)
    (hf : ∀ b w', Looked w.nextFd w w' → x w = (.ok b, w') → ((f b w').2.log ≠ w'.log ∨ ∃ a, (f b w').1 = .ok a) → AgreedTo q d w'.log.length w' (f b w').2)
    (h : ((x >>= f) w).2.log ≠ w.log ∨ ∃ a, ((x >>= f) w).1 = .ok a) : AgreedTo q d w.log.length w ((x >>= f) w).2 := by
  have hs := hx w
  have hk := (hl w (Nat.le_refl _)).1
  rw [Prog.bind_run] at h ⊢
  generalize x w = y at h hs hk hf ⊢
  rcases y with ⟨a | e | a, w1⟩
  · obtain ⟨e1, _, e3⟩ := hs
    simp only at e1 e3 hk h ⊢
    have := hf a w1 hk rfl (by rw [e1]; exact h)
    rw [e1] at this
    exact agreed_wider this hk.stdin (by rw [e3]; exact List.suffix_refl _) (List.suffix_refl _)
  · rcases h with h | ⟨a, h⟩
    · exact absurd hs.1 h
    · cases h
  · rcases h with h | ⟨a, h⟩
    · exact absurd hs.1 h
    · cases h

theorem occupied_looked {n : Nat} {w w' : World} (h : Looked n w w') {p : PathBuf} (hn : w.nextFd ≤ n) (ho : Occupied w p) : Occupied w' p :=
  (Trail.looked (F := fun _ => True) h hn).occupied ho

theorem writes_agreed {s : Sys σ} {output : List Char} {cmd : Prog Error Unit} (hc : WritesTo s output cmd) {w : World} (ho : Occupied w (toPath s.cwd output))
    (h : (cmd w).2.log ≠ w.log ∨ ∃ a, (cmd w).1 = .ok a) : AgreedTo (overwriteQuestion output) true w.log.length w (cmd w).2 := by
  cases hc with
  | encrypt input params a hf =>
    revert h
    unfold encryptMode encryptBody
    split
    · rintro (h | ⟨a, h⟩)
      · exact absurd rfl h
      · cases h
    · rw [hf]
      exact agreed_bind (consent_calm _ _ _) (fun _ => by crash) fun _ w' e => consent_agreed ho e
  | decrypt input params hf =>
    revert h
    unfold decryptMode decryptBody
    split
    · rintro (h | ⟨a, h⟩)
      · exact absurd rfl h
      · cases h
    · rw [hf]
      exact agreed_bind (consent_calm _ _ _) (fun _ => by crash) fun _ w' e => consent_agreed ho e
  | pack inputs pp params a hf =>
    revert h
    unfold packMode packBody
    split
    · rintro (h | ⟨a, h⟩)
      · exact absurd rfl h
      · cases h
    · rw [Prog.bind_run]
      unfold anyFile
      simp only
      split
      · rintro (h | ⟨a, h⟩)
        · exact absurd rfl h
        · cases h
      · rw [hf]
        exact agreed_bind (consent_calm _ _ _) (fun _ => by crash) fun _ w' e => consent_agreed ho e
  | dump input =>
    revert h
    unfold headerDump
    exact agreed_after (readInput_still _) (readInput_looks _ _) fun b w' hl _ =>
      agreed_bind (consent_calm _ _ _) (fun _ => by crash) fun _ w'' e => consent_agreed (occupied_looked hl (Nat.le_refl _) ho) e

theorem writes_crashes {s : Sys σ} {output : List Char} {cmd : Prog Error Unit} (hc : WritesTo s output cmd) : Crashes cmd := by
  cases hc with
  | encrypt => exact encryptMode_crashes _ _ _ _ _
  | decrypt => exact decryptMode_crashes _ _ _ _
  | pack => exact packMode_crashes _ _ _ _ _ _
  | dump => exact headerDump_crashes _ _ _ _

/-! ### The detached header -/

theorem Trail.onlyAt {cwd : Path} {output : List Char} {w w' : World} (h : Trail (fun q => w.resolve (toPath cwd output) = .ok q) w w') : OnlyAt cwd output w w' where
  entries := fun x => by
    rcases h.extracts.look x with g | ⟨_, _, g⟩ | g
    · exact .inl g
    · exact g.elim
    · exact .inr g
  files := fun j hj => by
    by_cases hq : ∃ x, LeadsToFile w (toPath cwd output) x j
    · exact .inr hq
    · exact .inl (h.extracts.files j hj fun q hF hl => hq ⟨q, hF, hl⟩)

/-- What the header question is about: either it was agreed to, or it did not succeed and nothing but the output was touched. -/
def HeaderAsked (cwd : Path) (output hd : List Char) (w : World) (r : Res Error α) (w' : World) : Prop :=
  (∃ calls, w.log.length ≤ calls ∧ AgreedTo (overwriteQuestion hd) true calls w w') ∨ ((∀ a, r ≠ .ok a) ∧ Trail (fun q => w.resolve (toPath cwd output) = .ok q) w w')

/-- The state before the question: nothing but the output was touched, and nothing is unsaid. -/
structure Before (cwd : Path) (output : List Char) (w u : World) : Prop where
  trail : Trail (fun q => w.resolve (toPath cwd output) = .ok q) w u
  out : w.out <:+ u.out
  log : w.log.length ≤ u.log.length

theorem Before.of_looked {cwd : Path} {output : List Char} {w u u' : World} {Q : β → Prop} {x : Prog Error β} {r : Res Error β} (hb : Before cwd output w u) (hx : Looks u.nextFd Q x) (hc : Crashes x) (he : x u = (r, u')) :
    Before cwd output w u' := by
  have hl := (hx u (Nat.le_refl _)).1
  have ha := (hc u).aside.2
  obtain ⟨es, hes, _⟩ := (hc u).log
  unfold Calls at hes
  rw [he] at hl ha hes
  exact ⟨hb.trail.trans (.looked hl (Nat.le_refl _)), hb.out.trans ha, by rw [show u'.log = _ from hes]; have := hb.log; simp; omega⟩

theorem Before.step {cwd : Path} {output hd : List Char} {w u : World} {Q : β → Prop} {x : Prog Error β} {f : β → Prog Error α} (hb : Before cwd output w u) (hx : Looks u.nextFd Q x) (hc : Crashes x)
    (hf : ∀ b u', Before cwd output w u' → wp (f b) (HeaderAsked cwd output hd w) u') : wp (x >>= f) (HeaderAsked cwd output hd w) u :=
  wp_bind (fun b w' e => hf b w' (hb.of_looked hx hc e)) (fun _ _ he => .inr ⟨fun _ h => (by cases h), (hb.of_looked hx hc he).trail⟩)
    (fun _ _ he => .inr ⟨fun _ h => (by cases h), (hb.of_looked hx hc he).trail⟩)

theorem Before.output {s : Sys σ} {output hd : List Char} {w u : World} {f : Storage.Entry → Prog Error α} (hb : Before s.cwd output w u)
    (hf : ∀ b u', Before s.cwd output w u' → wp (f b) (HeaderAsked s.cwd output hd w) u') : wp (openOutput (toPath s.cwd output) >>= f) (HeaderAsked s.cwd output hd w) u := by
  have hc : Crashes (openOutput (toPath s.cwd output)) := by crash
  have ha := (hc u).aside.2
  obtain ⟨es, hes, _⟩ := (hc u).log
  unfold Calls at hes
  rcases openOutput_cases (toPath s.cwd output) u with ⟨q, j, u', he, ho⟩ | ⟨e, sc, hsc, he⟩
  · rw [he] at ha hes
    refine wp_bind (fun b w' e => ?_) (fun _ _ e => by rw [he] at e; cases e) (fun _ _ e => by rw [he] at e; cases e)
    rw [he] at e
    cases e
    refine hf _ _ ⟨hb.trail.trans (.opened ho ((hb.trail.resolves _ _).1 ho.resolve)), hb.out.trans ha, ?_⟩
    rw [show u'.log = _ from hes]; have := hb.log; simp; omega
  · refine wp_bind (fun b w' e => by rw [he] at e; cases e) (fun _ _ e => ?_) (fun _ _ e => by rw [he] at e; cases e)
    rw [he] at e
    cases e
    refine .inr ⟨fun _ h => (by cases h), hb.trail.trans ?_⟩
    exact .looked (n := u.nextFd) ⟨rfl, rfl, fun _ _ => rfl, Nat.le_refl _, rfl, rfl, List.suffix_refl _, List.suffix_refl _, hsc⟩ (Nat.le_refl _)

theorem Before.header {s : Sys σ} {output hd : List Char} {w u : World} {f : Option Storage.Entry → Prog Error α} (hb : Before s.cwd output w u) (ho : Occupied w (toPath s.cwd hd)) (hf : ∀ b, Crashes (f b)) :
    wp (openHeader s .prompt (some hd) >>= f) (HeaderAsked s.cwd output hd w) u := by
  have hcon := consent_looks u.nextFd s.cwd hd .prompt
  have hcr : Crashes (consent s.cwd hd .prompt) := by crash
  rw [show openHeader s .prompt (some hd) = (consent s.cwd hd .prompt >>= fun _ => openOutput (toPath s.cwd hd) >>= fun e => pure (some e)) from rfl, Prog.bind_assoc]
  refine wp_bind (fun b w' e => ?_) (fun _ _ he => .inr ⟨fun _ h => (by cases h), (hb.of_looked hcon hcr he).trail⟩)
    (fun _ _ he => .inr ⟨fun _ h => (by cases h), (hb.of_looked hcon hcr he).trail⟩)
  refine .inl ⟨u.log.length, hb.log, agreed_wider (consent_agreed (hb.trail.occupied ho) e) hb.trail.stdin hb.out ?_⟩
  have hr : Crashes ((openOutput (toPath s.cwd hd) >>= fun e => pure (some e)) >>= f) := Crashes.bind (by crash) hf
  exact (hr w').aside.2

theorem header_asked {s : Sys σ} {output hd : List Char} {cmd : Prog Error Unit} (hc : WritesHeader s output hd cmd) {w : World} (ho : Occupied w (toPath s.cwd hd)) :
    wp cmd (HeaderAsked s.cwd output hd w) w := by
  have hb : Before s.cwd output w w := ⟨.refl w, List.suffix_refl _, Nat.le_refl _⟩
  cases hc with
  | encrypt input params a hf hh =>
    unfold encryptMode encryptBody
    split
    · exact .inr ⟨fun a h => (by cases h), .refl w⟩
    · rw [hf, hh]
      refine hb.step (consent_looks _ _ _ _) (by crash) fun _ u1 h1 => h1.step (readInput_looks _ _) (by crash) fun _ u2 h2 => h2.step (getSecret_looks _ _ _ _ _) (by crash) fun _ u3 h3 =>
        h3.output fun _ u4 h4 => h4.header ho fun _ => ?_
      crash
  | pack inputs pp params a hf hh =>
    unfold packMode packBody
    split
    · exact .inr ⟨fun a h => (by cases h), .refl w⟩
    · refine wp_bind (fun b w0 h0 => ?_) (fun e w0 h0 => by cases h0) (fun e w0 h0 => by cases h0)
      obtain rfl : w = w0 := congrArg Prod.snd h0
      cases b with
      | true => exact .inr ⟨fun a h => (by cases h), .refl w⟩
      | false =>
        rw [hf, hh]
        refine hb.step (consent_looks _ _ _ _) (by crash) fun _ u1 h1 => h1.step (readInputs_looks _ _ _) (by crash) fun _ u2 h2 => h2.step (getSecret_looks _ _ _ _ _) (by crash) fun _ u3 h3 =>
          h3.output fun _ u4 h4 => h4.header ho fun _ => ?_
        crash

/-! ### Erasing directories -/

theorem secureErase_asked (s : Sys σ) (input : List Char) (n : Int) {w : World} {T : Path} (hd : LeadsToDir w (toPath s.cwd input) T) :
    AgreedTo eraseQuestion false w.log.length w (secureErase s input n .prompt w).2 ∨
      ((secureErase s input n .prompt w).1 ≠ .ok () ∧ (secureErase s input n .prompt w).2.log = w.log ∧ SameFiles w (secureErase s input n .prompt w).2) := by
  have hrd : readInput (toPath s.cwd input) w = (.ok (.dir (toPath s.cwd input)), w) := by
    rcases readInput_cases (toPath s.cwd input) w with ⟨q', i', sc, hsc, hq', he⟩ | ⟨q', hq', he⟩ | ⟨e, sc, hsc, he, hor⟩
    · have h1 := hq'.resolve
      rw [hd.resolve] at h1; cases h1
      have h2 := hq'.look
      rw [hd.look] at h2; cases h2
    · exact he
    · exfalso
      unfold readInput Storage.readFile at he
      have hi : w.isDirAt (toPath s.cwd input) = true := by
        unfold World.isDirAt
        rw [hd.resolve]
        simp [hd.look]
      rw [Prog.mapErr_run, Prog.bind_ok (show Volaris.isDir (toPath s.cwd input) w = (.ok true, w) by unfold Volaris.isDir; rw [hi])] at he
      exact absurd he (by intro h; cases h)
  unfold secureErase
  rw [Prog.bind_ok hrd, if_pos (show (Storage.Entry.dir (toPath s.cwd input)).isDir = true from rfl)]
  rcases getAnswer_cases "This is a directory, would you like to erase all files within it?".toList false w with ⟨b, rest, sc, h1, h2, h3, h4⟩ | ⟨e, rest, sc, o, h1, h2, h3, h4⟩
  · rw [Prog.bind_ok h3]
    cases b with
    | true =>
      left
      have hq : questionText "This is a directory, would you like to erase all files within it?".toList false = eraseQuestion := by decide +kernel
      rw [hq]
      refine agreed_wider (agreed_answered sc h4) (List.suffix_refl _) (List.suffix_refl _) ?_
      rw [if_pos rfl]
      have hc : Crashes ((EraseDir.execute s.order (.dir (toPath s.cwd input)) n).mapErr Error.eraseDir) := by crash
      exact (hc _).aside.2
    | false => exact .inr ⟨by rintro ⟨⟩, rfl, rfl, rfl⟩
  · rw [Prog.bind_err h3]
    exact .inr ⟨by rintro ⟨⟩, rfl, rfl, rfl⟩

theorem pack_asked (s : Sys σ) (inputs : List (List Char)) (output : List Char) (pp : PackParams) (params : CryptoParams) (a : Algorithm) (w : World) (ht : TreeOk w) (hf : params.force = .prompt) :
    (∃ calls, w.log.length ≤ calls ∧ AgreedTo eraseQuestion false calls w (packMode s inputs output pp params a w).2) ∨
      ∃ u, Trail (PackTargets s output params w) w u ∧ SameFiles u (packMode s inputs output pp params a w).2 := by
  have key := packMode_wp s inputs output ⟨false⟩ params a w ht
  have hc := packMode_crashes s inputs output ⟨false⟩ params a w
  obtain ⟨erase⟩ := pp
  cases erase with
  | false =>
    right
    rcases key with ⟨h, _⟩ | ⟨u, secret, h, _, _, _, _, he⟩
    · exact ⟨_, h, rfl, rfl⟩
    · exact ⟨u, h, by rw [show (packMode s inputs output ⟨false⟩ params a w).2 = u from congrArg Prod.snd he]; exact ⟨rfl, rfl⟩⟩
  | true =>
    rw [packMode_split s inputs output params a, Prog.bind_run]
    unfold wp at key
    obtain ⟨es, hes, _⟩ := hc.log
    unfold Calls at hes
    have ha := hc.aside.2
    generalize packMode s inputs output ⟨false⟩ params a w = y at key hes ha ⊢
    rcases y with ⟨r | e | ab, u⟩
    · rcases key with ⟨_, h⟩ | ⟨u', secret, h, _, hd, _, _, he⟩
      · exact absurd rfl h
      · obtain rfl : u = u' := congrArg Prod.snd he
        simp only
        cases inputs with
        | nil => exact .inr ⟨u, h, rfl, rfl⟩
        | cons f fs =>
          obtain ⟨T, hT⟩ := hd f (List.mem_cons_self ..)
          have hT' : LeadsToDir u (toPath s.cwd f) T := ⟨(h.resolves _ _).2 hT.resolve, h.look hT.look⟩
          rw [eraseInputs, hf, Prog.bind_run]
          have hs := secureErase_asked s f 1 hT'
          generalize secureErase s f 1 .prompt u = y at hs ⊢
          rcases hs with hs | ⟨h1, h2, h3⟩
          · refine .inl ⟨u.log.length, by rw [show u.log = _ from hes]; simp, agreed_wider hs h.stdin ha ?_⟩
            rcases y with ⟨r | e | ab, v⟩
            · have hc : Crashes (eraseInputs s .prompt fs) := by crash
              exact (hc v).aside.2
            · exact List.suffix_refl _
            · exact List.suffix_refl _
          · rcases y with ⟨r | e | ab, v⟩
            · exact absurd rfl h1
            · exact .inr ⟨u, h, h3⟩
            · exact .inr ⟨u, h, h3⟩
    · rcases key with ⟨h, _⟩ | ⟨u', secret, h, _, hd, _, _, he⟩
      · exact .inr ⟨u, h, rfl, rfl⟩
      · cases he
    · rcases key with ⟨h, _⟩ | ⟨u', secret, h, _, hd, _, _, he⟩
      · exact .inr ⟨u, h, rfl, rfl⟩
      · cases he

end Volaris.Cli
