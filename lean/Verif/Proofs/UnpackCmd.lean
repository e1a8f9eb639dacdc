import Verif.Spec.UnpackCmd
import Verif.Proofs.Printed
import Verif.Proofs.CmdOk
import Verif.Proofs.PackCmd
import Verif.Proofs.RoundTrip
/-!
# The unpack command
-/
namespace Volaris.Cli
open Volaris.Spec
variable {σ : Type}

/-! ### The callback -/

theorem expect_looks {ε ε' α : Type} {n : Nat} {P : α → Prop} {x : Prog ε α} (h : Looks n P x) : Looks n P (expect x : Prog ε' α) := by
  intro w hn
  obtain ⟨h1, h2⟩ := h w hn
  unfold expect
  rcases hx : x w with ⟨r, w'⟩
  rw [hx] at h1
  cases r with
  | ok a => exact ⟨h1, fun a' v e => by cases e; exact h2 a _ hx⟩
  | err e => exact ⟨h1, fun a' v e => by cases e⟩
  | abort e => exact ⟨h1, fun a' v e => by cases e⟩

/-- The callback: it panics, or it answers. -/
theorem onZipFile_eq {force : ForceMode} {verbose : Bool} {p : PathBuf} {name : Name} (h : fileName p = some name) :
    onZipFile force verbose p = (do
      let answer ← (do if ← existsAt p then expect (getAnswer (overwritePrompt name) true force) else pure true)
      if answer then do
        if verbose then say ("[i] Extracting ".toList ++ name) else pure ()
        pure true
      else do
        say ("[-] Skipping ".toList ++ name)
        pure false) := by
  unfold onZipFile
  rw [h]

theorem onZipFile_panic {force : ForceMode} {verbose : Bool} {p : PathBuf} (h : fileName p = none) : onZipFile force verbose p = Prog.panic := by
  unfold onZipFile
  rw [h]

theorem onZipFile_looks (n : Nat) (force : ForceMode) (verbose : Bool) (p : PathBuf) : Looks n (fun _ => True) (onZipFile force verbose p) := by
  cases h : fileName p with
  | none => rw [onZipFile_panic h]; exact .panic
  | some name =>
    rw [onZipFile_eq h]
    refine .bind (P := fun _ => True) (.bind (.existsAt p) fun b _ => .ite (expect_looks (getAnswer_looks n _ true force)) (.pure trivial)) fun b _ => ?_
    exact (.ite (.ite (.bind (say_looks n _) fun _ _ => .pure trivial) (.pure trivial)) (.bind (say_looks n _) fun _ _ => .pure trivial))

/-- What is said after the answer. -/
def report (verbose : Bool) (name : Name) : Bool → List Printed → World → List Printed
  | true, o, w => if verbose then ⟨w.log.length, w.stdin.length, w.tty.length, "[i] Extracting ".toList ++ name⟩ :: o else o
  | false, o, w => ⟨w.log.length, w.stdin.length, w.tty.length, "[-] Skipping ".toList ++ name⟩ :: o

/-- All runs of the callback. -/
theorem onZipFile_cases (force : ForceMode) (verbose : Bool) (p : PathBuf) (w : World) :
    (fileName p = none ∧ onZipFile force verbose p w = (.abort .panic, w)) ∨
    ∃ name, fileName p = some name ∧
      ((∃ b u, onZipFile force verbose p w = (.ok b, { u with out := report verbose name b u.out u }) ∧
          ((¬ Occupied w p ∧ b = true ∧ u = w) ∨ (Occupied w p ∧ force = .forced ∧ b = true ∧ u = w) ∨
            (Occupied w p ∧ force = .prompt ∧ ∃ rest s, rest <:+ w.stdin ∧ s <:+ w.sched ∧ FirstAnswer true w.stdin b rest ∧ u = { answered w (overwriteQuestion name) rest with sched := s }))) ∨
        (Occupied w p ∧ ∃ rest s o, rest <:+ w.stdin ∧ s <:+ w.sched ∧ onZipFile force verbose p w = (.abort .panic, { w with stdin := rest, sched := s, out := o ++ w.out }))) := by
  cases h : fileName p with
  | none => exact .inl ⟨rfl, by rw [onZipFile_panic h]; rfl⟩
  | some name =>
    refine .inr ⟨name, rfl, ?_⟩
    rw [onZipFile_eq h]
    have tail : ∀ (b : Bool) (u : World), (if b then (do
        if verbose then say ("[i] Extracting ".toList ++ name) else pure ()
        pure true) else (do
        say ("[-] Skipping ".toList ++ name)
        pure false) : Prog Unpack.Error Bool) u = (.ok b, { u with out := report verbose name b u.out u }) := by
      intro b u
      cases b
      · rfl
      · cases verbose <;> rfl
    rcases existsAt_iff (ε := Unpack.Error) p w with ⟨h1, ho⟩ | ⟨h1, ho⟩
    · have hx : (do if ← existsAt p then expect (getAnswer (overwritePrompt name) true force) else pure true : Prog Unpack.Error Bool) w = expect (getAnswer (overwritePrompt name) true force) w := by
        rw [Prog.bind_ok h1]; rfl
      rw [Prog.bind_run, hx]
      unfold expect
      cases force with
      | forced => rw [getAnswer_forced]; exact .inl ⟨true, w, tail _ _, .inr (.inl ⟨ho, rfl, rfl, rfl⟩)⟩
      | prompt =>
        rcases getAnswer_cases (overwritePrompt name) true w with ⟨b, rest, s, h3, h4, h5, h6⟩ | ⟨e, rest, s, o, h3, h4, h5, _⟩
        · rw [h5]; exact .inl ⟨b, _, tail _ _, .inr (.inr ⟨ho, rfl, rest, s, h3, h4, h6, by rw [overwriteQuestion_eq]⟩)⟩
        · rw [h5]; exact .inr ⟨ho, rest, s, o, h3, h4, rfl⟩
    · have hx : (do if ← existsAt p then expect (getAnswer (overwritePrompt name) true force) else pure true : Prog Unpack.Error Bool) w = (.ok true, w) := by
        rw [Prog.bind_ok h1]; rfl
      rw [Prog.bind_ok hx]
      exact .inl ⟨true, w, tail _ _, .inl ⟨ho, rfl, rfl⟩⟩

theorem onZipFile_talks (force : ForceMode) (verbose : Bool) : OnlyTalks (Unpack.ask (some (onZipFile force verbose))) := by
  have key : ∀ p w, (onZipFile force verbose p w).2.file = w.file ∧ (onZipFile force verbose p w).2.dir = w.dir ∧ (onZipFile force verbose p w).2.fd = w.fd ∧ (onZipFile force verbose p w).2.nextIno = w.nextIno ∧
      (onZipFile force verbose p w).2.nextFd = w.nextFd ∧ (onZipFile force verbose p w).2.sched <:+ w.sched := by
    intro p w
    rcases onZipFile_cases force verbose p w with ⟨_, h⟩ | ⟨name, _, ⟨b, u, h, ⟨_, _, rfl⟩ | ⟨_, _, _, rfl⟩ | ⟨_, _, rest, s, _, hs, _, rfl⟩⟩ | ⟨_, rest, s, o, _, hs, h⟩⟩ <;> rw [h]
    · exact ⟨rfl, rfl, rfl, rfl, rfl, List.suffix_refl _⟩
    · exact ⟨rfl, rfl, rfl, rfl, rfl, List.suffix_refl _⟩
    · exact ⟨rfl, rfl, rfl, rfl, rfl, List.suffix_refl _⟩
    · exact ⟨rfl, rfl, rfl, rfl, rfl, hs⟩
    · exact ⟨rfl, rfl, rfl, rfl, rfl, hs⟩
  exact ⟨fun p w => (key p w).1, fun p w => (key p w).2.1, fun p w => (key p w).2.2.1, fun p w => (key p w).2.2.2.1, fun p w => (key p w).2.2.2.2.1, fun p w => (key p w).2.2.2.2.2⟩

theorem fileName_iff {p : PathBuf} {name : Name} : fileName p = some name ↔ p.comps.getLast? = some (.name name) := by
  unfold fileName
  cases p.comps.getLast? with
  | none => simp
  | some c => cases c <;> simp

theorem report_text (verbose : Bool) (name : Name) (b : Bool) (o : List Printed) (w : World) :
    (report verbose name b o w).map (·.text) = (decisionLines verbose name b).reverse ++ o.map (·.text) := by
  cases b
  · rfl
  · cases verbose <;> rfl

theorem exchange_text (calls untyped : Nat) (question : List Char) : ∀ k left, (exchange calls untyped question left k).map (·.text) = (questionLines question k).reverse
  | 0, _ => rfl
  | k + 1, left => by
    rw [exchange, List.map_append, exchange_text calls untyped question k]
    simp [questionLines]

theorem firstAnswer_length {d b : Bool} {lines rest : List String} (h : FirstAnswer d lines b rest) : lines.length = (lines.length - rest.length - 1) + 1 + rest.length := by
  obtain ⟨sk, l, rfl, -⟩ := h
  simp only [List.length_append, List.length_cons]
  omega

/-- What the callback's answer rests on, and what it prints. -/
theorem onZipFile_ok {force : ForceMode} {verbose : Bool} {p : PathBuf} {w w' : World} {b : Bool} (h : onZipFile force verbose p w = (.ok b, w')) :
    ∃ name, p.comps.getLast? = some (.name name) ∧
    ((¬ Occupied w p ∧ b = true ∧ w'.stdin = w.stdin ∧ w'.out.map (·.text) = (decisionLines verbose name true).reverse ++ w.out.map (·.text)) ∨
     (force = .forced ∧ b = true ∧ w'.stdin = w.stdin ∧ w'.out.map (·.text) = (decisionLines verbose name true).reverse ++ w.out.map (·.text)) ∨
     (force = .prompt ∧ FirstAnswer true w.stdin b w'.stdin ∧ ∃ k, w.stdin.length = k + 1 + w'.stdin.length ∧
       w'.out.map (·.text) = (questionLines (overwriteQuestion name) k ++ decisionLines verbose name b).reverse ++ w.out.map (·.text))) := by
  rcases onZipFile_cases force verbose p w with ⟨_, g⟩ | ⟨name, hn, ⟨b', u, g, hu⟩ | ⟨_, rest, s, o, _, hs, g⟩⟩ <;> rw [g] at h
  · cases h
  · obtain ⟨h1, rfl⟩ := Prod.mk.inj h
    obtain rfl := Res.ok.inj h1
    refine ⟨name, fileName_iff.1 hn, ?_⟩
    have ht := report_text verbose name b' u.out u
    rcases hu with ⟨h1, rfl, rfl⟩ | ⟨_, h0, rfl, rfl⟩ | ⟨_, hf, rest, s, _, _, h1, rfl⟩
    · exact .inl ⟨h1, rfl, rfl, ht⟩
    · exact .inr (.inl ⟨h0, rfl, rfl, ht⟩)
    · refine .inr (.inr ⟨hf, h1, w.stdin.length - rest.length - 1, firstAnswer_length h1, ht.trans ?_⟩)
      show (decisionLines verbose name b').reverse ++ (exchange w.log.length w.tty.length (overwriteQuestion name) w.stdin.length (w.stdin.length - rest.length - 1) ++ w.out).map (·.text) = _
      rw [List.map_append, exchange_text]; simp
  · cases h

theorem occupied_mono {w w' : World} (h : ∀ q n, w.look q = some n → w'.look q = some n) {p : PathBuf} (ho : Occupied w p) : Occupied w' p := by
  obtain ⟨q, n, h1, h2⟩ := ho
  exact ⟨q, n, World.resolve_mono (fun d hd => h d _ hd) h1, h q n h2⟩

/-- What the callback was asked is a dialogue with the user. -/
theorem asked_dialogue {force : ForceMode} {verbose : Bool} {w0 w w' : World} {conv : List (PathBuf × Bool)} (h : Asked (Unpack.ask (some (onZipFile force verbose))) w conv w') :
    (∀ q n, w0.look q = some n → w.look q = some n) →
    ∃ shown, Dialogue force verbose w0 w.stdin conv shown ∧ w'.out.map (·.text) = shown.reverse ++ w.out.map (·.text) := by
  induction h with
  | nil _ _ h3 => intro _; exact ⟨[], .nil, by rw [h3]; rfl⟩
  | @ask w w1 w2 w' p b l h1 h2 h3 hk hf hl ih =>
    intro h0
    have hk' : ∀ q n, w0.look q = some n → w1.look q = some n := fun q n hq => hk q n (h0 q n hq)
    have h2k : ∀ q n, w0.look q = some n → w2.look q = some n := by
      have := (onZipFile_talks force verbose).dir p w1
      rw [hf] at this
      intro q n hq
      rw [World.look_congr this]
      exact hk' q n hq
    obtain ⟨shown, ih, ht⟩ := ih h2k
    obtain ⟨name, hn, hc⟩ := onZipFile_ok (show onZipFile force verbose p w1 = (.ok b, w2) from hf)
    rw [h1, h3] at hc
    rcases hc with ⟨g1, rfl, g3, g4⟩ | ⟨g1, rfl, g3, g4⟩ | ⟨g1, g2, k, g3, g4⟩
    · rw [g3] at ih
      exact ⟨_, .free (fun ho => g1 (occupied_mono hk' ho)) hn ih, by rw [ht, g4, List.reverse_append, List.append_assoc]⟩
    · rw [g3] at ih
      exact ⟨_, .forced g1 hn ih, by rw [ht, g4, List.reverse_append, List.append_assoc]⟩
    · exact ⟨_, .asked g2 g1 g3 hn ih, by rw [ht, g4, List.reverse_append (bs := shown), List.append_assoc]⟩

/-- The callback accepts new files. -/
theorem onZipFile_new (force : ForceMode) (verbose : Bool) (out : PathBuf) : AcceptsNew out (Unpack.ask (some (onZipFile force verbose))) := by
  intro ns v hns hb
  show (onZipFile force verbose (out.push (ns.map .name)) v).1 = _
  have hf : ∃ n, fileName (out.push (ns.map .name)) = some n := by
    obtain ⟨ms, n, rfl⟩ : ∃ ms n, ns = ms ++ [n] := ⟨ns.dropLast, ns.getLast hns, (List.dropLast_concat_getLast hns).symm⟩
    unfold fileName
    have : (out.push ((ms ++ [n]).map .name)).comps.getLast? = some (.name n) := by
      show (out.comps ++ (ms ++ [n]).map Comp.name).getLast? = _
      simp
    rw [this]
    exact ⟨n, rfl⟩
  have hno : ¬ Occupied v (out.push (ns.map .name)) := by
    rintro ⟨q, n, h1, h2⟩
    have hq : q = onPaper (out.push (ns.map .name)) := World.walk_lexical h1
    rw [hq, Unpack.onPaper_push, hb ns hns] at h2
    cases h2
  obtain ⟨n, hf⟩ := hf
  rcases onZipFile_cases force verbose (out.push (ns.map .name)) v with ⟨h, _⟩ | ⟨name, _, ⟨b, u, h, hu⟩ | ⟨h, _⟩⟩
  · rw [hf] at h; cases h
  · rw [h]
    rcases hu with ⟨_, rfl, _⟩ | ⟨h, _⟩ | ⟨h, _⟩
    · rfl
    · exact absurd h hno
    · exact absurd h hno
  · exact absurd h hno

/-! ### The command -/

theorem mapErr_run {ε ε' α : Type} {x : Prog ε α} {f : ε → ε'} {w w' : World} {r' : Res ε' α} (h : (x.mapErr f) w = (r', w')) : ∃ r, x w = (r, w') ∧ r' = r.mapErr f := by
  rcases hx : x w with ⟨r, w2⟩
  cases r with
  | ok a => rw [Prog.mapErr_ok hx] at h; cases h; exact ⟨_, rfl, rfl⟩
  | err a => rw [Prog.mapErr_err hx] at h; cases h; exact ⟨_, rfl, rfl⟩
  | abort a => rw [Prog.mapErr_abort hx] at h; cases h; exact ⟨_, rfl, rfl⟩

theorem readHeader_still (s : Sys σ) (hd : Option (List Char)) : Still (readHeader s hd) := by
  cases hd with
  | none => exact .pure _
  | some path => exact .bind (readInput_still _) fun _ => .pure _

/-- All outcomes of the command. -/
theorem unpackMode_cases (s : Sys σ) (input output : List Char) (verbose : Bool) (params : CryptoParams) (w : World) {r : Res Error Unit} {w' : World}
    (hrun : unpackMode s input output verbose params w = (r, w')) :
    (r ≠ .ok () ∧ Looked w.nextFd w w') ∨
    ∃ v v' r1 hi hf secret q i, Looked w.nextFd w v ∧ LeadsToFile w (toPath s.cwd input) q i ∧ v.fd hi = { ino := i, pos := 0 } ∧ hi < v.nextFd ∧ HeaderOf s params.header w v hf ∧
      secret ≠ [] ∧ Supplies s.words s.cwd .direct params.key w secret ∧
      Unpack.execute s.C s.z s.tmp s.order { reader := hi, headerReader := optStream hf, rawKey := secret, outputDir := toPath s.cwd output, onZipFile := some (onZipFile params.force verbose) } v = (r1, v') ∧
      ((r1 = .ok () ∧ hashIf s params.hashMode input v' = (r, w')) ∨ (r1 ≠ .ok () ∧ r ≠ .ok () ∧ w' = v')) ∧
      ((∀ n, params.key ≠ .generate n) → v.out = w.out) := by
  have key : wp (unpackMode s input output verbose params) (fun r w' => (r ≠ .ok () ∧ Looked w.nextFd w w') ∨
    ∃ v v' r1 hi hf secret q i, Looked w.nextFd w v ∧ LeadsToFile w (toPath s.cwd input) q i ∧ v.fd hi = { ino := i, pos := 0 } ∧ hi < v.nextFd ∧ HeaderOf s params.header w v hf ∧
      secret ≠ [] ∧ Supplies s.words s.cwd .direct params.key w secret ∧
      Unpack.execute s.C s.z s.tmp s.order { reader := hi, headerReader := optStream hf, rawKey := secret, outputDir := toPath s.cwd output, onZipFile := some (onZipFile params.force verbose) } v = (r1, v') ∧
      ((r1 = .ok () ∧ hashIf s params.hashMode input v' = (r, w')) ∨ (r1 ≠ .ok () ∧ r ≠ .ok () ∧ w' = v')) ∧
      ((∀ n, params.key ≠ .generate n) → v.out = w.out)) w := by
    unfold unpackMode
    have hr1 := readInput_cases (toPath s.cwd input) w
    have hl1 := (readInput_looks w.nextFd (toPath s.cwd input) w (Nat.le_refl _)).1
    refine wp_bind (fun e w1 h1 => ?_) (fun e w1 h1 => ?_) (fun e w1 h1 => ?_)
    all_goals rw [h1] at hr1 hl1
    all_goals replace hl1 : Looked w.nextFd w w1 := hl1
    · have hin : InputOf s input w w1 e := by
        rcases hr1 with ⟨q, i, sc, _, hq, he⟩ | ⟨q, _, he⟩ | ⟨_, _, _, he, _⟩
        · cases he
          exact .inr ⟨w.nextFd, q, i, rfl, hq, opened_fd { w with sched := sc } i, Nat.lt_succ_self _⟩
        · cases he; exact .inl ⟨_, rfl⟩
        · cases he
      have hsame : w1.stdin = w.stdin ∧ w1.tty = w.tty ∧ w1.env = w.env ∧ w1.rng = w.rng := by
        rcases hr1 with ⟨q, i, sc, _, hq, he⟩ | ⟨q, _, he⟩ | ⟨_, _, _, he, _⟩ <;> cases he <;> exact ⟨rfl, rfl, rfl, rfl⟩
      have hr2 := readHeader_cases s params.header w1
      refine wp_bind (fun hf w2 h2 => ?_) (fun e w2 h2 => ?_) (fun e w2 h2 => ?_)
      all_goals rw [h2] at hr2
      · rcases hr2 with ⟨hf', w2', hx, hhd, hl2, hge, hs1, hs2, hs3, hs4⟩ | ⟨_, _, hx, _⟩
        · cases hx
          have hl3 := (getSecret_looks w2.nextFd s.words s.cwd params.key .direct w2 (Nat.le_refl _)).1
          refine wp_bind (fun secret w3 h3 => ?_) (fun e w3 h3 => ?_) (fun e w3 h3 => ?_)
          all_goals rw [h3] at hl3
          all_goals replace hl3 : Looked w2.nextFd w2 w3 := hl3
          all_goals have hl13 : Looked w.nextFd w w3 := (hl1.trans (hl2.mono hl1.nextFd)).trans (hl3.mono (Nat.le_trans hl1.nextFd hl2.nextFd))
          · obtain ⟨hne, hsup⟩ := getSecret_ok h3
            have hout : (∀ n, params.key ≠ .generate n) → w3.out = w.out := fun hk => by
              have e1 := (readInput_still (toPath s.cwd input) w).2.2
              have e2 := (readHeader_still s params.header w1).2.2
              have e3 := (getSecret_still s.words s.cwd params.key hk w2).2.2
              rw [h1] at e1
              rw [h2] at e2
              rw [h3] at e3
              exact e3.trans (e2.trans e1)
            have hin3 := (hin.later hl2.fds hl2.nextFd).later hl3.fds hl3.nextFd
            have hhd' : HeaderOf s params.header w w3 hf := by
              rcases hhd.later hl3.fds hl3.nextFd with h | ⟨hd, e, ⟨p, q, e2, hq⟩ | ⟨g2, qh, k, e2, hlh, g3, g4⟩⟩
              · exact .inl h
              · exact .inr ⟨hd, e, .inl ⟨p, q, e2, ⟨by rw [← hl1.resolve]; exact hq.resolve, by rw [← hl1.look]; exact hq.look⟩⟩⟩
              · exact .inr ⟨hd, e, .inr ⟨g2, qh, k, e2, (hl1.leads _ _ _).1 hlh, g3, g4⟩⟩
            have hsup' : Supplies s.words s.cwd .direct params.key w secret :=
              Supplies.congr (hl1.file.symm.trans hl2.file.symm) (hl1.dir.symm.trans hl2.dir.symm) (hsame.1.symm.trans hs1.symm) (hsame.2.1.symm.trans hs2.symm)
                (hsame.2.2.1.symm.trans hs3.symm) (hsame.2.2.2.symm.trans hs4.symm) hsup
            rcases hin3 with ⟨p, rfl⟩ | ⟨hi, q, i, rfl, g1, g2, g3⟩
            · exact .inl ⟨(fun h => by cases h), hl13⟩
            · rw [show ∀ (K : Nat → Prog Error Unit), (streamOf (.file (toPath s.cwd input) hi) >>= K) = K hi from fun _ => rfl]
              refine wp_bind (fun u w4 h4 => ?_) (fun e w4 h4 => ?_) (fun e w4 h4 => ?_)
              all_goals
                obtain ⟨r1, he, hr⟩ := mapErr_run h4
                cases r1 <;> cases hr
              · exact .inr ⟨w3, w4, _, hi, hf, secret, q, i, hl13, g1, g2, g3, hhd', hne, hsup', he, .inl ⟨rfl, rfl⟩, hout⟩
              · exact .inr ⟨w3, w4, _, hi, hf, secret, q, i, hl13, g1, g2, g3, hhd', hne, hsup', he, .inr ⟨by simp, by simp, rfl⟩, hout⟩
              · exact .inr ⟨w3, w4, _, hi, hf, secret, q, i, hl13, g1, g2, g3, hhd', hne, hsup', he, .inr ⟨by simp, by simp, rfl⟩, hout⟩
          · exact .inl ⟨by simp, hl13⟩
          · exact .inl ⟨by simp, hl13⟩
        · cases hx
      · rcases hr2 with ⟨_, _, hx, _⟩ | ⟨_, _, hx, hl2⟩
        · cases hx
        · cases hx
          exact .inl ⟨by simp, hl1.trans (hl2.mono hl1.nextFd)⟩
      · rcases hr2 with ⟨_, _, hx, _⟩ | ⟨_, _, hx, hl2⟩ <;> cases hx
    · exact .inl ⟨by simp, hl1⟩
    · exact .inl ⟨by simp, hl1⟩
  unfold wp at key
  rw [hrun] at key
  exact key

end Volaris.Cli
