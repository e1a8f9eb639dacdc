import Verif.Proofs.BothDir
/-!
# Running a command on two machines
-/
namespace Volaris.Cli
open Volaris.Spec
variable {ε ε' α β σ : Type} {K : Nat → Differ} {L : Path → Differ} {f : Bytes → Bytes}

/-! ## prompt.rs -/

theorem Alike.setStdin {w v : World} (hR : Alike K L f w v) (lines : List String) : Alike K L f { w with stdin := lines } { v with stdin := lines } := by
  obtain ⟨⟨g, rfl, hg⟩, hs, hf⟩ := hR
  exact ⟨⟨g, rfl, hg⟩, hs, hf⟩

theorem Alike.setTty {w v : World} (hR : Alike K L f w v) (entries : List Bytes) : Alike K L f { w with tty := entries } { v with tty := entries.map f } := by
  obtain ⟨⟨g, rfl, hg⟩, hs, hf⟩ := hR
  exact ⟨⟨g, rfl, hg⟩, hs, hf⟩

theorem _root_.Volaris.Alike.out {w v : World} (hR : Alike K L f w v) : v.out = w.out := by obtain ⟨⟨g, rfl, hg⟩, _, _⟩ := hR; rfl

theorem both_say (line : List Char) {w v : World} (hR : Alike K L f w v) : Both (ε := ε) K L f (fun _ _ _ => True) (say line) (say line) w v := by
  refine ⟨?_, ⟨Nat.le_refl _, fun _ _ => rfl⟩, .ok trivial⟩
  obtain ⟨⟨g, rfl, hg⟩, hs, hf⟩ := hR
  refine ⟨⟨g, ?_, hg⟩, hs, hf⟩
  show { twin f g w with out := (⟨w.log.length, w.stdin.length, (w.tty.map f).length, line⟩ : Printed) :: w.out } = _
  rw [List.length_map]
  rfl

theorem both_setStdin (lines : List String) {w v : World} (hR : Alike K L f w v) : Both (ε := ε) K L f (fun _ _ _ => True) (setStdin lines) (setStdin lines) w v :=
  ⟨Alike.setStdin hR lines, ⟨Nat.le_refl _, fun _ _ => rfl⟩, .ok trivial⟩

theorem both_setTty (entries : List Bytes) {w v : World} (hR : Alike K L f w v) : Both (ε := ε) K L f (fun _ _ _ => True) (setTty entries) (setTty (entries.map f)) w v :=
  ⟨Alike.setTty hR entries, ⟨Nat.le_refl _, fun _ _ => rfl⟩, .ok trivial⟩

theorem both_answerLoop (p : List Char) (default : Bool) : ∀ (lines : List String) {w v : World}, Alike K L f w v → Both K L f (fun a b _ => a = b) (answerLoop p default lines) (answerLoop p default lines) w v
  | [], _, _, hR => (both_say _ hR).bind fun _ _ _ _ _ hR _ => ((both_sys hR).mapErr _).bind fun _ _ _ _ _ hR _ => ((both_sysRetry hR).mapErr _).bind fun _ _ _ _ _ hR _ => .throw hR _
  | line :: lines, _, _, hR => by
    unfold answerLoop
    refine (both_say _ hR).bind fun _ _ _ _ _ hR _ => ((both_sys hR).mapErr _).bind fun _ _ _ _ _ hR _ => ((both_sysRetry hR).mapErr _).bind fun _ _ _ _ _ hR _ => (both_setStdin lines hR).bind fun _ _ w v _ hR _ => ?_
    cases line.toList with
    | nil => exact .throw hR _
    | cons c cs =>
      simp only []
      cases meaning default c with
      | some b => exact .pure hR rfl
      | none => exact (both_say _ hR).bind fun _ _ _ _ _ hR _ => both_answerLoop p default lines hR

theorem both_getAnswer (p : List Char) (default : Bool) (force : ForceMode) {w v : World} (hR : Alike K L f w v) : Both K L f (fun a b _ => a = b) (getAnswer p default force) (getAnswer p default force) w v := by
  cases force with
  | forced => exact .pure hR rfl
  | prompt =>
    have g := both_answerLoop p default w.stdin hR
    have e : getAnswer p default .prompt v = answerLoop p default w.stdin v := by show answerLoop p default v.stdin v = _; rw [hR.stdin]
    exact ⟨by rw [e]; exact g.alike, g.later, by rw [e]; exact g.results⟩

theorem both_overwriteCheck (cwd : Path) (name : List Char) (force : ForceMode) {w v : World} (hR : Alike K L f w v) : Both K L f (fun a b _ => a = b) (overwriteCheck cwd name force) (overwriteCheck cwd name force) w v := by
  unfold overwriteCheck
  refine (both_existsAt _ hR).bind ?_
  rintro b _ w v rfl hR _
  split
  · exact both_getAnswer _ true force hR
  · exact .pure hR rfl

theorem both_consent (cwd : Path) (name : List Char) (force : ForceMode) {w v : World} (hR : Alike K L f w v) : Both K L f (fun _ _ _ => True) (consent cwd name force) (consent cwd name force) w v := by
  unfold consent
  refine (both_overwriteCheck cwd name force hR).bind ?_
  rintro b _ w v rfl hR _
  split
  · exact .pure hR trivial
  · exact .lift hR (.abort _)

/-! ## Secrets -/

/-- The two machines have passwords that the password hash does not tell apart. -/
structure Covers (C : Crypto) (f : Bytes → Bytes) (d : Differ) : Prop where
  within : d.within .content
  typed : ∀ k, SameHash C k (f k)
  read : ∀ k k', d.allows k k' → SameHash C k k'
  inj : ∀ k k', f k = f k' → k = k'
  empty : ∀ k, f k = [] ↔ k = []

/-- The same passwords. -/
theorem covers_same (C : Crypto) : Covers C id .no :=
  ⟨trivial, fun _ _ _ => rfl, fun k k' h => by cases h; exact fun _ _ => rfl, fun _ _ h => h, fun _ => Iff.rfl⟩

/-- Different passwords. -/
theorem covers_blind {C : Crypto} (hC : PasswordBlind C) {f : Bytes → Bytes} (hi : ∀ k k', f k = f k' → k = k') (he : ∀ k, f k = [] ↔ k = []) : Covers C f .content :=
  ⟨trivial, fun k fn s => hC fn k (f k) s, fun k k' _ fn s => hC fn k k' s, hi, he⟩

/-- Two secrets that are used alike. -/
def SameSecret (C : Crypto) (k k' : Bytes) : Prop := SameHash C k k' ∧ (k = [] ↔ k' = [])

theorem SameSecret.refl (C : Crypto) (k : Bytes) : SameSecret C k k := ⟨fun _ _ => rfl, Iff.rfl⟩

theorem both_directPassword {C : Crypto} {d : Differ} (hC : Covers C f d) : ∀ (entries : List Bytes) {w v : World}, Alike K L f w v →
    Both K L f (fun a b _ => SameSecret C a b) (directPassword entries) (directPassword (entries.map f)) w v
  | [], _, _, hR => .throw hR _
  | a :: rest, _, _, hR => ((both_sysRetry hR).mapErr _).bind fun _ _ _ _ _ hR _ => (both_setTty rest hR).bind fun _ _ _ _ _ hR _ => .pure hR ⟨hC.typed a, (hC.empty a).symm⟩

theorem both_confirmLoop {C : Crypto} {d : Differ} (hC : Covers C f d) : ∀ (entries : List Bytes) {w v : World}, Alike K L f w v →
    Both K L f (fun a b _ => SameSecret C a b) (confirmLoop entries) (confirmLoop (entries.map f)) w v
  | [], _, _, hR => .throw hR _
  | [a], _, _, hR => ((both_sysRetry hR).mapErr _).bind fun _ _ _ _ _ hR _ => (both_setTty [] hR).bind fun _ _ _ _ _ hR _ => .throw hR _
  | a :: b :: rest, _, _, hR => by
    unfold confirmLoop
    refine ((both_sysRetry hR).mapErr _).bind fun _ _ _ _ _ hR _ => (both_setTty (b :: rest) hR).bind fun _ _ _ _ _ hR _ => ((both_sysRetry hR).mapErr _).bind fun _ _ _ _ _ hR _ =>
      (both_setTty rest hR).bind fun _ _ w v _ hR _ => ?_
    by_cases h : a = b ∧ a ≠ []
    · have h' : f a = f b ∧ f a ≠ [] := ⟨by rw [h.1], fun e => h.2 ((hC.empty a).1 e)⟩
      rw [if_pos h, if_pos h']
      exact .pure hR ⟨hC.typed a, (hC.empty a).symm⟩
    · have h' : ¬ (f a = f b ∧ f a ≠ []) := fun g => h ⟨hC.inj a b g.1, fun e => g.2 ((hC.empty a).2 e)⟩
      rw [if_neg h, if_neg h', ite_congr (propext (hC.empty a)) (fun _ => rfl) (fun _ => rfl)]
      exact (both_say _ hR).bind fun _ _ _ _ _ hR _ => both_confirmLoop hC rest hR

theorem both_getPassword {C : Crypto} {d : Differ} (hC : Covers C f d) (state : PasswordState) {w v : World} (hR : Alike K L f w v) :
    Both K L f (fun a b _ => SameSecret C a b) (getPassword state) (getPassword state) w v := by
  cases state with
  | direct =>
    have g := both_directPassword hC w.tty hR
    have e : getPassword .direct v = directPassword (w.tty.map f) v := by unfold getPassword; rw [hR.tty]
    exact ⟨by rw [e]; exact g.alike, g.later, by rw [e]; exact g.results⟩
  | validate =>
    have g := both_confirmLoop hC w.tty hR
    have e : getPassword .validate v = confirmLoop (w.tty.map f) v := by unfold getPassword; rw [hR.tty]
    exact ⟨by rw [e]; exact g.alike, g.later, by rw [e]; exact g.results⟩

theorem both_readStdin {w v : World} (hR : Alike K L f w v) : Both K L f (fun a b _ => a = b) readStdin readStdin w v := by
  have g : Both K L f (fun a b _ => a = b) (do sysRetry.mapErr fun _ => Error.readData; setStdin []; pure (stdinBytes w.stdin)) (do sysRetry.mapErr fun _ => Error.readData; setStdin []; pure (stdinBytes w.stdin)) w v :=
    ((both_sysRetry hR).mapErr _).bind fun _ _ _ _ _ hR _ => (both_setStdin [] hR).bind fun _ _ _ _ _ hR _ => .pure hR rfl
  have e : readStdin v = (do sysRetry.mapErr fun _ => Error.readData; setStdin []; pure (stdinBytes w.stdin) : Prog Error Bytes) v := by unfold readStdin; rw [hR.stdin]
  exact ⟨by rw [e]; exact g.alike, g.later, by rw [e]; exact g.results⟩

theorem both_readKeyfile {C : Crypto} {d : Differ} (hC : Covers C f d) {p : PathBuf} (hL : (L (onPaper p)).within d) {w v : World} (hR : Alike K L f w v) :
    Both K L f (fun a b _ => SameSecret C a b) (readKeyfile p) (readKeyfile p) w v := by
  unfold readKeyfile
  refine ((both_openFile hL hR).mapErr _).bind ?_
  rintro h _ w v ⟨rfl, hh⟩ hR _
  refine ((both_readToEnd hC.within hR hh).mapErr _).bind fun a b w v hab hR _ => ?_
  have hl := Differ.allows_len hC.within hab
  have hn : a = [] ↔ b = [] := by rw [← List.length_eq_zero_iff, ← List.length_eq_zero_iff, hl]
  by_cases h : a = []
  · rw [if_pos h, if_pos (hn.1 h)]; exact .throw hR _
  · rw [if_neg h, if_neg (fun g => h (hn.2 g))]; exact .pure hR ⟨hC.read a b hab, hn⟩

theorem both_readEnv {C : Crypto} {d : Differ} (hC : Covers C f d) {w v : World} (hR : Alike K L f w v) : Both K L f (fun a b _ => SameSecret C a b) readEnv readEnv w v := by
  cases he : w.env with
  | none =>
    have ew : readEnv w = (.err .noEnv, w) := by unfold readEnv; rw [he]
    have ev : readEnv v = (.err .noEnv, v) := by unfold readEnv; rw [hR.env, he]; rfl
    exact .done ew ev hR (Later.refl _) (by intro a h; cases h)
  | some x =>
    have ew : readEnv w = (.ok x, w) := by unfold readEnv; rw [he]
    have ev : readEnv v = (.ok (f x), v) := by unfold readEnv; rw [hR.env, he]; rfl
    exact ⟨by rw [ew, ev]; exact hR, by rw [ew]; exact Later.refl _, by rw [ew, ev]; exact .ok ⟨hC.typed x, (hC.empty x).symm⟩⟩

theorem both_passphraseLoop (words : List (List Char)) : ∀ (n : Nat) (acc : List Char) {w v : World}, Alike K L f w v →
    Both (ε := ε) K L f (fun a b _ => a = b) (passphraseLoop words n acc) (passphraseLoop words n acc) w v
  | 0, _, _, _, hR => .pure hR rfl
  | n + 1, acc, _, _, hR => by
    unfold passphraseLoop
    refine Both.bind (P := fun a b _ => a = b) ((both_genBytes 8 hR).bind fun a b _ _ g hR _ => .pure hR (by rw [g])) ?_
    rintro i _ w v rfl hR _
    cases words[i]? with
    | none => exact .panic hR
    | some word => exact both_passphraseLoop words n _ hR

/-- Where the key file is, if there is one. -/
def KeyPlace (L : Path → Differ) (cwd : Path) (d : Differ) : Key → Prop
  | .keyfile path => path = ['-'] ∨ (L (onPaper (toPath cwd path))).within d
  | _ => True

theorem both_fetch {C : Crypto} {d : Differ} (hC : Covers C f d) (words : List (List Char)) (cwd : Path) (state : PasswordState) {key : Key} (hk : KeyPlace L cwd d key) {w v : World} (hR : Alike K L f w v) :
    Both K L f (fun a b _ => SameSecret C a b) (fetch words cwd state key) (fetch words cwd state key) w v := by
  unfold fetch
  cases key with
  | keyfile path =>
    simp only []
    by_cases hp : path = ['-']
    · rw [if_pos hp]
      refine (both_readStdin hR).bind ?_
      rintro s _ w v rfl hR _
      split
      · exact .throw hR _
      · exact .pure hR (.refl C _)
    · rw [if_neg hp]
      exact both_readKeyfile hC (hk.resolve_left hp) hR
  | env => exact both_readEnv hC hR
  | user => exact both_getPassword hC state hR
  | generate i =>
    refine (both_passphraseLoop words _ [] hR).bind ?_
    rintro s _ w v rfl hR _
    exact (both_say _ hR).bind fun _ _ _ _ _ hR _ => .pure hR (.refl C _)

theorem both_getSecret {C : Crypto} {d : Differ} (hC : Covers C f d) (words : List (List Char)) (cwd : Path) {key : Key} (hk : KeyPlace L cwd d key) (state : PasswordState) {w v : World} (hR : Alike K L f w v) :
    Both K L f (fun a b _ => SameHash C a b) (getSecret words cwd key state) (getSecret words cwd key state) w v := by
  unfold getSecret
  refine (both_fetch hC words cwd state hk hR).bind fun a b w v hab hR _ => ?_
  by_cases h : a = []
  · rw [if_pos h, if_pos (hab.2.1 h)]; exact .throw hR _
  · rw [if_neg h, if_neg (fun g => h (hab.2.2 g))]; exact .pure hR hab.1

/-! ## The pieces of the commands -/

theorem both_openOutput {p : PathBuf} {d : Differ} (hL : (L (onPaper p)).within d) {w v : World} (hR : Alike K L f w v) :
    Both K L f (fun a b w' => a = b ∧ EntryHolds K d a w') (openOutput p) (openOutput p) w v :=
  (Both.orElse ((both_createFile p hR).mono fun _ _ _ _ g => ⟨g.1, g.2.1.mono (d := .no) trivial⟩) fun w' v' hR' _ => (both_writeFile hL hR').mono fun _ _ _ _ g => ⟨g.1, g.2.1⟩).mapErr _

theorem any_within (d : Differ) : d.within .anyhow := by cases d <;> trivial

theorem both_readInput {p : PathBuf} {d : Differ} (hL : (L (onPaper p)).within d) {w v : World} (hR : Alike K L f w v) :
    Both K L f (fun a b w' => a = b ∧ EntryHolds K d a w' ∧ a.path = p) (readInput p) (readInput p) w v := (both_readFile hL hR).mapErr _

theorem both_streamOf {e : Storage.Entry} {d : Differ} {w v : World} (hR : Alike K L f w v) (he : EntryHolds K d e w) : Both K L f (fun a b w' => a = b ∧ Holds K d a w') (streamOf e) (streamOf e) w v := by
  cases e with
  | file p h => exact .lift hR (.ok ⟨rfl, he⟩)
  | dir p => exact .lift hR (.err _)

theorem both_openHeader (s : Sys σ) (force : ForceMode) (header : Option (List Char)) {w v : World} (hR : Alike K L f w v) : Both K L f (fun a b _ => a = b) (openHeader s force header) (openHeader s force header) w v := by
  cases header with
  | none => exact .pure hR rfl
  | some path =>
    refine (both_consent _ _ force hR).bind fun _ _ _ _ _ hR _ => ?_
    refine (both_openOutput (any_within _) hR).bind ?_
    rintro e _ w v ⟨rfl, _⟩ hR _
    exact .pure hR rfl

/-- Where the header is. -/
def HeaderPlace (L : Path → Differ) (cwd : Path) (d : Differ) (header : Option (List Char)) : Prop := ∀ path, header = some path → (L (onPaper (toPath cwd path))).within d

theorem both_readHeader (s : Sys σ) {d : Differ} {header : Option (List Char)} (hL : HeaderPlace L s.cwd d header) {w v : World} (hR : Alike K L f w v) :
    Both K L f (fun a b w' => a = b ∧ OptHolds K d (optStream a) w') (readHeader s header) (readHeader s header) w v := by
  cases header with
  | none => exact .pure hR ⟨rfl, fun h e => by cases e⟩
  | some path =>
    refine (both_readInput (hL path rfl) hR).bind ?_
    rintro e _ w v ⟨rfl, he, _⟩ hR _
    refine .pure hR ⟨rfl, fun h g => ?_⟩
    cases e with
    | file p h' => cases g; exact he
    | dir p => cases g

theorem both_flushOpt (header : Option Storage.Entry) {w v : World} (hR : Alike K L f w v) : Both K L f (fun _ _ _ => True) (flushOpt header) (flushOpt header) w v := by
  cases header with
  | none => exact .pure hR trivial
  | some e => exact (both_flushFile e hR).mapErr _

theorem both_hashStream (s : Sys σ) : ∀ (files : List (List Char)) {w v : World}, (∀ x ∈ files, (L (onPaper (toPath s.cwd x))).within .no) → Alike K L f w v →
    Both K L f (fun a b _ => a = b) (hashStream s files) (hashStream s files) w v
  | [], _, _, _, hR => .pure hR rfl
  | x :: files, _, _, hL, hR => by
    unfold hashStream
    refine ((both_openFile (hL x (by simp)) hR).mapErr _).bind ?_
    rintro h _ w v ⟨rfl, hh⟩ hR _
    refine ((both_hash s.H (d := .no) trivial hR hh).mapErr _).bind fun a b w v hab hR _ => ?_
    cases hab rfl
    refine (both_say _ hR).bind fun _ _ w v _ hR _ => ?_
    refine (both_hashStream s files (fun y hy => hL y (by simp [hy])) hR).bind ?_
    rintro as _ w v rfl hR _
    exact .pure hR rfl

theorem both_hashIf (s : Sys σ) (mode : HashMode) {file : List Char} (hL : mode = .calculateHash → (L (onPaper (toPath s.cwd file))).within .no) {w v : World} (hR : Alike K L f w v) :
    Both K L f (fun _ _ _ => True) (hashIf s mode file) (hashIf s mode file) w v := by
  cases mode with
  | calculateHash => exact (both_hashStream s [file] (fun x hx => by simp at hx; rw [hx]; exact hL rfl) hR).bind fun _ _ _ _ _ hR _ => .pure hR trivial
  | noHash => exact .pure hR trivial

theorem both_secureErase (s : Sys σ) {d : Differ} (hd : d.within .content) {input : List Char} (hL : Under L d (onPaper (toPath s.cwd input))) (passes : Int) (force : ForceMode) {w v : World} (hR : Alike K L f w v) :
    Both K L f (fun _ _ _ => True) (secureErase s input passes force) (secureErase s input passes force) w v := by
  unfold secureErase
  refine (both_readInput hL.self hR).bind ?_
  rintro e _ w v ⟨rfl, _, hp⟩ hR _
  split
  · refine (both_getAnswer _ false force hR).bind ?_
    rintro b _ w v rfl hR _
    split
    · exact (both_eraseDir hd s.order (by rw [hp]; exact hL) passes hR).mapErr _
    · exact .lift hR (.abort _)
  · exact (both_erase hd hL.self passes hR).mapErr _

theorem both_eraseIf (s : Sys σ) {d : Differ} (hd : d.within .content) (mode : EraseMode) (force : ForceMode) {input : List Char} (hL : Under L d (onPaper (toPath s.cwd input))) {w v : World} (hR : Alike K L f w v) :
    Both K L f (fun _ _ _ => True) (eraseIf s mode force input) (eraseIf s mode force input) w v := by
  cases mode with
  | eraseFile passes => exact both_secureErase s hd hL passes force hR
  | ignoreFile => exact .pure hR trivial

/-! ## encrypt, decrypt, pack, hash, erase -/

theorem both_encryptBody (s : Sys σ) {d : Differ} (hd : d.within .content) (hC : SameText s.C d) (params : CryptoParams) (a : Algorithm) {input : Storage.Entry} (output : Storage.Entry) (header : Option Storage.Entry) {k k' : Bytes}
    (hk : SameHash s.C k k') {w v : World} (hR : Alike K L f w v) (hi : EntryHolds K d input w) :
    Both K L f (fun _ _ _ => True) (encryptBody s params a input output header k) (encryptBody s params a input output header k') w v := by
  unfold encryptBody
  refine (both_streamOf hR hi).bind ?_
  rintro r _ w v ⟨rfl, hr⟩ hR _
  refine (Both.same hR _).bind ?_
  rintro o _ w v rfl hR hl
  exact ((both_encrypt hd hC { reader := r, writer := o, headerWriter := optStream header, rawKey := k, headerType := headerType a, hashingAlgorithm := params.hashingAlgorithm } hk hR (hr.later hl)).mapErr _).bind
    fun _ _ _ _ _ hR _ => (both_flushOpt header hR).bind fun _ _ _ _ _ hR _ => (both_flushFile output hR).mapErr _

theorem both_encryptMode (s : Sys σ) {d dk : Differ} (hd : d.within .content) (hC : SameText s.C d) (hK : Covers s.C f dk) {input output : List Char} {params : CryptoParams} (a : Algorithm)
    (hi : (L (onPaper (toPath s.cwd input))).within d) (hk : KeyPlace L s.cwd dk params.key) (ho : params.hashMode = .calculateHash → (L (onPaper (toPath s.cwd output))).within .no) (he : Under L .content (onPaper (toPath s.cwd input)))
    {w v : World} (hR : Alike K L f w v) : Both K L f (fun _ _ _ => True) (encryptMode s input output params a) (encryptMode s input output params a) w v := by
  unfold encryptMode
  split
  · exact .throw hR _
  · refine (both_consent _ _ _ hR).bind fun _ _ w v _ hR _ => ?_
    refine (both_readInput hi hR).bind ?_
    rintro ie _ w v ⟨rfl, hie, _⟩ hR _
    refine (both_getSecret hK s.words s.cwd hk .validate hR).bind fun k k' w v hkk hR hl => ?_
    have hie := hie.later hl
    refine (both_openOutput (any_within _) hR).bind ?_
    rintro oe _ w v ⟨rfl, _⟩ hR hl
    have hie := hie.later hl
    refine (both_openHeader s params.force params.header hR).bind ?_
    rintro he' _ w v rfl hR hl
    have hie := hie.later hl
    refine (both_encryptBody s hd hC params a oe he' hkk hR hie).bind fun _ _ w v _ hR _ => ?_
    refine (both_hashIf s params.hashMode ho hR).bind fun _ _ w v _ hR _ => ?_
    exact both_eraseIf s (d := .content) trivial params.erase params.force he hR

theorem both_decryptBody (s : Sys σ) {input : Storage.Entry} (output : Storage.Entry) {header : Option Storage.Entry} {k k' : Bytes} (hk : SameHash s.C k k') {w v : World} (hR : Alike K L f w v)
    (hi : EntryHolds K .no input w) (hh : OptHolds K .no (optStream header) w) : Both K L f (fun _ _ _ => True) (decryptBody s input output header k) (decryptBody s input output header k') w v := by
  unfold decryptBody
  refine (both_streamOf hR hi).bind ?_
  rintro r _ w v ⟨rfl, hr⟩ hR hl
  have hh := hh.later hl
  refine (Both.same hR _).bind ?_
  rintro o _ w v rfl hR hl
  exact ((both_decrypt { headerReader := optStream header, reader := r, writer := o, rawKey := k } hk hR (hr.later hl) (hh.later hl)).mapErr _).bind fun _ _ _ _ _ hR _ => (both_flushFile output hR).mapErr _

theorem both_decryptMode (s : Sys σ) {dk : Differ} (hK : Covers s.C f dk) {input : List Char} (output : List Char) {params : CryptoParams} (hi : (L (onPaper (toPath s.cwd input))).within .no)
    (hh : HeaderPlace L s.cwd .no params.header) (hk : KeyPlace L s.cwd dk params.key) (he : Under L .content (onPaper (toPath s.cwd input)))
    {w v : World} (hR : Alike K L f w v) : Both K L f (fun _ _ _ => True) (decryptMode s input output params) (decryptMode s input output params) w v := by
  unfold decryptMode
  split
  · exact .throw hR _
  · refine (both_consent _ _ _ hR).bind fun _ _ w v _ hR _ => ?_
    refine (both_readInput hi hR).bind ?_
    rintro ie _ w v ⟨rfl, hie, _⟩ hR _
    refine (both_readHeader s hh hR).bind ?_
    rintro hde _ w v ⟨rfl, hhd⟩ hR hl
    have hie := hie.later hl
    refine (both_getSecret hK s.words s.cwd hk .direct hR).bind fun k k' w v hkk hR hl => ?_
    have hie := hie.later hl
    have hhd := hhd.later hl
    refine (both_openOutput (any_within _) hR).bind ?_
    rintro oe _ w v ⟨rfl, _⟩ hR hl
    refine (both_decryptBody s oe hkk hR (hie.later hl) (hhd.later hl)).bind fun _ _ w v _ hR _ => ?_
    refine (both_hashIf s params.hashMode (fun _ => hi) hR).bind fun _ _ w v _ hR _ => ?_
    exact both_eraseIf s (d := .content) trivial params.erase params.force he hR

theorem both_anyFile (ps : List PathBuf) {w v : World} (hR : Alike K L f w v) : Both (ε := ε) K L f (fun a b _ => a = b) (anyFile ps) (anyFile ps) w v := by
  refine .looked hR _ rfl ?_ (fun _ _ => rfl)
  unfold anyFile
  congr 2
  congr 1
  funext p
  rw [hR.resolve]
  cases w.resolve p with
  | ok q => simp only [hR.look]
  | error e => rfl

theorem both_readInputs (s : Sys σ) {d : Differ} : ∀ (inputs : List (List Char)) {w v : World}, (∀ x ∈ inputs, Under L d (onPaper (toPath s.cwd x))) → Alike K L f w v →
    Both K L f (fun a b w' => a = b ∧ EntriesHold K d a w' ∧ ∀ e ∈ a, Under L d (onPaper e.path)) (readInputs s inputs) (readInputs s inputs) w v
  | [], _, _, _, hR => .pure hR ⟨rfl, fun _ h => (by cases h), fun _ h => (by cases h)⟩
  | x :: xs, _, _, hL, hR => by
    unfold readInputs
    refine (both_readInput (hL x (by simp)).self hR).bind ?_
    rintro e _ w v ⟨rfl, he, hp⟩ hR _
    refine (both_readInputs s xs (fun y hy => hL y (by simp [hy])) hR).bind ?_
    rintro es _ w v ⟨rfl, hes, hps⟩ hR hl
    refine .pure hR ⟨rfl, ?_, ?_⟩
    · intro y hy
      rcases List.mem_cons.1 hy with rfl | hy
      · exact he.later hl
      · exact hes y hy
    · intro y hy
      rcases List.mem_cons.1 hy with rfl | hy
      · rw [hp]; exact hL x (by simp)
      · exact hps y hy

theorem both_expand {d : Differ} : ∀ (es : List Storage.Entry) {w v : World}, (∀ e ∈ es, Under L d (onPaper e.path)) → EntriesHold K d es w → Alike K L f w v →
    Both K L f (fun a b w' => a = b ∧ EntriesHold K d a w') (expand es) (expand es) w v
  | [], _, _, _, _, hR => .pure hR ⟨rfl, fun _ h => by cases h⟩
  | e :: es, w, v, hU, hE, hR => by
    unfold expand
    refine Both.bind (P := fun a b w' => a = b ∧ EntriesHold K d a w') ?_ ?_
    · cases e with
      | dir p => exact ((both_readDir (e := .dir p) (hU _ (by simp)) hR).mapErr _).mono fun _ _ _ _ g => ⟨g.1, g.2.1⟩
      | file p h => exact .pure hR ⟨rfl, fun x hx => by simp at hx; subst hx; exact hE _ (by simp)⟩
    · rintro files _ w v ⟨rfl, hf⟩ hR hl
      refine (both_expand es (fun x hx => hU x (by simp [hx])) (fun x hx => (hE x (by simp [hx])).later hl) hR).bind ?_
      rintro rest _ w v ⟨rfl, hr⟩ hR hl
      refine .pure hR ⟨rfl, fun x hx => ?_⟩
      rcases List.mem_append.1 hx with hx | hx
      · exact (hf x hx).later hl
      · exact hr x hx

theorem both_eraseInputs (s : Sys σ) {d : Differ} (hd : d.within .content) (force : ForceMode) : ∀ (inputs : List (List Char)) {w v : World}, (∀ x ∈ inputs, Under L d (onPaper (toPath s.cwd x))) → Alike K L f w v →
    Both K L f (fun _ _ _ => True) (eraseInputs s force inputs) (eraseInputs s force inputs) w v
  | [], _, _, _, hR => .pure hR trivial
  | x :: xs, _, _, hL, hR => (both_secureErase s hd (hL x (by simp)) 1 force hR).bind fun _ _ _ _ _ hR _ => both_eraseInputs s hd force xs (fun y hy => hL y (by simp [hy])) hR

theorem both_packMode (s : Sys σ) {dk : Differ} (hK : Covers s.C f dk) {inputs : List (List Char)} {output : List Char} (pp : PackParams) {params : CryptoParams} (a : Algorithm)
    (hi : ∀ x ∈ inputs, Under L .no (onPaper (toPath s.cwd x))) (hk : KeyPlace L s.cwd dk params.key) (ho : params.hashMode = .calculateHash → (L (onPaper (toPath s.cwd output))).within .no)
    {w v : World} (hR : Alike K L f w v) : Both K L f (fun _ _ _ => True) (packMode s inputs output pp params a) (packMode s inputs output pp params a) w v := by
  unfold packMode
  split
  · exact .throw hR _
  · refine (both_anyFile _ hR).bind ?_
    rintro b _ w v rfl hR _
    split
    · exact .throw hR _
    · refine (both_consent _ _ _ hR).bind fun _ _ w v _ hR _ => ?_
      refine (both_readInputs s inputs hi hR).bind ?_
      rintro es _ w v ⟨rfl, hes, hU⟩ hR _
      refine (both_getSecret hK s.words s.cwd hk .validate hR).bind fun k k' w v hkk hR hl => ?_
      have hes := hes.later hl
      refine (both_openOutput (any_within _) hR).bind ?_
      rintro oe _ w v ⟨rfl, _⟩ hR hl
      have hes := hes.later hl
      refine (both_openHeader s params.force params.header hR).bind ?_
      rintro he' _ w v rfl hR hl
      have hes := hes.later hl
      refine Both.bind (P := fun _ _ _ => True) ?_ fun _ _ w v _ hR _ => ?_
      · unfold packBody
        refine (both_expand es hU hes hR).bind ?_
        rintro fs _ w v ⟨rfl, hfs⟩ hR _
        refine (Both.same hR _).bind ?_
        rintro o _ w v rfl hR hl
        exact ((both_pack s.z s.tmp { writer := o, compressFiles := fs, headerWriter := optStream he', rawKey := k, headerType := headerType a, hashingAlgorithm := params.hashingAlgorithm } hkk hR (hfs.later hl)).mapErr _).bind
          fun _ _ _ _ _ hR _ => (both_flushOpt he' hR).bind fun _ _ _ _ _ hR _ => (both_flushFile oe hR).mapErr _
      · refine (both_hashIf s params.hashMode ho hR).bind fun _ _ w v _ hR _ => ?_
        split
        · exact both_eraseInputs s (d := .no) trivial params.force inputs hi hR
        · exact .pure hR trivial

/-! ## key and header commands -/

theorem both_openV5 (s : Sys σ) {input : List Char} (hi : (L (onPaper (toPath s.cwd input))).within .no) {w v : World} (hR : Alike K L f w v) :
    Both K L f (fun a b w' => a = b ∧ Holds K .no a w') (openV5 s input) (openV5 s input) w v := by
  unfold openV5
  refine ((both_openFile hi hR).mapErr _).bind ?_
  rintro h _ w v ⟨rfl, hh⟩ hR _
  refine ((both_deserialize hR hh).mapErr _).bind ?_
  rintro ⟨header, aad⟩ _ w v rfl hR hl
  have hh := hh.later hl
  simp only []
  split
  · exact .throw hR _
  · exact ((both_rewind h hR).mapErr _).bind fun _ _ _ _ _ hR hl => .pure hR ⟨rfl, hh.later hl⟩

theorem both_announce (key : Key) (line : String) {w v : World} (hR : Alike K L f w v) : Both K L f (fun _ _ _ => True) (announce key line) (announce key line) w v := by
  unfold announce
  split
  · exact both_say _ hR
  · exact .pure hR trivial

theorem both_keyAddCmd (s : Sys σ) {dk : Differ} (hK : Covers s.C f dk) {input : List Char} {params : KeyManipulationParams} (hi : (L (onPaper (toPath s.cwd input))).within .no) (ho : KeyPlace L s.cwd dk params.keyOld)
    (hn : KeyPlace L s.cwd dk params.keyNew) {w v : World} (hR : Alike K L f w v) : Both K L f (fun _ _ _ => True) (keyAdd s input params) (keyAdd s input params) w v := by
  unfold keyAdd
  refine (both_openV5 s hi hR).bind ?_
  rintro h _ w v ⟨rfl, hh⟩ hR _
  refine (both_announce _ _ hR).bind fun _ _ w v _ hR hl => ?_
  have hh := hh.later hl
  refine (both_getSecret hK s.words s.cwd ho .direct hR).bind fun k k' w v hkk hR hl => ?_
  have hh := hh.later hl
  refine (both_announce _ _ hR).bind fun _ _ w v _ hR hl => ?_
  have hh := hh.later hl
  refine (both_getSecret hK s.words s.cwd hn .validate hR).bind fun n n' w v hnn hR hl => ?_
  exact (both_keyAdd { handle := h, hashAlgorithm := params.hashingAlgorithm, rawKeyOld := k, rawKeyNew := n } hkk hnn hR (hh.later hl)).mapErr _

theorem both_keyChangeCmd (s : Sys σ) {dk : Differ} (hK : Covers s.C f dk) {input : List Char} {params : KeyManipulationParams} (hi : (L (onPaper (toPath s.cwd input))).within .no) (ho : KeyPlace L s.cwd dk params.keyOld)
    (hn : KeyPlace L s.cwd dk params.keyNew) {w v : World} (hR : Alike K L f w v) : Both K L f (fun _ _ _ => True) (keyChange s input params) (keyChange s input params) w v := by
  unfold keyChange
  refine (both_openV5 s hi hR).bind ?_
  rintro h _ w v ⟨rfl, hh⟩ hR _
  refine (both_announce _ _ hR).bind fun _ _ w v _ hR hl => ?_
  have hh := hh.later hl
  refine (both_getSecret hK s.words s.cwd ho .direct hR).bind fun k k' w v hkk hR hl => ?_
  have hh := hh.later hl
  refine (both_announce _ _ hR).bind fun _ _ w v _ hR hl => ?_
  have hh := hh.later hl
  refine (both_getSecret hK s.words s.cwd hn .validate hR).bind fun n n' w v hnn hR hl => ?_
  exact (both_keyChange { handle := h, hashAlgorithm := params.hashingAlgorithm, rawKeyOld := k, rawKeyNew := n } hkk hnn hR (hh.later hl)).mapErr _

theorem both_keyDeleteCmd (s : Sys σ) {dk : Differ} (hK : Covers s.C f dk) {input : List Char} {key : Key} (hi : (L (onPaper (toPath s.cwd input))).within .no) (ho : KeyPlace L s.cwd dk key) {w v : World} (hR : Alike K L f w v) :
    Both K L f (fun _ _ _ => True) (keyDelete s input key) (keyDelete s input key) w v := by
  unfold keyDelete
  refine (both_openV5 s hi hR).bind ?_
  rintro h _ w v ⟨rfl, hh⟩ hR _
  refine (both_announce _ _ hR).bind fun _ _ w v _ hR hl => ?_
  have hh := hh.later hl
  refine (both_getSecret hK s.words s.cwd ho .direct hR).bind fun k k' w v hkk hR hl => ?_
  exact (both_keyDelete hkk hR (hh.later hl)).mapErr _

theorem both_keyVerifyCmd (s : Sys σ) {dk : Differ} (hK : Covers s.C f dk) {input : List Char} {key : Key} (hi : (L (onPaper (toPath s.cwd input))).within .no) (ho : KeyPlace L s.cwd dk key) {w v : World} (hR : Alike K L f w v) :
    Both K L f (fun _ _ _ => True) (keyVerify s input key) (keyVerify s input key) w v := by
  unfold keyVerify
  refine (both_openV5 s hi hR).bind ?_
  rintro h _ w v ⟨rfl, hh⟩ hR _
  refine (both_announce _ _ hR).bind fun _ _ w v _ hR hl => ?_
  have hh := hh.later hl
  refine (both_getSecret hK s.words s.cwd ho .direct hR).bind fun k k' w v hkk hR hl => ?_
  exact (both_keyVerify hkk hR (hh.later hl)).mapErr _

/-! ## What an observer sees -/

theorem looksSame_of_both {x : Prog ε Unit} {w v : World} (hl : v.log = w.log) (h : Both K L f (fun _ _ _ => True) x x w v) : LooksSame x w v := by
  refine ⟨((h.results.mono (Q' := Eq) fun _ _ _ => rfl).eq).symm, fun es => ?_, h.alike.out⟩
  unfold Calls
  rw [hl, h.alike.log]

theorem looksSame_of_both_eq {x : Prog ε α} {w v : World} (hl : v.log = w.log) (h : Both K L f (fun a b _ => a = b) x x w v) : LooksSame x w v := by
  refine ⟨((h.results.mono (Q' := Eq) fun _ _ g => g).eq).symm, fun es => ?_, h.alike.out⟩
  unfold Calls
  rw [hl, h.alike.log]

end Volaris.Cli
