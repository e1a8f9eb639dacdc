import Verif.Proofs.Args
import Verif.Proofs.EndToEnd
import Verif.Proofs.Erase
import Verif.Proofs.Temp
/-!
# The steps of the commands
-/
namespace Volaris

theorem Shrinks.hashLoop {σ : Type} (H : HashCmd.Hasher σ) (h : Nat) : ∀ (fuel : Nat) (st : σ), Shrinks (HashCmd.loop H h fuel st)
  | 0, st => by
    unfold HashCmd.loop
    exact .bind (.mapErr _ (.read h _)) fun b => .ite (.pure _) (.lift _)
  | fuel + 1, st => by
    unfold HashCmd.loop
    exact .bind (.mapErr _ (.read h _)) fun b => .ite (.pure _) (hashLoop H h fuel _)

theorem Shrinks.hash {σ : Type} (H : HashCmd.Hasher σ) (h : Nat) : Shrinks (HashCmd.execute H h) := by
  unfold HashCmd.execute
  exact .bind (.mapErr _ (.rewind h)) fun _ => .bind (fun w => Shrinks.hashLoop H h _ _ w) fun _ => .pure _

/-- What holds of the outcome of a program. -/
def wp {ε α : Type} (x : Prog ε α) (Q : Res ε α → World → Prop) (w : World) : Prop := Q (x w).1 (x w).2

theorem wp_bind {ε α β : Type} {x : Prog ε α} {f : α → Prog ε β} {Q : Res ε β → World → Prop} {w : World}
    (hok : ∀ a w', x w = (.ok a, w') → wp (f a) Q w') (herr : ∀ e w', x w = (.err e, w') → Q (.err e) w')
    (habort : ∀ a w', x w = (.abort a, w') → Q (.abort a) w') : wp (x >>= f) Q w := by
  unfold wp
  rw [Prog.bind_run]
  rcases hx : x w with ⟨r, w'⟩
  cases r with
  | ok a => exact hok a w' hx
  | err e => exact herr e w' hx
  | abort a => exact habort a w' hx

theorem wp_mono {ε α : Type} {x : Prog ε α} {Q Q' : Res ε α → World → Prop} {w : World} (h : wp x Q w) (hq : ∀ r w', Q r w' → Q' r w') : wp x Q' w := hq _ _ h

end Volaris

namespace Volaris.Cli
open Volaris.Spec
variable {σ : Type}

theorem Looked.extracts {n : Nat} {D F : Path → Prop} {w w' : World} (h : Looked n w w') (hn : w.nextFd ≤ n) : Extracts D F w w' :=
  ⟨fun q => .inl (h.look q), fun _ _ _ => by rw [h.file], by rw [h.nextIno]; omega, h.nextFd, fun x hx => by rw [h.fds x (by omega)]⟩

/-! ### Consent -/

/-- Every outcome of asking for consent. -/
theorem consent_wp (cwd : Path) (name : List Char) (force : ForceMode) (w : World) :
    wp (consent cwd name force) (fun r w' => Looked w.nextFd w w' ∧ (r = .ok () → ¬ Occupied w (toPath cwd name) ∨ force = .forced ∨ FirstAnswer true w.stdin true w'.stdin)) w := by
  refine ⟨(consent_looks w.nextFd cwd name force w (Nat.le_refl _)).1, ?_⟩
  intro h
  by_cases ho : Occupied w (toPath cwd name)
  · right
    cases force with
    | forced => exact .inl rfl
    | prompt =>
      right
      unfold consent at h ⊢
      rw [Prog.bind_run, overwriteCheck_occupied .prompt ho] at h ⊢
      rcases getAnswer_cases (overwritePrompt name) true w with ⟨b, rest, s, h1, h2, h3, h4⟩ | ⟨e, rest, s, o, h1, h2, h3, _⟩
      · rw [h3] at h ⊢
        cases b with
        | true => exact h4
        | false => cases h
      · rw [h3] at h; cases h
  · exact .inl ho

/-! ### Opening -/

/-- `q` is where `p` leads; a file `j` is there now, empty, with the new handle `h`; `j` is new or was there before. -/
structure Opened (p : PathBuf) (q : Path) (j h : Nat) (w w' : World) : Prop where
  resolve : w.resolve p = .ok q
  was : w.look q = none ∧ j = w.nextIno ∧ w'.nextIno = w.nextIno + 1 ∨ w.look q = some (.file j) ∧ w'.nextIno = w.nextIno
  now : w'.look q = some (.file j)
  others : ∀ q', q' ≠ q → w'.look q' = w.look q'
  files : ∀ k, k ≠ j → w'.file k = w.file k
  empty : w'.file j = []
  handle : w'.fd h = { ino := j, pos := 0 }
  new : h = w.nextFd
  fds : ∀ k, k ≠ h → w'.fd k = w.fd k
  nextFd : w'.nextFd = w.nextFd + 1
  stdin : w'.stdin = w.stdin
  tty : w'.tty = w.tty
  env : w'.env = w.env
  sched : w'.sched <:+ w.sched

theorem openOutput_cases (p : PathBuf) (w : World) :
    (∃ q j w', openOutput p w = (.ok (.file p w.nextFd), w') ∧ Opened p q j w.nextFd w w') ∨
    (∃ e s, s <:+ w.sched ∧ openOutput p w = (.err e, { w with sched := s })) := by
  unfold openOutput Unpack.orElse
  rcases openNew_cases p w with ⟨q, s, hs, hr, hl, hd, he⟩ | ⟨e, s, hs, he, -⟩
  · left
    have e1 : Storage.createFile p w = (.ok (.file p w.nextFd), (({ w with sched := s } : World).created q).opened w.nextIno) := by
      unfold Storage.createFile
      rw [Prog.bind_ok (Prog.mapErr_ok he)]; rfl
    refine ⟨q, w.nextIno, (({ w with sched := s } : World).created q).opened w.nextIno, ?_, ?_⟩
    · rw [Prog.mapErr_ok (x := fun w => _) (w := w)]
      simp only [e1]
    · have hne : q ≠ [] := by rintro rfl; simp at hl
      refine ⟨hr, .inl ⟨hl, rfl, rfl⟩, ?_, ?_, ?_, ?_, ?_, rfl, ?_, rfl, rfl, rfl, rfl, hs⟩
      · rw [World.look_opened, World.look_created]; simp [hne]
      · intro q' hq'
        rw [World.look_opened, World.look_created]
        by_cases h0 : q' = [] <;> simp [hq', h0]
      · intro k hk
        show (if k = w.nextIno then [] else w.file k) = _
        rw [if_neg hk]
      · show (if w.nextIno = w.nextIno then [] else _) = _
        rw [if_pos rfl]
      · show (if w.nextFd = w.nextFd then _ else _) = _
        rw [if_pos rfl]
      · intro k hk
        show (if k = w.nextFd then _ else w.fd k) = _
        rw [if_neg hk]
  · have e1 : Storage.createFile p w = (.err .createFile, { w with sched := s }) := by
      unfold Storage.createFile
      rw [Prog.bind_err (Prog.mapErr_err he)]
    rcases openTrunc_any p { w with sched := s } with ⟨q, i, s2, hs2, hr, hl, he2⟩ | ⟨e2, s2, hs2, he2⟩
    · left
      have e2 : Storage.writeFile p { w with sched := s } = (.ok (.file p w.nextFd), (({ w with sched := s2 } : World).opened i).truncated i) := by
        unfold Storage.writeFile
        rw [Prog.bind_ok (Prog.mapErr_ok he2)]; rfl
      refine ⟨q, i, (({ w with sched := s2 } : World).opened i).truncated i, ?_, ?_⟩
      · rw [Prog.mapErr_ok (x := fun w => _) (w := w)]
        simp only [e1, e2]
      · rw [World.resolve_sched] at hr
        refine ⟨hr, .inr ⟨hl, rfl⟩, hl, fun _ _ => rfl, ?_, ?_, ?_, rfl, ?_, rfl, rfl, rfl, rfl, hs2.trans hs⟩
        · intro k hk
          show (if k = i then [] else w.file k) = _
          rw [if_neg hk]
        · show (if i = i then [] else _) = _
          rw [if_pos rfl]
        · show (if w.nextFd = w.nextFd then _ else _) = _
          rw [if_pos rfl]
        · intro k hk
          show (if k = w.nextFd then _ else w.fd k) = _
          rw [if_neg hk]
    · right
      have e2 : Storage.writeFile p { w with sched := s } = (.err (.openFile .write), { w with sched := s2 }) := by
        unfold Storage.writeFile
        rw [Prog.bind_err (Prog.mapErr_err he2)]
      refine ⟨.storage (.openFile .write), s2, hs2.trans hs, ?_⟩
      rw [Prog.mapErr_err (x := fun w => _) (w := w)]
      simp only [e1, e2]

namespace Opened
variable {p : PathBuf} {q : Path} {j h : Nat} {w w' : World}

theorem lexical (o : Opened p q j h w w') : q = onPaper p := World.walk_lexical (show w.walk p.start p.comps = .ok q from o.resolve)

theorem nextIno (o : Opened p q j h w w') : w.nextIno ≤ w'.nextIno := by rcases o.was with ⟨_, _, e⟩ | ⟨_, e⟩ <;> omega

theorem extracts {D F : Path → Prop} (o : Opened p q j h w w') (hF : F q) : Extracts D F w w' where
  look := fun x => by
    by_cases hx : x = q
    · subst hx
      rcases o.was with ⟨h1, h2, _⟩ | ⟨h1, _⟩
      · exact .inr (.inr ⟨h1, hF, j, by omega, o.now⟩)
      · left; rw [o.now, h1]
    · exact .inl (o.others x hx)
  files := fun k hk hno => by
    apply o.files
    rintro rfl
    rcases o.was with ⟨_, h2, _⟩ | ⟨h1, _⟩
    · omega
    · exact hno q hF h1
  nextIno := o.nextIno
  nextFd := by rw [o.nextFd]; omega
  inos := fun x hx => by rw [o.fds x (by rw [o.new]; omega)]

/-- Directories neither come nor go. -/
theorem dirs (o : Opened p q j h w w') (x : Path) : w'.look x = some .dir ↔ w.look x = some .dir := by
  by_cases hx : x = q
  · subst hx
    rw [o.now]
    rcases o.was with ⟨h1, _⟩ | ⟨h1, _⟩ <;> rw [h1] <;> simp
  · rw [o.others x hx]

theorem resolves (o : Opened p q j h w w') (p' : PathBuf) (q' : Path) : w'.resolve p' = .ok q' ↔ w.resolve p' = .ok q' :=
  ⟨World.resolve_mono fun d hd => (o.dirs d).1 hd, World.resolve_mono fun d hd => (o.dirs d).2 hd⟩

/-- What led to a file still does. -/
theorem leads (o : Opened p q j h w w') {p' : PathBuf} {q' : Path} {i : Nat} (hl : LeadsToFile w p' q' i) : LeadsToFile w' p' q' i := by
  refine ⟨(o.resolves p' q').2 hl.resolve, ?_⟩
  by_cases hx : q' = q
  · subst hx
    rcases o.was with ⟨h1, _⟩ | ⟨h1, _⟩
    · have := hl.look; rw [h1] at this; cases this
    · rw [o.now, ← h1]; exact hl.look
  · rw [o.others q' hx]; exact hl.look

end Opened

/-! ### What may have changed -/

/-- At most files at the paths `F` have been created or changed, and the user's lines and the schedule consumed. -/
structure Trail (F : Path → Prop) (w w' : World) : Prop where
  extracts : Extracts (fun _ => False) F w w'
  stdin : w'.stdin <:+ w.stdin
  sched : w'.sched <:+ w.sched

namespace Trail
variable {F : Path → Prop} {w w' w'' : World}

theorem refl (w : World) : Trail F w w := ⟨.refl w, List.suffix_refl _, List.suffix_refl _⟩
theorem trans (h : Trail F w w') (g : Trail F w' w'') : Trail F w w'' :=
  ⟨h.extracts.trans g.extracts, g.stdin.trans h.stdin, g.sched.trans h.sched⟩
theorem looked {n : Nat} (h : Looked n w w') (hn : w.nextFd ≤ n) : Trail F w w' := ⟨Looked.extracts h hn, h.stdin, h.sched⟩
theorem opened {p : PathBuf} {q : Path} {j h : Nat} (o : Opened p q j h w w') (hF : F q) : Trail F w w' :=
  ⟨o.extracts hF, by rw [o.stdin]; exact List.suffix_refl _, o.sched⟩
theorem touch {R W : List Nat} (h : Trail F w w') (hW : ∀ h ∈ W, w.nextIno ≤ (w'.fd h).ino ∨ ∃ q, F q ∧ w.look q = some (.file (w'.fd h).ino))
    (ht : Touches R W w' w'') (hs : w''.sched <:+ w'.sched) : Trail F w w'' :=
  ⟨h.extracts.touch hW ht, by rw [ht.stdin]; exact h.stdin, hs.trans h.sched⟩

/-- What is there stays. -/
theorem look (h : Trail F w w') {q : Path} {n : Node} (hl : w.look q = some n) : w'.look q = some n := by
  rcases h.extracts.look q with h1 | ⟨h1, _⟩ | ⟨h1, _⟩
  · rw [h1]; exact hl
  · rw [h1] at hl; cases hl
  · rw [h1] at hl; cases hl

theorem dirs (h : Trail F w w') {q : Path} (hl : w'.look q = some .dir) : w.look q = some .dir := by
  rcases h.extracts.look q with h1 | ⟨_, _, h1⟩ | ⟨_, _, j, _, h1⟩
  · rw [← h1]; exact hl
  · exact h1.elim
  · rw [h1] at hl; cases hl

theorem resolves (h : Trail F w w') (p : PathBuf) (q : Path) : w'.resolve p = .ok q ↔ w.resolve p = .ok q :=
  ⟨World.resolve_mono fun _ hd => h.dirs hd, World.resolve_mono fun _ hd => h.look hd⟩

theorem leads (h : Trail F w w') {p : PathBuf} {q : Path} {i : Nat} (hl : LeadsToFile w p q i) : LeadsToFile w' p q i :=
  ⟨(h.resolves p q).2 hl.resolve, h.look hl.look⟩

theorem occupied (h : Trail F w w') {p : PathBuf} (ho : Occupied w p) : Occupied w' p := by
  obtain ⟨q, n, h1, h2⟩ := ho
  exact ⟨q, n, (h.resolves p q).2 h1, h.look h2⟩

theorem kept (h : Trail F w w') {i : Nat} (hi : i < w.nextIno) (hF : ∀ q, F q → w.look q ≠ some (.file i)) : w'.file i = w.file i :=
  h.extracts.files i hi hF

end Trail

/-! ### Opening the input -/

theorem readInput_cases (p : PathBuf) (w : World) :
    (∃ q i s, s <:+ w.sched ∧ LeadsToFile w p q i ∧ readInput p w = (.ok (.file p w.nextFd), ({ w with sched := s } : World).opened i)) ∨
    (∃ q, LeadsToDir w p q ∧ readInput p w = (.ok (.dir p), w)) ∨
    (∃ e s, s <:+ w.sched ∧ readInput p w = (.err e, { w with sched := s }) ∧ (w.sched ≠ [] ∨ ¬ ∃ q i, LeadsToFile w p q i)) := by
  unfold readInput Storage.readFile
  by_cases hd : w.isDirAt p = true
  · right; left
    have : ∃ q, LeadsToDir w p q := by
      unfold World.isDirAt at hd
      split at hd
      · next q hq => exact ⟨q, hq, by simpa using hd⟩
      · cases hd
    obtain ⟨q, hq⟩ := this
    refine ⟨q, hq, ?_⟩
    rw [Prog.mapErr_run, Prog.bind_ok (show Volaris.isDir p w = (.ok true, w) by unfold Volaris.isDir; rw [hd])]
    rfl
  · have hi : (Volaris.isDir p : Prog Storage.Error Bool) w = (.ok false, w) := by
      unfold Volaris.isDir
      simp only [Bool.not_eq_true] at hd
      rw [hd]
    rcases openFile_any p w with ⟨q, i, s, hs, hl, he⟩ | ⟨e, s, hs, he, hor⟩
    · left
      refine ⟨q, i, s, hs, hl, ?_⟩
      rw [Prog.mapErr_run, Prog.bind_ok hi]
      simp only [Bool.false_eq_true, if_false]
      rw [Prog.bind_ok (Prog.mapErr_ok he)]
      rfl
    · right; right
      refine ⟨.storage (.openFile .read), s, hs, ?_, hor⟩
      rw [Prog.mapErr_run, Prog.bind_ok hi]
      simp only [Bool.false_eq_true, if_false]
      rw [Prog.bind_err (Prog.mapErr_err he)]

theorem readInput_looks (n : Nat) (p : PathBuf) : Looks n (fun e => ∀ h, e.stream = .ok h → n ≤ h) (readInput p) := .mapErr _ (.readFile p)

/-! ### Hashing -/

theorem hash_looks (H : HashCmd.Hasher σ) {n h : Nat} (hh : n ≤ h) : Looks n (fun _ => True) (HashCmd.execute H h) := by
  refine .within (R := [h]) (fun w => ?_) (.hash H h) (by simpa using hh)
  rcases HashCmd.execute_cases H h w with ⟨_, w', he, _, _, ht⟩ | ⟨e, w', he, _, ht⟩ <;> rw [he] <;> exact ht

theorem hashStream_looks (s : Sys σ) (n : Nat) : ∀ files, Looks n (fun _ => True) (hashStream s files)
  | [] => .pure trivial
  | f :: fs => by
    unfold hashStream
    exact .bind (.mapErr _ (.openFile _)) fun h hh => .bind (.mapErr _ (hash_looks s.H hh)) fun d _ => .bind (say_looks n _) fun _ _ => .bind (hashStream_looks s n fs) fun ds _ => .pure trivial

theorem hashIf_looks (s : Sys σ) (n : Nat) (mode : HashMode) (file : List Char) : Looks n (fun _ => True) (hashIf s mode file) := by
  cases mode with
  | noHash => exact .pure trivial
  | calculateHash => exact .bind (hashStream_looks s n _) fun _ _ => .pure trivial

end Volaris.Cli
