import Verif.Proofs.CmdOk
import Verif.Spec.TreeCmd
/-!
# What every run does, even one that fails; random numbers that are drawn
-/
namespace Volaris.Conc
open Volaris.Spec Volaris.Cli
variable {ε ε' α β σ : Type}

/-- The relation can be followed along a run. -/
structure Along (P : World → World → Prop) : Prop where
  refl : ∀ w, P w w
  trans : ∀ {w w' w''}, P w w' → P w' w'' → P w w''

/-- Every run of the program, also one that fails. -/
def Each (P : World → World → Prop) (x : Prog ε α) : Prop := ∀ w, P w (x w).2

namespace Each
variable {P : World → World → Prop}

theorem lift (hP : Along P) (r : Res ε α) : Each P (Prog.lift r) := fun w => hP.refl w
theorem pure (hP : Along P) (y : α) : Each P (Pure.pure y : Prog ε α) := fun w => hP.refl w
theorem throw (hP : Along P) (e : ε) : Each P (Prog.throw e : Prog ε α) := fun w => hP.refl w

theorem bind (hP : Along P) {x : Prog ε α} {f : α → Prog ε β} (hx : Each P x) (hf : ∀ y, Each P (f y)) : Each P (x >>= f) := by
  intro w
  have := hx w
  rw [Prog.bind_run]
  generalize x w = z at this ⊢
  rcases z with ⟨r, w'⟩
  cases r with
  | ok y => exact hP.trans this (hf y w')
  | err e => exact this
  | abort e => exact this

theorem mapErr {x : Prog ε α} (hx : Each P x) (f : ε → ε') : Each P (x.mapErr f) := by
  intro w
  have := hx w
  rw [Prog.mapErr_run]
  generalize x w = z at this ⊢
  rcases z with ⟨r, w'⟩
  cases r <;> exact this

theorem attempt {x : Prog ε α} (hx : Each P x) : Each P (Prog.attempt (ε' := ε') x) := by
  intro w
  have := hx w
  unfold Prog.attempt
  generalize x w = z at this ⊢
  rcases z with ⟨r, w'⟩
  cases r <;> exact this

end Each

theorem pop_world (w : World) : ∃ o s, w.pop = (o, { w with sched := s }) := by
  unfold World.pop
  cases h : w.sched with
  | nil => exact ⟨.full, [], by cases w; simp only at h; subst h; rfl⟩
  | cons o s => exact ⟨o, s, rfl⟩

/-! ### What leaves the random bytes alone -/

/-- The random bytes are as they were. -/
def Rng (w w' : World) : Prop := w'.rng = w.rng

theorem along_rng : Along Rng := ⟨fun _ => rfl, fun h h' => h'.trans h⟩

namespace Each

theorem rsysRetry : Each Rng sysRetry := by
  intro w
  obtain ⟨o, s, e⟩ := pop_world w
  unfold sysRetry
  rw [e]
  cases o <;> rfl

theorem rsys : Each Rng sys := by
  intro w
  obtain ⟨o, s, e⟩ := pop_world w
  unfold sys
  rw [e]
  cases o <;> rfl

theorem rsay (t : List Char) : Each Rng (say t : Prog ε Unit) := fun _ => rfl
theorem rsetStdin (l : List String) : Each Rng (setStdin l : Prog ε Unit) := fun _ => rfl
theorem rsetTty (l : List Bytes) : Each Rng (setTty l : Prog ε Unit) := fun _ => rfl
theorem rexists (p : PathBuf) : Each Rng (existsAt p : Prog ε Bool) := fun _ => rfl
theorem risDir (p : PathBuf) : Each Rng (isDir p : Prog ε Bool) := fun _ => rfl
theorem ranyFile (ps : List PathBuf) : Each Rng (anyFile ps : Prog ε Bool) := fun _ => rfl

theorem ropenFile (p : PathBuf) : Each Rng (openFile p) := bind along_rng rsysRetry fun _ w => by
  unfold openAt; split
  · split <;> rfl
  · rfl

theorem ropenTrunc (p : PathBuf) : Each Rng (openTrunc p) := bind along_rng rsysRetry fun _ w => by
  unfold openTruncAt; split
  · split <;> rfl
  · rfl

theorem ropenNew (p : PathBuf) : Each Rng (openNew p) := bind along_rng rsysRetry fun _ w => by
  unfold openNewAt; split
  · split
    · rfl
    · split <;> rfl
  · rfl

theorem rreadLoop (h : Nat) : ∀ (s : List Io) (n : Nat) (acc : Bytes), Each Rng (readLoop h s n acc) := by
  intro s
  induction s with
  | nil => intro n acc w; rfl
  | cons o s ih =>
    intro n acc w
    unfold readLoop
    split
    · rfl
    · cases o with
      | full => simp only; split; · rfl
                · exact along_rng.trans (w' := w.adv h _) rfl (ih _ _ _)
      | short k => simp only; split; · rfl
                   · exact along_rng.trans (w' := w.adv h _) rfl (ih _ _ _)
      | intr => exact ih n acc w
      | fail => rfl

theorem rreadToEnd (h : Nat) : Each Rng (readToEnd h) := fun w => rreadLoop h w.sched _ [] w

theorem ranswerLoop (prompt : List Char) (default : Bool) : ∀ lines, Each Rng (answerLoop prompt default lines)
  | [] => by
    unfold answerLoop
    exact bind along_rng (rsay _) fun _ => bind along_rng (rsys.mapErr _) fun _ => bind along_rng (rsysRetry.mapErr _) fun _ => throw along_rng _
  | l :: ls => by
    unfold answerLoop
    refine bind along_rng (rsay _) fun _ => bind along_rng (rsys.mapErr _) fun _ => bind along_rng (rsysRetry.mapErr _) fun _ => bind along_rng (rsetStdin _) fun _ => ?_
    split
    · exact throw along_rng _
    · split
      · exact pure along_rng _
      · exact bind along_rng (rsay _) fun _ => ranswerLoop prompt default ls

theorem rgetAnswer (prompt : List Char) (default : Bool) (force : ForceMode) : Each Rng (getAnswer prompt default force) := by
  cases force with
  | forced => exact pure along_rng _
  | prompt => exact fun w => ranswerLoop prompt default w.stdin w

theorem rconfirmLoop : ∀ l, Each Rng (confirmLoop l)
  | [] => throw along_rng _
  | [_] => by unfold confirmLoop; exact bind along_rng (rsysRetry.mapErr _) fun _ => bind along_rng (rsetTty _) fun _ => throw along_rng _
  | x :: y :: rest => by
    unfold confirmLoop
    refine bind along_rng (rsysRetry.mapErr _) fun _ => bind along_rng (rsetTty _) fun _ => bind along_rng (rsysRetry.mapErr _) fun _ => bind along_rng (rsetTty _) fun _ => ?_
    split
    · exact pure along_rng _
    · exact bind along_rng (rsay _) fun _ => rconfirmLoop rest

theorem rdirectPassword : ∀ l, Each Rng (directPassword l)
  | [] => throw along_rng _
  | x :: rest => by unfold directPassword; exact bind along_rng (rsysRetry.mapErr _) fun _ => bind along_rng (rsetTty _) fun _ => pure along_rng _

theorem rgetPassword (state : PasswordState) : Each Rng (getPassword state) := by
  intro w
  unfold getPassword
  cases state with
  | validate => exact rconfirmLoop w.tty w
  | direct => exact rdirectPassword w.tty w

theorem rreadStdin : Each Rng readStdin := fun w => (bind along_rng (rsysRetry.mapErr _) fun _ => bind along_rng (rsetStdin _) fun _ => pure along_rng _ : Each Rng _) w

theorem rreadEnv : Each Rng readEnv := fun w => by unfold readEnv; split <;> rfl

end Each

theorem passphrase_drew (words : List (List Char)) : ∀ (n : Nat) (p : List Char) {w w' : World} {r : List Char}, (passphraseLoop words n p : Prog ε (List Char)) w = (.ok r, w') → ∀ i, w'.rng i = w.rng (8 * n + i)
  | 0, p, w, w', r, h, i => by cases h; simp
  | n + 1, p, w, w', r, h, i => by
    unfold passphraseLoop at h
    have : genRangeIncl (ε := ε) words.length w = (.ok (leValue ((List.range 8).map w.rng) % (words.length + 1)), { w with rng := fun i => w.rng (i + 8) }) := rfl
    rw [Prog.bind_ok this] at h
    generalize words[leValue ((List.range 8).map w.rng) % (words.length + 1)]? = o at h
    cases o with
    | none => cases h
    | some word =>
      have := passphrase_drew words n _ h i
      rw [this]
      show w.rng (8 * n + i + 8) = _
      congr 1; omega


/-! ### Before the name of the temporary file is drawn -/

theorem each_orElse {P : World → World → Prop} {x y : Prog ε α} (hx : Each P x) (hP : Along P) (hy : Each P y) : Each P (Unpack.orElse x y) := by
  intro w
  have := hx w
  unfold Unpack.orElse
  generalize x w = z at this ⊢
  rcases z with ⟨r, w'⟩
  cases r with
  | ok v => exact this
  | err e => exact hP.trans this (hy w')
  | abort e => exact this

theorem rng_openOutput (p : PathBuf) : Each Rng (openOutput p) := by
  unfold openOutput
  refine Each.mapErr (each_orElse ?_ along_rng ?_) _
  · exact Each.bind along_rng ((Each.ropenNew p).mapErr _) fun _ => Each.pure along_rng _
  · exact Each.bind along_rng ((Each.ropenTrunc p).mapErr _) fun _ => Each.pure along_rng _

theorem rng_readFile (p : PathBuf) : Each Rng (Storage.readFile p) := by
  unfold Storage.readFile
  refine Each.bind along_rng (Each.risDir p) fun b => ?_
  cases b with
  | true => exact Each.pure along_rng _
  | false => exact Each.bind along_rng ((Each.ropenFile p).mapErr _) fun _ => Each.pure along_rng _

theorem rng_readEntries : ∀ ps, Each Rng (Storage.readEntries ps)
  | [] => Each.pure along_rng _
  | p :: ps => Each.bind along_rng (Each.rsys.mapErr _) fun _ => Each.bind along_rng (rng_readFile p) fun _ => Each.bind along_rng (rng_readEntries ps) fun _ => Each.pure along_rng _

theorem rng_readDir (e : Storage.Entry) : Each Rng (Storage.readDir e) := by
  unfold Storage.readDir
  split
  · exact Each.throw along_rng _
  · exact fun w => rng_readEntries _ w

theorem rng_expand : ∀ es, Each Rng (expand es)
  | [] => Each.pure along_rng _
  | e :: es => by
    unfold expand
    refine Each.bind along_rng ?_ fun _ => Each.bind along_rng (rng_expand es) fun _ => Each.pure along_rng _
    cases e with
    | dir p => exact (rng_readDir _).mapErr _
    | file p h => exact Each.pure along_rng _

theorem rng_fetch (words : List (List Char)) (cwd : Path) (state : PasswordState) {key : Key} (hk : ∀ n, key ≠ .generate n) : Each Rng (fetch words cwd state key) := by
  cases key with
  | keyfile p =>
    unfold fetch
    simp only
    split
    · refine Each.bind along_rng Each.rreadStdin fun s => ?_
      split
      · exact Each.throw along_rng _
      · exact Each.pure along_rng _
    · unfold readKeyfile
      refine Each.bind along_rng ((Each.ropenFile _).mapErr _) fun h => Each.bind along_rng ((Each.rreadToEnd h).mapErr _) fun s => ?_
      split
      · exact Each.throw along_rng _
      · exact Each.pure along_rng _
  | env => exact Each.rreadEnv
  | user => exact Each.rgetPassword state
  | generate i => exact absurd rfl (hk i)

/-- What a key source takes of the random bytes. -/
theorem getSecret_drew {words : List (List Char)} {cwd : Path} {key : Key} {state : PasswordState} {w w' : World} {secret : Bytes} (h : getSecret words cwd key state w = (.ok secret, w')) (i : Nat) :
    w'.rng i = w.rng (keyDraws key + i) := by
  unfold getSecret at h
  obtain ⟨x, u, h1, h2⟩ := Pack.bind_eq_ok h
  have : w' = u := by
    split at h2
    · cases h2
    · cases h2; rfl
  subst this
  by_cases hg : ∃ n, key = .generate n
  · obtain ⟨n, rfl⟩ := hg
    unfold fetch generatePassphrase at h1
    simp only at h1
    obtain ⟨p, w2, h3, h4⟩ := Pack.bind_eq_ok h1
    have : w'.rng = w2.rng := by cases h4; rfl
    rw [this]
    exact passphrase_drew words _ _ h3 i
  · have hg : ∀ n, key ≠ .generate n := fun n e => hg ⟨n, e⟩
    have h0 : keyDraws key = 0 := by cases key <;> first | rfl | exact absurd rfl (hg _)
    have := rng_fetch words cwd state hg w
    rw [h1] at this
    rw [show w'.rng = w.rng from this, h0, Nat.zero_add]

end Volaris.Conc
