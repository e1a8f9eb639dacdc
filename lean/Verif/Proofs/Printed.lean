import Verif.Proofs.Shown
import Verif.Proofs.Commands
/-!
# Lemmas for what is printed by C62 and C63
-/
namespace Volaris.Cli
open Volaris.Spec
variable {σ : Type}

theorem read_still (h n : Nat) : Still (Volaris.read h n) := by
  intro w
  have g := Still.pop w
  unfold Volaris.read
  revert g
  rcases w.pop with ⟨_ | _ | _ | _, w'⟩ <;> exact id

theorem hashLoop_still (H : HashCmd.Hasher σ) (h : Nat) : ∀ fuel st, Still (HashCmd.loop H h fuel st) := by
  intro fuel
  induction fuel with
  | zero =>
    intro st
    rw [HashCmd.loop]
    exact .bind (.mapErr _ (read_still h _)) fun _ => .ite (.pure _) (.lift _)
  | succ fuel ih =>
    intro st
    rw [HashCmd.loop]
    exact .bind (.mapErr _ (read_still h _)) fun _ => .ite (.pure _) (ih _)

theorem hash_still (H : HashCmd.Hasher σ) (h : Nat) : Still (HashCmd.execute H h) :=
  .bind (.mapErr _ (.seekStart _ _)) fun _ => .bind (fun w => hashLoop_still H h _ _ w) fun _ => .pure _

theorem saidAll_prints : ∀ (ls : List String) (w : World), Prints (ls.map String.toList) w (w.saidAll ls)
  | [], _ => rfl
  | l :: ls, w => by
    have h := saidAll_prints ls (w.said l.toList)
    unfold Prints at h ⊢
    rw [show w.saidAll (l :: ls) = (w.said l.toList).saidAll ls from rfl, h]
    show _ ++ _ :: w.out = _
    simp
    exact fun _ _ => ⟨rfl, rfl, rfl⟩

theorem saidAll_append : ∀ (a b : List String) (w : World), w.saidAll (a ++ b) = (w.saidAll a).saidAll b
  | [], _, _ => rfl
  | l :: a, b, w => saidAll_append a b (w.said l.toList)

/-- Opening and hashing one file neither prints nor modifies anything. -/
theorem hashOne_still (s : Sys σ) (f : List Char) : Still (do
    let h ← (Volaris.openFile (toPath s.cwd f)).mapErr fun _ => Error.openFile
    (HashCmd.execute s.H h).mapErr .hash) := .bind (.mapErr _ (.openFile _)) fun _ => .mapErr _ (hash_still _ _)

theorem hashOne_looks (s : Sys σ) (n : Nat) (f : List Char) : Looks n (fun _ => True) (do
    let h ← (Volaris.openFile (toPath s.cwd f)).mapErr fun _ => Error.openFile
    (HashCmd.execute s.H h).mapErr .hash) := .bind (.mapErr _ (.openFile _)) fun _ hh => .mapErr _ (hash_looks s.H hh)

theorem hashOne_stdin (s : Sys σ) (f : List Char) (w : World) : (((do
    let h ← (Volaris.openFile (toPath s.cwd f)).mapErr fun _ => Error.openFile
    (HashCmd.execute s.H h).mapErr .hash) : Prog Error String) w).2.stdin = w.stdin ∧ (((do
    let h ← (Volaris.openFile (toPath s.cwd f)).mapErr fun _ => Error.openFile
    (HashCmd.execute s.H h).mapErr .hash) : Prog Error String) w).2.tty = w.tty := by
  rcases openFile_any (toPath s.cwd f) w with ⟨q, i, s', hs, hl, he⟩ | ⟨e, s', hs, he, hw⟩
  · rw [Prog.bind_ok (Prog.mapErr_ok he), Prog.mapErr_eq]
    rcases HashCmd.execute_cases s.H w.nextFd (({ w with sched := s' } : World).opened i) with ⟨ps, w', h1, _, _, ht⟩ | ⟨e, w', h1, _, ht⟩
    · rw [h1]; exact ⟨ht.stdin, ht.tty⟩
    · rw [h1]; exact ⟨ht.stdin, ht.tty⟩
  · rw [Prog.bind_err (Prog.mapErr_err he)]; exact ⟨rfl, rfl⟩

theorem hashStream_cons (s : Sys σ) (f : List Char) (fs : List (List Char)) : hashStream s (f :: fs) = ((do
    let h ← (Volaris.openFile (toPath s.cwd f)).mapErr fun _ => Error.openFile
    (HashCmd.execute s.H h).mapErr .hash) >>= fun d => say (digestLine f d) >>= fun _ => hashStream s fs >>= fun ds => pure (d :: ds)) := by
  rw [hashStream]
  funext w
  simp only [Prog.bind_run]
  rcases ((Volaris.openFile (toPath s.cwd f)).mapErr fun _ => Error.openFile) w with ⟨r, w1⟩
  cases r <;> rfl

theorem hashStream_prints (s : Sys σ) (digest : Bytes → String) (hH : Computes s.H digest) : ∀ (files : List (List Char)) (w : World),
    ∃ ds : List String, ds.length ≤ files.length ∧ Prints ((files.zip ds).map fun fd => digestLine fd.1 fd.2) w (hashStream s files w).2 ∧
      (∀ xs, (hashStream s files w).1 = .ok xs → xs = ds ∧ ds.length = files.length) ∧ (∀ e, (hashStream s files w).1 = .err e → ds.length < files.length) ∧
      (NoShort w.sched → ∀ (k : Nat) f d, files[k]? = some f → ds[k]? = some d → ∃ c, ContentAt w (toPath s.cwd f) c ∧ d = digest c)
  | [], w => ⟨[], Nat.le_refl _, rfl, fun xs h => (by cases h; exact ⟨rfl, rfl⟩), fun _ h => (by cases h), (by intro _ k f d hf; simp at hf)⟩
  | f :: fs, w => by
    have hst := hashOne_still s f w
    have hlook := (hashOne_looks s w.nextFd f w (Nat.le_refl _)).1
    rw [hashStream_cons]
    rcases hashOne_cases s f w with ⟨q, i, ps, w1, hl, he, hc⟩ | ⟨e, w1, he, hw⟩
    · rw [Prog.bind_ok he]
      rw [he] at hst hlook
      obtain ⟨e1, _, e3⟩ := hst
      replace hlook : Looked w.nextFd w w1 := hlook
      replace e1 : w1.log = w.log := e1
      replace e3 : w1.out = w.out := e3
      have e4 : w1.stdin = w.stdin := by have := (hashOne_stdin s f w).1; rw [he] at this; exact this
      have e5 : w1.tty = w.tty := by have := (hashOne_stdin s f w).2; rw [he] at this; exact this
      have hd : NoShort w.sched → s.H.finish (ps.foldl s.H.write s.H.init) = digest (w.file i) := fun hn => by rw [hH ps, hc hn]
      generalize s.H.finish (ps.foldl s.H.write s.H.init) = d at hd ⊢
      rw [Prog.bind_ok (say_run _ _)]
      have hcont : ∀ g c, ContentAt (w1.said (digestLine f d)) g c ↔ ContentAt w g c := by
        intro g c
        have hs := hlook.trans (say_looks (ε := Error) w.nextFd (digestLine f d) w1 hlook.nextFd).1
        have hl : ∀ q i, LeadsToFile (w1.said (digestLine f d)) g q i ↔ LeadsToFile w g q i := hs.leads g
        unfold ContentAt
        simp only [hl, ← hlook.file]
        rfl
      obtain ⟨ds, h1, h2, h3, h4, h5⟩ := hashStream_prints s digest hH fs (w1.said (digestLine f d))
      refine ⟨d :: ds, by simpa using h1, ?_, fun xs hx => ?_, fun e hx => ?_, fun hn k g d' hg hd' => ?_⟩
      · have hp : Prints ((((f :: fs).zip (d :: ds)).map fun fd => digestLine fd.1 fd.2)) w (hashStream s fs (w1.said (digestLine f d))).2 := by
          unfold Prints at h2 ⊢
          rw [h2]
          show _ ++ (⟨w1.log.length, w1.stdin.length, w1.tty.length, digestLine f d⟩ : Printed) :: w1.out = _
          rw [show (w1.said (digestLine f d)).log = w1.log from rfl, show (w1.said (digestLine f d)).stdin = w1.stdin from rfl,
            show (w1.said (digestLine f d)).tty = w1.tty from rfl, e1, e3, e4, e5]
          simp
        revert hp
        rw [Prog.bind_run]
        rcases hashStream s fs (w1.said (digestLine f d)) with ⟨_ | _ | _, _⟩ <;> exact id
      · rw [Prog.bind_run] at hx
        revert hx h3
        rcases hashStream s fs (w1.said (digestLine f d)) with ⟨ys | _ | _, _⟩ <;> intro h3 hx
        · cases hx
          obtain ⟨rfl, h⟩ := h3 ys rfl
          exact ⟨rfl, by simpa using h⟩
        · cases hx
        · cases hx
      · rw [Prog.bind_run] at hx
        revert hx h4
        rcases hashStream s fs (w1.said (digestLine f d)) with ⟨ys | e' | _, _⟩ <;> intro h4 hx
        · cases hx
        · simpa using h4 e' rfl
        · cases hx
      · cases k with
        | zero =>
          simp only [List.getElem?_cons_zero, Option.some.injEq] at hg hd'
          subst hg hd'
          exact ⟨_, ⟨q, i, hl, rfl⟩, hd hn⟩
        | succ k =>
          simp only [List.getElem?_cons_succ] at hg hd'
          obtain ⟨c, h6, h7⟩ := h5 (hlook.noShort hn) k g d' hg hd'
          exact ⟨c, (hcont _ _).1 h6, h7⟩
    · rw [Prog.bind_err he]
      rw [he] at hst
      exact ⟨[], by simp, by unfold Prints; exact hst.2.2, fun _ h => (by cases h), fun _ _ => (by simp), by simp⟩

/-- The digest at the end of a command. -/
theorem hashIf_prints (s : Sys σ) (mode : HashMode) (f : List Char) (w : World) :
    ∃ after, (hashIf s mode f w).2.out.map (·.text) = after ++ w.out.map (·.text) ∧
      ((after = [] ∧ ((hashIf s mode f w).1 = .ok () → mode = .noHash)) ∨ (mode = .calculateHash ∧ ∃ d, after = [digestLine f d])) := by
  cases mode with
  | noHash => exact ⟨[], rfl, .inl ⟨rfl, fun _ => rfl⟩⟩
  | calculateHash =>
    show ∃ after, (((hashStream s [f] >>= fun _ => pure ()) : Prog Error Unit) w).2.out.map (·.text) = after ++ w.out.map (·.text) ∧
      ((after = [] ∧ ((((hashStream s [f] >>= fun _ => pure ()) : Prog Error Unit) w).1 = .ok () → HashMode.calculateHash = .noHash)) ∨ (HashMode.calculateHash = .calculateHash ∧ ∃ d, after = [digestLine f d]))
    rw [hashStream_cons]
    have hst := (hashOne_still s f w).2.2
    revert hst
    generalize (do
      let h ← (Volaris.openFile (toPath s.cwd f)).mapErr fun _ => Error.openFile
      (HashCmd.execute s.H h).mapErr .hash : Prog Error String) = x
    rw [Prog.bind_run, Prog.bind_run]
    rcases x w with ⟨d | e | a, w1⟩ <;> intro hst
    · exact ⟨[digestLine f d], by show digestLine f d :: w1.out.map (·.text) = _; rw [show w1.out = w.out from hst]; rfl, .inr ⟨rfl, d, rfl⟩⟩
    · exact ⟨[], by rw [show w1.out = w.out from hst]; rfl, .inl ⟨rfl, fun h => by cases h⟩⟩
    · exact ⟨[], by rw [show w1.out = w.out from hst]; rfl, .inl ⟨rfl, fun h => by cases h⟩⟩

theorem headerDetails_prints (s : Sys σ) (input : List Char) (w : World) :
    (∃ ls, (headerDetails s input w).1 = .ok ls ∧ Prints (ls.map String.toList) w (headerDetails s input w).2) ∨ (∃ e, (headerDetails s input w).1 = .err e ∧ (headerDetails s input w).2.out = w.out) := by
  unfold headerDetails
  have hs : Still (do
      let f ← (Volaris.openFile (toPath s.cwd input)).mapErr fun _ => Error.openFile
      (deserialize f).mapErr fun _ => Error.invalidHeader) := .bind (.mapErr _ (.openFile _)) fun _ => .mapErr _ (deserialize_still _)
  have hs := hs w
  rcases openHeader_any s input w with ⟨q, i, hd, aad, w1, hl, hi, h1, w2, h2, hS, _⟩ | ⟨q, i, e, w1, hl, h1, ⟨w2, h2, hS⟩, hw⟩ | ⟨e, w1, h1, hS, hw⟩
  · left
    rw [Prog.bind_ok (Prog.mapErr_ok h1), Prog.mapErr_ok h2] at hs
    obtain ⟨e1, _, e3⟩ := hs
    obtain ⟨rest, hr, hrest⟩ := keyLines_ok hi
    rw [Prog.bind_ok (Prog.mapErr_ok h1), Prog.bind_ok (Prog.mapErr_ok h2)]
    simp only [hr]
    rw [Prog.bind_ok (sayAll_run _ w2), Prog.bind_ok (show Prog.lift (.ok rest : Res Error (List String)) (w2.saidAll _) = (.ok rest, w2.saidAll _) from rfl), Prog.bind_ok (sayAll_run _ _)]
    refine ⟨_, rfl, ?_⟩
    simp only [← saidAll_append]
    generalize _ ++ rest = ls
    have := saidAll_prints ls w2
    unfold Prints at this ⊢
    rw [hS.stdin, hS.tty, show w2.log = w.log from e1, show w2.out = w.out from e3] at this
    exact this
  · right
    rw [Prog.bind_ok (Prog.mapErr_ok h1), Prog.mapErr_err h2] at hs
    rw [Prog.bind_ok (Prog.mapErr_ok h1), Prog.bind_err (Prog.mapErr_err h2)]
    exact ⟨_, rfl, hs.2.2⟩
  · right
    rw [Prog.bind_err (Prog.mapErr_err h1)] at hs ⊢
    exact ⟨_, rfl, hs.2.2⟩

end Volaris.Cli
