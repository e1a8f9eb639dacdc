import Verif.Proofs.Mkdir
import Verif.Proofs.Frame
import Verif.Proofs.Decrypt
import Verif.Proofs.Tools
import Verif.Proofs.Encrypt
import Verif.Proofs.Shrinks
import Verif.Spec.Unpack
/-!
# Lemmas about unpacking: what it can change
-/
namespace Volaris
open Spec

theorem Prog.mapErr_abort {ε ε' α : Type} {x : Prog ε α} {f : ε → ε'} {w w' : World} {a : Abort} (h : x w = (.abort a, w')) : (x.mapErr f) w = (.abort a, w') := by
  unfold Prog.mapErr; rw [h]

namespace Spec.Extracts
variable {D F : Path → Prop}

theorem refl (w : World) : Extracts D F w w :=
  ⟨fun _ => .inl rfl, fun _ _ _ => rfl, Nat.le_refl _, Nat.le_refl _, fun _ _ => rfl⟩

theorem links {w w' : World} (h : Extracts D F w w') {q : Path} {j : Nat} (hj : j < w.nextIno) (hl : w'.look q = some (.file j)) : w.look q = some (.file j) := by
  rcases h.look q with h1 | ⟨_, h1, _⟩ | ⟨_, _, k, hk, h1⟩
  · rw [← h1]; exact hl
  · rw [h1] at hl; cases hl
  · rw [h1] at hl; cases hl; omega

theorem trans {a b c : World} (h : Extracts D F a b) (g : Extracts D F b c) : Extracts D F a c where
  look := fun q => by
    rcases g.look q with g1 | ⟨g1, g2, g3⟩ | ⟨g1, g2, j, g3, g4⟩
    · rw [g1]; exact h.look q
    · refine .inr (.inl ⟨?_, g2, g3⟩)
      rcases h.look q with h1 | ⟨_, h1, _⟩ | ⟨h1, _⟩
      · rw [← h1]; exact g1
      · rw [h1] at g1; cases g1
      · exact h1
    · refine .inr (.inr ⟨?_, g2, j, Nat.le_trans h.nextIno g3, g4⟩)
      rcases h.look q with h1 | ⟨_, h1, _⟩ | ⟨h1, _⟩
      · rw [← h1]; exact g1
      · rw [h1] at g1; cases g1
      · exact h1
  files := fun j hj hF => by
    rw [g.files j (Nat.lt_of_lt_of_le hj h.nextIno) fun q hq hl => hF q hq (h.links hj hl)]
    exact h.files j hj hF
  nextIno := Nat.le_trans h.nextIno g.nextIno
  nextFd := Nat.le_trans h.nextFd g.nextFd
  inos := fun x hx => (g.inos x (Nat.lt_of_lt_of_le hx h.nextFd)).trans (h.inos x hx)

theorem mono {D' F' : Path → Prop} (hD : ∀ q, D q → D' q) (hF : ∀ q, F q → F' q) {w w' : World} (h : Extracts D F w w') : Extracts D' F' w w' where
  look := fun q => by
    rcases h.look q with h1 | ⟨h1, h2, h3⟩ | ⟨h1, h2, h3⟩
    · exact .inl h1
    · exact .inr (.inl ⟨h1, h2, hD q h3⟩)
    · exact .inr (.inr ⟨h1, hF q h2, h3⟩)
  files := fun j hj h' => h.files j hj fun q hq => h' q (hF q hq)
  nextIno := h.nextIno
  nextFd := h.nextFd
  inos := h.inos

theorem of_eq {w w' : World} (h1 : w'.file = w.file) (h2 : w'.dir = w.dir) (h3 : w'.fd = w.fd) (h4 : w'.nextIno = w.nextIno) (h5 : w'.nextFd = w.nextFd) :
    Extracts D F w w' :=
  ⟨fun q => .inl (World.look_congr h2 q), fun j _ _ => by rw [h1], by omega, by omega, fun _ _ => by rw [h3]⟩

theorem of_sched (w : World) (s : List Io) : Extracts D F w { w with sched := s } := of_eq rfl rfl rfl rfl rfl

theorem of_grow {w w' : World} (h : Grow D w w') : Extracts D F w w' :=
  ⟨fun q => by rcases h.look q with h | h; exact .inl h; exact .inr (.inl h), fun j _ _ => by rw [h.files],
    by rw [h.nextIno]; omega, by rw [h.nextFd]; omega, fun _ _ => by rw [h.fd]⟩

/-- Touching only the position of handles, and the contents of new files or of files with a name in `F`. -/
theorem touch {R W : List Nat} {w w1 w2 : World} (h : Extracts D F w w1)
    (hW : ∀ h ∈ W, w.nextIno ≤ (w1.fd h).ino ∨ ∃ q, F q ∧ w.look q = some (.file (w1.fd h).ino)) (ht : Touches R W w1 w2) : Extracts D F w w2 where
  look := fun q => by rw [World.look_congr ht.dir]; exact h.look q
  files := fun j hj hF => by
    rw [ht.files j, h.files j hj hF]
    intro x hx e
    rcases hW x hx with h1 | ⟨q, h1, h2⟩
    · omega
    · rw [e] at h2; exact hF q h1 h2
  nextIno := by rw [ht.nextIno]; exact h.nextIno
  nextFd := by rw [ht.nextFd]; exact h.nextFd
  inos := fun x hx => by rw [ht.inos]; exact h.inos x hx

end Spec.Extracts

/-! ### Opening files -/

theorem openNewAt_cases (p : PathBuf) (w : World) :
    (∃ q, w.resolve p = .ok q ∧ w.look q = none ∧ w.look q.dropLast = some .dir ∧ openNewAt p w = (.ok w.nextFd, (w.created q).opened w.nextIno)) ∨
    (∃ e, openNewAt p w = (.err e, w) ∧ ∀ q, w.resolve p = .ok q → w.look q = none → w.look q.dropLast ≠ some .dir) := by
  unfold openNewAt
  cases hr : w.resolve p with
  | error e => exact .inr ⟨e, rfl, fun q hq => by cases hq⟩
  | ok q =>
    simp only
    cases hl : w.look q with
    | some n => exact .inr ⟨_, rfl, fun q' hq' => by cases hq'; intro h; rw [hl] at h; cases h⟩
    | none =>
      simp only
      by_cases hd : w.look q.dropLast = some .dir
      · rw [if_pos hd]; exact .inl ⟨q, rfl, hl, hd, rfl⟩
      · rw [if_neg hd]; exact .inr ⟨_, rfl, fun q' hq' => by cases hq'; exact fun _ => hd⟩

theorem openNew_cases (p : PathBuf) (w : World) :
    (∃ q s, s <:+ w.sched ∧ w.resolve p = .ok q ∧ w.look q = none ∧ w.look q.dropLast = some .dir ∧
      openNew p w = (.ok w.nextFd, (({ w with sched := s } : World).created q).opened w.nextIno)) ∨
    (∃ e s, s <:+ w.sched ∧ openNew p w = (.err e, { w with sched := s }) ∧
      (w.sched ≠ [] ∨ ∀ q, w.resolve p = .ok q → w.look q = none → w.look q.dropLast ≠ some .dir)) := by
  unfold openNew
  rcases sysRetry_cases w with ⟨s, hs, he⟩ | ⟨s, e, hs, hn, he⟩
  · rw [Prog.bind_ok he]
    rcases openNewAt_cases p { w with sched := s } with ⟨q, h1, h2, h3, h4⟩ | ⟨e, h1, h2⟩
    · rw [World.resolve_sched] at h1
      exact .inl ⟨q, s, hs, h1, h2, h3, h4⟩
    · refine .inr ⟨e, s, hs, h1, .inr ?_⟩
      intro q hq
      exact h2 q (by rw [World.resolve_sched]; exact hq)
  · rw [Prog.bind_err he]
    exact .inr ⟨e, s, hs, rfl, .inl hn⟩

theorem openTruncAt_any (p : PathBuf) (w : World) :
    (∃ q i, w.resolve p = .ok q ∧ w.look q = some (.file i) ∧ openTruncAt p w = (.ok w.nextFd, (w.opened i).truncated i)) ∨
    (∃ e, openTruncAt p w = (.err e, w)) := by
  unfold openTruncAt
  cases hr : w.resolve p with
  | error e => exact .inr ⟨e, rfl⟩
  | ok q =>
    simp only
    cases hl : w.look q with
    | none => exact .inr ⟨_, rfl⟩
    | some n =>
      cases n with
      | dir => exact .inr ⟨_, rfl⟩
      | file i => exact .inl ⟨q, i, rfl, hl, rfl⟩

theorem openTrunc_any (p : PathBuf) (w : World) :
    (∃ q i s, s <:+ w.sched ∧ w.resolve p = .ok q ∧ w.look q = some (.file i) ∧
      openTrunc p w = (.ok w.nextFd, (({ w with sched := s } : World).opened i).truncated i)) ∨
    (∃ e s, s <:+ w.sched ∧ openTrunc p w = (.err e, { w with sched := s })) := by
  unfold openTrunc
  rcases sysRetry_cases w with ⟨s, hs, he⟩ | ⟨s, e, hs, hn, he⟩
  · rw [Prog.bind_ok he]
    rcases openTruncAt_any p { w with sched := s } with ⟨q, i, h1, h2, h3⟩ | ⟨e, h1⟩
    · rw [World.resolve_sched] at h1
      exact .inl ⟨q, i, s, hs, h1, h2, h3⟩
    · exact .inr ⟨e, s, hs, h1⟩
  · rw [Prog.bind_err he]
    exact .inr ⟨e, s, hs, rfl⟩

namespace Spec.Extracts
variable {D F : Path → Prop}

theorem created {w : World} {q : Path} (hF : F q) (hl : w.look q = none) : Extracts D F w ((w.created q).opened w.nextIno) where
  look := fun x => by
    rw [World.look_opened, World.look_created]
    by_cases h0 : x = []
    · subst h0; simp
    · by_cases hx : x = q
      · subst hx; exact .inr (.inr ⟨hl, hF, w.nextIno, Nat.le_refl _, by simp [h0]⟩)
      · simp [h0, hx]
  files := fun j hj _ => by
    show (if j = w.nextIno then [] else w.file j) = _
    rw [if_neg (by omega)]
  nextIno := Nat.le_succ _
  nextFd := Nat.le_succ _
  inos := fun h hh => by
    show (if h = w.nextFd then _ else w.fd h).ino = _
    rw [if_neg (by omega)]

theorem truncated {w : World} {q : Path} {i : Nat} (hF : F q) (hl : w.look q = some (.file i)) : Extracts D F w ((w.opened i).truncated i) where
  look := fun _ => .inl rfl
  files := fun j hj h => by
    show (if j = i then [] else w.file j) = _
    rw [if_neg]
    rintro rfl
    exact h q hF hl
  nextIno := Nat.le_refl _
  nextFd := Nat.le_succ _
  inos := fun h hh => by
    show (if h = w.nextFd then _ else w.fd h).ino = _
    rw [if_neg (by omega)]

end Spec.Extracts

namespace Unpack

/-! ### Extracting a file -/

theorem memberAt_cases (z : Zip) (t i : Nat) (w : World) :
    (∃ m, memberAt z t i w = (.ok m, w) ∧ ((z.decode (w.data t)).bind (·[i]?) = some m) ∧ m.opens = true) ∨
    (∃ e, memberAt z t i w = (.err e, w) ∧ ∀ m, (z.decode (w.data t)).bind (·[i]?) = some m → m.opens = false) := by
  unfold memberAt
  split
  · next m h =>
    split
    · next ho => exact .inl ⟨m, rfl, h, ho⟩
    · next ho => exact .inr ⟨_, rfl, fun m' hm' => by rw [h] at hm'; cases hm'; simpa using ho⟩
  · next h => exact .inr ⟨_, rfl, fun m' hm' => by rw [h] at hm'; cases hm'⟩

theorem byIndex_cases (z : Zip) (t i : Nat) (w : World) :
    (∃ m s, s <:+ w.sched ∧ byIndex z t i w = (.ok m, { w with sched := s }) ∧ ((z.decode (w.data t)).bind (·[i]?) = some m) ∧ m.opens = true) ∨
    (∃ e s, s <:+ w.sched ∧ byIndex z t i w = (.err e, { w with sched := s }) ∧
      (w.sched ≠ [] ∨ ∀ m, (z.decode (w.data t)).bind (·[i]?) = some m → m.opens = false)) := by
  unfold byIndex
  rcases sysRetry_cases w with ⟨s, hs, he⟩ | ⟨s, e, hs, hn, he⟩
  · rw [Prog.bind_ok he]
    rcases memberAt_cases z t i { w with sched := s } with ⟨m, h1, h2, h3⟩ | ⟨e, h1, h2⟩
    · exact .inl ⟨m, s, hs, h1, h2, h3⟩
    · exact .inr ⟨e, s, hs, h1, .inr h2⟩
  · rw [Prog.bind_err he]
    exact .inr ⟨e, s, hs, rfl, .inl hn⟩

theorem sysRetry_within (R W : List Nat) : Within R W sysRetry := by
  intro w
  rcases sysRetry_cases w with ⟨s, hs, he⟩ | ⟨s, e, hs, hn, he⟩
  · rw [he]; exact Touches.of_core rfl
  · rw [he]; exact Touches.of_core rfl

theorem copy_within (m : ZipMember) (h : Nat) : Within [] [h] (copy m h) := by
  unfold copy
  refine .bind (.mapErr _ (sysRetry_within _ _)) fun _ => .bind (.mapErr _ (.writeAll _ (by simp))) fun _ => ?_
  exact .ite (.pure _) (.throw _)

/-- Opening the file to extract to: a new file, or an existing one that has been cut to nothing. -/
theorem open_cases {D F : Path → Prop} (p : PathBuf) (hF : F (onPaper p)) (w : World) :
    (∃ w1, orElse (Storage.createFile p) (Storage.writeFile p) w = (.ok (.file p w.nextFd), w1) ∧ Extracts D F w w1 ∧
      (w.nextIno ≤ (w1.fd w.nextFd).ino ∨ ∃ q, F q ∧ w.look q = some (.file (w1.fd w.nextFd).ino))) ∨
    (∃ e w1, orElse (Storage.createFile p) (Storage.writeFile p) w = (.err e, w1) ∧ Extracts D F w w1) := by
  have hq : ∀ {w : World} {q}, w.resolve p = .ok q → F q := fun {w q} h => by
    rw [World.walk_lexical (show w.walk p.start p.comps = .ok q from h)]; exact hF
  unfold orElse
  rcases openNew_cases p w with ⟨q, s, hs, hr, hl, hd, he⟩ | ⟨e, s, hs, he, -⟩
  · have e1 : Storage.createFile p w = (.ok (.file p w.nextFd), (({ w with sched := s } : World).created q).opened w.nextIno) := by
      unfold Storage.createFile
      rw [Prog.bind_ok (Prog.mapErr_ok he)]; rfl
    rw [e1]
    refine .inl ⟨_, rfl, (Extracts.of_sched w s).trans (Extracts.created (w := { w with sched := s }) (hq hr) hl), .inl ?_⟩
    show w.nextIno ≤ (if w.nextFd = w.nextFd then ({ ino := w.nextIno, pos := 0 } : Fd) else _).ino
    rw [if_pos rfl]; exact Nat.le_refl _
  · have e1 : Storage.createFile p w = (.err .createFile, { w with sched := s }) := by
      unfold Storage.createFile
      rw [Prog.bind_err (Prog.mapErr_err he)]
    rw [e1]
    simp only
    rcases openTrunc_any p { w with sched := s } with ⟨q, i, s2, hs2, hr, hl, he2⟩ | ⟨e2, s2, hs2, he2⟩
    · have e2 : Storage.writeFile p { w with sched := s } = (.ok (.file p w.nextFd), (({ w with sched := s2 } : World).opened i).truncated i) := by
        unfold Storage.writeFile
        rw [Prog.bind_ok (Prog.mapErr_ok he2)]; rfl
      rw [e2]
      refine .inl ⟨_, rfl, (Extracts.of_sched w s2).trans (Extracts.truncated (w := { w with sched := s2 }) (hq hr) hl), .inr ⟨q, hq hr, ?_⟩⟩
      have : ((({ w with sched := s2 } : World).opened i).truncated i).fd w.nextFd = { ino := i, pos := 0 } := by
        show (if w.nextFd = w.nextFd then _ else _) = _
        rw [if_pos rfl]
      rw [this]
      exact hl
    · have e2 : Storage.writeFile p { w with sched := s } = (.err (.openFile .write), { w with sched := s2 }) := by
        unfold Storage.writeFile
        rw [Prog.bind_err (Prog.mapErr_err he2)]
      rw [e2]
      exact .inr ⟨_, _, rfl, .of_sched w s2⟩

theorem extract_frame {D F : Path → Prop} (z : Zip) (t : Nat) (e : Entity) (hF : F (onPaper e.1)) (w : World) : Extracts D F w (extract z t e w).2 := by
  unfold extract
  rcases byIndex_cases z t e.2.1 w with ⟨m, s, hs, he, -⟩ | ⟨x, s, hs, he, -⟩
  · rw [Prog.bind_ok (Prog.mapErr_ok he)]
    have h0 : Extracts D F w { w with sched := s } := .of_sched w s
    rcases open_cases (D := D) e.1 hF { w with sched := s } with ⟨w1, h1, h2, h3⟩ | ⟨x, w1, h1, h2⟩
    · rw [Prog.bind_ok (Prog.mapErr_ok h1)]
      have e3 : (Prog.lift ((Storage.Entry.file e.1 ({ w with sched := s } : World).nextFd).stream.mapErr Error.storage) : Prog Error Nat) w1 = (.ok w.nextFd, w1) := rfl
      rw [Prog.bind_ok e3]
      refine Extracts.touch (R := []) (W := [w.nextFd]) (h0.trans h2) ?_ (copy_within m w.nextFd w1)
      intro h hh
      cases List.mem_singleton.1 hh
      exact h3
    · rw [Prog.bind_err (Prog.mapErr_err h1)]
      exact h0.trans h2
  · rw [Prog.bind_err (Prog.mapErr_err he)]
    exact .of_sched w s

theorem extractAll_frame {D F : Path → Prop} (z : Zip) (t : Nat) : ∀ (es : List Entity), (∀ e ∈ es, F (onPaper e.1)) → ∀ w, Extracts D F w (extractAll z t es w).2 := by
  intro es
  induction es with
  | nil => intro _ w; exact .refl w
  | cons e es ih =>
    intro hF w
    unfold extractAll
    have h1 := extract_frame (D := D) z t e (hF e List.mem_cons_self) w
    rcases he : extract z t e w with ⟨r, w1⟩
    rw [he] at h1
    cases r with
    | ok u => rw [Prog.bind_ok he]; exact h1.trans (ih (fun e he => hF e (List.mem_cons_of_mem _ he)) w1)
    | err x => rw [Prog.bind_err he]; exact h1
    | abort a => rw [Prog.bind_abort he]; exact h1

/-! ### Choosing what to extract -/

/-- The paths of the members with the given indices, in an archive read as `o`. -/
def pathsAt (out : PathBuf) (o : Option (List ZipMember)) (is : List Nat) : List PathBuf :=
  is.filterMap fun i => (o.bind (·[i]?)).bind fun m => if m.opens then (ZipName.enclosed m.name).map out.push else none

theorem pathsAt_range (out : PathBuf) (ms : List ZipMember) : pathsAt out (some ms) (List.range ms.length) = memberPaths out ms := by
  unfold pathsAt memberPaths
  have h : (List.range ms.length).filterMap (fun i => ms[i]?) = ms := by
    have : (List.range ms.length).map (fun i => ms[i]?) = ms.map some := by
      apply List.ext_getElem?
      intro i
      by_cases hi : i < ms.length
      · simp [hi]
      · simp [hi]
    have h2 : (List.range ms.length).filterMap (fun i => ms[i]?) = ((List.range ms.length).map (fun i => ms[i]?)).filterMap id := by
      rw [List.filterMap_map]; rfl
    rw [h2, this, List.filterMap_map]
    have : (id ∘ some : ZipMember → Option ZipMember) = some := rfl
    rw [this, List.filterMap_some]
  conv => rhs; rw [← h]
  rw [List.filterMap_filterMap]
  rfl

theorem pathsAt_cons (out : PathBuf) (o : Option (List ZipMember)) (i : Nat) (is : List Nat) : pathsAt out o (i :: is) =
    match (o.bind (·[i]?)).bind fun m => if m.opens then (ZipName.enclosed m.name).map out.push else none with
    | some p => p :: pathsAt out o is
    | none => pathsAt out o is := by
  unfold pathsAt
  rw [List.filterMap_cons]
  split <;> (split <;> simp_all)

/-- The paths that were accepted. -/
def accepted (l : List (PathBuf × Bool)) : List PathBuf := (l.filter (·.2)).map (·.1)

/-- Only the schedule and what belongs to the user's input has changed. -/
structure SameFs (w w' : World) : Prop where
  file : w'.file = w.file
  dir : w'.dir = w.dir
  fd : w'.fd = w.fd
  nextIno : w'.nextIno = w.nextIno
  nextFd : w'.nextFd = w.nextFd
  sched : w'.sched <:+ w.sched

theorem SameFs.refl (w : World) : SameFs w w := ⟨rfl, rfl, rfl, rfl, rfl, List.suffix_refl _⟩

theorem SameFs.trans {a b c : World} (h : SameFs a b) (g : SameFs b c) : SameFs a c :=
  ⟨g.file.trans h.file, g.dir.trans h.dir, g.fd.trans h.fd, g.nextIno.trans h.nextIno, g.nextFd.trans h.nextFd, g.sched.trans h.sched⟩

theorem SameFs.of_sched (w : World) {s : List Io} (hs : s <:+ w.sched) : SameFs w { w with sched := s } := ⟨rfl, rfl, rfl, rfl, rfl, hs⟩

theorem SameFs.data {w w' : World} (h : SameFs w w') (t : Nat) : w'.data t = w.data t := by
  unfold World.data; rw [h.file, h.fd]

/-- What was there is there. -/
theorem _root_.Volaris.Spec.Extracts.keeps {D F : Path → Prop} {w w' : World} (h : Extracts D F w w') {q : Path} {n : Node} (hq : w.look q = some n) : w'.look q = some n := by
  rcases h.look q with h | ⟨h, -⟩ | ⟨h, -⟩
  · rw [h, hq]
  · rw [h] at hq; cases hq
  · rw [h] at hq; cases hq

theorem SameFs.extracts {D F : Path → Prop} {w w' : World} (h : SameFs w w') : Extracts D F w w' :=
  .of_eq h.file h.dir h.fd h.nextIno h.nextFd

theorem Spec.OnlyTalks.same {ε : Type} {f : PathBuf → Prog ε Bool} (h : OnlyTalks f) {p : PathBuf} {w w' : World} {r : Res ε Bool} (he : f p w = (r, w')) : SameFs w w' := by
  have e : w' = (f p w).2 := by rw [he]
  rw [e]
  exact ⟨h.file p w, h.dir p w, h.fd p w, h.nextIno p w, h.nextFd p w, h.sched p w⟩

theorem asked_sched {ε : Type} {f : PathBuf → Prog ε Bool} {w w' : World} {l : List (PathBuf × Bool)} (s : List Io) (h : Asked f { w with sched := s } l w') : Asked f w l w' := by
  cases h with
  | nil h1 h2 h3 => exact .nil h1 h2 h3
  | ask h1 h2 h3 hk hf hl => exact .ask h1 h2 h3 hk hf hl

theorem Spec.Asked.right {ε : Type} {f : PathBuf → Prog ε Bool} {w w' w2 : World} {l : List (PathBuf × Bool)} (h : Asked f w l w') (h1 : w2.stdin = w'.stdin) (h2 : w2.tty = w'.tty)
    (h3 : w2.out = w'.out) : Asked f w l w2 := by
  induction h with
  | nil a b c => exact .nil (h1.trans a) (h2.trans b) (h3.trans c)
  | ask a b c hk hf hl ih => exact .ask a b c hk hf (ih h1 h2 h3)

theorem Spec.Asked.left {ε : Type} {f : PathBuf → Prog ε Bool} {w w' w0 : World} {l : List (PathBuf × Bool)} (h : Asked f w l w') (h1 : w.stdin = w0.stdin) (h2 : w.tty = w0.tty)
    (h4 : w.out = w0.out) (h3 : ∀ q n, w0.look q = some n → w.look q = some n) : Asked f w0 l w' := by
  cases h with
  | nil a b c => exact .nil (a.trans h1) (b.trans h2) (c.trans h4)
  | ask a b c hk hf hl => exact .ask (a.trans h1) (b.trans h2) (c.trans h4) (fun q n hq => hk q n (h3 q n hq)) hf hl

theorem entities_cons (z : Zip) (t : Nat) (out : PathBuf) (cb : Option (PathBuf → Prog Error Bool)) (i : Nat) (is : List Nat) :
    entities z t out cb (i :: is) = (do
      let r ← Prog.attempt (byIndex z t i)
      match r with
      | .ok m =>
          match ZipName.enclosed m.name with
          | some cs => do
              let keep ← ask cb (out.push cs)
              let rest ← entities z t out cb is
              pure (if keep then (out.push cs, i, ZipName.isDir m.name) :: rest else rest)
          | none => entities z t out cb is
      | .err _ => entities z t out cb is
      | .abort a => Prog.lift (.abort a)) := rfl

/-- Every chosen entity is a member of the archive, under its enclosed name. -/
def FromArchive (out : PathBuf) (o : Option (List ZipMember)) (e : Entity) : Prop :=
  ∃ m cs, o.bind (·[e.2.1]?) = some m ∧ m.opens = true ∧ ZipName.enclosed m.name = some cs ∧ e.1 = out.push cs ∧ e.2.2 = ZipName.isDir m.name

theorem entities_cases (z : Zip) (t : Nat) (out : PathBuf) (cb : Option (PathBuf → Prog Error Bool)) (hcb : OnlyTalks (ask cb)) : ∀ (is : List Nat) (w : World),
    ∃ r w', entities z t out cb is w = (r, w') ∧ SameFs w w' ∧ ∀ es, r = .ok es → ∃ conv, Asked (ask cb) w conv w' ∧ es.map (·.1) = accepted conv ∧
      (conv.map (·.1)).Sublist (pathsAt out (z.decode (w.data t)) is) ∧ (w.sched = [] → conv.map (·.1) = pathsAt out (z.decode (w.data t)) is) ∧
      ∀ e ∈ es, FromArchive out (z.decode (w.data t)) e := by
  intro is
  induction is with
  | nil =>
    intro w
    refine ⟨_, w, rfl, .refl w, fun es h => ?_⟩
    cases h
    exact ⟨[], .nil rfl rfl rfl, rfl, List.Sublist.refl _, fun _ => rfl, by simp⟩
  | cons i is ih =>
    intro w
    rw [entities_cons, pathsAt_cons]
    rcases byIndex_cases z t i w with ⟨m, s, hs, he, hm, ho⟩ | ⟨x, s, hs, he, hno⟩
    · have e1 : (Prog.attempt (byIndex z t i) : Prog Error _) w = (.ok (.ok m), { w with sched := s }) := by unfold Prog.attempt; rw [he]
      rw [Prog.bind_ok e1, hm]
      simp only [Option.bind_some, ho, if_true]
      have s0 : SameFs w { w with sched := s } := .of_sched w hs
      have hnil : w.sched = [] → s = [] := fun h => by rw [h] at hs; exact List.suffix_nil.1 hs
      cases hen : ZipName.enclosed m.name with
      | none =>
        simp only [Option.map_none]
        obtain ⟨r, w', h1, h2, h3⟩ := ih { w with sched := s }
        refine ⟨r, w', h1, s0.trans h2, fun es hes => ?_⟩
        obtain ⟨conv, c1, c2, c3, c4, c5⟩ := h3 es hes
        exact ⟨conv, asked_sched s c1, c2, c3, fun h => c4 (hnil h), c5⟩
      | some cs =>
        simp only [Option.map_some]
        rcases ha : ask cb (out.push cs) { w with sched := s } with ⟨ra, wa⟩
        have sa := Spec.OnlyTalks.same hcb ha
        cases ra with
        | err x => rw [Prog.bind_err ha]; exact ⟨_, wa, rfl, s0.trans sa, fun es h => by cases h⟩
        | abort a => rw [Prog.bind_abort ha]; exact ⟨_, wa, rfl, s0.trans sa, fun es h => by cases h⟩
        | ok keep =>
          rw [Prog.bind_ok ha]
          obtain ⟨r, w', h1, h2, h3⟩ := ih wa
          have sd : wa.data t = w.data t := (s0.trans sa).data t
          rw [sd] at h3
          cases r with
          | err x => rw [Prog.bind_err h1]; exact ⟨_, w', rfl, (s0.trans sa).trans h2, fun es h => by cases h⟩
          | abort a => rw [Prog.bind_abort h1]; exact ⟨_, w', rfl, (s0.trans sa).trans h2, fun es h => by cases h⟩
          | ok rest =>
            rw [Prog.bind_ok h1]
            refine ⟨_, w', rfl, (s0.trans sa).trans h2, fun es hes => ?_⟩
            cases hes
            obtain ⟨conv, c1, c2, c3, c4, c5⟩ := h3 rest rfl
            refine ⟨(out.push cs, keep) :: conv, .ask (w1 := { w with sched := s }) rfl rfl rfl (fun _ _ h => h) ha c1, ?_, ?_, ?_, ?_⟩
            · cases keep with
              | true => simp [accepted, c2]
              | false => simp [accepted, c2]
            · exact List.Sublist.cons_cons _ c3
            · intro h
              rw [List.map_cons, c4]
              have := sa.sched
              rw [show ({ w with sched := s } : World).sched = s from rfl, hnil h] at this
              exact List.suffix_nil.1 this
            · intro e he
              cases keep with
              | true =>
                simp only [if_true] at he
                rcases List.mem_cons.1 he with rfl | he
                · exact ⟨m, cs, hm, ho, hen, rfl, rfl⟩
                · exact c5 e he
              | false => exact c5 e (by simpa using he)
    · have e1 : (Prog.attempt (byIndex z t i) : Prog Error _) w = (.ok (.err x), { w with sched := s }) := by unfold Prog.attempt; rw [he]
      rw [Prog.bind_ok e1]
      have s0 : SameFs w { w with sched := s } := .of_sched w hs
      have hnil : w.sched = [] → s = [] := fun h => by rw [h] at hs; exact List.suffix_nil.1 hs
      obtain ⟨r, w', h1, h2, h3⟩ := ih { w with sched := s }
      refine ⟨r, w', h1, s0.trans h2, fun es hes => ?_⟩
      obtain ⟨conv, c1, c2, c3, c4, c5⟩ := h3 es hes
      refine ⟨conv, asked_sched s c1, c2, ?_, fun h => ?_, c5⟩
      · split
        · exact .cons _ c3
        · exact c3
      · rcases hno with hno | hno
        · exact absurd h hno
        · split
          · next p hp =>
            obtain ⟨m, hm, hp⟩ := Option.bind_eq_some_iff.1 hp
            rw [hno m hm] at hp
            simp at hp
          · exact c4 (hnil h)

/-! ### Programs that do not talk to the user -/

/-- The user's input is left alone and nothing is printed. -/
def Silent {ε α : Type} (x : Prog ε α) : Prop := ∀ w, (x w).2.stdin = w.stdin ∧ (x w).2.tty = w.tty ∧ (x w).2.out = w.out

namespace Silent
variable {ε ε' α β : Type}

theorem of_within {R W : List Nat} {x : Prog ε α} (h : Within R W x) : Silent x := fun w => ⟨(h w).stdin, (h w).tty, (h w).out⟩

theorem lift (r : Res ε α) : Silent (Prog.lift r) := fun _ => ⟨rfl, rfl, rfl⟩
theorem pure (a : α) : Silent (Pure.pure a : Prog ε α) := fun _ => ⟨rfl, rfl, rfl⟩
theorem throw (e : ε) : Silent (Prog.throw e : Prog ε α) := fun _ => ⟨rfl, rfl, rfl⟩

theorem bind {x : Prog ε α} {f : α → Prog ε β} (hx : Silent x) (hf : ∀ a, Silent (f a)) : Silent (x >>= f) := by
  intro w
  have h1 := hx w
  rcases he : x w with ⟨r, w1⟩
  rw [he] at h1
  cases r with
  | ok a => rw [Prog.bind_ok he]; exact ⟨(hf a w1).1.trans h1.1, (hf a w1).2.1.trans h1.2.1, (hf a w1).2.2.trans h1.2.2⟩
  | err e => rw [Prog.bind_err he]; exact h1
  | abort a => rw [Prog.bind_abort he]; exact h1

theorem mapErr {x : Prog ε α} (f : ε → ε') (hx : Silent x) : Silent (x.mapErr f) := by
  intro w
  have h1 := hx w
  unfold Prog.mapErr
  rcases he : x w with ⟨r, w1⟩
  rw [he] at h1
  cases r <;> exact h1

theorem attempt {x : Prog ε α} (hx : Silent x) : Silent (x.attempt : Prog ε' _) := by
  intro w
  have h1 := hx w
  unfold Prog.attempt
  rcases he : x w with ⟨r, w1⟩
  rw [he] at h1
  cases r <;> exact h1

theorem orElse {x y : Prog ε α} (hx : Silent x) (hy : Silent y) : Silent (Unpack.orElse x y) := by
  intro w
  have h1 := hx w
  unfold Unpack.orElse
  rcases he : x w with ⟨r, w1⟩
  rw [he] at h1
  cases r with
  | ok a => exact h1
  | err e => exact ⟨(hy w1).1.trans h1.1, (hy w1).2.1.trans h1.2.1, (hy w1).2.2.trans h1.2.2⟩
  | abort a => exact h1

theorem sysRetry : Silent sysRetry := of_within (sysRetry_within [] [])

theorem sys : Silent sys := by
  intro w
  rcases sys_cases w with ⟨s, hs, he⟩ | ⟨s, e, hs, hn, he⟩ <;> rw [he] <;> exact ⟨rfl, rfl, rfl⟩

theorem createFile (p : PathBuf) : Silent (Storage.createFile p) := by
  refine bind (mapErr _ fun w => ?_) fun _ => pure _
  rcases openNew_cases p w with ⟨q, s, hs, hr, hl, hd, he⟩ | ⟨e, s, hs, he, -⟩ <;> rw [he] <;> exact ⟨rfl, rfl, rfl⟩

theorem writeFile (p : PathBuf) : Silent (Storage.writeFile p) := by
  refine bind (mapErr _ fun w => ?_) fun _ => pure _
  rcases openTrunc_any p w with ⟨q, s, hs, hr, hl, hd, he⟩ | ⟨e, s, hs, he⟩ <;> rw [he] <;> exact ⟨rfl, rfl, rfl⟩

theorem byIndex (z : Zip) (t i : Nat) : Silent (Unpack.byIndex z t i) := by
  intro w
  rcases byIndex_cases z t i w with ⟨m, s, hs, he, -⟩ | ⟨x, s, hs, he, -⟩ <;> rw [he] <;> exact ⟨rfl, rfl, rfl⟩

theorem extract (z : Zip) (t : Nat) (e : Entity) : Silent (Unpack.extract z t e) :=
  bind (mapErr _ (byIndex z t _)) fun m => bind (mapErr _ (orElse (createFile _) (writeFile _))) fun _ => bind (lift _) fun h => of_within (copy_within m h)

theorem extractAll (z : Zip) (t : Nat) : ∀ es : List Entity, Silent (Unpack.extractAll z t es)
  | [] => pure ()
  | e :: es => bind (extract z t e) fun _ => extractAll z t es

end Silent

/-! ### Enclosed names stay inside -/

theorem _root_.Volaris.lexical_append (cs ds : List Comp) : ∀ cur, lexical cur (cs ++ ds) = lexical (lexical cur cs) ds := by
  induction cs with
  | nil => intro cur; rfl
  | cons c cs ih =>
    intro cur
    cases c with
    | up => exact ih _
    | name n => exact ih _

theorem depthOk_prefix : ∀ (cs : List Comp) (d : Nat) (pre : List Comp), pre <+: cs → ZipName.depthOk d cs = true → ZipName.depthOk d pre = true := by
  intro cs
  induction cs with
  | nil => intro d pre hp _; rw [List.prefix_nil.1 hp]; cases d <;> rfl
  | cons c cs ih =>
    intro d pre hp h
    cases pre with
    | nil => cases d <;> rfl
    | cons c' pre =>
      rw [List.cons_prefix_cons] at hp
      obtain ⟨rfl, hp⟩ := hp
      cases c' with
      | up =>
        cases d with
        | zero => cases h
        | succ d => exact ih d pre hp h
      | name n =>
        cases d with
        | zero => exact ih 1 pre hp h
        | succ d => exact ih (d + 2) pre hp h

theorem depthOk_under (T : Path) : ∀ (cs : List Comp) (xs : Path), ZipName.depthOk xs.length cs = true → ∃ ys, lexical (T ++ xs) cs = T ++ ys := by
  intro cs
  induction cs with
  | nil => intro xs _; exact ⟨xs, rfl⟩
  | cons c cs ih =>
    intro xs h
    cases c with
    | up =>
      by_cases hx : xs = []
      · subst hx; cases h
      · obtain ⟨d, hd⟩ : ∃ d, xs.length = d + 1 := ⟨xs.length - 1, by have := List.length_pos_iff.2 hx; omega⟩
        rw [hd] at h
        have h : ZipName.depthOk d cs = true := h
        have := ih xs.dropLast (by rw [List.length_dropLast, hd]; exact h)
        unfold lexical
        rwa [List.dropLast_append_of_ne_nil hx]
    | name n =>
      have h : ZipName.depthOk (xs.length + 1) cs = true := by
        cases hx : xs.length with
        | zero => rw [hx] at h; exact h
        | succ d => rw [hx] at h; exact h
      have := ih (xs ++ [n]) (by simpa using h)
      unfold lexical
      rwa [List.append_assoc]

/-- Everything on the way to an enclosed path is on the way to the output directory or inside it. -/
theorem onTheWay_push {out : PathBuf} {cs : List Comp} (h : ZipName.depthOk 0 cs = true) {q : Path} (hq : OnTheWay (out.push cs) q) :
    OnTheWay out q ∨ onPaper out <+: q := by
  obtain ⟨pre, hp, rfl⟩ := hq
  have hp : pre <+: out.comps ++ cs := hp
  rcases List.prefix_or_prefix_of_prefix hp (List.prefix_append out.comps cs) with h1 | ⟨t, rfl⟩
  · exact .inl ⟨pre, h1, rfl⟩
  · right
    have ht : t <+: cs := (List.prefix_append_right_inj _).1 hp
    obtain ⟨ys, hy⟩ := depthOk_under (onPaper out) t [] (depthOk_prefix cs 0 t ht h)
    rw [lexical_append]
    rw [List.append_nil] at hy
    exact ⟨ys, hy.symm⟩

theorem enclosed_depth {name : List Char} {cs : List Comp} (h : ZipName.enclosed name = some cs) : ZipName.depthOk 0 cs = true := by
  unfold ZipName.enclosed at h
  split at h
  · cases h
  · split at h
    · next hd => cases h; exact hd
    · cases h

/-! ### Recovering the files -/

theorem mem_accepted {conv : List (PathBuf × Bool)} {p : PathBuf} : p ∈ accepted conv ↔ (p, true) ∈ conv := by
  unfold accepted
  rw [List.mem_map]
  constructor
  · rintro ⟨⟨p', b⟩, h, rfl⟩
    obtain ⟨h1, h2⟩ := List.mem_filter.1 h
    cases h2
    exact h1
  · intro h
    exact ⟨(p, true), List.mem_filter.2 ⟨h, rfl⟩, rfl⟩

theorem openArchive_cases (z : Zip) (t : Nat) (w : World) :
    (∃ ms s, s <:+ w.sched ∧ z.decode (w.data t) = some ms ∧ openArchive z t w = (.ok ms.length, { w with sched := s })) ∨
    (∃ s, s <:+ w.sched ∧ openArchive z t w = (.err .openArchive, { w with sched := s }) ∧ (w.sched ≠ [] ∨ z.decode (w.data t) = none)) := by
  unfold openArchive
  rcases sysRetry_cases w with ⟨s, hs, he⟩ | ⟨s, e, hs, hn, he⟩
  · rw [Prog.bind_ok (Prog.mapErr_ok he)]
    unfold lenAt
    cases hd : z.decode (w.data t) with
    | some ms => exact .inl ⟨ms, s, hs, rfl, by rw [show ({ w with sched := s } : World).data t = w.data t from rfl, hd]⟩
    | none => exact .inr ⟨s, hs, by rw [show ({ w with sched := s } : World).data t = w.data t from rfl, hd], .inr rfl⟩
  · rw [Prog.bind_err (Prog.mapErr_err he)]
    exact .inr ⟨s, hs, rfl, .inl hn⟩

/-- What `recover` does, as far as it concerns what can be changed. -/
theorem recover_frame (z : Zip) (order : List Nat) (t : Nat) (req : Request) (hcb : OnlyTalks (ask req.onZipFile)) (w : World)
    (hst : w.look req.outputDir.start = some .dir) :
    ∃ r w', recover z order t req w = (r, w') ∧
      ((r ≠ .ok () ∧ Extracts (fun _ => False) (fun _ => False) w w') ∨
       (∃ ms conv, z.decode (w.data t) = some ms ∧ Asked (ask req.onZipFile) w conv w' ∧ (conv.map (·.1)).Sublist (memberPaths req.outputDir ms) ∧
          (w.sched = [] → conv.map (·.1) = memberPaths req.outputDir ms) ∧ Extracts (fun q => DirsOf req.outputDir conv q ∧ DirMember req.outputDir ms q) (fun q => FilesOf conv q ∧ FileMember req.outputDir ms q) w w')) := by
  unfold recover
  rcases rewind_cases t w with ⟨s, hs, he⟩ | ⟨s, e, hs, hn, he⟩
  · rw [Prog.bind_ok (Prog.mapErr_ok he)]
    have h0 : ∀ {D F}, Extracts D F w { w.setPos t 0 with sched := s } := fun {D F} =>
      Extracts.touch (R := [t]) (W := []) (.refl w) (by simp) ((Touches.setPos (p := 0) (h := t) (by simp)).trans (.of_core rfl))
    have hd0 : ({ w.setPos t 0 with sched := s } : World).data t = w.data t := World.data_setPos w t 0 t
    rcases openArchive_cases z t { w.setPos t 0 with sched := s } with ⟨ms, s1, hs1, hm, he1⟩ | ⟨s1, hs1, he1, -⟩
    · rw [Prog.bind_ok he1]
      have h1 : ∀ {D F}, Extracts D F w { w.setPos t 0 with sched := s1 } := fun {D F} =>
        (h0 (D := D) (F := F)).trans (.of_sched { w.setPos t 0 with sched := s } s1)
      rw [hd0] at hm
      have hd1 : ({ w.setPos t 0 with sched := s1 } : World).data t = w.data t := World.data_setPos w t 0 t
      obtain ⟨r, w2, he2, hsf, hes⟩ := entities_cases z t req.outputDir req.onZipFile hcb (List.range ms.length) { w.setPos t 0 with sched := s1 }
      cases r with
      | err x =>
        rw [Prog.bind_err he2]
        exact ⟨_, w2, rfl, .inl ⟨by simp, h1.trans hsf.extracts⟩⟩
      | abort a =>
        rw [Prog.bind_abort he2]
        exact ⟨_, w2, rfl, .inl ⟨by simp, h1.trans hsf.extracts⟩⟩
      | ok es =>
        rw [Prog.bind_ok he2]
        obtain ⟨conv, c1, c2, c3, c4, c5⟩ := hes es rfl
        rw [hd1, hm, pathsAt_range] at c3 c4
        have c4 : w.sched = [] → conv.map (·.1) = memberPaths req.outputDir ms := fun h => c4 (by
          rw [h] at hs
          rw [List.suffix_nil.1 hs] at hs1
          exact List.suffix_nil.1 hs1)
        have c1 : Asked (ask req.onZipFile) w conv w2 := Spec.Asked.left c1 rfl rfl rfl fun _ _ h => h
        have hacc : ∀ e ∈ es, (e.1, true) ∈ conv := fun e he => mem_accepted.1 (c2 ▸ List.mem_map.2 ⟨e, he, rfl⟩)
        have hx2 : ∀ {D F}, Extracts D F w w2 := fun {D F} => (h1 (D := D) (F := F)).trans hsf.extracts
        have hmem : ∀ {k : Nat} {m : ZipMember}, (z.decode (({ w.setPos t 0 with sched := s1 } : World).data t)).bind (·[k]?) = some m → m ∈ ms := by
          intro k m h
          rw [hd1, hm] at h
          exact List.mem_of_getElem? h
        -- the directories
        obtain ⟨r3, w3, he3, hg, -⟩ := Storage.mkdirThreads_cases (S := fun q => DirsOf req.outputDir conv q ∧ DirMember req.outputDir ms q) order
          ((es.filter (·.2.2)).map (·.1) ++ [req.outputDir]) Error.storage
          (by
            intro p hp q hq
            rcases List.mem_append.1 hp with hp | hp
            · obtain ⟨e, he, rfl⟩ := List.mem_map.1 hp
              obtain ⟨he, hb⟩ := List.mem_filter.1 he
              obtain ⟨m, cs, h1, h2, h3, h4, h5⟩ := c5 e he
              exact ⟨.inr ⟨e.1, hacc e he, hq⟩, .inr ⟨m, hmem h1, h2, by rw [← h5]; exact hb, cs, h3, by rw [← h4]; exact hq⟩⟩
            · rw [List.mem_singleton.1 hp] at hq
              exact ⟨.inl hq, .inl hq⟩)
          w2
          (by
            have hst2 : w2.look req.outputDir.start = some .dir := by
              rw [World.look_congr (hsf.dir.trans rfl)]; exact hst
            intro p hp
            rcases List.mem_append.1 hp with hp | hp
            · obtain ⟨e, he, rfl⟩ := List.mem_map.1 hp
              obtain ⟨m, cs, -, -, -, h6, -⟩ := c5 e (List.mem_filter.1 he).1
              rw [h6]
              exact hst2
            · rw [List.mem_singleton.1 hp]
              exact hst2)
        have hx3 : Extracts (fun q => DirsOf req.outputDir conv q ∧ DirMember req.outputDir ms q) (fun q => FilesOf conv q ∧ FileMember req.outputDir ms q) w w3 := hx2.trans (.of_grow hg)
        have c13 : Asked (ask req.onZipFile) w conv w3 := Spec.Asked.right c1 hg.stdin hg.tty hg.out
        have he3 : spawnJoin order (dirThreads req.outputDir es) w2 = (r3, w3) := he3
        cases r3 with
        | err x => rw [Prog.bind_err he3]; exact ⟨_, w3, rfl, .inr ⟨ms, conv, hm, c13, c3, c4, hx3⟩⟩
        | abort a => rw [Prog.bind_abort he3]; exact ⟨_, w3, rfl, .inr ⟨ms, conv, hm, c13, c3, c4, hx3⟩⟩
        | ok u =>
          rw [Prog.bind_ok he3]
          have hs4 := Silent.extractAll z t (es.filter (!·.2.2)) w3
          have hx4 := extractAll_frame (D := fun q => DirsOf req.outputDir conv q ∧ DirMember req.outputDir ms q) (F := fun q => FilesOf conv q ∧ FileMember req.outputDir ms q) z t (es.filter (!·.2.2))
            (fun e he => by
              obtain ⟨he, hb⟩ := List.mem_filter.1 he
              obtain ⟨m, cs, h1, h2, h3, h4, h5⟩ := c5 e he
              exact ⟨⟨e.1, hacc e he, rfl⟩, m, hmem h1, h2, by rw [← h5]; simpa using hb, cs, h3, by rw [h4]⟩) w3
          refine ⟨_, _, rfl, .inr ⟨ms, conv, hm, Spec.Asked.right c13 hs4.1 hs4.2.1 hs4.2.2, c3, c4, hx3.trans hx4⟩⟩
    · rw [Prog.bind_err he1]
      refine ⟨_, _, rfl, .inl ⟨by simp, h0.trans (.of_sched { w.setPos t 0 with sched := s } s1)⟩⟩
  · rw [Prog.bind_err (Prog.mapErr_err he)]
    exact ⟨_, _, rfl, .inl ⟨by simp, .of_sched w s⟩⟩

/-! ### The temporary file -/

/-- Making the temporary file. -/
theorem createTempFile_cases (tmp : PathBuf) (w : World) :
    (∃ s, s <:+ w.sched ∧ (w.resolve (tempPath tmp w) = .ok (onPaper (tempPath tmp w))) ∧ w.look (onPaper (tempPath tmp w)) = none ∧
      Storage.createTempFile tmp w = (.ok (.file (tempPath tmp w) w.nextFd),
        (({ w.draw 16 with sched := s } : World).created (onPaper (tempPath tmp w))).opened w.nextIno)) ∨
    (∃ s, s <:+ w.sched ∧ Storage.createTempFile tmp w = (.err .createFile, { w.draw 16 with sched := s }) ∧
      (w.sched ≠ [] ∨ ∀ q, w.resolve (tempPath tmp w) = .ok q → w.look q = none → w.look q.dropLast ≠ some .dir)) := by
  unfold Storage.createTempFile
  rw [Prog.bind_ok (genBytes_draw 16 w)]
  have hp : tmp.push [.name ((tape w 0 16).map Storage.alphanumeric)] = tempPath tmp w := rfl
  rw [hp]
  unfold Storage.createFile
  rcases openNew_cases (tempPath tmp w) (w.draw 16) with ⟨q, s, hs, hr, hl, hd, he⟩ | ⟨e, s, hs, he, hw⟩
  · rw [Prog.bind_ok (Prog.mapErr_ok he)]
    have hr : w.resolve (tempPath tmp w) = .ok q := by rw [← World.resolve_congr (w := w) (w' := w.draw 16) rfl]; exact hr
    have hq : q = onPaper (tempPath tmp w) := World.walk_lexical (show w.walk _ _ = .ok q from hr)
    subst hq
    exact .inl ⟨s, hs, hr, hl, rfl⟩
  · rw [Prog.bind_err (Prog.mapErr_err he)]
    refine .inr ⟨s, hs, rfl, hw.imp id fun h q hq => h q ?_⟩
    rw [World.resolve_congr (w := w) (w' := w.draw 16) rfl]; exact hq

theorem unlinkAt_any (p : PathBuf) (w : World) :
    (∃ q i, w.resolve p = .ok q ∧ w.look q = some (.file i) ∧ unlinkAt p w = (.ok (), w.removed q)) ∨ (∃ e, unlinkAt p w = (.err e, w)) := by
  unfold unlinkAt
  cases hr : w.resolve p with
  | error e => exact .inr ⟨e, rfl⟩
  | ok q =>
    simp only
    cases hl : w.look q with
    | none => exact .inr ⟨_, rfl⟩
    | some n =>
      cases n with
      | dir => exact .inr ⟨_, rfl⟩
      | file i => exact .inl ⟨q, i, rfl, hl, rfl⟩

theorem unlink_any (p : PathBuf) (w : World) :
    (∃ q i s, s <:+ w.sched ∧ w.resolve p = .ok q ∧ w.look q = some (.file i) ∧ unlink p w = (.ok (), ({ w with sched := s } : World).removed q)) ∨
    (∃ e s, s <:+ w.sched ∧ unlink p w = (.err e, { w with sched := s })) := by
  unfold unlink
  rcases sys_cases w with ⟨s, hs, he⟩ | ⟨s, e, hs, hn, he⟩
  · rw [Prog.bind_ok he]
    rcases unlinkAt_any p { w with sched := s } with ⟨q, i, h1, h2, h3⟩ | ⟨e, h1⟩
    · rw [World.resolve_sched] at h1
      exact .inl ⟨q, i, s, hs, h1, h2, h3⟩
    · exact .inr ⟨e, s, hs, h1⟩
  · rw [Prog.bind_err he]
    exact .inr ⟨e, s, hs, rfl⟩

theorem _root_.Volaris.Spec.Extracts.truncate {D F : Path → Prop} {w w1 : World} {i : Nat} (h : Extracts D F w w1) (hi : w.nextIno ≤ i) : Extracts D F w (w1.truncated i) where
  look := h.look
  files := fun j hj hF => by
    show (if j = i then [] else w1.file j) = _
    rw [if_neg (by omega)]
    exact h.files j hj hF
  nextIno := h.nextIno
  nextFd := h.nextFd
  inos := h.inos

theorem _root_.Volaris.Spec.Extracts.remove {D F : Path → Prop} {w w1 : World} {q : Path} (h : Extracts D F w w1) (hq : w.look q = none) : Extracts D F w (w1.removed q) where
  look := fun x => by
    rw [World.look_removed]
    split
    · next hx => rw [hx.2]; exact .inl hq.symm
    · exact h.look x
  files := h.files
  nextIno := h.nextIno
  nextFd := h.nextFd
  inos := h.inos

/-- The temporary file is there, behind the handle `w0.nextFd`. -/
structure HasTemp (w0 : World) (w : World) : Prop where
  ino : (w.fd w0.nextFd).ino = w0.nextIno
  fd : w0.nextFd < w.nextFd

theorem HasTemp.step {D F : Path → Prop} {w0 w w' : World} (h : HasTemp w0 w) (g : Extracts D F w w') : HasTemp w0 w' :=
  ⟨by rw [g.inos _ h.fd]; exact h.ino, Nat.lt_of_lt_of_le h.fd g.nextFd⟩

theorem HasTemp.touch {R W : List Nat} {w0 w w' : World} (h : HasTemp w0 w) (g : Touches R W w w') : HasTemp w0 w' :=
  ⟨by rw [g.inos]; exact h.ino, by rw [g.nextFd]; exact h.fd⟩

theorem overwrite_within (h cap : Nat) (n : Int) : Within [] [h] (Overwrite.execute h cap n) := by
  intro w
  rcases Overwrite.execute_cases h cap n w with ⟨w', he, hc⟩ | ⟨e, k, w', he, -, -, p, hc, -⟩
  · rw [he]
    exact ((Touches.setPos (R := []) (W := [h]) (by simp)).trans (Touches.put (by simp))).core_right hc
  · rw [he]
    exact ((Touches.setPos (R := []) (W := [h]) (by simp)).trans (Touches.put (by simp))).core_right hc

theorem emptyFile_cases (p : PathBuf) (h : Nat) (w : World) :
    (∃ s, s <:+ w.sched ∧ Storage.emptyFile (.file p h) w = (.ok (), ({ w with sched := s } : World).truncated (w.fd h).ino)) ∨
    (∃ e s, s <:+ w.sched ∧ w.sched ≠ [] ∧ (Storage.emptyFile (.file p h) w = (.err e, ({ w with sched := s } : World).truncated (w.fd h).ino) ∨
      Storage.emptyFile (.file p h) w = (.err e, { w with sched := s }))) := by
  unfold Storage.emptyFile
  rcases setLen0_cases h w with ⟨s, hs, he⟩ | ⟨s, e, hs, hn, he⟩
  · simp only
    rw [Prog.bind_ok (Prog.mapErr_ok he)]
    rcases flush_cases h (({ w with sched := s } : World).truncated (w.fd h).ino) with ⟨s2, hs2, he2⟩ | ⟨s2, e2, hs2, hn2, he2⟩
    · exact .inl ⟨s2, hs2.trans hs, Prog.mapErr_ok he2⟩
    · refine .inr ⟨_, s2, hs2.trans hs, ?_, .inl (Prog.mapErr_err he2)⟩
      rintro h0
      rw [h0] at hs
      exact hn2 (List.suffix_nil.1 hs)
  · simp only
    exact .inr ⟨_, s, hs, hn, .inr (Prog.bind_err (Prog.mapErr_err he))⟩

/-- Clearing up changes nothing but the temporary file. -/
theorem removeFile_frame {D F : Path → Prop} {w0 w : World} {p : PathBuf} (h : Extracts D F w0 w) (ht : HasTemp w0 w) (hp : w0.look (onPaper p) = none) :
    ∃ r w', Storage.removeFile (.file p w0.nextFd) w = (r, w') ∧ Extracts D F w0 w' ∧ w'.stdin = w.stdin ∧ w'.tty = w.tty ∧ w'.out = w.out ∧ ∀ a, r ≠ .abort a := by
  unfold Storage.removeFile
  rcases emptyFile_cases p w0.nextFd w with ⟨s, hs, he⟩ | ⟨e, s, hs, hn, he | he⟩
  · rw [Prog.bind_ok he]
    have h1 : Extracts D F w0 (({ w with sched := s } : World).truncated (w.fd w0.nextFd).ino) :=
      (h.trans (.of_sched w s)).truncate (by rw [ht.ino]; exact Nat.le_refl _)
    rcases unlink_any p (({ w with sched := s } : World).truncated (w.fd w0.nextFd).ino) with ⟨q, i, s3, hs3, hr, hl, he3⟩ | ⟨e3, s3, hs3, he3⟩
    · have hq : q = onPaper p := World.walk_lexical hr
      exact ⟨_, _, Prog.mapErr_ok he3, (h1.trans (.of_sched _ s3)).remove (by rw [hq]; exact hp), rfl, rfl, rfl, by simp⟩
    · exact ⟨_, _, Prog.mapErr_err he3, h1.trans (.of_sched _ s3), rfl, rfl, rfl, by simp⟩
  · rw [Prog.bind_err he]
    exact ⟨_, _, rfl, (h.trans (.of_sched w s)).truncate (by rw [ht.ino]; exact Nat.le_refl _), rfl, rfl, rfl, by simp⟩
  · rw [Prog.bind_err he]
    exact ⟨_, _, rfl, h.trans (.of_sched w s), rfl, rfl, rfl, by simp⟩

/-! ### The whole operation -/

/-- The decryption that unpacking starts with. -/
def decryptRequest (req : Request) (t : Nat) : Decrypt.Request :=
  { headerReader := req.headerReader, reader := req.reader, writer := t, rawKey := req.rawKey }

/-- The world in which that decryption runs. -/
def withTemp (tmp : PathBuf) (w : World) (s : List Io) : World :=
  (({ w.draw 16 with sched := s } : World).created (onPaper (tempPath tmp w))).opened w.nextIno

theorem attempt_any {ε ε' α : Type} (x : Prog ε α) (w : World) (h : ∀ a, (x w).1 ≠ .abort a) : ∃ r, (Prog.attempt x : Prog ε' _) w = (.ok r, (x w).2) := by
  unfold Prog.attempt
  rcases he : x w with ⟨r, w1⟩
  rw [he] at h
  cases r with
  | ok a => exact ⟨_, rfl⟩
  | err e => exact ⟨_, rfl⟩
  | abort a => exact absurd rfl (h a)

/-- The cleaning up at the end. -/
theorem cleanup_frame {D F : Path → Prop} {w0 w : World} {p : PathBuf} (cap : Nat) (n : Int) (h : Extracts D F w0 w) (ht : HasTemp w0 w) (hp : w0.look (onPaper p) = none) :
    ∃ r1 r2 w1 w2, (Prog.attempt (Overwrite.execute w0.nextFd cap n) : Prog Error _) w = (.ok r1, w1) ∧
      (Prog.attempt (Storage.removeFile (.file p w0.nextFd)) : Prog Error _) w1 = (.ok r2, w2) ∧ Extracts D F w0 w2 ∧ w2.stdin = w.stdin ∧ w2.tty = w.tty ∧ w2.out = w.out := by
  have hov := overwrite_within w0.nextFd cap n w
  obtain ⟨r1, e1⟩ := attempt_any (ε' := Error) (Overwrite.execute w0.nextFd cap n) w (by
    intro a
    rcases Overwrite.execute_cases w0.nextFd cap n w with ⟨w', he, hc⟩ | ⟨e, k, w', he, -, -, p, hc, -⟩ <;> rw [he] <;> simp)
  have h1 : Extracts D F w0 (Overwrite.execute w0.nextFd cap n w).2 := h.touch (by
    intro x hx
    rw [List.mem_singleton.1 hx]
    exact .inl (by rw [ht.ino]; exact Nat.le_refl _)) hov
  obtain ⟨r, w2, e2, h2, h3, h4, h6, h5⟩ := removeFile_frame h1 (ht.touch hov) hp
  obtain ⟨r2, e3⟩ := attempt_any (ε' := Error) (Storage.removeFile (.file p w0.nextFd)) (Overwrite.execute w0.nextFd cap n w).2 (by rw [e2]; exact h5)
  rw [e2] at e3
  exact ⟨r1, r2, _, w2, e1, e3, h2, h3.trans hov.stdin, h4.trans hov.tty, h6.trans hov.out⟩

theorem execute_frame (C : Crypto) (z : Zip) (tmp : PathBuf) (order : List Nat) (req : Request) (hcb : OnlyTalks (ask req.onZipFile)) (w : World)
    (hst : w.look req.outputDir.start = some .dir) :
    ∃ r w', execute C z tmp order req w = (r, w') ∧
      ((r ≠ .ok () ∧ (w.look (onPaper (tempPath tmp w)) = none ∨ Extracts (fun _ => False) (fun _ => False) w w') ∧
          Extracts (fun _ => False) (· = onPaper (tempPath tmp w)) w w') ∨
       (∃ s v' ms conv, s <:+ w.sched ∧ Decrypt.execute C (decryptRequest req w.nextFd) (withTemp tmp w s) = (.ok (), v') ∧
          z.decode (v'.data w.nextFd) = some ms ∧ Asked (ask req.onZipFile) w conv w' ∧
          (conv.map (·.1)).Sublist (memberPaths req.outputDir ms) ∧ (w.sched = [] → conv.map (·.1) = memberPaths req.outputDir ms) ∧
          w.look (onPaper (tempPath tmp w)) = none ∧
          Extracts (fun q => DirsOf req.outputDir conv q ∧ DirMember req.outputDir ms q) (fun q => (FilesOf conv q ∧ FileMember req.outputDir ms q) ∨ q = onPaper (tempPath tmp w)) w w')) := by
  unfold execute
  rcases createTempFile_cases tmp w with ⟨s, hs, hr, hl, he⟩ | ⟨s, hs, he, -⟩
  · rw [Prog.bind_ok (Prog.mapErr_ok he)]
    have e1 : ∀ v, (Prog.lift (expectStream (Storage.Entry.file (tempPath tmp w) w.nextFd)) : Prog Error Nat) v = (.ok w.nextFd, v) := fun _ => rfl
    rw [Prog.bind_ok (e1 _)]
    have hx0 : ∀ {D F}, F (onPaper (tempPath tmp w)) → Extracts D F w (withTemp tmp w s) := fun {D F} hF =>
      (Extracts.of_eq (D := D) (F := F) (w := w) (w' := { w.draw 16 with sched := s }) rfl rfl rfl rfl rfl).trans (Extracts.created (w := { w.draw 16 with sched := s }) hF hl)
    have ht0 : HasTemp w (withTemp tmp w s) := ⟨by
      show (if w.nextFd = w.nextFd then ({ ino := w.nextIno, pos := 0 } : Fd) else w.fd w.nextFd).ino = w.nextIno
      rw [if_pos rfl], Nat.lt_succ_self _⟩
    have hdec := decrypt_within C (decryptRequest req w.nextFd) (withTemp tmp w s)
    have hdsh := Shrinks.decrypt C (decryptRequest req w.nextFd) (withTemp tmp w s)
    rcases hd : Decrypt.execute C (decryptRequest req w.nextFd) (withTemp tmp w s) with ⟨rd, v'⟩
    rw [hd] at hdec hdsh
    have hdir1 : v'.dir = (withTemp tmp w s).dir := hdec.dir
    have hx1 : ∀ {D F}, F (onPaper (tempPath tmp w)) → Extracts D F w v' := fun {D F} hF => (hx0 (D := D) hF).touch (by
      intro x hx
      have hx : x = w.nextFd := List.mem_singleton.1 hx
      rw [hx]
      exact .inl (by rw [ht0.ino]; exact Nat.le_refl _)) hdec
    have ht1 := ht0.touch hdec
    have hio1 : v'.stdin = w.stdin ∧ v'.tty = w.tty ∧ v'.out = w.out := ⟨hdec.stdin, hdec.tty, hdec.out⟩
    change ∃ r w', ((Decrypt.execute C (decryptRequest req w.nextFd)).mapErr Error.decrypt >>= _) (withTemp tmp w s) = _ ∧ _
    cases rd with
    | err x =>
      rw [Prog.bind_err (Prog.mapErr_err hd)]
      exact ⟨_, v', rfl, .inl ⟨by simp, .inl hl, hx1 rfl⟩⟩
    | abort a =>
      rw [Prog.bind_abort (Prog.mapErr_abort hd)]
      exact ⟨_, v', rfl, .inl ⟨by simp, .inl hl, hx1 rfl⟩⟩
    | ok u =>
      rw [Prog.bind_ok (Prog.mapErr_ok hd)]
      have hfl : ∀ v : World, (∃ s, s <:+ v.sched ∧ Storage.fileLen (.file (tempPath tmp w) w.nextFd) v = (.ok (v.data w.nextFd).length, { v with sched := s })) ∨
          (∃ s, s <:+ v.sched ∧ Storage.fileLen (.file (tempPath tmp w) w.nextFd) v = (.err .fileLen, { v with sched := s })) := by
        intro v
        have e2 : (Prog.lift (Storage.Entry.file (tempPath tmp w) w.nextFd).stream : Prog Storage.Error Nat) v = (.ok w.nextFd, v) := rfl
        unfold Storage.fileLen
        rw [Prog.bind_ok e2]
        rcases fileLen_cases w.nextFd v with ⟨s, hs, he⟩ | ⟨s, e, hs, hn, he⟩
        · exact .inl ⟨s, hs, Prog.mapErr_ok he⟩
        · exact .inr ⟨s, hs, Prog.mapErr_err he⟩
      rcases hfl v' with ⟨s2, hs2, he2⟩ | ⟨s2, hs2, he2⟩
      · rw [Prog.bind_ok (Prog.mapErr_ok he2)]
        have hx2 : ∀ {D F}, F (onPaper (tempPath tmp w)) → Extracts D F w { v' with sched := s2 } := fun {D F} hF => (hx1 (D := D) hF).trans (.of_sched v' s2)
        have ht2 : HasTemp w { v' with sched := s2 } := ht1.step (D := fun _ => False) (F := fun _ => False) (.of_sched v' s2)
        obtain ⟨r3, w3, he3, hrec⟩ := recover_frame z order w.nextFd req hcb { v' with sched := s2 } (by
          have hl2 : ({ v' with sched := s2 } : World).look req.outputDir.start = (withTemp tmp w s).look req.outputDir.start := World.look_congr (hdir1.trans rfl) _
          rw [hl2]
          show ((({ w.draw 16 with sched := s } : World).created (onPaper (tempPath tmp w))).opened w.nextIno).look _ = _
          rw [World.look_opened, World.look_created]
          split
          · rfl
          · split
            · next h => rw [h] at hst; rw [hst] at hl; cases hl
            · exact hst)
        rcases hrec with ⟨hbad, hxr⟩ | ⟨ms, conv, hms, hask, hsub, heq, hxr⟩
        · cases r3 with
          | ok u => exact absurd rfl hbad
          | err x =>
            rw [Prog.bind_err he3]
            exact ⟨_, w3, rfl, .inl ⟨by simp, .inl hl, (hx2 (F := (· = onPaper (tempPath tmp w))) rfl).trans (hxr.mono (fun _ h => h.elim) fun _ h => h.elim)⟩⟩
          | abort x =>
            rw [Prog.bind_abort he3]
            exact ⟨_, w3, rfl, .inl ⟨by simp, .inl hl, (hx2 (F := (· = onPaper (tempPath tmp w))) rfl).trans (hxr.mono (fun _ h => h.elim) fun _ h => h.elim)⟩⟩
        · have hask : Asked (ask req.onZipFile) w conv w3 := Spec.Asked.left hask hio1.1 hio1.2.1 hio1.2.2 fun q n hq => (hx2 (D := fun _ => False) (F := (· = onPaper (tempPath tmp w))) rfl).keeps hq
          have hx3 : Extracts (fun q => DirsOf req.outputDir conv q ∧ DirMember req.outputDir ms q) (fun q => (FilesOf conv q ∧ FileMember req.outputDir ms q) ∨ q = onPaper (tempPath tmp w)) w w3 :=
            (hx2 (.inr rfl)).trans (hxr.mono (fun _ h => h) fun _ h => .inl h)
          have ht3 : HasTemp w w3 := ht2.step hxr
          have heq : w.sched = [] → conv.map (·.1) = memberPaths req.outputDir ms := fun h => heq (by
            rw [h] at hs
            have hdsh : v'.sched <:+ s := hdsh
            rw [List.suffix_nil.1 hs] at hdsh
            rw [List.suffix_nil.1 hdsh] at hs2
            exact List.suffix_nil.1 hs2)
          have fin : ∀ (r : Res Error Unit) w', Asked (ask req.onZipFile) w conv w' → Extracts (fun q => DirsOf req.outputDir conv q ∧ DirMember req.outputDir ms q) (fun q => (FilesOf conv q ∧ FileMember req.outputDir ms q) ∨ q = onPaper (tempPath tmp w)) w w' →
              ∃ r' w'', (r, w') = (r', w'') ∧
              ((r' ≠ .ok () ∧ (w.look (onPaper (tempPath tmp w)) = none ∨ Extracts (fun _ => False) (fun _ => False) w w'') ∧
                Extracts (fun _ => False) (· = onPaper (tempPath tmp w)) w w'') ∨
              (∃ s0 v0 ms conv, s0 <:+ w.sched ∧ Decrypt.execute C (decryptRequest req w.nextFd) (withTemp tmp w s0) = (.ok (), v0) ∧
                z.decode (v0.data w.nextFd) = some ms ∧ Asked (ask req.onZipFile) w conv w'' ∧
                (conv.map (·.1)).Sublist (memberPaths req.outputDir ms) ∧ (w.sched = [] → conv.map (·.1) = memberPaths req.outputDir ms) ∧
                w.look (onPaper (tempPath tmp w)) = none ∧
                Extracts (fun q => DirsOf req.outputDir conv q ∧ DirMember req.outputDir ms q) (fun q => (FilesOf conv q ∧ FileMember req.outputDir ms q) ∨ q = onPaper (tempPath tmp w)) w w'')) :=
            fun r w' ha hx => ⟨r, w', rfl, .inr ⟨s, v', ms, conv, hs, hd, hms, ha, hsub, heq, hl, hx⟩⟩
          cases r3 with
          | err x =>
            rw [Prog.bind_err he3]
            exact fin _ _ hask hx3
          | abort x =>
            rw [Prog.bind_abort he3]
            exact fin _ _ hask hx3
          | ok u =>
            rw [Prog.bind_ok he3]
            obtain ⟨r4, r5, w4, w5, he4, he5, hx5, hi5, ht5, ho5⟩ := cleanup_frame (p := tempPath tmp w) (v'.data w.nextFd).length 1 hx3 ht3 hl
            rw [Prog.bind_ok he4, Prog.bind_ok he5]
            exact fin _ _ (Spec.Asked.right hask hi5 ht5 ho5) hx5
      · rw [Prog.bind_err (Prog.mapErr_err he2)]
        exact ⟨_, _, rfl, .inl ⟨by simp, .inl hl, (hx1 (F := (· = onPaper (tempPath tmp w))) rfl).trans (.of_sched v' s2)⟩⟩
  · rw [Prog.bind_err (Prog.mapErr_err he)]
    exact ⟨_, _, rfl, .inl ⟨by simp, .inr (.of_eq rfl rfl rfl rfl rfl), .of_eq rfl rfl rfl rfl rfl⟩⟩

end Unpack

end Volaris
