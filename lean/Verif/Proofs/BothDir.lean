import Verif.Proofs.BothTools
import Verif.Proofs.RoundTrip
/-!
# Running a program on two machines: threads, directories and archives
-/
namespace Volaris
open Volaris.Spec
variable {ε ε' α β σ : Type} {K : Nat → Differ} {L : Path → Differ} {f : Bytes → Bytes}

/-! ## Threads -/

/-- From the first machine on, the thread does alike on both machines, whatever happens between its steps. -/
def Blind (K : Nat → Differ) (L : Path → Differ) (f : Bytes → Bytes) (Q : α → World → Prop) : Thr ε α → World → Prop
  | .done r, w0 => ∀ a, r = .ok a → Q a w0
  | .step eff k, w0 => ∀ w v, Later w0 w → Alike K L f w v → Alike K L f (eff w) (eff v) ∧ Later w (eff w) ∧ k v = k w ∧ Blind K L f Q (k w) (eff w)

/-- What stays true. -/
def Stays (Q : α → World → Prop) : Prop := ∀ a w w', Later w w' → Q a w → Q a w'

theorem Blind.later {Q : α → World → Prop} (hQ : Stays Q) {t : Thr ε α} {w0 w1 : World} (h : Blind K L f Q t w0) (hl : Later w0 w1) : Blind K L f Q t w1 := by
  cases t with
  | done r => exact fun a e => hQ a _ _ hl (h a e)
  | step eff k => exact fun w v hw hR => h w v (hl.trans hw) hR

theorem Blind.atom {Q : α → World → Prop} {x : Prog ε α} {w0 : World} (h : ∀ w v, Later w0 w → Alike K L f w v → Both K L f (fun a b w' => a = b ∧ Q a w') x x w v) : Blind K L f Q (Thr.atom x) w0 := by
  intro w v hl hR
  obtain ⟨h1, h2, h3⟩ := h w v hl hR
  refine ⟨h1, h2, ?_, ?_⟩
  · show Thr.done _ = Thr.done _
    rw [(h3.mono (Q' := Eq) fun a b g => g.1).eq]
  · intro a e
    rw [e] at h3
    generalize (x v).1 = r at h3
    cases h3 with
    | ok g => exact g.2

theorem Blind.bind {P : α → World → Prop} {Q : β → World → Prop} : ∀ {t : Thr ε α} {k : α → Thr ε β} {w0 : World}, Blind K L f P t w0 → (∀ a w, P a w → Later w0 w → Blind K L f Q (k a) w) → Blind K L f Q (t >>= k) w0
  | .done (.ok a), k, w0, h, hk => hk a w0 (h a rfl) (Later.refl _)
  | .done (.err e), k, w0, _, _ => fun a e => by cases e
  | .done (.abort e), k, w0, _, _ => fun a e => by cases e
  | .step eff k', k, w0, h, hk => by
    intro w v hl hR
    obtain ⟨h1, h2, h3, h4⟩ := h w v hl hR
    exact ⟨h1, h2, by simp only [h3], Blind.bind (t := k' w) h4 fun a w' hP hl' => hk a w' hP (hl.trans (h2.trans hl'))⟩

theorem Blind.mapErr {Q : α → World → Prop} (m : ε → ε') : ∀ {t : Thr ε α} {w0 : World}, Blind K L f Q t w0 → Blind K L f Q (t.mapErr m) w0
  | .done (.ok a), _, h => fun b e => by cases e; exact h a rfl
  | .done (.err e), _, _ => fun a e => by cases e
  | .done (.abort e), _, _ => fun a e => by cases e
  | .step eff k, _, h => by
    intro w v hl hR
    obtain ⟨h1, h2, h3, h4⟩ := h w v hl hR
    exact ⟨h1, h2, by simp only [h3], Blind.mapErr m (t := k w) h4⟩

theorem Blind.pure {Q : α → World → Prop} {a : α} {w0 : World} (h : Q a w0) : Blind (ε := ε) K L f Q (Pure.pure a) w0 := fun b e => by cases e; exact h

theorem Blind.mono {Q Q' : α → World → Prop} (hq : ∀ a w, Q a w → Q' a w) : ∀ {t : Thr ε α} {w0 : World}, Blind K L f Q t w0 → Blind K L f Q' t w0
  | .done _, _, h => fun a e => hq _ _ (h a e)
  | .step eff k, _, h => by
    intro w v hl hR
    obtain ⟨h1, h2, h3, h4⟩ := h w v hl hR
    exact ⟨h1, h2, h3, Blind.mono hq (t := k w) h4⟩

theorem Blind.run {Q : α → World → Prop} : ∀ {t : Thr ε α} {w v : World}, Blind K L f Q t w → Alike K L f w v → Both K L f (fun a b w' => a = b ∧ Q a w') t.run t.run w v
  | .done r, w, v, h, hR => by
    refine .lift hR ?_
    cases r with
    | ok a => exact .ok ⟨rfl, h a rfl⟩
    | err e => exact .err e
    | abort a => exact .abort a
  | .step eff k, w, v, h, hR => by
    obtain ⟨h1, h2, h3, h4⟩ := h w v (Later.refl _) hR
    have g := Blind.run (t := k w) h4 h1
    have ev : (Thr.step eff k).run v = (k w).run (eff v) := by show (k v).run (eff v) = _; rw [h3]
    exact ⟨by rw [ev]; exact g.alike, h2.trans g.later, by rw [ev]; exact g.results⟩

/-- Threads that do alike, in some world. -/
def AllBlind (K : Nat → Differ) (L : Path → Differ) (f : Bytes → Bytes) (ts : List (Thr ε α)) (w : World) : Prop := ∀ t ∈ ts, Blind K L f (fun _ _ => True) t w

theorem AllBlind.later {ts : List (Thr ε α)} {w w' : World} (h : AllBlind K L f ts w) (hl : Later w w') : AllBlind K L f ts w' := fun t ht => (h t ht).later (fun _ _ _ _ _ => trivial) hl

theorem both_interleave : ∀ (order : List Nat) (ts : List (Thr ε α)) {w v : World}, Alike K L f w v → AllBlind K L f ts w →
    (interleave order ts v).1 = (interleave order ts w).1 ∧ Alike K L f (interleave order ts w).2 (interleave order ts v).2 ∧ Later w (interleave order ts w).2 ∧
      AllBlind K L f (interleave order ts w).1 (interleave order ts w).2
  | [], _, _, _, hR, hB => ⟨rfl, hR, Later.refl _, hB⟩
  | i :: is, ts, w, v, hR, hB => by
    unfold interleave
    cases ht : ts[i]? with
    | none => exact both_interleave is ts hR hB
    | some t =>
      cases t with
      | done r => exact both_interleave is ts hR hB
      | step eff k =>
        obtain ⟨h1, h2, h3, h4⟩ := hB _ (List.mem_of_getElem? ht) w v (Later.refl _) hR
        simp only [h3]
        have hB' : AllBlind K L f (ts.set i (k w)) (eff w) := by
          intro t hm
          rcases List.mem_or_eq_of_mem_set hm with hm | rfl
          · exact (hB.later h2) t hm
          · exact h4
        obtain ⟨g1, g2, g3, g4⟩ := both_interleave is (ts.set i (k w)) h1 hB'
        exact ⟨g1, g2, h2.trans g3, g4⟩

theorem both_finish : ∀ (ts : List (Thr ε Unit)) {w v : World}, Alike K L f w v → AllBlind K L f ts w →
    (finish ts v).1 = (finish ts w).1 ∧ Alike K L f (finish ts w).2 (finish ts v).2 ∧ Later w (finish ts w).2
  | [], _, _, hR, _ => ⟨rfl, hR, Later.refl _⟩
  | t :: ts, w, v, hR, hB => by
    have h := (hB t (by simp)).run hR
    obtain ⟨g1, g2, g3⟩ := both_finish ts h.alike (w := (t.run w).2) (v := (t.run v).2) (AllBlind.later (fun t ht => hB t (by simp [ht])) h.later)
    refine ⟨?_, g2, h.later.trans g3⟩
    show (t.run v).1 :: (finish ts (t.run v).2).1 = (t.run w).1 :: (finish ts (t.run w).2).1
    rw [g1, ← (h.results.mono (Q' := Eq) fun a b g => g.1).eq]

theorem both_spawnJoin (order : List Nat) (ts : List (Thr ε Unit)) {w v : World} (hR : Alike K L f w v) (hB : AllBlind K L f ts w) : Both K L f (fun _ _ _ => True) (spawnJoin order ts) (spawnJoin order ts) w v := by
  obtain ⟨h1, h2, h3, h4⟩ := both_interleave order ts hR hB
  have ew : spawnJoin order ts w = (match joined (interleave order ts w).1 with
    | some r => (r, (interleave order ts w).2)
    | none => ((joined ((finish (interleave order ts w).1 (interleave order ts w).2).1.map .done)).getD (.ok ()), (finish (interleave order ts w).1 (interleave order ts w).2).2)) := rfl
  have ev : spawnJoin order ts v = (match joined (interleave order ts w).1 with
    | some r => (r, (interleave order ts v).2)
    | none => ((joined ((finish (interleave order ts w).1 (interleave order ts v).2).1.map .done)).getD (.ok ()), (finish (interleave order ts w).1 (interleave order ts v).2).2)) := by
    rw [← h1]; rfl
  cases hj : joined (interleave order ts w).1 with
  | some r => rw [hj] at ew ev; exact .done ew ev h2 h3 fun _ _ => trivial
  | none =>
    rw [hj] at ew ev
    obtain ⟨g1, g2, g3⟩ := both_finish _ h2 h4
    rw [g1] at ev
    exact .done ew ev g2 (h3.trans g3) fun _ _ => trivial

/-! ## erase.rs in threads -/

theorem Blind.unit {x : Prog ε Unit} {w0 : World} (h : ∀ w v, Later w0 w → Alike K L f w v → Both K L f (fun _ _ _ => True) x x w v) : Blind K L f (fun _ _ => True) (Thr.atom x) w0 :=
  .atom fun w v hl hR => (h w v hl hR).mono fun _ _ _ _ _ => ⟨rfl, trivial⟩

theorem blind_writeBlocks (h : Nat) : ∀ (bs : List Nat) (w0 : World), Blind K L f (fun _ _ => True) (Erase.writeBlocks h bs) w0
  | [], _ => .pure trivial
  | _ :: bs, _ => by
    unfold Erase.writeBlocks
    refine (Blind.atom (Q := fun _ _ => True) fun w v _ hR => (both_genBytes 0 hR).mono fun _ _ _ _ g => ⟨g, trivial⟩).bind fun a w _ _ => ?_
    exact (Blind.unit fun w v _ hR => (both_writeAll h a hR).mapErr _).bind fun _ w _ _ => blind_writeBlocks h bs w

theorem blind_passes (h cap : Nat) : ∀ (n : Nat) (w0 : World), Blind K L f (fun _ _ => True) (Erase.passes h cap n) w0
  | 0, _ => .pure trivial
  | n + 1, _ => by
    unfold Erase.passes
    exact (Blind.unit fun w v _ hR => (both_rewind h hR).mapErr _).bind fun _ w _ _ => (blind_writeBlocks h _ w).bind fun _ w _ _ =>
      (Blind.unit fun w v _ hR => (both_flush h hR).mapErr _).bind fun _ w _ _ => blind_passes h cap n w

theorem blind_overwrite (h cap : Nat) (n : Int) (w0 : World) : Blind K L f (fun _ _ => True) (Erase.overwrite h cap n) w0 :=
  (blind_passes h cap _ w0).bind fun _ _ _ _ => (Blind.unit fun w v _ hR => (both_rewind h hR).mapErr _).bind fun _ _ _ _ =>
    (Blind.unit fun w v _ hR => (both_writeAll h _ hR).mapErr _).bind fun _ _ _ _ => Blind.unit fun w v _ hR => (both_flush h hR).mapErr _

theorem blind_removeFile (p : PathBuf) (h : Nat) (w0 : World) : Blind K L f (fun _ _ => True) (Erase.removeFile p h) w0 :=
  (Blind.unit fun w v _ hR => (both_setLen0 h hR).mapErr _).bind fun _ _ _ _ => (Blind.unit fun w v _ hR => (both_flush h hR).mapErr _).bind fun _ _ _ _ =>
    Blind.unit fun w v _ hR => (both_unlink p hR).mapErr _

theorem blind_thread {d : Differ} (hd : d.within .content) {p : PathBuf} (hL : (L (onPaper p)).within d) (n : Int) (w0 : World) : Blind K L f (fun _ _ => True) (Erase.thread p n) w0 := by
  unfold Erase.thread
  refine (Blind.atom (Q := fun h w => Holds K d h w) fun w v _ hR => (both_openTrunc hL hR).mapErr _).bind fun h w hh _ => ?_
  refine (Blind.atom (Q := fun _ _ => True) fun w v hl hR => ((both_fileLen hd hR (hh.later hl)).mapErr _).mono fun _ _ _ _ g => ⟨g, trivial⟩).bind fun cap w _ _ => ?_
  exact ((blind_overwrite h cap n w).mapErr _).bind fun _ w _ _ => (blind_removeFile p h w).mapErr _

/-! ## storage.rs: directories -/

theorem both_dropEntry (q : Path) {w v : World} (hR : Alike K L f w v) : Both K L f (fun _ _ _ => True) (Storage.dropEntry q) (Storage.dropEntry q) w v := by
  have ew : Storage.dropEntry q w = (match w.look q with
    | some (.file _) => (.ok (), w.removed q)
    | some .dir => if w.dir.any (fun e => q.isPrefixOf e.1 && e.1 ≠ q) then (.err .other, w) else (.ok (), w.removed q)
    | none => (.err .notFound, w)) := rfl
  have ev : Storage.dropEntry q v = (match w.look q with
    | some (.file _) => (.ok (), v.removed q)
    | some .dir => if w.dir.any (fun e => q.isPrefixOf e.1 && e.1 ≠ q) then (.err .other, v) else (.ok (), v.removed q)
    | none => (.err .notFound, v)) := by
    rw [← hR.look q, ← hR.dir]; rfl
  cases hl : w.look q with
  | none => rw [hl] at ew ev; exact .done ew ev hR (Later.refl _) fun _ _ => trivial
  | some n =>
    rw [hl] at ew ev
    cases n with
    | file i => exact .done ew ev (hR.removed q) (Later.removed _ _) fun _ _ => trivial
    | dir =>
      simp only at ew ev
      split at ev
      · next hc => rw [if_pos hc] at ew; exact .done ew ev hR (Later.refl _) fun _ _ => trivial
      · next hc => rw [if_neg hc] at ew; exact .done ew ev (hR.removed q) (Later.removed _ _) fun _ _ => trivial

theorem both_removeEntries : ∀ (qs : List Path) {w v : World}, Alike K L f w v → Both K L f (fun _ _ _ => True) (Storage.removeEntries qs) (Storage.removeEntries qs) w v
  | [], _, _, hR => .pure hR trivial
  | q :: qs, _, _, hR => (both_sys hR).bind fun _ _ _ _ _ hR _ => (both_dropEntry q hR).bind fun _ _ _ _ _ hR _ => both_removeEntries qs hR

theorem both_rmTree (p : PathBuf) {w v : World} (hR : Alike K L f w v) : Both K L f (fun _ _ _ => True) (Storage.rmTree p) (Storage.rmTree p) w v := by
  cases hr : w.resolve p with
  | error e =>
    have ew : Storage.rmTree p w = (.err e, w) := by unfold Storage.rmTree; rw [hr]
    have ev : Storage.rmTree p v = (.err e, v) := by unfold Storage.rmTree; rw [hR.resolve, hr]
    exact .done ew ev hR (Later.refl _) fun _ _ => trivial
  | ok q =>
    by_cases hl : w.look q = some .dir
    · have ew : Storage.rmTree p w = Storage.removeEntries (Storage.deepFirst ((w.dir.map (·.1)).filter (q.isPrefixOf ·))) w := by unfold Storage.rmTree; rw [hr]; exact if_pos hl
      have ev : Storage.rmTree p v = Storage.removeEntries (Storage.deepFirst ((w.dir.map (·.1)).filter (q.isPrefixOf ·))) v := by
        unfold Storage.rmTree
        rw [hR.resolve, hr, ← hR.dir]
        exact if_pos (by rw [hR.look]; exact hl)
      have g := both_removeEntries (Storage.deepFirst ((w.dir.map (·.1)).filter (q.isPrefixOf ·))) hR
      exact ⟨by rw [ew, ev]; exact g.alike, by rw [ew]; exact g.later, by rw [ew, ev]; exact g.results⟩
    · have ew : Storage.rmTree p w = (.err .other, w) := by unfold Storage.rmTree; rw [hr]; exact if_neg hl
      have ev : Storage.rmTree p v = (.err .other, v) := by unfold Storage.rmTree; rw [hR.resolve, hr]; exact if_neg (by rw [hR.look]; exact hl)
      exact .done ew ev hR (Later.refl _) fun _ _ => trivial

theorem both_removeDirAll (e : Storage.Entry) {w v : World} (hR : Alike K L f w v) : Both K L f (fun _ _ _ => True) (Storage.removeDirAll e) (Storage.removeDirAll e) w v := by
  unfold Storage.removeDirAll
  split
  · exact .throw hR _
  · exact (both_rmTree _ hR).mapErr _

/-- The files of the entries differ at most like this; the paths of the entries are at or below a place. -/
def EntriesHold (K : Nat → Differ) (d : Differ) (es : List Storage.Entry) (w : World) : Prop := ∀ e ∈ es, EntryHolds K d e w

theorem EntriesHold.later {d : Differ} {es : List Storage.Entry} {w w' : World} (h : EntriesHold K d es w) (hl : Later w w') : EntriesHold K d es w' := fun e he => (h e he).later hl

theorem both_readEntries {d : Differ} : ∀ (ps : List PathBuf) {w v : World}, (∀ p ∈ ps, (L (onPaper p)).within d) → Alike K L f w v →
    Both K L f (fun a b w' => a = b ∧ EntriesHold K d a w' ∧ ∀ e ∈ a, e.path ∈ ps) (Storage.readEntries ps) (Storage.readEntries ps) w v
  | [], _, _, _, hR => .pure hR ⟨rfl, fun _ h => (by cases h), fun _ h => (by cases h)⟩
  | p :: ps, _, _, hp, hR => by
    unfold Storage.readEntries
    refine ((both_sys hR).mapErr _).bind fun _ _ _ _ _ hR _ => ?_
    refine (both_readFile (hp p (by simp)) hR).bind ?_
    rintro e _ w v ⟨rfl, he, hpath⟩ hR _
    refine (both_readEntries ps (fun q hq => hp q (by simp [hq])) hR).bind ?_
    rintro es _ w v ⟨rfl, hes, hps⟩ hR hl
    refine .pure hR ⟨rfl, ?_, ?_⟩
    · intro x hx
      rcases List.mem_cons.1 hx with rfl | hx
      · exact he.later hl
      · exact hes x hx
    · intro x hx
      rcases List.mem_cons.1 hx with rfl | hx
      · simp [hpath]
      · simp [hps x hx]

/-- What is at or below a place differs at most like this. -/
def Under (L : Path → Differ) (d : Differ) (p : Path) : Prop := ∀ q, p <+: q → (L q).within d

theorem Under.self {d : Differ} {p : Path} (h : Under L d p) : (L p).within d := h p (List.prefix_refl _)

theorem below_under {d : Differ} {p : PathBuf} (h : Under L d (onPaper p)) (w : World) : ∀ x ∈ Storage.World.below w p, (L (onPaper x)).within d := by
  intro x hx
  unfold Storage.World.below at hx
  cases hr : w.resolve p with
  | error e => rw [hr] at hx; cases hx
  | ok q =>
    rw [hr] at hx
    rcases List.mem_cons.1 hx with rfl | hx
    · exact h.self
    · obtain ⟨k, _, rfl⟩ := List.mem_map.1 hx
      rw [Unpack.onPaper_push]
      exact h _ (List.prefix_append _ _)

theorem both_walkDir {d : Differ} {p : PathBuf} (h : Under L d (onPaper p)) {w v : World} (hR : Alike K L f w v) :
    Both K L f (fun a b w' => a = b ∧ EntriesHold K d a w' ∧ ∀ e ∈ a, (L (onPaper e.path)).within d) (Storage.walkDir p) (Storage.walkDir p) w v := by
  have ev : Storage.walkDir p v = Storage.readEntries (Storage.World.below w p) v := by
    unfold Storage.walkDir Storage.World.below
    rw [hR.resolve, hR.dir]
  have g := both_readEntries (Storage.World.below w p) (below_under h w) hR
  refine ⟨by rw [ev]; exact g.alike, g.later, by rw [ev]; exact g.results.mono fun a b x => ⟨x.1, x.2.1, fun e he => below_under h w _ (x.2.2 e he)⟩⟩

theorem both_readDir {d : Differ} {e : Storage.Entry} (h : Under L d (onPaper e.path)) {w v : World} (hR : Alike K L f w v) :
    Both K L f (fun a b w' => a = b ∧ EntriesHold K d a w' ∧ ∀ x ∈ a, (L (onPaper x.path)).within d) (Storage.readDir e) (Storage.readDir e) w v := by
  unfold Storage.readDir
  split
  · exact .throw hR _
  · exact both_walkDir h hR

theorem both_eraseDir {d : Differ} (hd : d.within .content) (order : List Nat) {e : Storage.Entry} (h : Under L d (onPaper e.path)) (n : Int) {w v : World} (hR : Alike K L f w v) :
    Both K L f (fun _ _ _ => True) (EraseDir.execute order e n) (EraseDir.execute order e n) w v := by
  unfold EraseDir.execute
  split
  · exact .throw hR _
  · refine ((both_readDir h hR).mapErr _).bind ?_
    rintro files _ w v ⟨rfl, _, hp⟩ hR _
    refine (both_spawnJoin order _ hR ?_).bind fun _ _ _ _ _ hR _ => (both_removeDirAll e hR).mapErr _
    intro t ht
    obtain ⟨x, hx, rfl⟩ := List.mem_map.1 ht
    exact (blind_thread hd (hp x (List.mem_filter.1 hx).1) n _).mapErr _

/-! ## pack.rs -/

theorem both_packFile {h : Nat} : ∀ (fuel : Nat) (got : Bytes) {w v : World}, Alike K L f w v → Holds K .no h w → Both K L f (fun a b _ => a = b) (Pack.readFile h fuel got) (Pack.readFile h fuel got) w v := by
  intro fuel
  induction fuel with
  | zero =>
    intro got w v hR hh
    unfold Pack.readFile
    refine ((both_read (d := .no) trivial BLOCK_SIZE hR hh).mapErr _).bind ?_
    rintro a _ w v ⟨⟩ hR _
    refine ((both_sysRetry hR).mapErr _).bind fun _ _ w v _ hR _ => ?_
    split
    · exact .pure hR rfl
    · exact .lift hR (.abort _)
  | succ fuel ih =>
    intro got w v hR hh
    unfold Pack.readFile
    refine ((both_read (d := .no) trivial BLOCK_SIZE hR hh).mapErr _).bind ?_
    rintro a _ w v ⟨⟩ hR hl
    have hh := hh.later hl
    refine ((both_sysRetry hR).mapErr _).bind fun _ _ w v _ hR hl => ?_
    split
    · exact .pure hR rfl
    · exact ih _ hR (hh.later hl)

theorem both_packAll {h : Nat} {w v : World} (hR : Alike K L f w v) (hh : Holds K .no h w) : Both K L f (fun a b _ => a = b) (Pack.readAll h) (Pack.readAll h) w v := by
  have e : Pack.readAll h v = Pack.readFile h (w.data h).length [] v := by
    unfold Pack.readAll
    rw [Differ.allows_len (d := .no) trivial (hR.data hh)]
  have g := both_packFile (w.data h).length [] hR hh
  exact ⟨by rw [e]; exact g.alike, g.later, by rw [e]; exact g.results⟩

theorem both_startEntry (z : Zip) (done : List ZipEntry) (name : List Char) {w v : World} (hR : Alike K L f w v) : Both K L f (fun _ _ _ => True) (Pack.startEntry z done name) (Pack.startEntry z done name) w v := by
  unfold Pack.startEntry
  split
  · exact .throw hR _
  · exact (both_sysRetry hR).mapErr _

theorem both_addEntry (z : Zip) (done : List ZipEntry) {e : Storage.Entry} {w v : World} (hR : Alike K L f w v) (he : EntryHolds K .no e w) :
    Both K L f (fun a b _ => a = b) (Pack.addEntry z done e) (Pack.addEntry z done e) w v := by
  unfold Pack.addEntry
  cases e with
  | dir p => exact ((both_startEntry z done _ hR).mapErr _).bind fun _ _ _ _ _ hR _ => .pure hR rfl
  | file p h =>
    refine ((both_startEntry z done _ hR).mapErr _).bind fun _ _ w v _ hR hl => ?_
    refine ((both_packAll hR (Holds.later he hl)).mapErr _).bind ?_
    rintro c _ w v rfl hR _
    exact .pure hR rfl

theorem both_addAll (z : Zip) : ∀ (es : List Storage.Entry) (done : List ZipEntry) {w v : World}, Alike K L f w v → EntriesHold K .no es w → Both K L f (fun a b _ => a = b) (Pack.addAll z es done) (Pack.addAll z es done) w v
  | [], _, _, _, hR, _ => .pure hR rfl
  | e :: es, done, _, _, hR, he => by
    unfold Pack.addAll
    refine (both_addEntry z done hR (he e (by simp))).bind ?_
    rintro d _ w v rfl hR hl
    exact both_addAll z es d hR (EntriesHold.later (fun x hx => he x (by simp [hx])) hl)

theorem both_writeArchive (z : Zip) (t : Nat) {es : List Storage.Entry} {w v : World} (hR : Alike K L f w v) (he : EntriesHold K .no es w) :
    Both K L f (fun _ _ _ => True) (Pack.writeArchive z t es) (Pack.writeArchive z t es) w v := by
  unfold Pack.writeArchive
  refine (both_addAll z es [] hR he).attempt.bind fun r r' w v hr hR _ => ?_
  cases hr with
  | ok g => subst g; exact (both_writeAll t _ hR).mapErr _
  | err e => exact (both_writeAll t _ hR).attempt.bind fun _ _ _ _ _ hR _ => .throw hR _
  | abort a => exact .lift hR (.abort a)

theorem both_pack {C : Crypto} (z : Zip) (tmp : PathBuf) (req : Pack.Request) {k : Bytes} (hk : SameHash C req.rawKey k) {w v : World} (hR : Alike K L f w v) (he : EntriesHold K .no req.compressFiles w) :
    Both K L f (fun _ _ _ => True) (Pack.execute C z tmp req) (Pack.execute C z tmp { req with rawKey := k }) w v := by
  unfold Pack.execute
  refine ((both_createTempFile tmp hR).mapErr _).bind ?_
  rintro e _ w v ⟨rfl, ht⟩ hR hl
  have he := he.later hl
  cases e with
  | dir p => exact .done (r := .err .createArchive) rfl rfl hR (Later.refl _) (fun _ _ => trivial)
  | file p t =>
    refine (Both.lift (Q := fun a b _ => a = b ∧ a = t) hR (.ok ⟨rfl, rfl⟩)).bind ?_
    rintro a _ w v ⟨rfl, rfl⟩ hR hl
    have he := he.later hl
    have ht : Holds K .no a w := Holds.later ht hl
    refine (both_writeArchive z a hR he).bind fun _ _ w v _ hR hl => ?_
    have ht := ht.later hl
    refine ((both_entryLen (d := .no) trivial hR (e := .file p a) ht).mapErr _).bind ?_
    rintro cap _ w v rfl hR hl
    have ht := ht.later hl
    refine ((both_encrypt (d := .no) trivial (sameText_no C)
      { reader := a, writer := req.writer, headerWriter := req.headerWriter, rawKey := req.rawKey, headerType := req.headerType, hashingAlgorithm := req.hashingAlgorithm } hk hR ht).mapErr _).attempt.bind fun r r' w v hr hR _ => ?_
    refine (both_overwrite a cap 2 hR).attempt.bind fun _ _ w v _ hR _ => ?_
    refine (both_removeFile (.file p a) hR).attempt.bind fun _ _ w v _ hR _ => ?_
    refine .lift hR (hr.mono ?_)
    intro _ _ _; trivial

end Volaris
