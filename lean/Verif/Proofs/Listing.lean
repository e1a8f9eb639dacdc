import Verif.Proofs.Trees
import Verif.Proofs.EraseInputs
/-!
# Listing the directories that are to be packed
-/
namespace Volaris.Cli
open Volaris.Spec Volaris.Pack
variable {σ : Type}

/-- An entry as listing makes it: a directory, or a file that has been opened since `w`. -/
def Listed (w w' : World) : Storage.Entry → Prop
  | .dir p => ∃ q, LeadsToDir w p q
  | .file p h => w.nextFd ≤ h ∧ h < w'.nextFd ∧ ∃ q i, LeadsToFile w p q i ∧ w'.fd h = { ino := i, pos := 0 }

theorem Listed.later {w w' w'' : World} {e : Storage.Entry} (hl : Looked w'.nextFd w' w'') (h : Listed w w' e) : Listed w w'' e := by
  cases e with
  | dir p => exact h
  | file p x =>
    obtain ⟨h1, h2, q, i, h3, h4⟩ := h
    exact ⟨h1, Nat.lt_of_lt_of_le h2 hl.nextFd, q, i, h3, by rw [hl.fds x h2]; exact h4⟩

theorem Listed.earlier {n : Nat} {w w' w0 : World} {e : Storage.Entry} (hl : Looked n w0 w) (h : Listed w w' e) : Listed w0 w' e := by
  cases e with
  | dir p =>
    obtain ⟨q, hq⟩ := h
    exact ⟨q, by rw [← hl.resolve]; exact hq.resolve, by rw [← hl.look]; exact hq.look⟩
  | file p x =>
    obtain ⟨h1, h2, q, i, h3, h4⟩ := h
    exact ⟨Nat.le_trans hl.nextFd h1, h2, q, i, (hl.leads _ _ _).1 h3, h4⟩

theorem Listed.handle {w w' : World} {es : List Storage.Entry} (h : ∀ e ∈ es, Listed w w' e) {x : Nat} (hx : x ∈ handles es) : w.nextFd ≤ x ∧ x < w'.nextFd := by
  obtain ⟨p, hp⟩ := mem_handles.1 hx
  obtain ⟨h1, h2, _⟩ := h _ hp
  exact ⟨h1, h2⟩

theorem handles_cons (e : Storage.Entry) (es : List Storage.Entry) : handles (e :: es) = handles [e] ++ handles es := by
  unfold handles
  rw [← List.filterMap_append]; rfl

theorem handles_append (es fs : List Storage.Entry) : handles (es ++ fs) = handles es ++ handles fs := by
  unfold handles
  rw [List.filterMap_append]

theorem handles_one (e : Storage.Entry) : (handles [e]).Nodup := by
  cases e <;> simp [handles]

theorem handles_nodup {w0 w1 w2 w3 : World} {es fs : List Storage.Entry} (hes : ∀ e ∈ es, Listed w0 w1 e) (hfs : ∀ e ∈ fs, Listed w2 w3 e) (hle : w1.nextFd ≤ w2.nextFd)
    (h1 : (handles es).Nodup) (h2 : (handles fs).Nodup) : (handles (es ++ fs)).Nodup := by
  rw [handles_append, List.nodup_append]
  refine ⟨h1, h2, fun a ha b hb => ?_⟩
  have := (Listed.handle hes ha).2
  have := (Listed.handle hfs hb).1
  omega

theorem readFile_ok {p : PathBuf} {e : Storage.Entry} {w w' : World} (h : Storage.readFile p w = (.ok e, w')) : Looked w.nextFd w w' ∧ e.path = p ∧ Listed w w' e := by
  have hl := (Looks.readFile (n := w.nextFd) p w (Nat.le_refl _)).1
  rw [h] at hl
  have hr : readInput p w = (.ok e, w') := Prog.mapErr_ok h
  refine ⟨hl, ?_⟩
  rcases readInput_cases p w with ⟨q, i, s, hs, hq, he⟩ | ⟨q, hq, he⟩ | ⟨x, s, _, he, _⟩
  · rw [hr] at he; cases he
    exact ⟨rfl, Nat.le_refl _, Nat.lt_succ_self _, q, i, hq, opened_fd { w with sched := s } i⟩
  · rw [hr] at he; cases he
    exact ⟨rfl, q, hq⟩
  · rw [hr] at he; cases he

theorem readEntries_ok : ∀ (ps : List PathBuf) {es : List Storage.Entry} {w w' : World}, Storage.readEntries ps w = (.ok es, w') →
    Looked w.nextFd w w' ∧ es.map Storage.Entry.path = ps ∧ (∀ e ∈ es, Listed w w' e) ∧ (handles es).Nodup := by
  intro ps
  induction ps with
  | nil =>
    intro es w w' h
    cases h
    exact ⟨.refl _ _, rfl, fun e he => (nomatch he), .nil⟩
  | cons p ps ih =>
    intro es w w' h
    unfold Storage.readEntries at h
    obtain ⟨_, w1, h1, h⟩ := bind_eq_ok h
    obtain ⟨e, w2, h2, h⟩ := bind_eq_ok h
    obtain ⟨fs, w3, h3, h⟩ := bind_eq_ok h
    cases h
    have hl1 : Looked w.nextFd w w1 := by
      have := (Looks.mapErr (n := w.nextFd) (fun _ => Storage.Error.dirEntries) Looks.sys w (Nat.le_refl _)).1
      rw [h1] at this; exact this
    obtain ⟨hl2, hp, he⟩ := readFile_ok h2
    obtain ⟨hl3, hps, hfs, hnd⟩ := ih h3
    have hl12 := hl1.trans (hl2.mono hl1.nextFd)
    refine ⟨hl12.trans (hl3.mono hl12.nextFd), by rw [List.map_cons, hp, hps], fun x hx => ?_, ?_⟩
    · rcases List.mem_cons.1 hx with rfl | hx
      · exact (he.later hl3).earlier hl1
      · exact (hfs x hx).earlier hl12
    · have := handles_nodup (es := [e]) (fun x hx => by rw [List.mem_singleton.1 hx]; exact he) hfs (Nat.le_refl _) (handles_one e) hnd
      exact this

theorem below_congr {w w' : World} (h : w'.dir = w.dir) (p : PathBuf) : Storage.World.below w' p = Storage.World.below w p := by
  unfold Storage.World.below
  rw [World.resolve_congr h, h]

theorem expand_ok : ∀ (es : List Storage.Entry) {fs : List Storage.Entry} {w w' : World}, (∀ e ∈ es, ∃ p, e = .dir p) → expand es w = (.ok fs, w') →
    Looked w.nextFd w w' ∧ (∀ e ∈ fs, Listed w w' e) ∧ (handles fs).Nodup ∧ ∀ x, x ∈ fs.map Storage.Entry.path ↔ ∃ p, Storage.Entry.dir p ∈ es ∧ x ∈ Storage.World.below w p := by
  intro es
  induction es with
  | nil =>
    intro fs w w' _ h
    cases h
    exact ⟨.refl _ _, fun e he => (nomatch he), .nil, fun x => by simp⟩
  | cons e es ih =>
    intro fs w w' hd h
    obtain ⟨p, rfl⟩ := hd e List.mem_cons_self
    unfold expand at h
    obtain ⟨f1, w1, h1, h⟩ := bind_eq_ok h
    obtain ⟨f2, w2, h2, h⟩ := bind_eq_ok h
    cases h
    have h1 : Storage.readEntries (Storage.World.below w p) w = (.ok f1, w1) := mapErr_eq_ok h1
    obtain ⟨hl1, hp1, hf1, hn1⟩ := readEntries_ok _ h1
    obtain ⟨hl2, hf2, hn2, hp2⟩ := ih (fun e he => hd e (List.mem_cons_of_mem _ he)) h2
    refine ⟨hl1.trans (hl2.mono hl1.nextFd), fun x hx => ?_, handles_nodup hf1 hf2 (Nat.le_refl _) hn1 hn2, fun x => ?_⟩
    · rcases List.mem_append.1 hx with hx | hx
      · exact (hf1 x hx).later hl2
      · exact (hf2 x hx).earlier hl1
    · rw [List.map_append, List.mem_append, hp1, hp2]
      constructor
      · rintro (h | ⟨p', h3, h4⟩)
        · exact ⟨p, List.mem_cons_self, h⟩
        · exact ⟨p', List.mem_cons_of_mem _ h3, by rw [below_congr hl1.dir] at h4; exact h4⟩
      · rintro ⟨p', h3, h4⟩
        rcases List.mem_cons.1 h3 with h3 | h3
        · cases h3; exact .inl h4
        · exact .inr ⟨p', h3, by rw [below_congr hl1.dir]; exact h4⟩

theorem expand_looks (n : Nat) : ∀ es : List Storage.Entry, Looks n (fun _ => True) (expand es) := by
  intro es
  induction es with
  | nil => exact .pure trivial
  | cons e es ih =>
    unfold expand
    refine .bind (P := fun _ => True) ?_ fun _ _ => .bind ih fun _ _ => .pure trivial
    cases e with
    | file p h => exact .pure trivial
    | dir p =>
      refine .mapErr _ fun w hw => ?_
      have : ∀ ps : List PathBuf, Looks n (fun _ => True) (Storage.readEntries ps) := by
        intro ps
        induction ps with
        | nil => exact .pure trivial
        | cons p ps ih => exact .bind (.mapErr _ .sys) fun _ _ => .bind (.readFile p) fun _ _ => .bind ih fun _ _ => .pure trivial
      exact this (Storage.World.below w p) w hw

/-- What is below a directory, seen by listing. -/
theorem mem_below {w : World} (ht : TreeOk w) {p : PathBuf} {T : Path} (hd : LeadsToDir w p T) (x : PathBuf) :
    x ∈ Storage.World.below w p ↔ ∃ ns n, w.look (T ++ ns) = some n ∧ x = p.push (ns.map .name) := by
  obtain ⟨hb, hk⟩ := Storage.below_resolves ht hd
  rw [hb]
  constructor
  · intro hx
    rcases List.mem_cons.1 hx with rfl | hx
    · exact ⟨[], .dir, by rw [List.append_nil]; exact hd.look, by simp [PathBuf.push]⟩
    · obtain ⟨k, hk', rfl⟩ := List.mem_map.1 hx
      obtain ⟨_, h2, _, ⟨s, rfl⟩⟩ := hk k hk'
      obtain ⟨n, hn⟩ := Option.isSome_iff_exists.1 h2
      exact ⟨s, n, hn, by rw [List.drop_left]⟩
  · rintro ⟨ns, n, hn, rfl⟩
    cases ns with
    | nil => simp [PathBuf.push]
    | cons a ns =>
      refine List.mem_cons_of_mem _ (List.mem_map.2 ⟨T ++ a :: ns, ?_, by rw [List.drop_left]⟩)
      refine List.mem_filter.2 ⟨List.mem_map.2 ⟨(T ++ a :: ns, n), World.mem_of_look (by simp) hn, rfl⟩, ?_⟩
      simp

theorem below_leads {w : World} (ht : TreeOk w) {p : PathBuf} {T : Path} (hd : LeadsToDir w p T) {ns : List Name} {n : Node} (hn : w.look (T ++ ns) = some n) :
    w.resolve (p.push (ns.map .name)) = .ok (T ++ ns) :=
  World.resolve_push hd.resolve ht (by rw [hn]; rfl)

/-- The archive that is made of a listing holds what the inputs lead to. -/
theorem archives_of_listing {cwd : Path} {inputs : List (List Char)} {w v v' : World} {F : Path → Prop} {fs : List Storage.Entry} (htr : Trail F w v) (htree : TreeOk v)
    (hal : Allocated w) (hF : ∀ q, F q → ¬ InSource cwd inputs w q ∧ ∀ i, w.look q = some (.file i) → ∀ x, InSource cwd inputs w x → w.look x ≠ some (.file i))
    (hex : expand (inputs.map fun f => .dir (toPath cwd f)) v = (.ok fs, v')) (hdirs : ∀ f ∈ inputs, ∃ T, LeadsToDir w (toPath cwd f) T) :
    Archives cwd inputs w (fs.map (stored v')) := by
  obtain ⟨hl, hlisted, _, hpaths⟩ := expand_ok _ (by intro e he; obtain ⟨f, _, rfl⟩ := List.mem_map.1 he; exact ⟨_, rfl⟩) hex
  have up : ∀ {f T}, LeadsToDir w (toPath cwd f) T → LeadsToDir v (toPath cwd f) T := fun h => ⟨(htr.resolves _ _).2 h.resolve, htr.look h.look⟩
  have kept : ∀ {x i}, InSource cwd inputs w x → w.look x = some (.file i) → v'.file i = w.file i := by
    intro x i hx hi
    rw [hl.file]
    exact htr.kept (hal x i hi) fun q hq hlq => (hF q hq).2 i hlq x hx hi
  have content : ∀ {p h}, Storage.Entry.file p h ∈ fs → ∀ {q i}, v.resolve p = .ok q → v.look q = some (.file i) → v'.rest h = v'.file i := by
    intro p h hm q i hq hi
    obtain ⟨_, _, q', i', h3, h4⟩ := hlisted _ hm
    have e1 : q' = q := by have := h3.resolve; rw [hq] at this; cases this; rfl
    subst e1
    have e2 : i' = i := by have := h3.look; rw [hi] at this; cases this; rfl
    subst e2
    unfold World.rest World.data
    rw [h4]; simp
  refine ⟨fun f hf T hT ns i hi => ?_, fun f hf T hT ns hi => ?_, fun e he => ?_⟩
  · have hin : InSource cwd inputs w (T ++ ns) := ⟨f, hf, T, hT, List.prefix_append ..⟩
    have hmem : (toPath cwd f).push (ns.map .name) ∈ fs.map Storage.Entry.path :=
      (hpaths _).2 ⟨toPath cwd f, List.mem_map.2 ⟨f, hf, rfl⟩, (mem_below htree (up hT) _).2 ⟨ns, _, htr.look hi, rfl⟩⟩
    obtain ⟨x, hx, hxp⟩ := List.mem_map.1 hmem
    have hres := below_leads htree (up hT) (htr.look hi)
    cases x with
    | dir p =>
      obtain ⟨q, hq⟩ := hlisted _ hx
      have hxp : p = _ := hxp
      have := hq.resolve
      rw [hxp, hres] at this; cases this
      have := hq.look
      rw [htr.look hi] at this; cases this
    | file p h =>
      have hxp : p = _ := hxp
      refine List.mem_map.2 ⟨_, hx, ?_⟩
      show ({ name := _, content := _ } : ZipEntry) = { name := _, content := _ }
      rw [content hx (by rw [hxp]; exact hres) (htr.look hi), kept hin hi, hxp]
  · have hmem : (toPath cwd f).push (ns.map .name) ∈ fs.map Storage.Entry.path :=
      (hpaths _).2 ⟨toPath cwd f, List.mem_map.2 ⟨f, hf, rfl⟩, (mem_below htree (up hT) _).2 ⟨ns, _, htr.look hi, rfl⟩⟩
    obtain ⟨x, hx, hxp⟩ := List.mem_map.1 hmem
    have hres := below_leads htree (up hT) (htr.look hi)
    cases x with
    | dir p =>
      have hxp : p = _ := hxp
      refine List.mem_map.2 ⟨_, hx, ?_⟩
      show ({ name := _, content := _ } : ZipEntry) = { name := _, content := _ }
      rw [hxp]
    | file p h =>
      obtain ⟨_, _, q, i, hq, _⟩ := hlisted _ hx
      have hxp : p = _ := hxp
      have := hq.resolve
      rw [hxp, hres] at this; cases this
      have := hq.look
      rw [htr.look hi] at this; cases this
  · obtain ⟨x, hx, rfl⟩ := List.mem_map.1 he
    obtain ⟨p, hp, hb⟩ := (hpaths _).1 (List.mem_map.2 ⟨x, hx, rfl⟩)
    obtain ⟨f, hf, hfe⟩ := List.mem_map.1 hp
    cases hfe
    obtain ⟨T, hT⟩ := hdirs f hf
    obtain ⟨ns, n, hn, hxp⟩ := (mem_below htree (up hT) _).1 hb
    have hres := below_leads htree (up hT) hn
    have hin : InSource cwd inputs w (T ++ ns) := ⟨f, hf, T, hT, List.prefix_append ..⟩
    refine ⟨f, hf, T, hT, ns, ?_⟩
    cases x with
    | dir p =>
      right
      obtain ⟨q, hq⟩ := hlisted _ hx
      have hxp : p = _ := hxp
      have h1 := hq.resolve
      rw [hxp, hres] at h1; cases h1
      exact ⟨htr.dirs hq.look, by rw [hxp]; rfl⟩
    | file p h =>
      left
      obtain ⟨_, _, q, i, hq, _⟩ := hlisted _ hx
      have hxp : p = _ := hxp
      have h1 := hq.resolve
      rw [hxp, hres] at h1; cases h1
      have hw : w.look (T ++ ns) = some (.file i) := by
        rcases htr.extracts.look (T ++ ns) with h | ⟨_, _, h⟩ | ⟨_, h, _⟩
        · rw [← h]; exact hq.look
        · exact h.elim
        · exact absurd hin (hF _ h).1
      refine ⟨i, hw, ?_⟩
      show ({ name := _, content := _ } : ZipEntry) = { name := _, content := _ }
      rw [content hx (by rw [hxp]; exact hres) hq.look, kept hin hw, hxp]

end Volaris.Cli
