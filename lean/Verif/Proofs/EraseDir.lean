import Verif.Proofs.Erase
import Verif.Spec.Storage
/-!
# Lemmas about erasing directories
-/
namespace Volaris
open Thr Spec

/-! ### Trees -/

namespace Spec.TreeOk
variable {w : World}

theorem parent (ht : TreeOk w) {k : Path} {n : Node} (hk : k ≠ []) (h : w.look k = some n) : w.look k.dropLast = some .dir :=
  (ht.parents k n (World.mem_of_look hk h)).2

/-- Everything above an existing path is a directory. -/
theorem ancestors (ht : TreeOk w) (T : Path) : ∀ (m : Nat) (s : List Name), s.length = m → (w.look (T ++ s)).isSome → ∀ j, j < s.length → w.look (T ++ s.take j) = some .dir := by
  intro m
  induction m with
  | zero => intro s hs _ j hj; omega
  | succ m ih =>
    intro s hs h j hj
    have hne : s ≠ [] := by rintro rfl; simp at hs
    have hd : w.look (T ++ s.dropLast) = some .dir := by
      obtain ⟨n, hn⟩ := Option.isSome_iff_exists.1 h
      have := ht.parent (by simp [hne]) hn
      rwa [List.dropLast_append_of_ne_nil hne] at this
    by_cases hj' : j < s.dropLast.length
    · have := ih s.dropLast (by simp [hs]) (by rw [hd]; rfl) j hj'
      rwa [List.dropLast_eq_take, List.take_take, Nat.min_eq_left] at this
      rw [List.length_dropLast] at hj'; omega
    · rw [List.length_dropLast] at hj'
      rw [show j = s.length - 1 by omega, ← List.dropLast_eq_take]
      exact hd

end Spec.TreeOk

/-- Walking down names that exist. -/
theorem World.walk_names (w : World) : ∀ (s : List Name) (T : Path), (∀ j, j < s.length → w.look (T ++ s.take j) = some .dir) →
    w.walk T (s.map .name) = .ok (T ++ s) := by
  intro s
  induction s with
  | nil => intro T _; simp [World.walk]
  | cons a s ih =>
    intro T h
    rw [List.map_cons, World.walk_cons]
    have h0 := h 0 (by simp)
    rw [List.take_zero, List.append_nil] at h0
    rw [h0]
    show w.walk (T ++ [a]) (s.map .name) = _
    rw [ih (T ++ [a])]
    · simp
    · intro j hj
      have := h (j + 1) (by simpa using hj)
      simpa using this

theorem World.resolve_push {w : World} {p : PathBuf} {T : Path} (hp : w.resolve p = .ok T) (ht : TreeOk w) {s : List Name} (h : (w.look (T ++ s)).isSome) :
    w.resolve (p.push (s.map .name)) = .ok (T ++ s) := by
  have : w.resolve (p.push (s.map .name)) = w.walk p.start (p.comps ++ s.map .name) := rfl
  rw [this, World.walk_append]
  have hp' : w.walk p.start p.comps = .ok T := hp
  rw [hp']
  exact w.walk_names s T (ht.ancestors T _ s rfl h)

/-! ### Reading a directory -/

namespace Storage

theorem readFile_cases {p : PathBuf} {q : Path} {n : Node} {w : World} (hr : w.resolve p = .ok q) (hl : w.look q = some n) :
    (∃ e w', readFile p w = (.ok e, w') ∧ e.path = p ∧ e.isDir = (n = .dir : Bool) ∧ Calm w w') ∨
    (∃ e w', readFile p w = (.err e, w') ∧ w.sched ≠ [] ∧ Calm w w') := by
  unfold readFile
  have e1 : (Volaris.isDir p : Prog Error Bool) w = (.ok (w.isDirAt p), w) := rfl
  rw [Prog.bind_ok e1]
  have e2 : w.isDirAt p = (n = .dir : Bool) := by
    unfold World.isDirAt
    rw [hr]
    simp [hl]
  cases n with
  | dir =>
    have e3 : w.isDirAt p = true := by rw [e2]; rfl
    rw [e3]
    exact .inl ⟨.dir p, w, rfl, rfl, rfl, .refl w⟩
  | file i =>
    have e3 : w.isDirAt p = false := by rw [e2]; rfl
    rw [e3]
    simp only [Bool.false_eq_true, if_false]
    rcases openFile_cases hr hl with ⟨s, hs, he⟩ | ⟨s, e, hs, hn, he⟩
    · rw [Prog.bind_ok (Prog.mapErr_ok he)]
      exact .inl ⟨.file p w.nextFd, _, rfl, rfl, rfl, (Calm.of_sched w hs).trans (Calm.opened _ i)⟩
    · rw [Prog.bind_err (Prog.mapErr_err he)]
      exact .inr ⟨_, _, rfl, hn, .of_sched w hs⟩

theorem readEntries_cases : ∀ (ps : List PathBuf) (w : World), (∀ p ∈ ps, ∃ q, w.resolve p = .ok q ∧ (w.look q).isSome) →
    (∃ es w', readEntries ps w = (.ok es, w') ∧ es.map Entry.path = ps ∧ (∀ e ∈ es, e.isDir = w.isDirAt e.path) ∧ Calm w w') ∨
    (∃ e w', readEntries ps w = (.err e, w') ∧ w.sched ≠ [] ∧ Calm w w') := by
  intro ps
  induction ps with
  | nil => intro w _; exact .inl ⟨[], w, rfl, rfl, by simp, .refl w⟩
  | cons p ps ih =>
    intro w h
    unfold readEntries
    rcases sys_cases w with ⟨s, hs, he⟩ | ⟨s, e, hs, hn, he⟩
    · rw [Prog.bind_ok (Prog.mapErr_ok he)]
      have c1 := Calm.of_sched w hs
      obtain ⟨q, hq, hq'⟩ := h p List.mem_cons_self
      obtain ⟨n, hn⟩ := Option.isSome_iff_exists.1 hq'
      have hq1 : ({ w with sched := s } : World).resolve p = .ok q := by rw [World.resolve_sched]; exact hq
      have hn1 : ({ w with sched := s } : World).look q = some n := hn
      have hd : w.isDirAt p = (n = .dir : Bool) := by
        unfold World.isDirAt
        rw [hq]; simp [hn]
      have nil1 : ∀ {w1 : World}, w1.sched ≠ [] → Calm w w1 → w.sched ≠ [] := by
        intro w1 h1 hc h0
        have := hc.sched
        rw [h0] at this
        exact h1 (List.suffix_nil.1 this)
      rcases readFile_cases hq1 hn1 with ⟨e, w1, he1, hp1, hd1, hc1⟩ | ⟨e, w1, he1, hs1, hc1⟩
      · rw [Prog.bind_ok he1]
        have c2 := c1.trans hc1
        have h2 : ∀ p ∈ ps, ∃ q, w1.resolve p = .ok q ∧ (w1.look q).isSome := by
          intro p' hp'
          obtain ⟨q', a, b⟩ := h p' (List.mem_cons_of_mem _ hp')
          exact ⟨q', by rw [World.resolve_congr c2.dir]; exact a, by rw [World.look_congr c2.dir]; exact b⟩
        rcases ih w1 h2 with ⟨es, w2, he2, hm, hd2, hc2⟩ | ⟨e2, w2, he2, hs2, hc2⟩
        · rw [Prog.bind_ok he2]
          refine .inl ⟨e :: es, w2, rfl, by rw [List.map_cons, hp1, hm], ?_, c2.trans hc2⟩
          intro x hx
          rcases List.mem_cons.1 hx with rfl | hx
          · rw [hp1, hd1, hd]
          · rw [hd2 x hx, World.isDirAt_congr c2.dir]
        · rw [Prog.bind_err he2]
          exact .inr ⟨_, w2, rfl, nil1 hs2 c2, c2.trans hc2⟩
      · rw [Prog.bind_err he1]
        exact .inr ⟨_, w1, rfl, nil1 hs1 c1, c1.trans hc1⟩
    · rw [Prog.bind_err (Prog.mapErr_err he)]
      exact .inr ⟨_, _, rfl, hn, .of_sched w hs⟩

/-! ### Removing a directory -/

theorem mem_insertDeep {q x : Path} : ∀ {ps : List Path}, x ∈ insertDeep q ps ↔ x = q ∨ x ∈ ps
  | [] => by simp [insertDeep]
  | p :: ps => by
    unfold insertDeep
    split
    · simp
    · simp only [List.mem_cons, mem_insertDeep (ps := ps)]
      constructor
      · rintro (h | h | h) <;> simp [h]
      · rintro (h | h | h) <;> simp [h]

theorem mem_deepFirst {x : Path} : ∀ {qs : List Path}, x ∈ deepFirst qs ↔ x ∈ qs
  | [] => by simp [deepFirst]
  | q :: qs => by
    have ih := mem_deepFirst (x := x) (qs := qs)
    have ihq := mem_deepFirst (x := q) (qs := qs)
    show x ∈ (if q ∈ deepFirst qs then deepFirst qs else insertDeep q (deepFirst qs)) ↔ _
    split
    · next h =>
      rw [ih, List.mem_cons]
      exact ⟨.inr, fun g => g.elim (fun g => g ▸ ihq.1 h) id⟩
    · rw [mem_insertDeep, ih, List.mem_cons]

theorem insertDeep_sorted {q : Path} : ∀ {ps : List Path}, q ∉ ps → ps.Pairwise (fun a b : Path => b.length ≤ a.length ∧ a ≠ b) → (insertDeep q ps).Pairwise (fun a b : Path => b.length ≤ a.length ∧ a ≠ b)
  | [], _, _ => by simp [insertDeep]
  | p :: ps, hq, h => by
    unfold insertDeep
    obtain ⟨h1, h2⟩ := List.pairwise_cons.1 h
    split
    · next hl =>
      refine List.pairwise_cons.2 ⟨fun x hx => ?_, h⟩
      refine ⟨?_, fun e => hq (e ▸ hx)⟩
      rcases List.mem_cons.1 hx with rfl | hx
      · exact hl
      · exact Nat.le_trans (h1 x hx).1 hl
    · next hl =>
      refine List.pairwise_cons.2 ⟨fun x hx => ?_, insertDeep_sorted (fun h => hq (List.mem_cons_of_mem _ h)) h2⟩
      rcases mem_insertDeep.1 hx with rfl | hx
      · exact ⟨by omega, fun e => hq (e ▸ List.mem_cons_self)⟩
      · exact h1 x hx

theorem deepFirst_sorted : ∀ qs : List Path, (deepFirst qs).Pairwise (fun a b : Path => b.length ≤ a.length ∧ a ≠ b)
  | [] => by simp [deepFirst]
  | q :: qs => by
    show (if q ∈ deepFirst qs then deepFirst qs else insertDeep q (deepFirst qs)).Pairwise _
    split
    · exact deepFirst_sorted qs
    · next h => exact insertDeep_sorted h (deepFirst_sorted qs)

/-- The entries are there, and with a directory everything that is in it; what is deeper comes first. -/
structure Clearable (qs : List Path) (w : World) : Prop where
  sorted : qs.Pairwise (fun a b : Path => b.length ≤ a.length ∧ a ≠ b)
  there : ∀ q ∈ qs, (w.look q).isSome
  below : ∀ q ∈ qs, ∀ e ∈ w.dir, q <+: e.1 → e.1 ≠ q → e.1 ∈ qs

/-- The first of them can be removed. -/
theorem dropEntry_first {q : Path} {qs : List Path} {w : World} (h : Clearable (q :: qs) w) : dropEntry q w = (.ok (), w.removed q) ∧ Clearable qs (w.removed q) := by
  obtain ⟨h1, h2⟩ := List.pairwise_cons.1 h.sorted
  constructor
  · unfold dropEntry
    have hs := h.there q List.mem_cons_self
    cases hl : w.look q with
    | none => rw [hl] at hs; cases hs
    | some n =>
      cases n with
      | file i => rfl
      | dir =>
        have : w.dir.any (fun e => q.isPrefixOf e.1 && e.1 ≠ q) = false := by
          rw [List.any_eq_false]
          intro e he hc
          simp only [Bool.and_eq_true, List.isPrefixOf_iff_prefix, decide_eq_true_eq] at hc
          rcases List.mem_cons.1 (h.below q List.mem_cons_self e he hc.1 hc.2) with g | g
          · exact hc.2 g
          · have h3 := (h1 _ g).1
            exact hc.2 (hc.1.eq_of_length_le h3).symm
        simp only [this, Bool.false_eq_true, if_false]
  · refine ⟨h2, fun x hx => ?_, fun x hx e he hp hne => ?_⟩
    · rw [World.look_removed, if_neg (fun g => (h1 x hx).2 g.2.symm)]
      exact h.there x (List.mem_cons_of_mem _ hx)
    · obtain ⟨he, hq⟩ := List.mem_filter.1 he
      rcases List.mem_cons.1 (h.below x (List.mem_cons_of_mem _ hx) e he hp hne) with g | g
      · simp [g] at hq
      · exact g

theorem removeEntries_cases : ∀ (qs : List Path) (w : World), Clearable qs w → ∃ r w', removeEntries qs w = (r, w') ∧
    (r = .ok () ∧ (∀ x ∈ qs, x ≠ [] → w'.look x = none) ∨ (∃ e, r = .err e) ∧ w.sched ≠ []) ∧
    (∀ x, x ∉ qs → w'.look x = w.look x) ∧ (∀ x, w'.look x = w.look x ∨ w'.look x = none) ∧ w'.file = w.file ∧ w'.sched <:+ w.sched ∧
    w'.stdin = w.stdin ∧ w'.tty = w.tty ∧ w'.env = w.env ∧ (∃ evs, w'.log = evs ++ w.log ∧ ∀ e ∈ evs, ∃ q, e = .unlink q) := by
  intro qs
  induction qs with
  | nil => intro w _; exact ⟨_, w, rfl, .inl ⟨rfl, by simp⟩, fun _ _ => rfl, fun _ => .inl rfl, rfl, List.suffix_refl _, rfl, rfl, rfl, [], rfl, by simp⟩
  | cons q qs ih =>
    intro w hcl
    unfold removeEntries
    rcases sys_cases w with ⟨s, hs, he⟩ | ⟨s, e, hs, hn, he⟩
    · rw [Prog.bind_ok he]
      obtain ⟨e2, hcl'⟩ := dropEntry_first (w := { w with sched := s }) (⟨hcl.sorted, hcl.there, hcl.below⟩ : Clearable (q :: qs) { w with sched := s })
      rw [Prog.bind_ok e2]
      have hl : ∀ x, (({ w with sched := s } : World).removed q).look x = if x ≠ [] ∧ x = q then none else w.look x :=
        fun x => World.look_removed _ q x
      obtain ⟨r, w', h1, h2, h3, h4, h5, h6, h7, h8, h9, evs, h10, h11⟩ := ih (({ w with sched := s } : World).removed q) hcl'
      refine ⟨r, w', h1, ?_, ?_, ?_, h5, h6.trans hs, h7, h8, h9, evs ++ [.unlink q], ?_, ?_⟩
      · rcases h2 with ⟨rfl, h2⟩ | ⟨h2, h2'⟩
        · refine .inl ⟨rfl, fun x hx hne => ?_⟩
          by_cases hxq : x ∈ qs
          · exact h2 x hxq hne
          · rcases List.mem_cons.1 hx with rfl | hx
            · rw [h3 x hxq, hl, if_pos ⟨hne, rfl⟩]
            · exact absurd hx hxq
        · refine .inr ⟨h2, fun h0 => h2' ?_⟩
          rw [h0] at hs
          exact List.suffix_nil.1 hs
      · intro x hx
        have hxq : x ≠ q := fun h => hx (h ▸ List.mem_cons_self)
        rw [h3 x (fun h => hx (List.mem_cons_of_mem _ h)), hl, if_neg (fun h => hxq h.2)]
      · intro x
        rcases h4 x with h | h
        · rw [h, hl]
          split
          · exact .inr rfl
          · exact .inl rfl
        · exact .inr h
      · rw [h10]; simp [World.removed]
      · intro e he
        rcases List.mem_append.1 he with he | he
        · exact h11 e he
        · exact ⟨q, by simpa using he⟩
    · rw [Prog.bind_err he]
      exact ⟨_, _, rfl, .inr ⟨⟨_, rfl⟩, hn⟩, fun _ _ => rfl, fun _ => .inl rfl, rfl, hs, rfl, rfl, rfl, [], rfl, by simp⟩

end Storage

/-! ### The pool of erasing threads -/

/-- Erasing the files `ino k` at the paths `k` of a list. -/
structure ErasingAll (ks : List Path) (ino : Path → Nat) (w w' : World) : Prop where
  files : ∀ j, (∀ k ∈ ks, ino k ≠ j) → w'.file j = w.file j
  dir : ∀ p, p ∉ ks → w'.look p = w.look p
  entry : ∀ p, w'.look p = w.look p ∨ (w'.look p = none ∧ w.look p = some (.file (ino p)) ∧ w'.file (ino p) = [])
  contents : ∀ j, w'.file j = w.file j ∨ w'.file j = []
  sched : w'.sched <:+ w.sched
  stdin : w'.stdin = w.stdin
  tty : w'.tty = w.tty
  env : w'.env = w.env
  log : ∃ evs, w'.log = evs ++ w.log ∧ ∀ e ∈ evs, (∃ i, e = .truncate i) ∨ ∃ q, e = .unlink q

theorem ErasingAll.refl (ks : List Path) (ino : Path → Nat) (w : World) : ErasingAll ks ino w w :=
  ⟨fun _ _ => rfl, fun _ _ => rfl, fun _ => .inl rfl, fun _ => .inl rfl, List.suffix_refl _, rfl, rfl, rfl, [], rfl, by simp⟩

theorem ErasingAll.step {ks : List Path} {ino : Path → Nat} {a b c : World} (h : ErasingAll ks ino a b) {k : Path} (hk : k ∈ ks)
    (g : Erasing k (ino k) b c) : ErasingAll ks ino a c where
  files := fun j hj => (g.files j (fun e => hj k hk e.symm)).trans (h.files j hj)
  dir := fun p hp => (g.dir p (fun e => hp (e ▸ hk))).trans (h.dir p hp)
  entry := fun p => by
    have hold : ∀ j, b.file j = [] → c.file j = [] := fun j hj => by
      by_cases e : j = ino k
      · rw [e] at hj ⊢
        rcases g.target with t | t
        · rw [t, hj]
        · exact t
      · rw [g.files j e, hj]
    by_cases hp : p = k
    · subst hp
      rcases g.entry with g1 | ⟨g1, g2, g3⟩
      · rw [g1]; exact (h.entry p).imp id fun ⟨a1, a2, a3⟩ => ⟨a1, a2, hold _ a3⟩
      · rcases h.entry p with h1 | ⟨h1, h2, h3⟩
        · exact .inr ⟨g1, by rw [← h1]; exact g2, g3⟩
        · exact .inr ⟨g1, h2, g3⟩
    · rw [g.dir p hp]; exact (h.entry p).imp id fun ⟨a1, a2, a3⟩ => ⟨a1, a2, hold _ a3⟩
  contents := fun j => by
    by_cases e : j = ino k
    · rw [e]
      rcases g.target with t | t
      · rw [t]; exact h.contents _
      · exact .inr t
    · rw [g.files j e]; exact h.contents j
  sched := g.sched.trans h.sched
  stdin := g.stdin.trans h.stdin
  tty := g.tty.trans h.tty
  env := g.env.trans h.env
  log := by
    obtain ⟨e1, l1, p1⟩ := h.log
    obtain ⟨e2, l2, p2⟩ := g.log
    refine ⟨e2 ++ e1, by rw [l2, l1, List.append_assoc], ?_⟩
    intro e he
    rcases List.mem_append.1 he with he | he
    · rcases p2 e he with h | h
      · exact .inl ⟨_, h⟩
      · exact .inr ⟨_, h⟩
    · exact p1 e he

theorem ErasingAll.dirs {ks : List Path} {ino : Path → Nat} {w w' : World} (h : ErasingAll ks ino w w') {d : Path} (hd : w.look d = some .dir) :
    w'.look d = some .dir := by
  rcases h.entry d with h1 | ⟨_, h2, _⟩
  · rw [h1]; exact hd
  · rw [hd] at h2; cases h2

/-- Spawning and joining the erasing threads of a list of distinct files. -/
theorem eraseThreads_cases (order : List Nat) (n : Int) (ks : List Path) (hks : ks.Nodup) (f : Path → PathBuf) (ino : Path → Nat) (w : World)
    (h : ∀ k ∈ ks, w.resolve (f k) = .ok k ∧ w.look k = some (.file (ino k))) :
    ∃ r w', spawnJoin order (ks.map fun k => (Erase.thread (f k) n).mapErr EraseDir.Error.eraseFile) w = (r, w') ∧ ErasingAll ks ino w w' ∧
      (r = .ok () ∧ (∀ k ∈ ks, w'.look k = none ∧ w'.file (ino k) = []) ∨ (∃ e, r = .err (.eraseFile e)) ∧ w.sched ≠ []) := by
  obtain ⟨is, r, hj, he⟩ := spawnJoin_cases order (ks.map fun k => (Erase.thread (f k) n).mapErr EraseDir.Error.eraseFile) w
  refine ⟨r, _, he, ?_⟩
  let kk : Nat → Path := fun i => ks.getD i []
  have hkk : ∀ i, i < ks.length → kk i ∈ ks ∧ ks[i]? = some (kk i) := by
    intro i hi
    have : ks[i]? = some (kk i) := by simp [kk, List.getElem?_eq_getElem hi]
    exact ⟨List.mem_of_getElem? this, this⟩
  let Qe : Path → Res EraseDir.Error Unit → World → Prop := fun k r w' => match r with
    | .ok _ => w'.look k = none ∧ w'.file (ino k) = []
    | .err e => (∃ e', e = .eraseFile e') ∧ w.sched ≠ []
    | .abort _ => False
  have key := interleave_RG (R := fun i => Quiet (kk i)) (G := fun i => Erasing (kk i) (ino (kk i))) (Q := fun i => Qe (kk i))
    (fun i => Quiet.trans) (fun i a => Quiet.refl _ a) ks.length
    (by
      intro i j w1 w2 hi hj hij hg
      refine Quiet.of_erasing ?_ hg
      intro e
      have h1 := (hkk i hi).2
      have h2 := (hkk j hj).2
      rw [e] at h1
      exact hij ((List.getElem?_inj hi hks).1 (h1.trans h2.symm)))
    is (ks.map fun k => (Erase.thread (f k) n).mapErr EraseDir.Error.eraseFile) w (by simp)
    (by
      intro i t ht
      rw [List.getElem?_map] at ht
      obtain ⟨k, hk, rfl⟩ := Option.map_eq_some_iff.1 ht
      have hi : i < ks.length := (List.getElem?_eq_some_iff.1 hk).1
      have hki : k = kk i := by have := (hkk i hi).2; rw [hk] at this; exact Option.some.inj this
      subst hki
      obtain ⟨h1, h2⟩ := h _ (hkk i hi).1
      have := Erase.thread_rg (R := Quiet (kk i)) (p := f (kk i)) (clean := w.sched = []) (fun a => Quiet.refl _ a) (fun _ _ h => h) n h1 h2 id
      refine RG.mapErr this fun r w' hr => ?_
      cases r with
      | ok a => exact hr.2
      | err e => exact ⟨⟨e, rfl⟩, hr⟩
      | abort a => exact hr)
  obtain ⟨k1, k2⟩ := key
  have hall : ErasingAll ks ino w (interleave is (ks.map fun k => (Erase.thread (f k) n).mapErr EraseDir.Error.eraseFile) w).2 :=
    Star.of_closed (fun w => ErasingAll.refl ks ino w) (by rintro a b c h ⟨i, hi, g⟩; exact h.step (hkk i hi).1 g) k2
  refine ⟨hall, ?_⟩
  by_cases hr : r = .ok ()
  · subst hr
    refine .inl ⟨rfl, ?_⟩
    intro k hk
    obtain ⟨i, hi⟩ := List.mem_iff_getElem?.1 hk
    have hil : i < ks.length := (List.getElem?_eq_some_iff.1 hi).1
    have hki : k = kk i := by have := (hkk i hil).2; rw [hi] at this; exact Option.some.inj this
    have hlen := interleave_length is (ks.map fun k => (Erase.thread (f k) n).mapErr EraseDir.Error.eraseFile) w
    rw [List.length_map] at hlen
    have hd := joined_ok hj _ (List.getElem_mem (by rw [hlen]; exact hil))
    have := k1 i _ (List.getElem?_eq_getElem (by rw [hlen]; exact hil))
    rw [hd] at this
    rw [hki]
    exact this _ (Quiet.refl _ _)
  · have hd := joined_bad hj hr
    obtain ⟨i, hi⟩ := List.mem_iff_getElem?.1 hd
    have := k1 i _ hi _ (Quiet.refl _ _)
    cases r with
    | ok a => exact absurd rfl hr
    | err e =>
      obtain ⟨⟨e', rfl⟩, hs⟩ := this
      exact .inr ⟨⟨e', rfl⟩, hs⟩
    | abort a => exact this.elim

/-! ### The whole operation -/

namespace Storage

/-- What `read_dir` reads. -/
theorem below_resolves {w : World} {p : PathBuf} {T : Path} (ht : TreeOk w) (hd : LeadsToDir w p T) :
    World.below w p = p :: ((w.dir.map (·.1)).filter (fun k => T.isPrefixOf k && k ≠ T)).map (fun k => p.push ((k.drop T.length).map .name)) ∧
    ∀ k ∈ (w.dir.map (·.1)).filter (fun k => T.isPrefixOf k && k ≠ T),
      w.resolve (p.push ((k.drop T.length).map .name)) = .ok k ∧ (w.look k).isSome ∧ k ≠ [] ∧ T <+: k := by
  refine ⟨by unfold World.below; rw [hd.resolve], fun k hk => ?_⟩
  obtain ⟨hm, hc⟩ := List.mem_filter.1 hk
  simp only [Bool.and_eq_true, List.isPrefixOf_iff_prefix] at hc
  obtain ⟨⟨k0, n⟩, hmem, hk0⟩ := List.mem_map.1 hm
  simp only at hk0
  subst hk0
  obtain ⟨s, rfl⟩ := hc.1
  have hsome : (w.look (T ++ s)).isSome := World.look_isSome_of_mem hmem
  refine ⟨?_, hsome, (ht.parents _ n hmem).1, List.prefix_append ..⟩
  rw [List.drop_left]
  exact World.resolve_push hd.resolve ht hsome

theorem rmTree_cases {w : World} {p : PathBuf} {T : Path} (hd : LeadsToDir w p T) :
    ∃ r w', rmTree p w = (r, w') ∧ (r = .ok () ∧ (∀ x, T <+: x → x ≠ [] → w'.look x = none) ∨ (∃ e, r = .err e) ∧ w.sched ≠ []) ∧
    (∀ x, ¬ T <+: x → w'.look x = w.look x) ∧ (∀ x, w'.look x = w.look x ∨ w'.look x = none) ∧ w'.file = w.file ∧ w'.sched <:+ w.sched ∧
    w'.stdin = w.stdin ∧ w'.tty = w.tty ∧ w'.env = w.env ∧ (∃ evs, w'.log = evs ++ w.log ∧ ∀ e ∈ evs, ∃ q, e = .unlink q) := by
  have e1 : rmTree p w = removeEntries (deepFirst ((w.dir.map (·.1)).filter (T.isPrefixOf ·))) w := by
    unfold rmTree
    rw [hd.resolve]
    simp only [hd.look, if_true]
  have hcl : Clearable (deepFirst ((w.dir.map (·.1)).filter (T.isPrefixOf ·))) w := by
    refine ⟨deepFirst_sorted _, fun q hq => ?_, fun q hq e he hp hne => ?_⟩
    · obtain ⟨hm, -⟩ := List.mem_filter.1 (mem_deepFirst.1 hq)
      obtain ⟨⟨k, n⟩, hk, rfl⟩ := List.mem_map.1 hm
      exact World.look_isSome_of_mem hk
    · have hT := List.isPrefixOf_iff_prefix.1 (List.mem_filter.1 (mem_deepFirst.1 hq)).2
      exact mem_deepFirst.2 (List.mem_filter.2 ⟨List.mem_map.2 ⟨e, he, rfl⟩, List.isPrefixOf_iff_prefix.2 (hT.trans hp)⟩)
  obtain ⟨r, w', h1, h2, h3, h4, h5⟩ := removeEntries_cases _ w hcl
  refine ⟨r, w', e1.trans h1, ?_, ?_, h4, h5⟩
  · rcases h2 with ⟨rfl, h2⟩ | h2
    · refine .inl ⟨rfl, fun x hx hne => ?_⟩
      by_cases hq : x ∈ deepFirst ((w.dir.map (·.1)).filter (T.isPrefixOf ·))
      · exact h2 x hq hne
      · rw [h3 x hq]
        cases hl : w.look x with
        | none => rfl
        | some n =>
          exact absurd (mem_deepFirst.2 (List.mem_filter.2 ⟨List.mem_map.2 ⟨_, World.mem_of_look hne hl, rfl⟩, List.isPrefixOf_iff_prefix.2 hx⟩)) hq
    · exact .inr h2
  · intro x hx
    refine h3 x fun hm => hx ?_
    exact List.isPrefixOf_iff_prefix.1 (List.mem_filter.1 (mem_deepFirst.1 hm)).2

end Storage

/-- Every outcome of erasing a directory. -/
theorem eraseDir_cases (order : List Nat) (n : Int) {w : World} {p : PathBuf} {T : Path} (ht : TreeOk w) (hd : LeadsToDir w p T) :
    ∃ r w', EraseDir.execute order (.dir p) n w = (r, w') ∧
      (r = .ok () ∧ (∀ x, T <+: x → x ≠ [] → w'.look x = none) ∧ (∀ k i, T <+: k → w.look k = some (.file i) → w'.file i = []) ∨
        (∃ e, r = .err e) ∧ w.sched ≠ []) ∧
      (∀ x, ¬ T <+: x → w'.look x = w.look x) ∧ (∀ x, w'.look x = w.look x ∨ w'.look x = none) ∧
      (∀ j, (∀ k, T <+: k → w.look k ≠ some (.file j)) → w'.file j = w.file j) ∧
      ((∃ d, w.look d = some .dir ∧ w'.look d = none) → ∀ k i, T <+: k → w.look k = some (.file i) → w'.look k = none) ∧
      (∀ k i, w.look k = some (.file i) → w'.look k = none → w'.file i = []) ∧ (∀ j, w'.file j = w.file j ∨ w'.file j = []) ∧
      w'.stdin = w.stdin ∧ w'.tty = w.tty ∧ w'.env = w.env ∧
      (∃ evs, w'.log = evs ++ w.log ∧ ∀ e ∈ evs, (∃ i, e = .truncate i) ∨ ∃ q, e = .unlink q) := by
  obtain ⟨hb, hres⟩ := Storage.below_resolves ht hd
  let keys := (w.dir.map (·.1)).filter (fun k => T.isPrefixOf k && k ≠ T)
  let f : Path → PathBuf := fun k => p.push ((k.drop T.length).map .name)
  change Storage.World.below w p = p :: keys.map f at hb
  have hps : ∀ p' ∈ Storage.World.below w p, ∃ q, w.resolve p' = .ok q ∧ (w.look q).isSome := by
    intro p' hp'
    rw [hb] at hp'
    rcases List.mem_cons.1 hp' with rfl | hp'
    · exact ⟨T, hd.resolve, by rw [hd.look]; rfl⟩
    · obtain ⟨k, hk, rfl⟩ := List.mem_map.1 hp'
      exact ⟨k, (hres k hk).1, (hres k hk).2.1⟩
  have e0 : (Storage.readDir (.dir p)) w = Storage.readEntries (Storage.World.below w p) w := rfl
  unfold EraseDir.execute
  simp only [Storage.Entry.isDir, Bool.not_true, Bool.false_eq_true, if_false]
  rcases Storage.readEntries_cases _ w hps with ⟨es, w1, he1, hm, hdir, hc1⟩ | ⟨e, w1, he1, hs1, hc1⟩
  · rw [Prog.bind_ok (Prog.mapErr_ok (e0.trans he1))]
    -- the threads
    let ks := keys.filter (fun k => !w.isDirAt (f k))
    have hpd : w.isDirAt p = true := by unfold World.isDirAt; rw [hd.resolve]; simp [hd.look]
    have hthreads : EraseDir.threads es n = ks.map fun k => (Erase.thread (f k) n).mapErr EraseDir.Error.eraseFile := by
      have h1 : (es.filter (!·.isDir)).map Storage.Entry.path = (Storage.World.below w p).filter (fun p' => !w.isDirAt p') := by
        rw [← hm, List.filter_map]
        congr 1
        apply List.filter_congr
        intro e he
        simp [hdir e he]
      have h2 : EraseDir.threads es n = ((es.filter (!·.isDir)).map Storage.Entry.path).map fun p' => (Erase.thread p' n).mapErr EraseDir.Error.eraseFile := by
        simp [EraseDir.threads, List.map_map, Function.comp_def]
      rw [h2, h1, hb, List.filter_cons, hpd]
      simp [ks, List.filter_map, List.map_map, Function.comp_def]
    have hmem : ∀ k ∈ ks, k ∈ keys ∧ ∃ i, w.look k = some (.file i) := by
      intro k hk
      obtain ⟨hk1, hk2⟩ := List.mem_filter.1 hk
      refine ⟨hk1, ?_⟩
      obtain ⟨hr, hs, -⟩ := hres k hk1
      have : w.isDirAt (f k) = (w.look k = some .dir : Bool) := by unfold World.isDirAt; rw [hr]
      cases hl : w.look k with
      | none => rw [hl] at hs; cases hs
      | some nd =>
        cases nd with
        | file i => exact ⟨i, rfl⟩
        | dir => rw [this, hl] at hk2; simp at hk2
    let ino : Path → Nat := fun k => match w.look k with | some (.file i) => i | _ => 0
    have hino : ∀ k i, w.look k = some (.file i) → ino k = i := by intro k i h; simp [ino, h]
    have hall : ∀ k i, T <+: k → w.look k = some (.file i) → k ∈ ks := by
      intro k i hk hl
      have hne : k ≠ [] := by rintro rfl; simp [World.look_nil] at hl
      have hkT : k ≠ T := by rintro rfl; rw [hd.look] at hl; cases hl
      have hkk : k ∈ keys := List.mem_filter.2 ⟨List.mem_map.2 ⟨_, World.mem_of_look hne hl, rfl⟩, by
        simp [List.isPrefixOf_iff_prefix, hk, hkT]⟩
      refine List.mem_filter.2 ⟨hkk, ?_⟩
      have hr : w.resolve (f k) = .ok k := (hres k hkk).1
      have : w.isDirAt (f k) = (w.look k = some .dir : Bool) := by unfold World.isDirAt; rw [hr]
      rw [this, hl]; rfl
    have hnodup : ks.Nodup := (ht.distinct.filter _).filter _
    obtain ⟨r, w2, he2, hE, hr⟩ := eraseThreads_cases order n ks hnodup f ino w1 (by
      intro k hk
      obtain ⟨hk1, i, hi⟩ := hmem k hk
      rw [hino k i hi, World.resolve_congr hc1.dir, World.look_congr hc1.dir]
      exact ⟨(hres k hk1).1, hi⟩)
    rw [hthreads]
    have hunder : ∀ k ∈ ks, T <+: k := fun k hk => (hres k (hmem k hk).1).2.2.2
    have hfiles : ∀ j, (∀ k, T <+: k → w.look k ≠ some (.file j)) → w2.file j = w.file j := by
      intro j hj
      rw [hE.files j ?_, hc1.files]
      intro k hk hkj
      obtain ⟨-, i, hi⟩ := hmem k hk
      exact hj k (hunder k hk) (by rw [hi, ← hkj, hino k i hi])
    have hout : ∀ x, ¬ T <+: x → w2.look x = w.look x := by
      intro x hx
      rw [hE.dir x (fun h => hx (hunder x h)), World.look_congr hc1.dir]
    have hsome : ∀ x, w2.look x = w.look x ∨ w2.look x = none := by
      intro x
      rcases hE.entry x with h | ⟨h, -⟩
      · exact .inl (by rw [h, World.look_congr hc1.dir])
      · exact .inr h
    have hdirs : ∀ d, w.look d = some .dir → w2.look d = some .dir := by
      intro d h
      exact hE.dirs (by rw [World.look_congr hc1.dir]; exact h)
    have hempty : ∀ k i, w.look k = some (.file i) → w2.look k = none → w2.file i = [] := by
      intro k i hk hn
      rcases hE.entry k with h | ⟨_, _, h⟩
      · rw [h, World.look_congr hc1.dir, hk] at hn; cases hn
      · rw [hino k i hk] at h; exact h
    have hcont : ∀ j, w2.file j = w.file j ∨ w2.file j = [] := by
      intro j
      have := hE.contents j
      rw [hc1.files] at this
      exact this
    have hs0 : w.sched = [] → w1.sched = [] := by
      intro h
      have := hc1.sched
      rw [h] at this
      exact List.suffix_nil.1 this
    obtain ⟨evs, hlog, hevs⟩ := hE.log
    rw [hc1.log] at hlog
    rcases hr with ⟨rfl, hgone⟩ | ⟨⟨e, rfl⟩, hs⟩
    · rw [Prog.bind_ok he2]
      have hd2 : LeadsToDir w2 p T := ⟨World.resolve_mono hdirs hd.resolve, hdirs T hd.look⟩
      obtain ⟨r3, w3, he3, g1, g2, g3, g4, g5, g6, g7, g8, evs', g9, g10⟩ := Storage.rmTree_cases hd2
      have hgone3 : ∀ k i, T <+: k → w.look k = some (.file i) → w3.look k = none := by
        intro k i hk hl
        rcases g3 k with h | h
        · rw [h]; exact (hgone k (hall k i hk hl)).1
        · exact h
      have hrm : ((Storage.removeDirAll (.dir p)).mapErr (fun _ => EraseDir.Error.removeDir)) w2 =
          ((r3.mapErr fun _ => Storage.Error.removeDir).mapErr fun _ => EraseDir.Error.removeDir, w3) := by
        have : (Storage.removeDirAll (.dir p)) w2 = (r3.mapErr fun _ => Storage.Error.removeDir, w3) := by
          show (Storage.rmTree p).mapErr (fun _ => Storage.Error.removeDir) w2 = _
          rw [Prog.mapErr_run, he3]
          cases r3 <;> rfl
        rw [Prog.mapErr_run, this]
        cases r3 <;> rfl
      refine ⟨_, _, hrm, ?_, ?_, ?_, ?_, ?_, ?_, ?_, ?_, ?_, ?_, ?_⟩
      · rcases g1 with ⟨rfl, h⟩ | ⟨⟨e, rfl⟩, h⟩
        · refine .inl ⟨rfl, h, fun k i hk hl => ?_⟩
          rw [g4, ← hino k i hl]
          exact (hgone k (hall k i hk hl)).2
        · refine .inr ⟨⟨_, rfl⟩, fun h0 => h ?_⟩
          have := hE.sched
          rw [hs0 h0] at this
          exact List.suffix_nil.1 this
      · intro x hx; rw [g2 x hx, hout x hx]
      · intro x
        rcases g3 x with h | h
        · rw [h]; exact hsome x
        · exact .inr h
      · intro j hj; rw [g4]; exact hfiles j hj
      · exact fun _ => hgone3
      · intro k i hk hn
        rw [g4]
        by_cases hT : T <+: k
        · have := (hgone k (hall k i hT hk)).2
          rw [hino k i hk] at this
          exact this
        · rw [g2 k hT, hout k hT, hk] at hn; cases hn
      · rw [g4]; exact hcont
      · rw [g6, hE.stdin, hc1.stdin]
      · rw [g7, hE.tty, hc1.tty]
      · rw [g8, hE.env, hc1.env]
      · refine ⟨evs' ++ evs, by rw [g9, hlog, List.append_assoc], ?_⟩
        intro e he
        rcases List.mem_append.1 he with he | he
        · exact .inr (g10 e he)
        · exact hevs e he
    · rw [Prog.bind_err he2]
      refine ⟨_, _, rfl, .inr ⟨⟨_, rfl⟩, fun h => hs (hs0 h)⟩, hout, hsome, hfiles, ?_, hempty, hcont, ?_, ?_, ?_, evs, hlog, hevs⟩
      · rintro ⟨d, h1, h2⟩
        rw [hdirs d h1] at h2
        cases h2
      · rw [hE.stdin, hc1.stdin]
      · rw [hE.tty, hc1.tty]
      · rw [hE.env, hc1.env]
  · rw [Prog.bind_err (Prog.mapErr_err (e0.trans he1))]
    refine ⟨_, _, rfl, .inr ⟨⟨_, rfl⟩, hs1⟩, fun x _ => World.look_congr hc1.dir x, fun x => .inl (World.look_congr hc1.dir x), fun j _ => by rw [hc1.files], ?_,
      fun k i hk hn => by (rw [World.look_congr hc1.dir, hk] at hn; cases hn), fun j => .inl (by rw [hc1.files]), hc1.stdin, hc1.tty, hc1.env, [], hc1.log, by simp⟩
    rintro ⟨d, h1, h2⟩
    rw [World.look_congr hc1.dir, h1] at h2
    cases h2

end Volaris
