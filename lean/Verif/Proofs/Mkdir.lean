import Verif.Proofs.EraseDir
/-!
# Lemmas about making directories, alone and from several threads
-/
namespace Volaris
open Thr Spec

/-- A thread whose steps all belong to the rely relation knows how the world has changed since. -/
theorem Thr.RG.keep {ε α : Type} {R : World → World → Prop} {Q : Res ε α → World → Prop} (ht : ∀ {a b c}, R a b → R b c → R a c) {t : Thr ε α} :
    ∀ {w0 w : World}, RG R R Q t w → R w0 w → RG R R (fun r w' => Q r w' ∧ R w0 w') t w := by
  induction t with
  | done r => intro w0 w h h0 w' hw; exact ⟨h w' hw, ht h0 hw⟩
  | step eff k ih => intro w0 w h h0 w1 hw; exact ⟨(h w1 hw).1, ih w1 (h w1 hw).2 (ht (ht h0 hw) (h w1 hw).1)⟩

/-- What is there lies in a directory. -/
def ParentsOk (w : World) : Prop := ∀ k, k ≠ [] → (w.look k).isSome → w.look k.dropLast = some .dir

theorem Spec.TreeOk.parentsOk {w : World} (h : TreeOk w) : ParentsOk w := by
  intro k hk hs
  obtain ⟨n, hn⟩ := Option.isSome_iff_exists.1 hs
  exact h.parent hk hn

/-- The only change is that directories of `S` have come into being. -/
structure Grow (S : Path → Prop) (w w' : World) : Prop where
  look : ∀ q, w'.look q = w.look q ∨ (w.look q = none ∧ w'.look q = some .dir ∧ S q)
  parents : ParentsOk w → ParentsOk w'
  files : w'.file = w.file
  fd : w'.fd = w.fd
  nextFd : w'.nextFd = w.nextFd
  nextIno : w'.nextIno = w.nextIno
  sched : w'.sched <:+ w.sched
  rng : w'.rng = w.rng
  stdin : w'.stdin = w.stdin
  tty : w'.tty = w.tty
  env : w'.env = w.env
  out : w'.out = w.out
  log : ∃ evs, w'.log = evs ++ w.log ∧ ∀ e ∈ evs, ∃ q, S q ∧ e = .mkdir q

namespace Grow
variable {S : Path → Prop}

theorem refl (w : World) : Grow S w w :=
  ⟨fun _ => .inl rfl, id, rfl, rfl, rfl, rfl, List.suffix_refl _, rfl, rfl, rfl, rfl, rfl, [], rfl, by simp⟩

theorem trans {a b c : World} (h : Grow S a b) (g : Grow S b c) : Grow S a c where
  look := fun q => by
    rcases g.look q with g1 | ⟨g1, g2, g3⟩ <;> rcases h.look q with h1 | ⟨h1, h2, h3⟩
    · exact .inl (g1.trans h1)
    · exact .inr ⟨h1, g1.trans h2, h3⟩
    · exact .inr ⟨h1 ▸ g1, g2, g3⟩
    · exact .inr ⟨h1, g2, g3⟩
  parents := g.parents ∘ h.parents
  files := g.files.trans h.files
  fd := g.fd.trans h.fd
  nextFd := g.nextFd.trans h.nextFd
  nextIno := g.nextIno.trans h.nextIno
  sched := g.sched.trans h.sched
  rng := g.rng.trans h.rng
  stdin := g.stdin.trans h.stdin
  tty := g.tty.trans h.tty
  env := g.env.trans h.env
  out := g.out.trans h.out
  log := by
    obtain ⟨e1, l1, p1⟩ := h.log
    obtain ⟨e2, l2, p2⟩ := g.log
    refine ⟨e2 ++ e1, by rw [l2, l1, List.append_assoc], fun e he => ?_⟩
    rcases List.mem_append.1 he with he | he
    · exact p2 e he
    · exact p1 e he

theorem of_sched (w : World) {s : List Io} (hs : s <:+ w.sched) : Grow S w { w with sched := s } :=
  ⟨fun _ => .inl rfl, fun h k => h k, rfl, rfl, rfl, rfl, hs, rfl, rfl, rfl, rfl, rfl, [], rfl, by simp⟩

theorem madeDir {w : World} {q : Path} (hq : S q) (hl : w.look q = none) (hp : w.look q.dropLast = some .dir) : Grow S w (w.madeDir q) where
  look := fun x => by
    rw [World.look_madeDir]
    by_cases h0 : x = []
    · subst h0; simp
    · by_cases hx : x = q
      · subst hx; exact .inr ⟨hl, by simp [h0], hq⟩
      · simp [h0, hx]
  parents := fun h k hk hs => by
    rw [World.look_madeDir] at hs ⊢
    by_cases hkq : k = q
    · subst hkq
      split
      · rfl
      · split
        · rfl
        · exact hp
    · rw [if_neg hk, if_neg hkq] at hs
      split
      · rfl
      · split
        · rfl
        · exact h k hk hs
  files := rfl
  fd := rfl
  nextFd := rfl
  nextIno := rfl
  sched := List.suffix_refl _
  rng := rfl
  stdin := rfl
  tty := rfl
  env := rfl
  out := rfl
  log := ⟨[.mkdir q], rfl, by simpa using hq⟩

theorem dirs {w w' : World} (h : Grow S w w') {d : Path} (hd : w.look d = some .dir) : w'.look d = some .dir := by
  rcases h.look d with h1 | ⟨h1, _, _⟩
  · rw [h1]; exact hd
  · rw [hd] at h1; cases h1

theorem mono {S' : Path → Prop} (hs : ∀ q, S q → S' q) {w w' : World} (h : Grow S w w') : Grow S' w w' :=
  { h with
    look := fun q => (h.look q).imp id fun ⟨a, b, c⟩ => ⟨a, b, hs q c⟩
    log := by
      obtain ⟨e1, l1, p1⟩ := h.log
      exact ⟨e1, l1, fun e he => (p1 e he).imp fun q ⟨a, b⟩ => ⟨hs q a, b⟩⟩ }

end Grow

/-- No faults to come, and nothing but directories at the paths of `S`. -/
structure Clear (S : Path → Prop) (w : World) : Prop where
  sched : w.sched = []
  parents : ParentsOk w
  free : ∀ q i, S q → w.look q ≠ some (.file i)

theorem Clear.stable {S : Path → Prop} {w w' : World} (h : Clear S w) (g : Grow S w w') : Clear S w' where
  sched := List.suffix_nil.1 (h.sched ▸ g.sched)
  parents := g.parents h.parents
  free := fun q i hq hl => by
    rcases g.look q with g1 | ⟨_, g1, _⟩
    · exact h.free q i hq (g1 ▸ hl)
    · rw [g1] at hl; cases hl

/-- A walk over nothing but directories and missing entries arrives or finds that something is missing. -/
theorem World.walk_clear {w : World} : ∀ (cs : List Comp) (cur : Path), (∀ pre i, pre <+: cs → pre ≠ cs → w.look (lexical cur pre) ≠ some (.file i)) →
    w.walk cur cs = .ok (lexical cur cs) ∨ w.walk cur cs = .error .notFound := by
  intro cs
  induction cs with
  | nil => intro cur _; exact .inl rfl
  | cons c cs ih =>
    intro cur h
    rw [World.walk_cons]
    have h0 := fun i => h [] i List.nil_prefix (by simp)
    cases hl : w.look cur with
    | none => exact .inr rfl
    | some n =>
      cases n with
      | file i => exact absurd hl (h0 i)
      | dir =>
        cases c with
        | up =>
          refine ih cur.dropLast fun pre i hp hne => ?_
          exact h (.up :: pre) i (by simpa using hp) (by simpa using hne)
        | name n =>
          refine ih (cur ++ [n]) fun pre i hp hne => ?_
          exact h (.name n :: pre) i (by simpa using hp) (by simpa using hne)

/-- Where the last step of a walk comes from. -/
theorem World.walk_parent {w : World} (hp : ParentsOk w) {cs : List Comp} {cur q : Path} (hne : cs ≠ []) (h : w.walk cur cs = .ok q) :
    w.look q.dropLast = some .dir := by
  obtain ⟨pre, c, rfl⟩ : ∃ pre c, cs = pre ++ [c] := ⟨cs.dropLast, cs.getLast hne, (List.dropLast_concat_getLast hne).symm⟩
  rw [World.walk_append] at h
  cases h1 : w.walk cur pre with
  | error e => rw [h1] at h; cases h
  | ok d =>
    rw [h1] at h
    have h : w.walk d [c] = .ok q := h
    rw [World.walk_cons] at h
    cases hl : w.look d with
    | none => rw [hl] at h; cases h
    | some n =>
      rw [hl] at h
      cases n with
      | file i => cases h
      | dir =>
        cases c with
        | name n =>
          have h : (.ok (d ++ [n]) : Except IoErr Path) = .ok q := h
          cases h
          simpa using hl
        | up =>
          have h : (.ok d.dropLast : Except IoErr Path) = .ok q := h
          cases h
          by_cases h0 : d.dropLast = []
          · simp [h0]
          · by_cases hd : d = []
            · subst hd; simp
            · have h1 := hp d hd (by rw [hl]; rfl)
              exact hp d.dropLast h0 (by rw [h1]; rfl)

namespace Storage

theorem mkdirAt_cases {S : Path → Prop} (p : PathBuf) (w : World) (hS : S (lexical p.start p.comps)) :
    (∃ w' q, mkdirAt p w = (.ok (), w') ∧ Grow S w w' ∧ w'.resolve p = .ok q ∧ w'.look q = some .dir) ∨
    (∃ e, mkdirAt p w = (.err e, w) ∧ (e = .notFound ∨ (∃ q, w.resolve p = .ok q ∧ (w.look q).isSome) ∨ w.resolve p = .error e)) := by
  unfold mkdirAt
  cases hr : w.resolve p with
  | error e => exact .inr ⟨e, rfl, .inr (.inr rfl)⟩
  | ok q =>
    simp only
    cases hl : w.look q with
    | some n => exact .inr ⟨_, rfl, .inr (.inl ⟨q, rfl, by rw [hl]; rfl⟩)⟩
    | none =>
      simp only
      by_cases hd : w.look q.dropLast = some .dir
      · rw [if_pos hd]
        have hq : S q := by rw [World.walk_lexical (show w.walk p.start p.comps = .ok q from hr)]; exact hS
        have g : Grow S w (w.madeDir q) := .madeDir hq hl hd
        have hne : q ≠ [] := by rintro rfl; rw [World.look_nil] at hl; cases hl
        exact .inl ⟨_, q, rfl, g, World.resolve_mono (w := w) (fun d hd => g.dirs hd) hr, by rw [World.look_madeDir, if_neg hne, if_pos rfl]⟩
      · rw [if_neg hd]
        exact .inr ⟨_, rfl, .inl rfl⟩

/-- What `mkdir` does. -/
theorem mkdir_cases {S : Path → Prop} (p : PathBuf) (w : World) (hS : S (lexical p.start p.comps)) :
    (∃ w' q, mkdir p w = (.ok (), w') ∧ Grow S w w' ∧ w'.resolve p = .ok q ∧ w'.look q = some .dir) ∨
    (∃ e w', mkdir p w = (.err e, w') ∧ Grow S w w' ∧
      (e = .notFound ∨ w.sched ≠ [] ∨ (∃ q, w.resolve p = .ok q ∧ (w.look q).isSome) ∨ w.resolve p = .error e)) := by
  unfold mkdir
  rcases sys_cases w with ⟨s, hs, he⟩ | ⟨s, e, hs, hn, he⟩
  · rw [Prog.bind_ok he]
    rcases mkdirAt_cases (S := S) p { w with sched := s } hS with ⟨w', q, h1, h2, h3, h4⟩ | ⟨e, h1, h2⟩
    · exact .inl ⟨w', q, h1, (Grow.of_sched w hs).trans h2, h3, h4⟩
    · rw [World.resolve_sched] at h2
      refine .inr ⟨e, _, h1, .of_sched w hs, ?_⟩
      rcases h2 with h2 | h2 | h2
      · exact .inl h2
      · exact .inr (.inr (.inl h2))
      · exact .inr (.inr (.inr h2))
  · rw [Prog.bind_err he]
    exact .inr ⟨e, _, rfl, .of_sched w hs, .inr (.inl hn)⟩

/-- The path leads to a directory. -/
def Made (w : World) (p : PathBuf) : Prop := ∃ q, w.resolve p = .ok q ∧ w.look q = some .dir

theorem Made.stable {S : Path → Prop} {w w' : World} {p : PathBuf} (h : Made w p) (g : Grow S w w') : Made w' p :=
  h.imp fun _ ⟨h1, h2⟩ => ⟨World.resolve_mono (w := w) (fun _ hd => g.dirs hd) h1, g.dirs h2⟩

theorem isDirAt_iff {w : World} {p : PathBuf} : w.isDirAt p = true ↔ Made w p := by
  unfold World.isDirAt Made
  cases w.resolve p with
  | error e => simp
  | ok q => simp

theorem Made.lexical {w : World} {p : PathBuf} (h : Made w p) : w.look (lexical p.start p.comps) = some .dir := by
  obtain ⟨q, h1, h2⟩ := h
  rw [← World.walk_lexical (show w.walk p.start p.comps = .ok q from h1)]
  exact h2

/-- On the way to a directory there are only directories. -/
theorem Made.onTheWay {w : World} {p : PathBuf} (h : Made w p) {q : Path} (hq : OnTheWay p q) : w.look q = some .dir := by
  obtain ⟨pre, ⟨t, ht⟩, rfl⟩ := hq
  by_cases hte : t = []
  · rw [hte, List.append_nil] at ht
    rw [ht]; exact h.lexical
  · obtain ⟨q, h1, h2⟩ := h
    have h1 : w.walk p.start p.comps = .ok q := h1
    rw [← ht, World.walk_append] at h1
    cases h3 : w.walk p.start pre with
    | error e => rw [h3] at h1; cases h1
    | ok d =>
      rw [h3] at h1
      have h1 : w.walk d t = .ok q := h1
      rw [← World.walk_lexical h3]
      obtain ⟨c, cs, rfl⟩ := List.exists_cons_of_ne_nil hte
      rw [World.walk_cons] at h1
      cases hl : w.look d with
      | none => rw [hl] at h1; cases h1
      | some n =>
        cases n with
        | dir => rfl
        | file i => rw [hl] at h1; cases h1

/-- In a clear world `mkdir` fails only if the directory is there already or the way to it is not complete. -/
theorem mkdir_clear {S : Path → Prop} {p : PathBuf} {w w' : World} (hS : ∀ q, OnTheWay p q → S q) (hc : Clear S w) {e : IoErr}
    (h : mkdir p w = (.err e, w')) : e = .notFound ∨ Made w p := by
  have hw : w.walk p.start p.comps = .ok (lexical p.start p.comps) ∨ w.walk p.start p.comps = .error .notFound :=
    World.walk_clear p.comps p.start fun pre i hp _ => hc.free _ i (hS _ ⟨pre, hp, rfl⟩)
  have hw : w.resolve p = .ok (lexical p.start p.comps) ∨ w.resolve p = .error .notFound := hw
  rcases mkdir_cases (S := S) p w (hS _ ⟨_, List.prefix_refl _, rfl⟩) with ⟨w2, q, h2, -⟩ | ⟨e2, w2, h2, -, h3⟩
  · rw [h2] at h; cases h
  · rw [h2] at h
    have h := (Prod.mk.inj h).1
    cases h
    rcases h3 with rfl | h3 | ⟨q, h3, h4⟩ | h3
    · exact .inl rfl
    · exact absurd hc.sched h3
    · refine .inr ⟨q, h3, ?_⟩
      rcases hw with hw | hw
      · rw [hw] at h3
        cases h3
        cases hl : w.look (Volaris.lexical p.start p.comps) with
        | none => rw [hl] at h4; cases h4
        | some n =>
          cases n with
          | dir => rfl
          | file i => exact absurd hl (hc.free _ i (hS _ ⟨_, List.prefix_refl _, rfl⟩))
      · rw [hw] at h3; cases h3
    · rcases hw with hw | hw
      · rw [hw] at h3; cases h3
      · rw [hw] at h3; cases h3; exact .inl rfl

/-- … and if the way is complete only if it is there already. -/
theorem mkdir_clear' {S : Path → Prop} {p : PathBuf} {w w' : World} (hS : ∀ q, OnTheWay p q → S q) (hc : Clear S w) {cs : List Comp} {c : Comp}
    (hp : p.comps = cs ++ [c]) (hm : Made w { p with comps := cs }) {e : IoErr} (h : mkdir p w = (.err e, w')) : Made w p := by
  obtain ⟨d, hd1, hd2⟩ := hm
  have hd1 : w.walk p.start cs = .ok d := hd1
  have hr : w.walk p.start p.comps = .ok (lexical p.start p.comps) := by
    have : ∃ q, w.walk p.start p.comps = .ok q := by
      rw [hp, World.walk_append, hd1]
      show ∃ q, w.walk d [c] = .ok q
      rw [World.walk_cons, hd2]
      cases c <;> exact ⟨_, rfl⟩
    obtain ⟨q, hq⟩ := this
    rw [hq, World.walk_lexical hq]
  have hne : p.comps ≠ [] := by rw [hp]; simp
  rcases mkdir_cases (S := S) p w (hS _ ⟨_, List.prefix_refl _, rfl⟩) with ⟨w2, q, h2, -⟩ | ⟨e2, w2, h2, -, h3⟩
  · rw [h2] at h; cases h
  · cases hl : w.look (Volaris.lexical p.start p.comps) with
    | some n =>
      cases n with
      | dir => exact ⟨_, hr, hl⟩
      | file i => exact absurd hl (hc.free _ i (hS _ ⟨_, List.prefix_refl _, rfl⟩))
    | none =>
      exfalso
      have hpar := World.walk_parent hc.parents hne hr
      have : mkdir p w = (.ok (), w.madeDir (Volaris.lexical p.start p.comps)) := by
        unfold mkdir
        rw [Prog.bind_ok (sys_nil hc.sched)]
        unfold mkdirAt
        have hr : w.resolve p = .ok (Volaris.lexical p.start p.comps) := hr
        rw [hr]
        simp only [hl, hpar, if_true]
      rw [this] at h
      cases h

/-! ### The thread -/

/-- What a thread that makes the directory `p` promises. -/
def MkPost {ε : Type} (S : Path → Prop) (p : PathBuf) (w : World) (r : Res ε Unit) (w' : World) : Prop :=
  (∀ a, r ≠ .abort a) ∧ (r = .ok () → Made w' p) ∧ (Clear S w → r = .ok ())

theorem Clear.grow {S : Path → Prop} {w w' : World} (h : Grow S w w') : Clear S w → Clear S w' := fun c => c.stable h

/-- The end of `create_dir_all`: tolerate an error if the directory is there. -/
theorem tolerate_rg {S : Path → Prop} {p : PathBuf} {e : IoErr} {w0 w : World} (h : Clear S w0 → Made w p) :
    RG (Grow S) (Grow S) (MkPost S p w0) (do if ← Thr.atom (Volaris.isDir p) then pure () else .done (.err e) : Thr IoErr Unit) w := by
  refine RG.bind (Q := fun r w' => ∃ b, r = .ok b ∧ (b = true → Made w' p) ∧ (Clear S w0 → b = true)) (fun a => Grow.refl a) ?_ ?_ ?_ ?_
  · refine RG.atom fun w1 h1 => ⟨.refl _, fun w2 h2 => ⟨w1.isDirAt p, rfl, fun hb => ?_, fun hc => ?_⟩⟩
    · exact (isDirAt_iff.1 hb).stable h2
    · exact isDirAt_iff.2 ((h hc).stable h1)
  · rintro b w1 ⟨b', hb, hm, hc⟩
    cases hb
    cases b with
    | true =>
      exact RG.pure fun w2 h2 => ⟨by simp, fun _ => (hm rfl).stable h2, fun _ => rfl⟩
    | false =>
      exact fun w2 h2 => ⟨by simp, by simp, fun h => absurd (hc h) (by simp)⟩
  · rintro e w1 ⟨b, hb, -⟩; cases hb
  · rintro a w1 ⟨b, hb, -⟩; cases hb

theorem createDirAllRev_rg {S : Path → Prop} (p : PathBuf) : ∀ (cs : List Comp), (∀ pre, pre <+: cs.reverse → S (lexical p.start pre)) → ∀ (w : World),
    w.look p.start = some .dir →
    RG (Grow S) (Grow S) (MkPost S { p with comps := cs.reverse } w) (createDirAllRev p cs) w := by
  intro cs
  induction cs with
  | nil =>
    intro hS w hst
    refine RG.pure fun w' h' => ⟨by simp, fun _ => ?_, fun _ => rfl⟩
    exact ⟨p.start, rfl, h'.dirs hst⟩
  | cons c cs ih =>
    intro hS w hst
    unfold createDirAllRev
    have hS' : ∀ q, OnTheWay { p with comps := (c :: cs).reverse } q → S q := by
      rintro q ⟨pre, hp, rfl⟩
      exact hS pre hp
    -- the first attempt
    refine RG.bind (Q := fun r w' => ∃ r', r = .ok r' ∧ (∀ a, r' ≠ .abort a) ∧ (r' = .ok () → Made w' { p with comps := (c :: cs).reverse }) ∧
      (∀ e, r' = .err e → Clear S w → e = .notFound ∨ Made w' { p with comps := (c :: cs).reverse }) ∧ Grow S w w') (fun a => Grow.refl a) ?_ ?_ ?_ ?_
    · refine RG.atom fun w1 h1 => ?_
      unfold Prog.attempt
      rcases mkdir_cases (S := S) { p with comps := (c :: cs).reverse } w1 (hS' _ ⟨_, List.prefix_refl _, rfl⟩) with ⟨w2, q, h2, g, h3, h4⟩ | ⟨e, w2, h2, g, -⟩
      · rw [h2]
        exact ⟨g, fun w3 h3' => ⟨_, rfl, by simp, fun _ => Made.stable ⟨q, h3, h4⟩ h3', by simp, (h1.trans g).trans h3'⟩⟩
      · rw [h2]
        refine ⟨g, fun w3 h3' => ⟨_, rfl, by simp, by simp, fun e' he' hc => ?_, (h1.trans g).trans h3'⟩⟩
        cases he'
        exact (mkdir_clear hS' (hc.stable h1) h2).imp id fun hm => (hm.stable g).stable h3'
    · rintro r w1 ⟨r', hr, hna, hok, herr, hg⟩
      cases hr
      cases r with
      | ok u => exact RG.pure fun w2 h2 => ⟨by simp, fun _ => (hok rfl).stable h2, fun _ => rfl⟩
      | abort a => exact absurd rfl (hna a)
      | err e =>
        have tol : e ≠ .notFound → RG (Grow S) (Grow S) (MkPost S { p with comps := (c :: cs).reverse } w)
            (do if ← Thr.atom (Volaris.isDir { p with comps := (c :: cs).reverse }) then pure () else .done (.err e) : Thr IoErr Unit) w1 := by
          intro hne
          refine tolerate_rg fun hc => ?_
          rcases herr e rfl hc with h | h
          · exact absurd h hne
          · exact h
        cases e with
        | notFound =>
          -- make the parent
          have hpre : ∀ pre, pre <+: cs.reverse → S (lexical p.start pre) := fun pre h =>
            hS pre (h.trans (by rw [List.reverse_cons]; exact List.prefix_append ..))
          have hrec := ih hpre w1 (hg.dirs hst)
          refine RG.bind (Q := fun r w' => (MkPost S { p with comps := cs.reverse } w1 r w') ∧ Grow S w1 w') (fun a => Grow.refl a) ?_ ?_ ?_ ?_
          · exact RG.keep (R := Grow S) (fun h g => h.trans g) hrec (.refl _)
          · rintro u w2 ⟨⟨-, hm, -⟩, hg2⟩
            -- the second attempt
            refine RG.bind (Q := fun r w' => ∃ r', r = .ok r' ∧ (∀ a, r' ≠ .abort a) ∧ (r' = .ok () → Made w' { p with comps := (c :: cs).reverse }) ∧
              (∀ e, r' = .err e → Clear S w → Made w' { p with comps := (c :: cs).reverse })) (fun a => Grow.refl a) ?_ ?_ ?_ ?_
            · refine RG.atom fun w3 h3 => ?_
              unfold Prog.attempt
              rcases mkdir_cases (S := S) { p with comps := (c :: cs).reverse } w3 (hS' _ ⟨_, List.prefix_refl _, rfl⟩) with ⟨w4, q, h4, g, h5, h6⟩ | ⟨e, w4, h4, g, -⟩
              · rw [h4]
                exact ⟨g, fun w5 h5' => ⟨_, rfl, by simp, fun _ => Made.stable ⟨q, h5, h6⟩ h5', by simp⟩⟩
              · rw [h4]
                refine ⟨g, fun w5 h5' => ⟨_, rfl, by simp, by simp, fun e' he' hc => ?_⟩⟩
                cases he'
                have hcl : Clear S w3 := ((hc.stable hg).stable hg2).stable h3
                exact ((mkdir_clear' hS' hcl (cs := cs.reverse) (c := c) (by simp) ((hm rfl).stable h3) h4).stable g).stable h5'
            · rintro r w3 ⟨r', hr, hna, hok, herr⟩
              cases hr
              cases r with
              | ok u => exact RG.pure fun w4 h4 => ⟨by simp, fun _ => (hok rfl).stable h4, fun _ => rfl⟩
              | abort a => exact absurd rfl (hna a)
              | err e => exact tolerate_rg fun hc => herr e rfl hc
            · rintro e w3 ⟨b, hb, -⟩; cases hb
            · rintro a w3 ⟨b, hb, -⟩; cases hb
          · rintro e w2 ⟨⟨h1, h2, h3⟩, -⟩
            exact ⟨by simp, by simp, fun hc => absurd (h3 (hc.stable hg)) (by simp)⟩
          · rintro a w2 ⟨⟨h1, -⟩, -⟩
            exact absurd rfl (h1 a)
        | interrupted => exact tol (by simp)
        | unexpectedEof => exact tol (by simp)
        | writeZero => exact tol (by simp)
        | invalidInput => exact tol (by simp)
        | alreadyExists => exact tol (by simp)
        | other => exact tol (by simp)
    · rintro e w1 ⟨b, hb, -⟩; cases hb
    · rintro a w1 ⟨b, hb, -⟩; cases hb

/-! ### The pool -/

/-- Spawning and joining threads that make directories. -/
theorem mkdirThreads_cases {ε : Type} {S : Path → Prop} (order : List Nat) (ps : List PathBuf) (f : Storage.Error → ε) (hS : ∀ p ∈ ps, ∀ q, OnTheWay p q → S q) (w : World)
    (hst : ∀ p ∈ ps, w.look p.start = some .dir) :
    ∃ r w', spawnJoin order (ps.map fun p => (createDirAll p).mapErr f) w = (r, w') ∧ Grow S w w' ∧
      (r = .ok () ∧ (∀ p ∈ ps, Made w' p) ∨ (∃ e, r = .err (f e)) ∧ ¬ Clear S w) := by
  obtain ⟨is, r, hj, he⟩ := spawnJoin_cases order (ps.map fun p => (createDirAll p).mapErr f) w
  refine ⟨r, _, he, ?_⟩
  let Qe : Nat → Res ε Unit → World → Prop := fun i r w' => match r with
    | .ok _ => ∀ p, ps[i]? = some p → Made w' p
    | .err e => (∃ e', e = f e') ∧ ¬ Clear S w
    | .abort _ => False
  have key := interleave_RG (R := fun _ => Grow S) (G := fun _ => Grow S) (Q := Qe)
    (fun i _ _ _ h g => Grow.trans h g) (fun i a => Grow.refl a) ps.length (fun _ _ _ _ _ _ _ h => h)
    is (ps.map fun p => (createDirAll p).mapErr f) w (by simp)
    (by
      intro i t ht
      rw [List.getElem?_map] at ht
      obtain ⟨p, hp, rfl⟩ := Option.map_eq_some_iff.1 ht
      have hmem := List.mem_of_getElem? hp
      have h0 := createDirAllRev_rg (S := S) p p.comps.reverse (by rw [List.reverse_reverse]; exact fun pre h => hS p hmem _ ⟨pre, h, rfl⟩) w (hst p hmem)
      rw [List.reverse_reverse] at h0
      unfold createDirAll
      refine RG.mapErr (RG.mapErr (Q' := fun r w' => MkPost S p w r w') h0 fun r w' hr => ?_) fun r w' hr => ?_
      · obtain ⟨h1, h2, h3⟩ := hr
        cases r with
        | ok a => exact ⟨by simp [Res.mapErr], fun _ => h2 rfl, fun _ => rfl⟩
        | err e => exact ⟨by simp [Res.mapErr], by simp [Res.mapErr], fun hc => absurd (h3 hc) (by simp)⟩
        | abort a => exact absurd rfl (h1 a)
      · obtain ⟨h1, h2, h3⟩ := hr
        cases r with
        | ok a =>
          intro p' hp'
          rw [hp] at hp'
          cases hp'
          exact h2 rfl
        | err e => exact ⟨⟨e, rfl⟩, fun hc => absurd (h3 hc) (by simp)⟩
        | abort a => exact absurd rfl (h1 a))
  obtain ⟨k1, k2⟩ := key
  have hall : Grow S w (interleave is (ps.map fun p => (createDirAll p).mapErr f) w).2 :=
    Star.of_closed (fun w => Grow.refl w) (by rintro a b c h ⟨i, hi, g⟩; exact h.trans g) k2
  refine ⟨hall, ?_⟩
  by_cases hr : r = .ok ()
  · subst hr
    refine .inl ⟨rfl, ?_⟩
    intro p hp
    obtain ⟨i, hi⟩ := List.mem_iff_getElem?.1 hp
    have hil : i < ps.length := (List.getElem?_eq_some_iff.1 hi).1
    have hlen := interleave_length is (ps.map fun p => (createDirAll p).mapErr f) w
    rw [List.length_map] at hlen
    have hd := joined_ok hj _ (List.getElem_mem (by rw [hlen]; exact hil))
    have := k1 i _ (List.getElem?_eq_getElem (by rw [hlen]; exact hil))
    rw [hd] at this
    exact this _ (Grow.refl _) p hi
  · have hd := joined_bad hj hr
    obtain ⟨i, hi⟩ := List.mem_iff_getElem?.1 hd
    have := k1 i _ hi _ (Grow.refl _)
    cases r with
    | ok a => exact absurd rfl hr
    | err e =>
      obtain ⟨⟨e', rfl⟩, hs⟩ := this
      exact .inr ⟨⟨e', rfl⟩, hs⟩
    | abort a => exact this.elim

end Storage

end Volaris
