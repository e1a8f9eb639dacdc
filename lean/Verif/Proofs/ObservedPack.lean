import Verif.Proofs.DisturbedEncrypt
import Verif.Proofs.DisturbedPack
import Verif.Proofs.Listing
/-!
# Packing while other programs change the disk: reading the sources
-/
namespace Volaris.Dist
open Volaris.Spec Volaris.Cli
open Volaris.Pack (handles mem_handles)
variable {ε ε' α β σ S : Type} {D : Disk → Prop} {G : S → Disk → Disk → S → Prop} {s : S} {a : World}

/-! ## Attempts -/

/-- The steps that do not change the stage. -/
def Stay (G : S → Disk → Disk → S → Prop) : S → Disk → Disk → S → Prop := fun s d d' s' => s' = s ∧ G s d d' s

theorem still_stay (h : Still G s) : Still (Stay G) s := fun d d' h1 h2 => ⟨rfl, h d d' h1 h2⟩

theorem obs_attempt {Q : α → World → S → Prop} : ∀ {t : Thr ε α} {a : World}, Obs D (Stay G) Q t a s → Obs D G (fun r w s' => s' = s ∧ ∀ y, r = .ok y → Q y w s) (Steps.attempt (ε' := ε') t) a s := by
  intro t
  induction t with
  | done r =>
    intro a h
    cases r with
    | ok y => exact .pure ⟨rfl, fun z hz => h z hz⟩
    | err e => exact .pure ⟨rfl, fun z hz => by cases hz⟩
    | abort e => exact .abort
  | step eff k ih =>
    intro a h d hd
    obtain ⟨s', ⟨e, hg⟩, h'⟩ := h d hd
    rw [e] at h'
    exact ⟨_, hg, ih _ h'⟩

/-- What is known of the handles, and more. -/
theorem Obs.also {N : Disk → Path → Prop} {Q : α → World → S → Prop} {Q' : α → World → (Nat → Prop) → Prop} {b : World} {K : Nat → Prop} (hD : ∀ d, D d → GoodDisk d) : ∀ {t : Thr ε α} {a : World} {s : S} {I : Nat → Prop},
    Obs D G Q t a s → Fr N (Post b K Q') t a I → Obs D G (fun y w s => Q y w s ∧ Fds b w ∧ ∃ J, Q' y w J) t a s := by
  intro t
  induction t with
  | done r => intro a s I h h' y hy; exact ⟨h y hy, h'.1, _, h'.2.2 y hy⟩
  | step eff k ih =>
    intro a s I h h' d hd
    obtain ⟨s', hg, h⟩ := h d hd
    exact ⟨s', hg, ih _ h (h' d (hD d hd)).2⟩

/-! ## Adding to the archive -/

/-- Only these handles were used. -/
structure Used (R : List Nat) (a w : World) : Prop where
  fd : ∀ y, y ∉ R → w.fd y = a.fd y
  next : w.nextFd = a.nextFd
  short : NoShort a.sched → NoShort w.sched

theorem Used.refl (R : List Nat) (a : World) : Used R a a := ⟨fun _ _ => rfl, rfl, id⟩
theorem Used.trans {R : List Nat} {b c : World} (h : Used R a b) (h' : Used R b c) : Used R a c :=
  ⟨fun y hy => (h'.fd y hy).trans (h.fd y hy), h'.next.trans h.next, fun n => h'.short (h.short n)⟩
theorem Used.mono {R R' : List Nat} {b : World} (h : Used R a b) (hs : ∀ y ∈ R, y ∈ R') : Used R' a b := ⟨fun y hy => h.fd y fun e => hy (hs y e), h.next, h.short⟩

section
variable {i : Nat} {x : Bytes} (hx : ∀ d, D d → d.file i = x) (hs : Still G s)
include hx hs

theorem obs_archiveLoop {h : Nat} : ∀ (fuel : Nat) (got : Bytes) {a : World},
    Obs D G (fun r w s' => s' = s ∧ Used [h] a w ∧ (NoShort a.sched → a.fd h = ⟨i, got.length⟩ → got = x.take got.length → r = x)) (Steps.archiveLoop h fuel got) a s := by
  intro fuel
  induction fuel with
  | zero => _
  | succ n ih => _
  all_goals
    intro got a
    unfold Steps.archiveLoop
    refine Obs.bind (Q := fun b w s' => s' = s ∧ Used [h] a w ∧ (NoShort a.sched → a.fd h = ⟨i, got.length⟩ → w.fd h = ⟨i, (got ++ b).length⟩ ∧ b = (x.drop got.length).take BLOCK_SIZE)) ?_ (Obs.atomErr fun d hd => ?_)
    case refine_2 =>
      have hw : Within [h] [] (read h BLOCK_SIZE) := .read _ (by simp)
      have hw := hw (a.on d)
      refine ⟨_, hs _ _ (funext fun i => hw.files i (by simp)) hw.dir, fun y hy => ⟨rfl, ⟨fun z hz => hw.fds z hz (by simp), hw.nextFd, fun n => Shrinks.short (.read _ _) (w := a.on d) n⟩, fun hsh hrd => ?_⟩⟩
      have hy' := read_noShort (w := a.on d) (w' := (read h BLOCK_SIZE (a.on d)).2) (b := y) hsh (by rw [← hy])
      have hrest : (a.on d).rest h = x.drop got.length := by
        show (d.file (a.fd h).ino).drop (a.fd h).pos = _
        rw [hrd, hx d hd]
      rw [hrest] at hy'
      refine ⟨?_, hy'⟩
      rcases read_spec h BLOCK_SIZE (a.on d) with ⟨k, w', e', -, -, hc⟩ | ⟨e', w', e', -⟩ <;> rw [e'] at hy <;> cases hy
      show (read h BLOCK_SIZE (a.on d)).2.fd h = _
      rw [e']
      show w'.fd h = _
      rw [World.fd_of_core hc, World.adv_fd_same]
      show Fd.mk (a.fd h).ino ((a.fd h).pos + _) = _
      rw [hrd, List.length_append]
    rintro buf w s' ⟨rfl, u1, hb⟩
    refine Obs.bind (Q := fun _ w' s'' => s'' = s' ∧ Used [h] w w' ∧ w'.fd = w.fd) ?_ (Obs.atomErr ?_)
    case refine_2 =>
      refine (obs_within (R := []) (Unpack.sysRetry_within _ _) .sysRetry hs).mono ?_
      rintro _ w' s'' ⟨rfl, h1, h2, -, -, -, h3⟩
      exact ⟨rfl, ⟨fun y _ => h1 y (by simp), h2, h3⟩, funext fun y => h1 y (by simp)⟩
    rintro _ w' s'' ⟨rfl, u2, e2⟩
    simp only
    split
    · next hl =>
      refine .pure ⟨rfl, u1.trans u2, fun hsh hrd hgot => ?_⟩
      obtain ⟨-, hb⟩ := hb hsh hrd
      have hlen : (x.drop got.length).length ≤ BLOCK_SIZE := by
        have := congrArg List.length hb
        rw [List.length_take] at this
        omega
      rw [List.take_of_length_le hlen] at hb
      rw [hb]
      conv => lhs; lhs; rw [hgot]
      exact List.take_append_drop _ _
    · next hl =>
      first
        | exact .abort
        | refine (ih (got ++ buf)).mono ?_
          rintro r w3 s3 ⟨rfl, u3, hr⟩
          refine ⟨rfl, (u1.trans u2).trans u3, fun hsh hrd hgot => ?_⟩
          obtain ⟨hf, hb⟩ := hb hsh hrd
          refine hr (u2.short (u1.short hsh)) (by rw [e2]; exact hf) ?_
          have hl : buf.length = BLOCK_SIZE := Classical.not_not.1 hl
          rw [List.length_append, List.take_add, ← hgot, hl, ← hb]

theorem obs_archiveFile {h : Nat} : Obs D G (fun r w s' => s' = s ∧ Used [h] a w ∧ (NoShort a.sched → a.fd h = ⟨i, 0⟩ → r = x)) (Steps.archiveFile h) a s := by
  unfold Steps.archiveFile
  refine Obs.bind (Q := fun _ w s' => s' = s ∧ Used [h] a w ∧ w.fd = a.fd) ?_ fun d _ => ⟨s, hs _ _ rfl rfl, fun _ _ => ⟨rfl, ⟨fun _ _ => rfl, rfl, id⟩, rfl⟩⟩
  rintro n w s' ⟨rfl, u1, e⟩
  refine (obs_archiveLoop hx hs n []).mono ?_
  rintro r w' s'' ⟨rfl, u2, hr⟩
  exact ⟨rfl, u1.trans u2, fun hsh hrd => hr (u1.short hsh) (by rw [e]; exact hrd) rfl⟩

omit hx in
theorem obs_startEntry {z : Zip} {done : List ZipEntry} {name : List Char} :
    Obs D G (fun _ w s' => s' = s ∧ Used [] a w ∧ (Readable z done → ∀ c, Readable z (done ++ [{ name := name, content := c }]))) (Thr.atom (Pack.startEntry z done name)) a s := fun d _ => by
  have hw := Pack.startEntry_within [] [] z done name (a.on d)
  refine ⟨s, hs _ _ (funext fun i => hw.files i (by simp)) hw.dir, fun y hy => ⟨rfl, ⟨fun y _ => hw.fds y (by simp) (by simp), hw.nextFd, fun n => Shrinks.short (Pack.startEntry_shrinks z done name) (w := a.on d) n⟩, ?_⟩⟩
  cases y
  exact (Pack.startEntry_ok (w := a.on d) (w' := _) (by rw [← hy])).2

theorem obs_addEntry {z : Zip} {done : List ZipEntry} {f : Storage.Entry} (hr : Readable z done) :
    Obs D G (fun l w s' => s' = s ∧ Used (handles [f]) a w ∧ Readable z l ∧ done <+: l ∧ (NoShort a.sched → ∀ path h, f = .file path h → a.fd h = ⟨i, 0⟩ → { name := ZipName.ofPath path, content := x } ∈ l)) (Steps.addEntry z done f) a s := by
  unfold Steps.addEntry
  cases f with
  | dir p =>
    refine Obs.bind ?_ (Obs.atomErr (obs_startEntry hs))
    rintro _ w s' ⟨rfl, u, h⟩
    exact .pure ⟨rfl, u.mono (by simp), h hr _, List.prefix_append .., fun _ _ _ h => nomatch h⟩
  | file p h =>
    refine Obs.bind ?_ (Obs.atomErr (obs_startEntry hs))
    rintro _ w s' ⟨rfl, u, hrd⟩
    refine Obs.bind ?_ (Obs.mapErr (obs_archiveFile hx hs))
    rintro c w' s'' ⟨rfl, u', hc⟩
    refine .pure ⟨rfl, (u.mono (by simp)).trans u', hrd hr _, List.prefix_append .., fun hsh path h' e hfd => ?_⟩
    cases e
    rw [hc (u.short hsh) (by rw [u.fd h (by simp)]; exact hfd)]
    simp

theorem obs_addAll {z : Zip} : ∀ (fs : List Storage.Entry) (done : List ZipEntry) {a : World}, Readable z done →
    Obs D G (fun l w s' => s' = s ∧ Used (handles fs) a w ∧ Readable z l ∧ done <+: l ∧
      (NoShort a.sched → ∀ pre path h post, fs = pre ++ .file path h :: post → h ∉ handles pre → a.fd h = ⟨i, 0⟩ → { name := ZipName.ofPath path, content := x } ∈ l)) (Steps.addAll z fs done) a s
  | [], done, a, hr => .pure ⟨rfl, .refl _ _, hr, List.prefix_refl _, fun _ pre _ _ _ e => by cases pre <;> cases e⟩
  | f :: fs, done, a, hr => by
    unfold Steps.addAll
    refine Obs.bind ?_ (obs_addEntry hx hs hr)
    rintro l w s' ⟨e0, u, hr', hp, hf⟩
    have e0 := e0.symm
    subst e0
    refine (obs_addAll fs l hr').mono ?_
    rintro l' w' s'' ⟨e0, u', hr'', hp', hf'⟩
    have e0 := e0.symm
    subst e0
    have e : handles (f :: fs) = handles [f] ++ handles fs := by
      unfold handles
      rw [← List.filterMap_append]; rfl
    refine ⟨rfl, (u.mono fun y hy => by rw [e]; exact List.mem_append_left _ hy).trans (u'.mono fun y hy => by rw [e]; exact List.mem_append_right _ hy), hr'', hp.trans hp', fun hsh pre path h post heq hn hfd => ?_⟩
    cases pre with
    | nil => cases heq; exact hp'.subset (hf hsh path h rfl hfd)
    | cons g pre =>
      cases heq
      have e : handles (f :: pre) = handles [f] ++ handles pre := by
        unfold handles
        rw [← List.filterMap_append]; rfl
      rw [e, List.mem_append, not_or] at hn
      exact hf' (u.short hsh) pre path h post rfl hn.2 (by rw [u.fd h hn.1]; exact hfd)

end

/-! ## Listing -/

/-- The list has file `i`, under this path, with a handle that is at the start and is not used before. -/
def Lists (pth : PathBuf) (i : Nat) (es : List Storage.Entry) (a w : World) : Prop := ∃ pre h post, es = pre ++ .file pth h :: post ∧ h ∉ handles pre ∧ w.fd h = ⟨i, 0⟩ ∧ a.nextFd ≤ h ∧ h < w.nextFd

theorem Lists.before {pth : PathBuf} {i : Nat} {es fs : List Storage.Entry} {b c : World} (hl : ∀ h ∈ handles es, h < b.nextFd) (hk : Kept' a b) (h : Lists pth i fs b c) : Lists pth i (es ++ fs) a c := by
  obtain ⟨pre, h, post, rfl, h1, h2, h3, h4⟩ := h
  refine ⟨es ++ pre, h, post, by simp, ?_, h2, Nat.le_trans hk.fds h3, h4⟩
  rw [handles_append, List.mem_append]
  rintro (e | e)
  · have := hl h e; omega
  · exact h1 e

theorem Lists.after {pth : PathBuf} {i : Nat} {es fs : List Storage.Entry} {b c : World} (hk : Kept' b c) (h : Lists pth i es a b) : Lists pth i (es ++ fs) a c := by
  obtain ⟨pre, h, post, rfl, h1, h2, h3, h4⟩ := h
  exact ⟨pre, h, post ++ fs, by simp, h1, (hk.fd h h4).trans h2, h3, Nat.lt_of_lt_of_le h4 hk.fds⟩

section
variable {pth : PathBuf} {q : Path} {i : Nat} (hT : ∀ d, D d → (∀ w : World, (w.on d).resolve pth = .ok q) ∧ lookDisk d q = some (.file i)) (hs : Still G s)

include hT hs

theorem obs_readFile {p : PathBuf} : Obs D G (fun e w s' => s' = s ∧ Kept' a w ∧ (∀ h ∈ handles [e], h < w.nextFd) ∧ (p = pth → Lists pth i [e] a w)) (Steps.readFile p) a s := by
  unfold Steps.readFile
  refine Obs.bind (Q := fun b w s' => s' = s ∧ Kept' a w ∧ (p = pth → b = false)) ?_ fun d hd => ⟨s, hs _ _ rfl rfl, fun b hb => ⟨rfl, ⟨⟨Nat.le_refl _, fun _ _ => rfl, rfl, List.suffix_refl _, List.suffix_refl _⟩, id⟩, fun e => ?_⟩⟩
  · rintro b w s' ⟨rfl, hk, hb⟩
    cases b with
    | true => exact .pure ⟨rfl, hk, fun _ h => by simp [handles] at h, fun e => by cases hb e⟩
    | false =>
      refine Obs.bind ?_ (Obs.atomErr (obs_openFile p hs))
      rintro h w2 s' ⟨rfl, hk2, h0, h1, h2, d, q', hd, hq, hl⟩
      refine .pure ⟨rfl, hk.trans hk2, fun x hx => by simp [handles] at hx; rw [hx]; exact h1, fun e => ?_⟩
      subst e
      refine ⟨[], h, [], rfl, by simp [handles], ?_, Nat.le_trans hk.fds h0, h1⟩
      rw [(hT d hd).1 w] at hq
      cases hq
      rw [(hT d hd).2] at hl
      cases hl
      rw [← h2]
  · subst e
    have hb : Res.ok (ε := Storage.Error) ((a.on d).isDirAt p) = .ok b := hb
    injection hb with hb
    rw [← hb]
    unfold World.isDirAt
    rw [(hT d hd).1 a]
    have : (a.on d).look q = some (.file i) := (hT d hd).2
    simp [this]

theorem obs_readEntries : ∀ (ps : List PathBuf) {a : World}, Obs D G (fun es w s' => s' = s ∧ Kept' a w ∧ (∀ h ∈ handles es, h < w.nextFd) ∧ (pth ∈ ps → Lists pth i es a w)) (Steps.readEntries ps) a s
  | [], a => .pure ⟨rfl, .refl a, fun _ h => by simp [handles] at h, fun h => nomatch h⟩
  | p :: ps, a => by
    unfold Steps.readEntries
    refine Obs.bind ?_ (Obs.atomErr (obs_looks (P := fun _ => True) (fun n => .sys) hs))
    rintro _ w s' ⟨e0, k1, -⟩
    have e0 := e0.symm
    subst e0
    refine Obs.bind ?_ (obs_readFile hT hs)
    rintro e w2 s' ⟨e0, k2, h2, hl⟩
    have e0 := e0.symm
    subst e0
    refine Obs.bind ?_ (obs_readEntries ps)
    rintro es w3 s' ⟨e0, k3, h3, hl'⟩
    have e0 := e0.symm
    subst e0
    have k12 := k1.trans k2
    refine .pure ⟨rfl, k12.trans k3, fun h hh => ?_, fun hm => ?_⟩
    · rw [handles_cons, List.mem_append] at hh
      rcases hh with hh | hh
      · exact Nat.lt_of_lt_of_le (h2 h hh) k3.fds
      · exact h3 h hh
    · rcases List.mem_cons.1 hm with e' | hm
      · obtain ⟨pre, h, post, e1, e2, e3, e4, e5⟩ := Lists.after (fs := es) k3 (hl e'.symm)
        exact ⟨pre, h, post, e1, e2, e3, Nat.le_trans k1.fds e4, e5⟩
      · exact Lists.before (es := [e]) h2 k12 (hl' hm)

theorem obs_walkDir {p : PathBuf} : Obs D G (fun es w s' => s' = s ∧ Kept' a w ∧ (∀ h ∈ handles es, h < w.nextFd) ∧ ((∀ d, D d → pth ∈ Storage.World.below (a.on d) p) → Lists pth i es a w)) (Steps.walkDir p) a s := by
  unfold Steps.walkDir
  refine Obs.bind (Q := fun ps w s' => s' = s ∧ Kept' a w ∧ ∃ d, D d ∧ ps = Storage.World.below (a.on d) p) ?_ fun d hd => ⟨s, hs _ _ rfl rfl, fun b hb => ⟨rfl, ⟨⟨Nat.le_refl _, fun _ _ => rfl, rfl, List.suffix_refl _, List.suffix_refl _⟩, id⟩, d, hd, by cases hb; rfl⟩⟩
  rintro ps w s' ⟨rfl, k1, d, hd, rfl⟩
  refine (obs_readEntries hT hs _).mono ?_
  rintro es w2 s' ⟨rfl, k2, h2, hl⟩
  refine ⟨rfl, k1.trans k2, h2, fun h => ?_⟩
  obtain ⟨pre, h, post, e1, e2, e3, e4, e5⟩ := hl (h d hd)
  exact ⟨pre, h, post, e1, e2, e3, Nat.le_trans k1.fds e4, e5⟩

theorem obs_expand {p : PathBuf} (hB : ∀ d, D d → ∀ w : World, pth ∈ Storage.World.below (w.on d) p) : ∀ (es : List Storage.Entry) {a : World}, (∀ h ∈ handles es, h < a.nextFd) →
    Obs D G (fun fs w s' => s' = s ∧ Kept' a w ∧ (∀ h ∈ handles fs, h < w.nextFd) ∧ (Storage.Entry.dir p ∈ es → Lists pth i fs a w)) (Steps.expand es) a s
  | [], a, _ => .pure ⟨rfl, .refl a, fun _ h => by simp [handles] at h, fun h => nomatch h⟩
  | e :: es, a, hh => by
    unfold Steps.expand
    refine Obs.bind (Q := fun fs w s' => s' = s ∧ Kept' a w ∧ (∀ h ∈ handles fs, h < w.nextFd) ∧ (e = .dir p → Lists pth i fs a w)) ?_ ?_
    · rintro fs w s' ⟨e0, k1, h1, hl⟩
      have e0 := e0.symm
      subst e0
      refine Obs.bind ?_ (obs_expand hB es fun h hm => Nat.lt_of_lt_of_le (hh h (by rw [handles_cons]; exact List.mem_append_right _ hm)) k1.fds)
      rintro gs w2 s' ⟨e0, k2, h2, hl'⟩
      have e0 := e0.symm
      subst e0
      refine .pure ⟨rfl, k1.trans k2, fun h hm => ?_, fun hm => ?_⟩
      · rw [handles_append, List.mem_append] at hm
        rcases hm with hm | hm
        · exact Nat.lt_of_lt_of_le (h1 h hm) k2.fds
        · exact h2 h hm
      · rcases List.mem_cons.1 hm with e' | hm
        · exact Lists.after k2 (hl e'.symm)
        · exact Lists.before h1 k1 (hl' hm)
    · cases e with
      | dir p' =>
        refine Obs.mapErr ((obs_walkDir hT hs).mono ?_)
        rintro fs w s' ⟨h1, h2, h3, h4⟩
        exact ⟨h1, h2, h3, fun e => h4 fun d hd => by cases e; exact hB d hd a⟩
      | file p' h => exact .pure ⟨rfl, .refl a, fun x hx => hh x (by rw [handles_cons]; exact List.mem_append_left _ hx), fun h => nomatch h⟩

end

theorem obs_readInputs (sys : Sys σ) {f : List Char} (hf : ∀ d, D d → ∀ w : World, (w.on d).isDirAt (toPath sys.cwd f) = true) (hs : Still G s) : ∀ (fs : List (List Char)) {a : World},
    Obs D G (fun es w s' => s' = s ∧ Kept' a w ∧ (∀ h ∈ handles es, h < w.nextFd) ∧ (f ∈ fs → Storage.Entry.dir (toPath sys.cwd f) ∈ es)) (Steps.readInputs sys fs) a s
  | [], a => .pure ⟨rfl, .refl a, fun _ h => by simp [handles] at h, fun h => nomatch h⟩
  | g :: fs, a => by
    unfold Steps.readInputs Steps.readInput Steps.readFile
    refine Obs.bind (Q := fun e w s' => s' = s ∧ Kept' a w ∧ (∀ h ∈ handles [e], h < w.nextFd) ∧ (f = g → e = .dir (toPath sys.cwd f))) ?_ (Obs.mapErr ?_)
    · rintro e w s' ⟨e0, k1, h1, hl⟩
      have e0 := e0.symm
      subst e0
      refine Obs.bind ?_ (obs_readInputs sys hf hs fs)
      rintro es w2 s' ⟨e0, k2, h2, hl'⟩
      have e0 := e0.symm
      subst e0
      refine .pure ⟨rfl, k1.trans k2, fun h hm => ?_, fun hm => ?_⟩
      · rw [handles_cons, List.mem_append] at hm
        rcases hm with hm | hm
        · exact Nat.lt_of_lt_of_le (h1 h hm) k2.fds
        · exact h2 h hm
      · rcases List.mem_cons.1 hm with e' | hm
        · rw [← hl e']; exact List.mem_cons_self ..
        · exact List.mem_cons_of_mem _ (hl' hm)
    · refine Obs.bind (Q := fun b w s' => s' = s ∧ Kept' a w ∧ (f = g → b = true)) ?_ fun d hd => ⟨s, hs _ _ rfl rfl, fun b hb => ⟨rfl, ⟨⟨Nat.le_refl _, fun _ _ => rfl, rfl, List.suffix_refl _, List.suffix_refl _⟩, id⟩, fun e => ?_⟩⟩
      · rintro b w s' ⟨e0, hk, hb⟩
        have e0 := e0.symm
        subst e0
        cases b with
        | true => exact .pure ⟨rfl, hk, fun _ h => by simp [handles] at h, fun e => by rw [e]⟩
        | false =>
          refine Obs.bind ?_ (Obs.atomErr (obs_openFile _ hs))
          rintro h w2 s' ⟨e0, hk2, h0, h1, -⟩
          have e0 := e0.symm
          subst e0
          exact .pure ⟨rfl, hk.trans hk2, fun x hx => by simp [handles] at hx; rw [hx]; exact h1, fun e => by cases hb e⟩
      · subst e
        have hb : Res.ok (ε := Storage.Error) ((a.on d).isDirAt (toPath sys.cwd f)) = .ok b := hb
        injection hb with hb
        rw [← hb]
        exact hf d hd a

end Volaris.Dist
