import Verif.Proofs.EncryptCmd
/-!
# The erasing of the input at the end of a command
-/
namespace Volaris.Cli
open Volaris.Spec
variable {σ : Type}

/-- What becomes of a file that is the input of a command. -/
def Erased (mode : EraseMode) (q : Path) (i : Nat) (u : World) (r : Res Error Unit) (w' : World) : Prop :=
  (mode = .ignoreFile ∧ r = .ok () ∧ w' = u) ∨
  (∃ n, mode = .eraseFile n) ∧ r ≠ .ok () ∧ u.sched ≠ [] ∧ Looked u.nextFd u w' ∨
  ∃ n u', mode = .eraseFile n ∧ Looked u.nextFd u u' ∧ Erasing q i u' w' ∧ (r = .ok () ∧ w'.look q = none ∧ w'.file i = [] ∨ r ≠ .ok () ∧ u.sched ≠ [])

theorem eraseIf_wp (s : Sys σ) (mode : EraseMode) (force : ForceMode) (file : List Char) {u : World} {q : Path} {i : Nat} (hq : LeadsToFile u (toPath s.cwd file) q i) :
    wp (eraseIf s mode force file) (Erased mode q i u) u := by
  unfold eraseIf
  cases mode with
  | ignoreFile => exact .inl ⟨rfl, rfl, rfl⟩
  | eraseFile n =>
    unfold wp
    refine .inr ?_
    change (∃ n', EraseMode.eraseFile n = .eraseFile n') ∧ (secureErase s file n force u).1 ≠ .ok () ∧ u.sched ≠ [] ∧ Looked u.nextFd u (secureErase s file n force u).2 ∨
      ∃ n' u', EraseMode.eraseFile n = .eraseFile n' ∧ Looked u.nextFd u u' ∧ Erasing q i u' (secureErase s file n force u).2 ∧
        ((secureErase s file n force u).1 = .ok () ∧ (secureErase s file n force u).2.look q = none ∧ (secureErase s file n force u).2.file i = [] ∨
          (secureErase s file n force u).1 ≠ .ok () ∧ u.sched ≠ [])
    unfold secureErase
    rcases readInput_cases (toPath s.cwd file) u with ⟨q', i', sc, hsc, hq', he⟩ | ⟨q', hq', he⟩ | ⟨e, sc, hsc, he, hor⟩
    · obtain ⟨rfl, rfl⟩ : q' = q ∧ i' = i := by
        have h1 := hq'.resolve
        rw [hq.resolve] at h1; cases h1
        have h2 := hq'.look
        rw [hq.look] at h2; cases h2
        exact ⟨rfl, rfl⟩
      have hl : Looked u.nextFd u (({ u with sched := sc } : World).opened i') := by
        have := (readInput_looks u.nextFd (toPath s.cwd file) u (Nat.le_refl _)).1
        rw [he] at this; exact this
      obtain ⟨r, w', h1, h2, h3⟩ := erase_cases n (p := toPath s.cwd file) (w := ({ u with sched := sc } : World).opened i')
        (q := q') (i := i') ((hl.leads _ _ _).2 hq).resolve ((hl.leads _ _ _).2 hq).look
      refine .inr ⟨n, _, rfl, hl, ?_⟩
      have hrun : (Erase.execute (toPath s.cwd file) n).mapErr Error.erase (({ u with sched := sc } : World).opened i') = (r.mapErr .erase, w') := by
        rw [Prog.mapErr_eq, h1]
      rw [Prog.bind_ok he]
      rw [if_neg (show ¬ ((Storage.Entry.file (toPath s.cwd file) u.nextFd).isDir = true) from Bool.false_ne_true), hrun]
      refine ⟨h2, ?_⟩
      rcases h3 with ⟨rfl, h4, h5⟩ | ⟨⟨e, rfl⟩, h4⟩
      · exact .inl ⟨rfl, h4, h5⟩
      · refine .inr ⟨by simp, fun hn => h4 ?_⟩
        rw [hn] at hsc
        exact List.suffix_nil.1 hsc
    · exfalso
      have h1 := hq'.resolve
      rw [hq.resolve] at h1; cases h1
      have h2 := hq'.look
      rw [hq.look] at h2; cases h2
    · rw [Prog.bind_err he]
      refine .inl ⟨⟨n, rfl⟩, by simp, ?_, Looked.of_sched _ u hsc⟩
      rcases hor with h | h
      · exact h
      · exact absurd ⟨q, i, hq⟩ h

/-- The input keeps its place and its content until it is erased; other files and places are not affected. -/
theorem Erased.others {mode : EraseMode} {q : Path} {i : Nat} {u w' : World} {r : Res Error Unit} (h : Erased mode q i u r w') :
    (∀ j, j ≠ i → w'.file j = u.file j) ∧ (∀ p, p ≠ q → w'.look p = u.look p) ∧ w'.nextIno = u.nextIno ∧
    (w'.file i = u.file i ∨ w'.file i = [] ∧ mode ≠ .ignoreFile) ∧ (w'.look q = u.look q ∨ w'.look q = none ∧ u.look q = some (.file i) ∧ mode ≠ .ignoreFile) := by
  rcases h with ⟨_, _, rfl⟩ | ⟨_, _, _, hl⟩ | ⟨n, u', rfl, hl, he, _⟩
  · exact ⟨fun _ _ => rfl, fun _ _ => rfl, rfl, .inl rfl, .inl rfl⟩
  · exact ⟨fun _ _ => by rw [hl.file], fun _ _ => hl.look _, hl.nextIno, .inl (by rw [hl.file]), .inl (hl.look _)⟩
  · refine ⟨fun j hj => by rw [he.files j hj, hl.file], fun p hp => by rw [he.dir p hp, hl.look], by rw [he.nextIno, hl.nextIno], ?_, ?_⟩
    · rcases he.target with h | h
      · exact .inl (by rw [h, hl.file])
      · exact .inr ⟨h, by simp⟩
    · rcases he.entry with h | ⟨h, h', _⟩
      · exact .inl (by rw [h, hl.look])
      · exact .inr ⟨h, by rw [← hl.look]; exact h', by simp⟩

/-- Directories are not erased, so paths lead where they led. -/
theorem Erased.resolves {mode : EraseMode} {q : Path} {i : Nat} {u w' : World} {r : Res Error Unit} (h : Erased mode q i u r w') {p : PathBuf} {x : Path}
    (hx : u.resolve p = .ok x) : w'.resolve p = .ok x := by
  obtain ⟨_, h2, _, _, h5⟩ := h.others
  refine World.resolve_mono (fun d hd => ?_) hx
  by_cases hdq : d = q
  · subst hdq
    rcases h5 with h | ⟨_, h, _⟩
    · rw [h]; exact hd
    · rw [h] at hd; cases hd
  · rw [h2 d hdq]; exact hd

/-- What leads to another file still does. -/
theorem Erased.leads {mode : EraseMode} {q : Path} {i : Nat} {u w' : World} {r : Res Error Unit} (h : Erased mode q i u r w') {p : PathBuf} {x : Path} {j : Nat}
    (hx : LeadsToFile u p x j) (hne : x ≠ q) : LeadsToFile w' p x j :=
  ⟨h.resolves hx.resolve, by rw [h.others.2.1 x hne]; exact hx.look⟩

theorem Preserves.erased {C : Crypto} {cwd : Path} {output : List Char} {header : Option (List Char)} {secret p : Bytes} {q : Path} {i : Nat} {u w' : World}
    {mode : EraseMode} {r : Res Error Unit} (hp : Preserves C cwd output header secret p q i u) (h : Erased mode q i u r w') :
    Preserves C cwd output header secret p q i w' := by
  obtain ⟨qo, j, h1, h2, h3, h4⟩ := hp
  refine ⟨qo, j, h.leads h1 h2, h2, h3, ?_⟩
  cases header with
  | none => simp only at h4 ⊢; rw [h.others.1 j h3]; exact h4
  | some hd =>
    obtain ⟨qh, k, g1, g2, g3, g4⟩ := h4
    refine ⟨qh, k, h.leads g1 g2, g2, g3, ?_⟩
    rw [h.others.1 j h3, h.others.1 k g3]; exact g4

theorem Trail.changes {T : Path → Prop} {E : Path → Nat → Prop} {w w' : World} (h : Trail T w w') : Changes T E w w' where
  look := fun q => by
    rcases h.extracts.look q with h1 | ⟨_, _, h1⟩ | ⟨h1, h2, h3⟩
    · exact .inl h1
    · exact h1.elim
    · exact .inr (.inl ⟨h1, h2, h3⟩)
  files := fun j hj => by
    by_cases hT : ∃ q, T q ∧ w.look q = some (.file j)
    · exact .inr (.inl hT)
    · exact .inl (h.kept hj fun q hq hl => hT ⟨q, hq, hl⟩)

theorem Erased.changes {T : Path → Prop} {E : Path → Nat → Prop} {w u w' : World} {mode : EraseMode} {q : Path} {i : Nat} {r : Res Error Unit}
    (ht : Trail T w u) (hl : w.look q = some (.file i)) (hE : mode ≠ .ignoreFile → E q i) (h : Erased mode q i u r w') : Changes T E w w' where
  look := fun x => by
    obtain ⟨_, h2, _, _, h5⟩ := h.others
    have hu := (Trail.changes (E := E) ht).look x
    by_cases hx : x = q
    · subst hx
      rcases h5 with h | ⟨h, _, hm⟩
      · rw [h]; exact hu
      · exact .inr (.inr ⟨h, i, hl, hE hm⟩)
    · rw [h2 x hx]; exact hu
  files := fun j hj => by
    obtain ⟨h1, _, _, h4, _⟩ := h.others
    have hu := (Trail.changes (E := E) ht).files j hj
    have hu' : u.file j = w.file j ∨ ∃ q, T q ∧ w.look q = some (.file j) := by
      by_cases hT : ∃ q, T q ∧ w.look q = some (.file j)
      · exact .inr hT
      · exact .inl (ht.kept hj fun q hq hl => hT ⟨q, hq, hl⟩)
    by_cases hx : j = i
    · subst hx
      rcases h4 with h | ⟨h, hm⟩
      · rw [h]
        rcases hu' with g | g
        · exact .inl g
        · exact .inr (.inl g)
      · exact .inr (.inr ⟨h, q, hl, hE hm⟩)
    · rw [h1 j hx]
      rcases hu' with g | g
      · exact .inl g
      · exact .inr (.inl g)

/-- The possible outcomes of the encrypt command. -/
theorem encryptMode_cases (s : Sys σ) (input output : List Char) (params : CryptoParams) (algorithm : Algorithm) (w : World) {r : Res Error Unit} {w' : World}
    (hrun : encryptMode s input output params algorithm w = (r, w')) :
    (Trail (Targets s.cwd output params w) w w' ∧ r ≠ .ok ()) ∨
    ∃ u q i secret, Trail (Targets s.cwd output params w) w u ∧ LeadsToFile w (toPath s.cwd input) q i ∧ SuppliedTo s .validate params.key w secret ∧
      (s.C.Lawful → (∀ k, Io.short k ∉ w.sched) → Separate s.cwd input output params.header w →
        Preserves s.C s.cwd output params.header secret (w.file i) q i u) ∧ Erased params.erase q i u r w' := by
  have h := encryptMode_wp s input output params algorithm w
  unfold wp at h
  rw [hrun] at h
  rcases h with h | ⟨u, ht, ⟨q, i, secret, h1, h2, h3⟩, he⟩
  · exact .inl h
  · refine .inr ⟨u, q, i, secret, ht, h1, h2, h3, ?_⟩
    have := eraseIf_wp s params.erase params.force input (ht.leads h1)
    unfold wp at this
    rw [← he] at this
    exact this

end Volaris.Cli
