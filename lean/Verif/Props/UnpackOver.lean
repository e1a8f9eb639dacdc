import Verif.Proofs.UnpackOver
import Verif.Props.TreeCmd
/-!
# Unpacking over what is already there
-/
namespace Volaris.Props
open Spec Example Cli
variable {σ : Type}

/-! ### C107 -/

/-- **C107.** When everything is in place the pack command succeeds, and on whatever machine (`s'`, with the same primitives and zip code) and in whatever directory tree `v` its output turns up, the unpack command with the same secret
that is told to overwrite succeeds also when there is something at its output directory already, as long as no file is in the place of a directory, no directory in the place of a file, and no two files to be overwritten are
one and the same file: then everything that was packed is there (files with the packed content, whatever they held before); nothing has gone; nothing is new but what was packed; and every file that is not in the place of a packed file has the content it had. -/
theorem C107_over (s s' : Sys σ) (hC : s.C.Lawful) (hz : s.z.Lawful) (hs : s'.C = s.C ∧ s'.z = s.z) (inputs : List (List Char)) (output : List Char) (pp : PackParams) (params : CryptoParams)
    (a : Algorithm) (secret : Bytes) (w : World) (hpp : pp.eraseSource = true → params.force = .forced) (h : PackReady s inputs output params a secret w) :
    ∃ w' q j, packMode s inputs output pp params a w = (.ok (), w') ∧ w.resolve (toPath s.cwd output) = .ok q ∧ w'.look q = some (.file j) ∧
      ∀ (input' output' : List Char) (verbose : Bool) (params' : CryptoParams) (v : World), OverReady s' s.cwd inputs w input' output' params' secret (w'.file j) v →
        ∃ v', unpackMode s' input' output' verbose params' v = (.ok (), v') ∧ Overlaid (fun _ => False) s.cwd inputs w (toPath s'.cwd output') v v' := by
  obtain ⟨w', q, j, u0, fs, h1, h2, h3, -, -, hl, hp, hst, hd⟩ := packed_then s hC inputs output pp params a secret w hpp h
  refine ⟨w', q, j, h1, h2, h3, fun input' output' verbose params' v hv => ?_⟩
  rw [← hs.1, ← hs.2] at hd
  rw [← hs.2] at hst
  exact unpackMode_over s' (hs.2 ▸ hz) s.cwd inputs w input' output' verbose params' secret _ hv hl (fun f hf => (h.sources f hf).1) hp hst hd

/-! #### A case that meets the hypotheses -/

/-- Somebody makes a directory `u` with an old `u/a/x` and a note `u/n` in it. -/
def exOld (w : World) : World :=
  { w with
    dir := [([['u']], .dir), ([['u'], ['a']], .dir), ([['u'], ['a'], ['x']], .file 1002), ([['u'], ['n']], .file 1003)] ++ w.dir
    file := fun i => if i = 1002 then [7, 7, 7, 7, 7] else if i = 1003 then [8] else w.file i
    nextIno := 1004 }

/-- The machine after `pack a o` and that. -/
def exOverWorld : World := exOld exPackPlain.2

/-- The tree there. -/
def exOverDir : List (Path × Node) := [([['u']], .dir), ([['u'], ['a']], .dir), ([['u'], ['a'], ['x']], .file 1002), ([['u'], ['n']], .file 1003)] ++ exPackedDir

theorem exOld_dir (w : World) (h : w.dir = exPackedDir) : (exOld w).dir = exOverDir := by
  unfold exOld exOverDir
  rw [h]

theorem exOverWorld_dir : exOverWorld.dir = exOverDir := exOld_dir _ exPackPlain_dir

theorem exOld_nextIno (w : World) : (exOld w).nextIno = 1004 := rfl

theorem exOld_file (w : World) : (exOld w).file 1003 = [8] := rfl

/-- The command line is `unpack -f o u`. -/
def exOver : CryptoParams := { exParams with force := .forced }

theorem exOver_supplies : Supplies exPackSys.words exPackSys.cwd .direct exOver.key exOverWorld [112, 119] := by
  have : exOverWorld.env = some [112, 119] := by decide +kernel
  exact this

theorem exPackedAs {n : Node} {x : List Name} (h : PackedAs exPackSys.cwd [['a']] (exWorld [] []) n x) :
    x = [['a']] ∧ n = .dir ∨ x = [['a'], ['x']] ∧ n = .file 0 ∨ x = [['a'], ['b']] ∧ n = .dir ∨ x = [['a'], ['b'], ['y']] ∧ n = .file 1 := by
  obtain ⟨f, hf, ns, D, ms, hp, hD, hl, rfl⟩ := h
  rw [List.mem_singleton] at hf
  subst hf
  have hns : [Comp.name ['a']] = ns.map .name := hp.names
  obtain rfl : ns = [['a']] := (List.map_inj_right (fun _ _ h => Comp.name.inj h) |>.1 (hns.symm.trans (rfl : _ = [['a']].map Comp.name)))
  obtain ⟨-, h | h | h | h⟩ := exBelow hD hl <;> obtain ⟨rfl, rfl⟩ := h
  · exact .inl ⟨rfl, rfl⟩
  · exact .inr (.inl ⟨rfl, rfl⟩)
  · exact .inr (.inr (.inl ⟨rfl, rfl⟩))
  · exact .inr (.inr (.inr ⟨rfl, rfl⟩))

theorem exOverReady : OverReady exPackSys exPackSys.cwd [['a']] (exWorld [] []) ['o'] ['u'] exOver [112, 119] (exPackPlain.2.file 1000) exOverWorld := by
  have hd := exOverWorld_dir
  have hmem : ∀ {q n}, q ≠ [] → exOverWorld.look q = some n → (q, n) ∈ exOverDir := fun hq h => by rw [← hd]; exact World.mem_of_look hq h
  have htree : TreeOk exOverWorld := by
    suffices h0 : TreeOk { exWorld [] [] with dir := exOverDir } from h0.congr hd
    refine ⟨by decide, fun k n h => ?_⟩
    have h : (k, n) ∈ exOverDir := h
    simp only [exOverDir, exPackedDir, List.cons_append, List.nil_append, List.mem_cons, Prod.mk.injEq, List.not_mem_nil, or_false] at h
    rcases h with ⟨rfl, rfl⟩ | ⟨rfl, rfl⟩ | ⟨rfl, rfl⟩ | ⟨rfl, rfl⟩ | ⟨rfl, rfl⟩ | ⟨rfl, rfl⟩ | ⟨rfl, rfl⟩ | ⟨rfl, rfl⟩ | ⟨rfl, rfl⟩ | ⟨rfl, rfl⟩ <;> exact ⟨by decide, rfl⟩
  have hway : ∀ q, OnTheWay (toPath exPackSys.cwd ['u']) q → q = [] ∨ q = [['u']] := by
    rintro q ⟨pre, hpre, rfl⟩
    have hpre : pre <+: [Comp.name ['u']] := hpre
    rcases List.prefix_cons_iff.1 hpre with rfl | ⟨t, rfl, ht⟩
    · exact .inl rfl
    · rw [List.prefix_nil.1 ht]
      exact .inr rfl
  have e : onPaper (toPath exPackSys.cwd ['u']) = [['u']] := rfl
  refine ⟨by decide +kernel, htree, allocated_of ?_, rfl, rfl, ⟨[['o']], 1000, ⟨eq_ok_of (by decide +kernel), by decide +kernel⟩, by decide +kernel⟩,
    ⟨by decide, exOver_supplies⟩, ⟨World.look_nil _, ?_, ?_, ?_, ?_, ?_⟩, ?_⟩
  · intro k i h
    rw [hd] at h
    have e : exOverWorld.nextIno = 1004 := exOld_nextIno _
    rw [e]
    simp only [exOverDir, exPackedDir, List.cons_append, List.nil_append, List.mem_cons, Prod.mk.injEq, List.not_mem_nil, or_false, Node.file.injEq, reduceCtorEq, and_false, false_or] at h
    omega
  · intro q i hq hl
    rcases hway q hq with rfl | rfl
    · rw [World.look_nil] at hl; cases hl
    · have := hmem (by simp) hl
      simp [exOverDir, exPackedDir] at this
  · intro q hq ns hns h
    rw [e] at h
    rcases hway q hq with rfl | rfl
    · cases h
    · cases ns with
      | nil => exact hns rfl
      | cons a l => cases h
  · intro x hx y k hy hl
    rw [e] at hl
    have := hmem (by simp) hl
    simp only [exOverDir, exPackedDir, List.cons_append, List.nil_append, List.mem_cons, Prod.mk.injEq, List.not_mem_nil, or_false, reduceCtorEq, and_false, false_or, List.cons.injEq, true_and] at this
    rcases exPackedAs hx with ⟨rfl, h⟩ | ⟨rfl, h⟩ | ⟨rfl, h⟩ | ⟨rfl, h⟩
    · rcases this with ⟨rfl, -⟩ | ⟨rfl, -⟩ | h | h | h | h
      · exact absurd hy (by decide)
      · exact absurd hy (by decide)
      all_goals exact absurd h.1.1 (by decide)
    · cases h
    · rcases this with ⟨rfl, -⟩ | ⟨rfl, -⟩ | h | h | h | h
      · exact absurd hy (by decide)
      · exact absurd hy (by decide)
      all_goals exact absurd h.1.1 (by decide)
    · cases h
  · intro x i hx hl
    rw [e] at hl
    have := hmem (by simp) hl
    rcases exPackedAs hx with ⟨rfl, h⟩ | ⟨rfl, h⟩ | ⟨rfl, h⟩ | ⟨rfl, h⟩
    · cases h
    · simp [exOverDir, exPackedDir] at this
    · cases h
    · simp [exOverDir, exPackedDir] at this
  · intro x i y j hx hy hne k hl hl'
    rw [e] at hl hl'
    have h1 := hmem (by simp) hl
    have h2 := hmem (by simp) hl'
    rcases exPackedAs hx with ⟨rfl, h⟩ | ⟨rfl, h⟩ | ⟨rfl, h⟩ | ⟨rfl, h⟩
    · cases h
    · rcases exPackedAs hy with ⟨rfl, h⟩ | ⟨rfl, h⟩ | ⟨rfl, h⟩ | ⟨rfl, h⟩
      · cases h
      · exact hne rfl
      · cases h
      · simp [exOverDir, exPackedDir] at h2
    · cases h
    · simp [exOverDir, exPackedDir] at h1
  · have ht : ∃ name : Name, name.length = 16 ∧ tempFile exPackSys exOver.key exOverWorld = exPackSys.tmp.push [.name name] := ⟨_, by rw [List.length_map]; rfl, rfl⟩
    obtain ⟨name, hn, ht⟩ := ht
    rw [ht]
    refine ⟨⟨[name], ?_, ?_, World.look_nil _⟩, ?_, ?_⟩
    · rw [World.resolve_congr (w := { exWorld [] [] with dir := exOverDir }) hd]
      rfl
    · cases hl : exOverWorld.look [name] with
      | none => rfl
      | some n =>
        have h := hmem (by simp) hl
        simp only [exOverDir, exPackedDir, List.cons_append, List.nil_append, List.mem_cons, Prod.mk.injEq, List.cons.injEq, List.not_mem_nil, or_false, reduceCtorEq, and_false, false_and, and_true, false_or] at h
        rcases h with ⟨rfl, -⟩ | ⟨rfl, -⟩ | ⟨rfl, -⟩ | ⟨rfl, -⟩ <;> cases hn
    · rintro ⟨t, ht⟩
      cases ht
      cases hn
    · intro h
      rcases hway _ h with h | h
      · cases h
      · cases h; cases hn

/-- So `u/a/x` gets the content of `a/x`, `u/a/b/y` comes into being, and the note `u/n` stays what it was. -/
example : ∃ v', unpackMode exPackSys ['o'] ['u'] false exOver exOverWorld = (.ok (), v') ∧
    (∃ j, v'.look [['u'], ['a'], ['x']] = some (.file j) ∧ v'.file j = [1, 2, 3]) ∧
    (∃ j, v'.look [['u'], ['a'], ['b'], ['y']] = some (.file j) ∧ v'.file j = [1, 2, 3]) ∧
    v'.look [['u'], ['n']] = some (.file 1003) ∧ v'.file 1003 = [8] := by
  obtain ⟨w', q, j, he, hq, hj, h⟩ := C107_over exPackSys exPackSys (Example.toy_lawful _ (by decide)) toyZip_lawful ⟨rfl, rfl⟩ _ _ { eraseSource := false } _ _ _ _ (fun e => nomatch e) exPackReady
  have he' : exPackPlain = (.ok (), w') := he
  have hw : w' = exPackPlain.2 := by rw [he']
  have hq' : (exWorld [] []).resolve (toPath exPackSys.cwd ['o']) = .ok [['o']] := by rfl
  rw [hq'] at hq
  cases hq
  have hj' : exPackPlain.2.look [['o']] = some (.file 1000) := by decide +kernel
  rw [hw, hj'] at hj
  cases hj
  rw [hw] at h
  obtain ⟨v', h1, h2⟩ := h ['o'] ['u'] false exOver exOverWorld exOverReady
  have hp : Plainly exPackSys.cwd ['a'] [['a']] := by
    refine ⟨rfl, rfl, by simp, fun n hn => ?_⟩
    rw [List.mem_singleton.1 hn]
    exact ⟨by decide, by decide, by decide, by decide, by decide⟩
  have hT : LeadsToDir (exWorld [] []) (toPath exPackSys.cwd ['a']) [['a']] := ⟨rfl, rfl⟩
  have e : onPaper (toPath exPackSys.cwd ['u']) = [['u']] := rfl
  refine ⟨v', h1, h2.files [['a'], ['x']] 0 ⟨_, List.mem_cons_self, _, _, [['x']], hp, hT, rfl, rfl⟩, h2.files [['a'], ['b'], ['y']] 1 ⟨_, List.mem_cons_self, _, _, [['b'], ['y']], hp, hT, rfl, rfl⟩,
    h2.kept _ _ (by decide +kernel), ?_⟩
  rw [h2.others 1003 (by rw [show exOverWorld.nextIno = 1004 from exOld_nextIno _]; decide) fun x i hx hl => ?_]
  · exact exOld_file _
  · rw [e] at hl
    rcases exPackedAs hx with ⟨rfl, h⟩ | ⟨rfl, h⟩ | ⟨rfl, h⟩ | ⟨rfl, h⟩
    · cases h
    · have := World.mem_of_look (by simp) hl
      rw [exOverWorld_dir] at this
      simp [exOverDir, exPackedDir] at this
    · cases h
    · have := World.mem_of_look (by simp) hl
      rw [exOverWorld_dir] at this
      simp [exOverDir, exPackedDir] at this

end Volaris.Props
