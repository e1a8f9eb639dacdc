import Verif.Proofs.UnpackAgain
import Verif.Props.UnpackOver
import Verif.Props.Crash
/-!
# Unpacking that is killed and started again
-/
namespace Volaris.Props
open Spec Example Cli
variable {σ : Type}

/-! ### C107, continued -/

/-- **C107.** The same if unpacking was started any number of times before, with or without the consent to overwrite, and was killed at any moment each time: the next attempt that is told to overwrite and meets no fault succeeds, and then everything
that was packed is there, complete; nothing that was there before the first attempt has gone; nothing is new but what was packed and, where temporary files are made, what the killed attempts left; and every file that is not in the place of a packed
file has the content that it had before the first attempt. -/
theorem C107_again (s s' : Sys σ) (hC : s.C.Lawful) (hz : s.z.Lawful) (hs : s'.C = s.C ∧ s'.z = s.z) (inputs : List (List Char)) (output : List Char) (pp : PackParams) (params : CryptoParams)
    (a : Algorithm) (secret : Bytes) (w : World) (hpp : pp.eraseSource = true → params.force = .forced) (h : PackReady s inputs output params a secret w) :
    ∃ w' q j, packMode s inputs output pp params a w = (.ok (), w') ∧ w.resolve (toPath s.cwd output) = .ok q ∧ w'.look q = some (.file j) ∧
      ∀ (input' output' : List Char) (verbose : Bool) (params' : CryptoParams) (v x : World), params'.header = none → OverGround s' s.cwd inputs w input' output' (w'.file j) v →
        UnpackKilled s' input' output' verbose params' secret v x → OverNext s' output' params'.key secret x →
        ∃ v', unpackMode s' input' output' verbose { params' with force := .forced } x = (.ok (), v') ∧ Overlaid (TempPlace s'.tmp) s.cwd inputs w (toPath s'.cwd output') v v' := by
  obtain ⟨w', q, j, u0, fs, h1, h2, h3, -, -, hl, hp, hst, hd⟩ := packed_then s hC inputs output pp params a secret w hpp h
  refine ⟨w', q, j, h1, h2, h3, fun input' output' verbose params' v x hh hg hk hn => ?_⟩
  rw [← hs.1, ← hs.2] at hd
  rw [← hs.2] at hst
  exact unpackMode_again (hs.2 ▸ hz) (hs.1 ▸ hC) verbose params' hh hl (fun f hf => (h.sources f hf).1) hp hst hd hg hk hn

/-- **C107.** Unpacking the same archive a second time, told to overwrite, changes nothing: it succeeds, exactly the same names are there as after the first time, and every file has the same content. -/
theorem C107_twice (s s' : Sys σ) (hC : s.C.Lawful) (hz : s.z.Lawful) (hs : s'.C = s.C ∧ s'.z = s.z) (inputs : List (List Char)) (output : List Char) (pp : PackParams) (params : CryptoParams)
    (a : Algorithm) (secret : Bytes) (w : World) (hpp : pp.eraseSource = true → params.force = .forced) (h : PackReady s inputs output params a secret w) :
    ∃ w' q j, packMode s inputs output pp params a w = (.ok (), w') ∧ w.resolve (toPath s.cwd output) = .ok q ∧ w'.look q = some (.file j) ∧
      ∀ (input' output' : List Char) (verbose verbose' : Bool) (params' params'' : CryptoParams) (v : World), params'.header = none → params''.header = none →
        OverGround s' s.cwd inputs w input' output' (w'.file j) v → OverNext s' output' params'.key secret v → (∀ k, Supplies s'.words s'.cwd .direct params'.key v k → k = secret) →
        ∃ v', unpackMode s' input' output' verbose { params' with force := .forced } v = (.ok (), v') ∧ ∀ y, y.disk = v'.disk → OverNext s' output' params''.key secret y →
          ∃ y', unpackMode s' input' output' verbose' { params'' with force := .forced } y = (.ok (), y') ∧ (∀ q, y'.look q = v'.look q) ∧ ∀ q k, v'.look q = some (.file k) → y'.file k = v'.file k := by
  obtain ⟨w', q, j, u0, fs, h1, h2, h3, -, -, hl, hp, hst, hd⟩ := packed_then s hC inputs output pp params a secret w hpp h
  refine ⟨w', q, j, h1, h2, h3, fun input' output' verbose verbose' params' params'' v hh hh' hg hn hsup => ?_⟩
  rw [← hs.1, ← hs.2] at hd
  rw [← hs.2] at hst
  exact unpackMode_twice (hs.2 ▸ hz) (hs.1 ▸ hC) verbose verbose' params' params'' hh hh' hl (fun f hf => (h.sources f hf).1) hp hst hd hg hn hsup

/-! #### A case that meets the hypotheses -/

/-- The disk is what counts. -/
theorem _root_.Volaris.Spec.OverGround.same {s : Sys σ} {cwd : Path} {inputs : List (List Char)} {w v y : World} {input output : List Char} {c : Bytes} (g : OverGround s cwd inputs w input output c v) (h : y.disk = v.disk) :
    OverGround s cwd inputs w input output c y := by
  have hl : ∀ q, y.look q = v.look q := World.look_congr (disk_dir h)
  refine ⟨g.tree.congr (disk_dir h), fun q i hq => ?_, ?_, ?_, fun q => ?_⟩
  · rw [disk_nextIno h]; exact g.allocated q i (hl q ▸ hq)
  · obtain ⟨q, i, hq, hc, hno⟩ := g.source
    exact ⟨q, i, ⟨by rw [World.resolve_congr (disk_dir h)]; exact hq.resolve, by rw [hl]; exact hq.look⟩, by rw [disk_file h]; exact hc, fun x k hx => by rw [hl]; exact hno x k hx⟩
  · refine ⟨?_, ?_, g.target.inward, ?_, ?_, ?_⟩
    · rw [hl]; exact g.target.start
    · simp only [hl]; exact g.target.way
    · simp only [hl]; exact g.target.dirs
    · simp only [hl]; exact g.target.files
    · simp only [hl]; exact g.target.alone
  · rw [hl]; exact g.temps q

theorem exOverGround : OverGround exPackSys exPackSys.cwd [['a']] (exWorld [] []) ['o'] ['u'] (exPackPlain.2.file 1000) exOverWorld := by
  have e : onPaper (toPath exPackSys.cwd ['u']) = [['u']] := rfl
  refine ⟨exOverReady.tree, exOverReady.allocated, ⟨[['o']], 1000, ⟨eq_ok_of (by decide +kernel), by decide +kernel⟩, by decide +kernel, fun x k hx hl => ?_⟩, exOverReady.target, ?_⟩
  · have := World.mem_of_look (by rw [e]; simp) hl
    rw [exOverWorld_dir, e] at this
    rcases exPackedAs hx with ⟨rfl, h⟩ | ⟨rfl, h⟩ | ⟨rfl, h⟩ | ⟨rfl, h⟩
    · cases h
    · simp [exOverDir, exPackedDir] at this
    · cases h
    · simp [exOverDir, exPackedDir] at this
  · rintro q ⟨name, hn, -, rfl⟩ -
    constructor
    · rintro ⟨t, ht⟩
      cases ht
      cases hn
    · rintro ⟨pre, hpre, ht⟩
      have hpre : pre <+: [Comp.name ['u']] := hpre
      rcases List.prefix_cons_iff.1 hpre with rfl | ⟨t, rfl, ht'⟩
      · cases ht
      · rw [List.prefix_nil.1 ht'] at ht
        cases ht
        cases hn

/-- The machine is started anew. -/
def exAfresh (w : World) : World := { w with log := [] }

/-- `unpack -f o u` is killed when the old `u/a/x` is emptied and the new one not written. -/
def exKilledWorld : World := stopped (unpackMode exPackSys ['o'] ['u'] false exOver) (exAfresh exOverWorld) 6 0

/-- The name of the next temporary file. -/
def exRedrawn : Name := (List.range 16).map fun i => Storage.alphanumeric (UInt8.ofNat i)

/-- Other random numbers. -/
def exRedraw (w : World) : World := { w with rng := fun i => UInt8.ofNat i }

example : exKilledWorld.look [['u'], ['a'], ['x']] = some (.file 1002) ∧ exKilledWorld.file 1002 = [] ∧ exOverWorld.file 1002 = [7, 7, 7, 7, 7] := by decide +kernel

theorem exRedraw_temp (w : World) : tempFile exPackSys exOver.key (exRedraw w) = exPackSys.tmp.push [.name exRedrawn] := by
  unfold tempFile exRedraw exRedrawn
  simp only [show keyDraws exOver.key = 0 from rfl, Nat.zero_add]

theorem exAfresh_log (w : World) : (exAfresh w).log = [] := rfl

theorem exAfresh_disk (w : World) : (exAfresh w).disk = w.disk := rfl

theorem exRedraw_disk (w : World) : (exRedraw w).disk = w.disk := rfl

theorem exUnpackKilled : UnpackKilled exPackSys ['o'] ['u'] false exOver [112, 119] (exAfresh exOverWorld) (exRedraw exKilledWorld) := by
  have hsc : (exAfresh exOverWorld).sched = [] := by decide +kernel
  refine .again (u := exKilledWorld) .forced (fun k hk => ?_) (fun k hk => ?_) (stopped_at _ _ _ _ (exAfresh_log _)) (.never (exRedraw_disk _))
  · rw [hsc] at hk; cases hk
  · have h1 : (exAfresh exOverWorld).env = some [112, 119] := by decide +kernel
    have h2 : (exAfresh exOverWorld).env = some k := hk
    rw [h1] at h2
    cases h2
    rfl

theorem exOverNext (w : World) (hs : (exRedraw w).sched = []) (he : (exRedraw w).env = some [112, 119]) (hr : (exRedraw w).resolve (exPackSys.tmp.push [.name exRedrawn]) = .ok [exRedrawn]) (hl : (exRedraw w).look [exRedrawn] = none) :
    OverNext exPackSys ['u'] exOver.key [112, 119] (exRedraw w) := by
  refine ⟨hs, ⟨by decide, he⟩, ?_⟩
  rw [exRedraw_temp]
  refine ⟨⟨[exRedrawn], hr, hl, World.look_nil _⟩, by decide +kernel, ?_⟩
  rintro ⟨pre, hpre, ht⟩
  have hpre : pre <+: [Comp.name ['u']] := hpre
  rcases List.prefix_cons_iff.1 hpre with rfl | ⟨t, rfl, ht'⟩
  · exact absurd ht (by decide +kernel)
  · rw [List.prefix_nil.1 ht'] at ht
    exact absurd ht (by decide +kernel)

/-- So the next `unpack -f o u` succeeds: `u/a/x` has the content of `a/x`, and the note `u/n` is what it was. -/
example : ∃ v', unpackMode exPackSys ['o'] ['u'] false exOver (exRedraw exKilledWorld) = (.ok (), v') ∧
    (∃ j, v'.look [['u'], ['a'], ['x']] = some (.file j) ∧ v'.file j = [1, 2, 3]) ∧ v'.look [['u'], ['n']] = some (.file 1003) := by
  obtain ⟨w', q, j, he, hq, hj, h⟩ := C107_again exPackSys exPackSys (Example.toy_lawful _ (by decide)) toyZip_lawful ⟨rfl, rfl⟩ _ _ { eraseSource := false } _ _ _ _ (fun e => nomatch e) exPackReady
  have he' : exPackPlain = (.ok (), w') := he
  have hw : w' = exPackPlain.2 := by rw [he']
  have hq' : (exWorld [] []).resolve (toPath exPackSys.cwd ['o']) = .ok [['o']] := by rfl
  rw [hq'] at hq
  cases hq
  have hj' : exPackPlain.2.look [['o']] = some (.file 1000) := by decide +kernel
  rw [hw, hj'] at hj
  cases hj
  rw [hw] at h
  obtain ⟨v', h1, h2⟩ := h ['o'] ['u'] false exOver (exAfresh exOverWorld) _ rfl (exOverGround.same (exAfresh_disk _)) exUnpackKilled
    (exOverNext _ (by decide +kernel) (by decide +kernel) (eq_ok_of (by decide +kernel)) (by decide +kernel))
  have hp : Plainly exPackSys.cwd ['a'] [['a']] := by
    refine ⟨rfl, rfl, by simp, fun n hn => ?_⟩
    rw [List.mem_singleton.1 hn]
    exact ⟨by decide, by decide, by decide, by decide, by decide⟩
  have hT : LeadsToDir (exWorld [] []) (toPath exPackSys.cwd ['a']) [['a']] := ⟨rfl, rfl⟩
  exact ⟨v', h1, h2.files [['a'], ['x']] 0 ⟨_, List.mem_cons_self, _, _, [['x']], hp, hT, rfl, rfl⟩, h2.kept _ _ (by decide +kernel)⟩

/-- And unpacking twice: the first time over the old tree, the second time over what the first made. -/
example : OverGround exPackSys exPackSys.cwd [['a']] (exWorld [] []) ['o'] ['u'] (exPackPlain.2.file 1000) (exRedraw exOverWorld) ∧ OverNext exPackSys ['u'] exOver.key [112, 119] (exRedraw exOverWorld) ∧
    OverNext exPackSys ['u'] exOver.key [112, 119] (exRedraw (unpackMode exPackSys ['o'] ['u'] false exOver (exRedraw exOverWorld)).2) ∧
    (exRedraw (unpackMode exPackSys ['o'] ['u'] false exOver (exRedraw exOverWorld)).2).disk = (unpackMode exPackSys ['o'] ['u'] false exOver (exRedraw exOverWorld)).2.disk ∧
    (unpackMode exPackSys ['o'] ['u'] false exOver (exRedraw exOverWorld)).2.look [['u'], ['a'], ['b'], ['y']] ≠ none :=
  ⟨exOverGround.same (exRedraw_disk _), exOverNext _ (by decide +kernel) (by decide +kernel) (eq_ok_of (by decide +kernel)) (by decide +kernel),
    exOverNext _ (by decide +kernel) (by decide +kernel) (eq_ok_of (by decide +kernel)) (by decide +kernel), exRedraw_disk _, by decide +kernel⟩

end Volaris.Props
