import Verif.Proofs.RoundTrip
import Verif.Props.Pack
/-!
# Packing and unpacking a tree
-/
namespace Volaris.Props
open Spec Example

theorem archived_eq (w : World) : Pack.stored w = archived w := by funext f; cases f <;> rfl

/-- **C42.** Without I/O faults, for every set of entries (`Packable`), all contents, every password, every compression method, both header versions in a form that can be decrypted:
packing into an empty file succeeds; and whoever has this file (in any other world `v`, behind any handle) can unpack it with the password to any fresh place, in every
interleaving of the threads, with a callback that accepts new files: the call succeeds, and below the place there is exactly what was packed under a relative path that does not climb out: every directory (with those on the way to it), and
every file with its content.  Entries with an absolute path and entries that climb out are left out, silently. -/
theorem C42_round_trip (C : Crypto) (hC : C.Lawful) (z : Zip) (hz : z.Lawful) (tmp : PathBuf) (req : Pack.Request) (w : World) (hs : w.sched = [])
    (htmp : CanCreate w (tempPath tmp w)) (hfs : Packable w req.compressFiles) (hst : ∀ f ∈ req.compressFiles, z.storable (archived w f).name)
    (hw : OpenHandle w req.writer) (hwd : w.data req.writer = []) (hh : req.headerWriter = none)
    (hv : req.headerType.version = .v5 ∨ (req.headerType.version = .v4 ∧ req.hashingAlgorithm = .blake3Balloon 4))
    (hm : req.headerType.mode = .streamMode) (hp : PrimitivesWork C req.headerType.algorithm req.hashingAlgorithm req.rawKey)
    (hlim : (z.encode (req.compressFiles.map (archived w))).length / 2 ^ 20 ≤ C.ctrMax) :
    ∃ w', Pack.execute C z tmp req w = (.ok (), w') ∧
      ∀ (tmp' : PathBuf) (order : List Nat) (ureq : Unpack.Request) (v : World), v.sched = [] → TreeOk v → OnlyTalks (Unpack.ask ureq.onZipFile) →
        AcceptsNew ureq.outputDir (Unpack.ask ureq.onZipFile) → CanCreate v (tempPath tmp' v) → FreshTarget v ureq.outputDir →
        (¬ onPaper ureq.outputDir <+: onPaper (tempPath tmp' v) ∧ ¬ OnTheWay ureq.outputDir (onPaper (tempPath tmp' v))) →
        ureq.headerReader = none → OpenHandle v ureq.reader → ureq.rawKey = req.rawKey → v.rest ureq.reader = w'.file (w.fd req.writer).ino →
        ∃ v', Unpack.execute C z tmp' order ureq v = (.ok (), v') ∧ Restored req.compressFiles w (onPaper ureq.outputDir) v' ∧
          v'.look (onPaper ureq.outputDir) = some .dir := by
  rw [← archived_eq] at hst hlim
  obtain ⟨w', he, hd, -⟩ := Pack.execute_ok hC z tmp req w hs htmp hfs hst hw hwd hh hv hm hp hlim
  refine ⟨w', he, fun tmp' order ureq v hsv htree hcb hyes hcc hT ht hh' ho hk hr => ?_⟩
  obtain ⟨v', h1, h2, h3, -⟩ := Unpack.execute_yes C hz tmp' order ureq v hsv htree hcb hyes hcc hT ht hh' ho hfs hst (by rw [hk, hr]; exact hd)
  exact ⟨v', h1, h2, h3⟩

/-! #### A case that meets the hypotheses -/

/-- The directory `b/c`, the file `b/c/f`, the file `/z`, the file `b/../../u`. -/
def exTree : List Storage.Entry :=
  [.file ⟨true, [], [.name ['z']]⟩ 1, .file ⟨false, [], [.name ['b'], .name ['c'], .name ['f']]⟩ 0, .dir ⟨false, [], [.name ['b'], .name ['c']]⟩,
   .file ⟨false, [], [.name ['b'], .up, .up, .name ['u']]⟩ 3]

theorem exTree_packable (s : List Io) : Packable (exPackWorld s) exTree := by
  refine ⟨?_, by decide, ?_, ?_, ?_, ?_, by decide, ?_⟩
  · have key : ∀ f ∈ exTree, (pathOf f).comps ≠ [] ∧ ∀ c ∈ (pathOf f).comps, c = .up ∨ c = .name ['z'] ∨ c = .name ['b'] ∨ c = .name ['c'] ∨ c = .name ['f'] ∨ c = .name ['u'] := by decide
    intro f hf
    refine ⟨(key f hf).1, fun n hn => ?_⟩
    rcases (key f hf).2 _ hn with h | h | h | h | h | h <;> cases h <;> exact ⟨by decide, by decide, by decide, by decide, by decide⟩
  · intro f hf
    simp only [exTree, List.mem_cons, List.not_mem_nil, or_false] at hf
    rcases hf with rfl | rfl | rfl | rfl
    · exact .inl rfl
    · exact .inr (.inr ⟨[['b'], ['c'], ['f']], rfl, rfl⟩)
    · exact .inr (.inr ⟨[['b'], ['c']], rfl, rfl⟩)
    · exact .inr (.inl ⟨[.name ['b'], .up, .up], ⟨[.name ['u']], rfl⟩, by decide⟩)
  · intro p h hf ns n hn hns
    have hu : Comp.up ∉ p.comps := by
      have : p.comps = _ := hn.2
      rw [this]; simp
    have ha := hn.1
    simp only [exTree, List.mem_cons, List.not_mem_nil, or_false, Storage.Entry.file.injEq, reduceCtorEq] at hf
    rcases hf with ⟨rfl, rfl⟩ | ⟨rfl, rfl⟩ | hf | ⟨rfl, rfl⟩
    · cases ha
    · refine ⟨⟨false, [], [.name ['b'], .name ['c']]⟩, by decide, rfl, ?_⟩
      have h2 : [Comp.name ['b'], .name ['c'], .name ['f']] = (ns ++ [n]).map .name := hn.2
      rw [List.map_append] at h2
      have := congrArg List.dropLast h2
      rw [List.map_cons, List.map_nil, List.dropLast_concat] at this
      exact this
    · cases hf
    · exact absurd (by decide) hu
  · intro p h p' hf hd ns ms hn hm hpre
    have hd : p' = ⟨false, [], [.name ['b'], .name ['c']]⟩ := by
      simp only [exTree, List.mem_cons, List.not_mem_nil, or_false, Storage.Entry.dir.injEq, reduceCtorEq, false_or] at hd
      exact hd
    subst hd
    have ha := hn.1
    have hu : Comp.up ∉ p.comps := by
      have : p.comps = _ := hn.2
      rw [this]; simp
    have hl : p.comps.length ≤ 2 := by
      have h1 : p.comps.length = ns.length := by rw [show p.comps = _ from hn.2, List.length_map]
      have h2 : 2 = ms.length := by
        have := congrArg List.length hm.2
        rwa [List.length_map] at this
      rw [h1, h2]
      exact hpre.length_le
    simp only [exTree, List.mem_cons, List.not_mem_nil, or_false, Storage.Entry.file.injEq, reduceCtorEq] at hf
    rcases hf with ⟨rfl, rfl⟩ | ⟨rfl, rfl⟩ | hf | ⟨rfl, rfl⟩
    · cases ha
    · exact absurd hl (by decide)
    · cases hf
    · exact absurd (by decide) hu
  · intro p h hf ns n hn
    have ha := hn.1
    have hu : Comp.up ∉ p.comps := by
      have : p.comps = _ := hn.2
      rw [this]; simp
    have hl : p.comps.getLast? = some (.name n) := by
      have : p.comps = _ := hn.2
      rw [this]; simp
    simp only [exTree, List.mem_cons, List.not_mem_nil, or_false, Storage.Entry.file.injEq, reduceCtorEq] at hf
    rcases hf with ⟨rfl, rfl⟩ | ⟨rfl, rfl⟩ | hf | ⟨rfl, rfl⟩
    · cases ha
    · have : n = ['f'] := by simpa using hl.symm
      subst this
      decide
    · cases hf
    · exact absurd (by decide) hu
  · intro p h hf
    have key : ∀ f ∈ exTree, ∀ p h, f = .file p h → h < 1000 := by
      intro f hf p h he
      simp only [exTree, List.mem_cons, List.not_mem_nil, or_false] at hf
      rcases hf with rfl | rfl | rfl | rfl <;> cases he <;> decide
    exact ⟨⟨key _ hf p h rfl, key _ hf p h rfl⟩, rfl⟩

def exPackTree : Pack.Request := { exPack with compressFiles := exTree }

def exUnpackTree : Unpack.Request := { exUnpack with onZipFile := none }

/-- The file that packing makes. -/
@[irreducible] def exPacked (req : Pack.Request) : Bytes := (exPackRun req []).2.file 2

theorem exPacked_eq {req : Pack.Request} (h : req.writer = 2) : exPacked req = (exPackRun req []).2.file ((exPackWorld []).fd req.writer).ino := by
  rw [h, exPacked]
  rfl

/-- The world in which the packed file is unpacked. -/
def exTreeWorld : World := { disk [] with file := fun i => if i = 2 then exPacked exPackTree else [5] }

theorem eq_ok_of {ε α : Type} [DecidableEq α] {x : Except ε α} {a : α} (h : (match x with | .ok b => decide (b = a) | .error _ => false) = true) : x = .ok a := by
  cases x with
  | ok b => rw [of_decide_eq_true h]
  | error e => cases h

theorem exDisk_rest (f : Nat → Bytes) : ({ disk [] with file := f } : World).rest 2 = f 2 := rfl

theorem exTree_ok : TreeOk exTreeWorld :=
  ⟨(disk_ok []).distinct, fun k n h => ⟨((disk_ok []).parents k n h).1, (World.look_congr (by rfl) _).trans ((disk_ok []).parents k n h).2⟩⟩

theorem exTree_target : FreshTarget exTreeWorld exUnpackTree.outputDir := by
  have hway : ∀ q, OnTheWay exUnpackTree.outputDir q → q = [] ∨ q = [['a']] ∨ q = [['a'], ['o']] := by
    rintro q ⟨pre, hpre, rfl⟩
    have hlen : pre.length < 3 := Nat.lt_of_le_of_lt hpre.length_le (by decide)
    rw [List.prefix_iff_eq_take.1 hpre]
    generalize pre.length = n at hlen
    revert n
    decide +kernel
  refine ⟨by decide +kernel, fun q i hq => ?_, fun ns hns => ?_, fun q hq ns hns heq => ?_⟩
  · rcases hway q hq with rfl | rfl | rfl
    · have : exTreeWorld.look [] = some .dir := by decide +kernel
      rw [this]; simp
    · have : exTreeWorld.look [['a']] = some .dir := by decide +kernel
      rw [this]; simp
    · have : exTreeWorld.look [['a'], ['o']] = none := by decide +kernel
      rw [this]; simp
  · have hdir : exTreeWorld.dir.all (fun e => !([['a'], ['o']] : Path).isPrefixOf e.1) = true := by decide +kernel
    have ho : onPaper exUnpackTree.outputDir = [['a'], ['o']] := by decide +kernel
    rw [ho]
    cases hl : exTreeWorld.look ([['a'], ['o']] ++ ns) with
    | none => rfl
    | some n =>
      have hm := World.mem_of_look (by simp) hl
      have := List.all_eq_true.1 hdir _ hm
      simp at this
  · have ho : onPaper exUnpackTree.outputDir = [['a'], ['o']] := by decide +kernel
    rw [ho] at heq
    rcases hway q hq with rfl | rfl | rfl
    · cases heq
    · cases heq
    · exact hns (List.self_eq_append_right.1 heq)

/-- All hypotheses are met, and the result is not trivial: `b/c/f` is there with its content, `/z` and `b/../../u` are nowhere. -/
example : (exPackWorld []).sched = [] ∧ CanCreate (exPackWorld []) (tempPath exTmp (exPackWorld [])) ∧ Packable (exPackWorld []) exPackTree.compressFiles ∧
    (∀ f ∈ exPackTree.compressFiles, toyZip.storable (archived (exPackWorld []) f).name) ∧ OpenHandle (exPackWorld []) exPackTree.writer ∧
    (exPackWorld []).data exPackTree.writer = [] ∧ exPackTree.headerWriter = none ∧ exPackTree.headerType.version = .v5 ∧ exPackTree.headerType.mode = .streamMode ∧
    PrimitivesWork Example.toy exPackTree.headerType.algorithm exPackTree.hashingAlgorithm exPackTree.rawKey ∧
    (toyZip.encode (exPackTree.compressFiles.map (archived (exPackWorld [])))).length / 2 ^ 20 ≤ Example.toy.ctrMax ∧
    exTreeWorld.sched = [] ∧ TreeOk exTreeWorld ∧ OnlyTalks (Unpack.ask exUnpackTree.onZipFile) ∧ AcceptsNew exUnpackTree.outputDir (Unpack.ask exUnpackTree.onZipFile) ∧
    CanCreate exTreeWorld (tempPath exTmp exTreeWorld) ∧ FreshTarget exTreeWorld exUnpackTree.outputDir ∧
    ¬ onPaper exUnpackTree.outputDir <+: onPaper (tempPath exTmp exTreeWorld) ∧ ¬ OnTheWay exUnpackTree.outputDir (onPaper (tempPath exTmp exTreeWorld)) ∧
    exUnpackTree.headerReader = none ∧ OpenHandle exTreeWorld exUnpackTree.reader ∧ exUnpackTree.rawKey = exPackTree.rawKey ∧
    exTreeWorld.rest exUnpackTree.reader = (exPackRun exPackTree []).2.file ((exPackWorld []).fd exPackTree.writer).ino ∧
    (let run := Unpack.execute Example.toy toyZip exTmp [1, 0, 1] exUnpackTree exTreeWorld
     run = (.ok (), run.2) ∧ run.2.look [['a'], ['o'], ['b'], ['c'], ['f']] = some (.file 1001) ∧ run.2.file 1001 = [1, 2, 3] ∧ run.2.look [['a'], ['o'], ['z']] = none ∧
       run.2.look [['a'], ['u']] = none) := by
  refine ⟨rfl, ⟨onPaper (tempPath exTmp (exPackWorld [])), eq_ok_of (by decide +kernel), by decide +kernel, by decide +kernel⟩, exTree_packable [], by decide +kernel, ⟨by decide, by decide⟩, by decide +kernel, rfl, rfl, rfl,
    toy_works _ _ _ (by decide), by decide +kernel, rfl, exTree_ok, ⟨fun _ _ => rfl, fun _ _ => rfl, fun _ _ => rfl, fun _ _ => rfl, fun _ _ => rfl, fun _ _ => List.suffix_refl _⟩,
    fun _ _ _ _ => rfl, ⟨onPaper (tempPath exTmp exTreeWorld), eq_ok_of (by decide +kernel), by decide +kernel, by decide +kernel⟩, exTree_target, by decide +kernel, ?_, rfl, ⟨by decide, by decide⟩, rfl, ?_,
    run_of_fst (by decide +kernel), by decide +kernel, by decide +kernel, by decide +kernel, by decide +kernel⟩
  · rintro ⟨pre, hpre, heq⟩
    have hlen : pre.length < 3 := Nat.lt_of_le_of_lt hpre.length_le (by decide)
    rw [List.prefix_iff_eq_take.1 hpre] at heq
    generalize pre.length = n at hlen heq
    revert n
    decide +kernel
  · exact ((exDisk_rest _).trans (if_pos rfl)).trans (exPacked_eq rfl)

/-! #### What the restriction on backslashes is for -/

/-- A file whose name ends with a backslash. -/
def exBackslash : Pack.Request := { exPack with compressFiles := [.file ⟨false, [], [.name ['f', '\\']]⟩ 0] }

def exBackslashWorld : World := { disk [] with file := fun i => if i = 2 then exPacked exBackslash else [5] }

theorem exBackslash_target : FreshTarget exBackslashWorld exUnpackTree.outputDir := by
  have h : ∀ q, exBackslashWorld.look q = exTreeWorld.look q := fun q => World.look_congr (by rfl) q
  have ht := exTree_target
  exact ⟨(h _).trans ht.start, fun q i hq => by rw [h]; exact ht.way q i hq, fun ns hns => (h _).trans (ht.below ns hns), ht.inward⟩

def exBackslashRun : Res Unpack.Error Unit × World := Unpack.execute Example.toy toyZip exTmp [1, 0, 1] exUnpackTree exBackslashWorld

/-- **C42 needs the restriction on names.**  A file whose name ends with a backslash can be packed; unpacking succeeds, but does not restore it (in its place there is an empty
directory). -/
theorem C42_backslash : ¬ ∀ (C : Crypto) (z : Zip) (tmp tmp' : PathBuf) (order : List Nat) (req : Pack.Request) (ureq : Unpack.Request) (w w' v v' : World) (p : PathBuf) (h : Nat)
    (n : Name), C.Lawful → z.Lawful → req.compressFiles = [.file p h] → Named (.file p h) [n] → Plain n → w.sched = [] → v.sched = [] →
    Pack.execute C z tmp req w = (.ok (), w') → FreshTarget v ureq.outputDir → ureq.onZipFile = none → ureq.headerReader = none → ureq.rawKey = req.rawKey →
    v.rest ureq.reader = w'.file (w.fd req.writer).ino → Unpack.execute C z tmp' order ureq v = (.ok (), v') → Restored req.compressFiles w (onPaper ureq.outputDir) v' := by
  intro hall
  have h1 : (exPackRun exBackslash []).1 = .ok () := by decide +kernel
  have h2 : exBackslashRun.1 = .ok () := by decide +kernel
  have h3 : exBackslashRun.2.look (onPaper exUnpackTree.outputDir ++ [['f', '\\']]) = some .dir := by decide +kernel
  have e1 : Pack.execute Example.toy toyZip exTmp exBackslash (exPackWorld []) = (.ok (), (exPackRun exBackslash []).2) := run_of_fst (x := exPackRun exBackslash []) h1
  have e2 : Unpack.execute Example.toy toyZip exTmp [1, 0, 1] exUnpackTree exBackslashWorld = (.ok (), exBackslashRun.2) := run_of_fst (x := exBackslashRun) h2
  have e3 : exBackslashWorld.rest exUnpackTree.reader = (exPackRun exBackslash []).2.file ((exPackWorld []).fd exBackslash.writer).ino :=
    ((exDisk_rest _).trans (if_pos rfl)).trans (exPacked_eq rfl)
  have hr := hall Example.toy toyZip exTmp exTmp [1, 0, 1] exBackslash exUnpackTree (exPackWorld []) (exPackRun exBackslash []).2 exBackslashWorld exBackslashRun.2 ⟨false, [], [.name ['f', '\\']]⟩ 0 ['f', '\\']
    (Example.toy_lawful _ (by decide)) toyZip_lawful rfl ⟨rfl, rfl⟩ ⟨by decide, by decide, by decide, by decide, by decide⟩ rfl rfl e1 exBackslash_target rfl rfl rfl e3 e2
  obtain ⟨j, hj, -⟩ := hr.files _ 0 [['f', '\\']] List.mem_cons_self ⟨rfl, rfl⟩
  have hj : exBackslashRun.2.look (onPaper exUnpackTree.outputDir ++ [['f', '\\']]) = some (.file j) := hj
  rw [h3] at hj
  cases hj

end Volaris.Props
