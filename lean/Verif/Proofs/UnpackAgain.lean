import Verif.Proofs.RetryUnpack
import Verif.Proofs.EraseRetry
/-!
# Unpacking that is killed and started again, over what is there
-/
namespace Volaris.Cli
open Volaris.Spec Volaris.Pack
variable {σ : Type}

/-- What packing stores, by its entries. -/
structure Stores (cwd : Path) (inputs : List (List Char)) (w : World) (fs : List Storage.Entry) : Prop where
  fromDir : ∀ p x, Storage.Entry.dir p ∈ fs → Named (.dir p) x → PackedAs cwd inputs w .dir x
  fromFile : ∀ p g x, Storage.Entry.file p g ∈ fs → Named (.file p g) x → ∃ i, PackedAs cwd inputs w (.file i) x
  apart : ∀ x y i, PackedAs cwd inputs w (.file i) x → PackedAs cwd inputs w .dir y → ¬ x <+: y

theorem stores {cwd : Path} {inputs : List (List Char)} {w u : World} {fs : List Storage.Entry} (hlist : Listing cwd inputs w u fs) (hsrc : ∀ f ∈ inputs, ∃ ns, Plainly cwd f ns) (hfs : Packable u fs) :
    Stores cwd inputs w fs := by
  have named : ∀ {f ns ms} (e : Storage.Entry), Plainly cwd f ns → pathOf e = (toPath cwd f).push (ms.map .name) → Named e (ns ++ ms) := by
    intro f ns ms e hp he
    refine ⟨by rw [he]; exact hp.relative, ?_⟩
    rw [he]
    show (toPath cwd f).comps ++ _ = _
    rw [hp.names, List.map_append]
  have from_ : ∀ (e : Storage.Entry) x, e ∈ fs → Named e x → (e = .dir (pathOf e) ∧ PackedAs cwd inputs w .dir x) ∨ ∃ h i, e = .file (pathOf e) h ∧ PackedAs cwd inputs w (.file i) x := by
    intro e x he hn
    obtain ⟨f, hf, D, zs, hD, hpe, hk⟩ := hlist.only e he
    obtain ⟨ns, hp⟩ := hsrc f hf
    have hx : x = ns ++ zs := by
      have := (named e hp hpe).2
      rw [hn.2] at this
      exact List.map_inj_right (fun _ _ h => Comp.name.inj h) |>.1 this
    rcases hk with ⟨h1, h2⟩ | ⟨hd, i, h1, h2, -⟩
    · exact .inl ⟨h1, f, hf, ns, D, zs, hp, hD, h2, hx⟩
    · exact .inr ⟨hd, i, h1, f, hf, ns, D, zs, hp, hD, h2, hx⟩
  refine ⟨fun p x he hn => ?_, fun p g x he hn => ?_, ?_⟩
  · rcases from_ _ x he hn with h | ⟨_, _, h, -⟩
    · exact h.2
    · cases h
  · rcases from_ _ x he hn with h | ⟨_, i, -, h⟩
    · cases h.1
    · exact ⟨i, h⟩
  · rintro x y i ⟨f, hf, ns, D, ms, hp, hD, hl, rfl⟩ ⟨f', hf', ns', D', ms', hp', hD', hl', rfl⟩
    obtain ⟨g, h1, -⟩ := hlist.files f hf D hD ms i hl
    have h2 := hlist.dirs f' hf' D' hD' ms' hl'
    exact hfs.apart _ _ _ h1 h2 _ _ (named _ hp rfl) (named _ hp' rfl)

/-- Where directories come. -/
def DirPlace (cwd : Path) (inputs : List (List Char)) (w : World) (out : PathBuf) (q : Path) : Prop :=
  OnTheWay out q ∨ ∃ x z, PackedAs cwd inputs w .dir x ∧ z <+: x ∧ q = onPaper out ++ z

/-- Where files come. -/
def FilePlace (cwd : Path) (inputs : List (List Char)) (w : World) (out : PathBuf) (q : Path) : Prop := ∃ x i, PackedAs cwd inputs w (.file i) x ∧ q = onPaper out ++ x

theorem onTheWay_names {out : PathBuf} {ns : List Name} {q : Path} (hq : OnTheWay (out.push (ns.map .name)) q) : OnTheWay out q ∨ ∃ z, z <+: ns ∧ q = onPaper out ++ z := by
  obtain ⟨pre, hp, rfl⟩ := hq
  have hp : pre <+: out.comps ++ ns.map .name := hp
  rcases List.prefix_or_prefix_of_prefix hp (List.prefix_append out.comps _) with h1 | ⟨t, rfl⟩
  · exact .inl ⟨pre, h1, rfl⟩
  · right
    have ht : t <+: ns.map .name := (List.prefix_append_right_inj _).1 hp
    obtain ⟨z, hz, rfl⟩ := List.prefix_map_iff.1 ht
    exact ⟨z, hz, Unpack.onPaper_push out z⟩

section
variable {cwd : Path} {inputs : List (List Char)} {w u : World} {fs : List Storage.Entry}

theorem dirMember_place (h : Stores cwd inputs w fs) (hfs : Packable u fs) {out : PathBuf} {q : Path} (hq : DirMember out (fs.map (packed u)) q) : DirPlace cwd inputs w out q := by
  rcases hq with hq | ⟨m, hm, -, hd, cs, hcs, hq⟩
  · exact .inl hq
  · obtain ⟨f, hf, rfl⟩ := List.mem_map.1 hm
    obtain ⟨h1, h2⟩ := enclosed_stored hfs hf
    change ZipName.enclosed (stored u f).name = some cs at hcs
    change ZipName.isDir (stored u f).name = true at hd
    by_cases hn : ∃ ns, Named f ns
    · obtain ⟨ns, hn⟩ := hn
      obtain ⟨h3, h4⟩ := h1 ns hn
      rw [hcs] at h3
      rw [hd] at h4
      cases h3
      cases f with
      | file p g => cases h4
      | dir p =>
        rcases onTheWay_names hq with hq | ⟨z, hz, rfl⟩
        · exact .inl hq
        · exact .inr ⟨ns, z, h.fromDir p ns hf hn, hz, rfl⟩
    · rw [h2 hn] at hcs; cases hcs

theorem fileMember_place (h : Stores cwd inputs w fs) (hfs : Packable u fs) {out : PathBuf} {q : Path} (hq : FileMember out (fs.map (packed u)) q) : FilePlace cwd inputs w out q := by
  obtain ⟨m, hm, -, hd, cs, hcs, rfl⟩ := hq
  obtain ⟨f, hf, rfl⟩ := List.mem_map.1 hm
  obtain ⟨h1, h2⟩ := enclosed_stored hfs hf
  change ZipName.enclosed (stored u f).name = some cs at hcs
  change ZipName.isDir (stored u f).name = false at hd
  by_cases hn : ∃ ns, Named f ns
  · obtain ⟨ns, hn⟩ := hn
    obtain ⟨h3, h4⟩ := h1 ns hn
    rw [hcs] at h3
    rw [hd] at h4
    cases h3
    cases f with
    | dir p => cases h4
    | file p g =>
      obtain ⟨i, hi⟩ := h.fromFile p g ns hf hn
      exact ⟨ns, i, hi, Unpack.onPaper_push out ns⟩
  · rw [h2 hn] at hcs; cases hcs

end

/-- Some of the work is done. -/
structure Began (D F : Path → Prop) (v y : World) : Prop where
  look : ∀ q, y.look q = v.look q ∨ (v.look q = none ∧ y.look q = some .dir ∧ D q) ∨ (v.look q = none ∧ F q ∧ ∃ j, v.nextIno ≤ j ∧ y.look q = some (.file j))
  files : ∀ j, j < v.nextIno → (∀ q, F q → v.look q ≠ some (.file j)) → y.file j = v.file j
  nextIno : v.nextIno ≤ y.nextIno
  allocated : Allocated y
  tree : TreeOk y
  unshared : ∀ q q' i, q ≠ q' → y.look q = some (.file i) → y.look q' = some (.file i) → v.look q = some (.file i) ∧ v.look q' = some (.file i)

namespace Began
variable {D F : Path → Prop} {v y x : World}

theorem same (hal : Allocated v) (ht : TreeOk v) (h : y.disk = v.disk) : Began D F v y where
  look q := .inl (World.look_congr (disk_dir h) q)
  files j _ _ := by rw [disk_file h]
  nextIno := by rw [disk_nextIno h]; exact Nat.le_refl _
  allocated q i hq := by rw [disk_nextIno h]; rw [World.look_congr (disk_dir h)] at hq; exact hal q i hq
  tree := ht.congr (disk_dir h)
  unshared q q' i _ h1 h2 := by rw [World.look_congr (disk_dir h)] at h1 h2; exact ⟨h1, h2⟩

theorem keeps (h : Began D F v y) {q : Path} {n : Node} (hl : v.look q = some n) : y.look q = some n := by
  rcases h.look q with h1 | ⟨h1, _⟩ | ⟨h1, _⟩
  · rw [h1]; exact hl
  · rw [h1] at hl; cases hl
  · rw [h1] at hl; cases hl

theorem trans {F' : Path → Prop} (h : Began D F v y) (g : Began D F' y x) (hF : ∀ q, F' q → F q) : Began D F v x where
  look q := by
    rcases g.look q with g1 | ⟨g1, g2, g3⟩ | ⟨g1, g2, k, g3, g4⟩
    · rw [g1]; exact h.look q
    · rcases h.look q with h1 | ⟨_, h1, _⟩ | ⟨_, _, j, _, h1⟩
      · exact .inr (.inl ⟨h1 ▸ g1, g2, g3⟩)
      · rw [h1] at g1; cases g1
      · rw [h1] at g1; cases g1
    · rcases h.look q with h1 | ⟨_, h1, _⟩ | ⟨_, _, j, _, h1⟩
      · exact .inr (.inr ⟨h1 ▸ g1, hF q g2, k, Nat.le_trans h.nextIno g3, g4⟩)
      · rw [h1] at g1; cases g1
      · rw [h1] at g1; cases g1
  files j hj hn := by
    rw [g.files j (Nat.lt_of_lt_of_le hj h.nextIno) ?_, h.files j hj hn]
    intro q hq hl
    rcases h.look q with h1 | ⟨_, h1, _⟩ | ⟨_, _, k, h3, h4⟩
    · exact hn q (hF q hq) (h1 ▸ hl)
    · rw [h1] at hl; cases hl
    · rw [h4] at hl; cases hl; omega
  nextIno := Nat.le_trans h.nextIno g.nextIno
  allocated := g.allocated
  tree := g.tree
  unshared q q' i hne h1 h2 := by
    obtain ⟨g1, g2⟩ := g.unshared q q' i hne h1 h2
    exact h.unshared q q' i hne g1 g2

theorem stopped {ε α : Type} {c : Prog ε α} (hc : Crashes c) (hal : Allocated v) (ht : TreeOk v) (hs : StoppedAt c v y) {y' : World} (hd : y.disk = y'.disk) (he : Extracts D F v y') : Began D F v y := by
  obtain ⟨s, r, w', hr, hdw⟩ := hc.stopped hs
  have ha' : Allocated (v.withSched s) := fun q i h => hal q i h
  have e2 : (c (v.withSched s)).2 = w' := by rw [hr]
  refine ⟨fun q => ?_, fun j hj hF => ?_, ?_, fun q i hq => ?_, ?_, fun q q' i hne h1 h2 => ?_⟩
  · rw [World.look_congr (disk_dir hd)]; exact he.look q
  · rw [disk_file hd]; exact he.files j hj hF
  · rw [disk_nextIno hd]; exact he.nextIno
  · rw [disk_nextIno hdw]
    rw [World.look_congr (disk_dir hdw)] at hq
    have := allocated_crashes hc ha'
    rw [e2] at this
    exact this q i hq
  · have := (hc (v.withSched s)).tree (Props.treeOk_withSched s ht)
    rw [hr] at this
    exact this.congr (disk_dir hdw)
  · rw [World.look_congr (disk_dir hdw)] at h1 h2
    rw [← e2] at h1 h2
    exact unshared_crashes hc ha' hne h1 h2

end Began

section
variable {s : Sys σ} {cwd : Path} {inputs : List (List Char)} {w u v y : World} {fs : List Storage.Entry} {input output : List Char} {c : Bytes}

/-- Where files can come, on a machine. -/
def AnyFile (s : Sys σ) (cwd : Path) (inputs : List (List Char)) (w : World) (output : List Char) (v : World) (q : Path) : Prop :=
  FilePlace cwd inputs w (toPath s.cwd output) q ∨ (TempPlace s.tmp q ∧ v.look q = none)

theorem packedFile_ne {i : Nat} {x : List Name} (h : PackedAs cwd inputs w (.file i) x) : x ≠ [] := by
  obtain ⟨f, _, ns, D, ms, hp, _, _, rfl⟩ := h
  intro e
  exact hp.some (List.append_eq_nil_iff.1 e).1

/-- The ground is still good. -/
theorem _root_.Volaris.Spec.OverGround.after (hS : Stores cwd inputs w fs) (g : OverGround s cwd inputs w input output c v)
    (h : Began (DirPlace cwd inputs w (toPath s.cwd output)) (AnyFile s cwd inputs w output v) v y) : OverGround s cwd inputs w input output c y where
  tree := h.tree
  allocated := h.allocated
  source := by
    obtain ⟨q, i, hq, hc, hno⟩ := g.source
    refine ⟨q, i, ⟨World.resolve_mono (w := v) (fun d hd => h.keeps hd) hq.resolve, h.keeps hq.look⟩, ?_, fun x k hx hl => ?_⟩
    · rw [h.files i (g.allocated _ _ hq.look) ?_, hc]
      rintro p (⟨x, k, hx, rfl⟩ | ⟨-, hn⟩) hl
      · exact hno x k hx hl
      · rw [hn] at hl; cases hl
    · rcases h.look (onPaper (toPath s.cwd output) ++ x) with h1 | ⟨-, h1, -⟩ | ⟨-, -, j, hj, h1⟩
      · exact hno x k hx (h1 ▸ hl)
      · rw [h1] at hl; cases hl
      · rw [h1] at hl; cases hl
        have := g.allocated _ _ hq.look
        omega
  target := by
    refine ⟨h.keeps g.target.start, fun q i hq hl => ?_, g.target.inward, fun x hx z k hz hl => ?_, fun x i hx hl => ?_, fun x i z j hx hz hne k hl hl' => ?_⟩
    · rcases h.look q with h1 | ⟨-, h1, -⟩ | ⟨-, ⟨x, k, hx, rfl⟩ | ⟨h1, h2⟩, -⟩
      · exact g.target.way q i hq (h1 ▸ hl)
      · rw [h1] at hl; cases hl
      · exact g.target.inward _ hq x (packedFile_ne hx) rfl
      · exact (g.temps q h1 h2).2 hq
    · rcases h.look (onPaper (toPath s.cwd output) ++ z) with h1 | ⟨-, h1, -⟩ | ⟨-, ⟨x', k, hx', he⟩ | ⟨h1, h2⟩, -⟩
      · exact g.target.dirs x hx z k hz (h1 ▸ hl)
      · rw [h1] at hl; cases hl
      · rw [List.append_cancel_left_eq] at he
        subst he
        exact hS.apart _ _ _ hx' hx hz
      · exact (g.temps _ h1 h2).1 (List.prefix_append _ _)
    · rcases h.look (onPaper (toPath s.cwd output) ++ x) with h1 | ⟨-, -, hq | ⟨x', z, hx', hz, he⟩⟩ | ⟨-, -, j, hj, h1⟩
      · exact g.target.files x i hx (h1 ▸ hl)
      · exact g.target.inward _ hq x (packedFile_ne hx) rfl
      · rw [List.append_cancel_left_eq] at he
        subst he
        exact hS.apart _ _ _ hx hx' hz
      · rw [h1] at hl; cases hl
    · obtain ⟨h1, h2⟩ := h.unshared _ _ k (fun e => hne (List.append_cancel_left e)) hl hl'
      exact g.target.alone x i z j hx hz hne k h1 h2
  temps q hq hn := by
    refine g.temps q hq ?_
    cases hl : v.look q with
    | none => rfl
    | some n => rw [h.keeps hl] at hn; cases hn

theorem unpack_killed_step (hz : s.z.Lawful) (hC : s.C.Lawful) (verbose : Bool) (params : CryptoParams) (hh : params.header = none) (hS : Stores cwd inputs w fs) (hfs : Packable u fs)
    (hst : ∀ f ∈ fs, s.z.storable (stored u f).name) {secret : Bytes} (hP : DecryptsTo s.C secret c (s.z.encode (fs.map (stored u)))) (g : OverGround s cwd inputs w input output c v) (hns : ∀ k, Io.short k ∉ v.sched)
    (hsup : ∀ k, Supplies s.words s.cwd .direct params.key v k → k = secret) (h : StoppedAt (unpackMode s input output verbose params) v y) :
    Began (DirPlace cwd inputs w (toPath s.cwd output)) (AnyFile s cwd inputs w output v) v y := by
  obtain ⟨q, i, hq, rfl, -⟩ := g.source
  obtain ⟨y', hd, hp⟩ := unpackMode_stopped s input output verbose params (s.z.encode (fs.map (stored u))) q i g.allocated g.target.start hh hq hns
    (fun k hk => by rw [hsup k hk]; exact ConcLook.only_of_decryptsTo hC hP) h
  refine Began.stopped (unpackMode_crashes _ _ _ _ _) g.allocated g.tree h hd ?_
  rcases hp with hp | ⟨ms, hms, hp⟩
  · exact hp.mono (fun _ h => h.elim) fun _ h => .inr h
  · rw [hz.decode_encode _ (stored_nodup hfs u) (by
      intro e he
      obtain ⟨f, hf, rfl⟩ := List.mem_map.1 he
      exact hst f hf), List.map_map] at hms
    have hms : some (fs.map (packed u)) = some ms := hms
    cases hms
    exact hp.mono (fun _ h => dirMember_place hS hfs h) fun _ h => h.imp (fun h => fileMember_place hS hfs h) id

theorem unpack_killed (hz : s.z.Lawful) (hC : s.C.Lawful) (verbose : Bool) (params : CryptoParams) (hh : params.header = none) (hS : Stores cwd inputs w fs) (hfs : Packable u fs)
    (hst : ∀ f ∈ fs, s.z.storable (stored u f).name) {secret : Bytes} (hP : DecryptsTo s.C secret c (s.z.encode (fs.map (stored u)))) (h : UnpackKilled s input output verbose params secret v y)
    (g : OverGround s cwd inputs w input output c v) : Began (DirPlace cwd inputs w (toPath s.cwd output)) (AnyFile s cwd inputs w output v) v y := by
  induction h with
  | never h => exact .same g.allocated g.tree h
  | @again v y x force hns hsup h hn ih =>
    have h1 := unpack_killed_step hz hC verbose { params with force } hh hS hfs hst hP g hns hsup h
    refine h1.trans (ih (g.after hS h1)) ?_
    rintro q (hq | ⟨h2, h3⟩)
    · exact .inl hq
    · refine .inr ⟨h2, ?_⟩
      cases hl : v.look q with
      | none => rfl
      | some n => rw [h1.keeps hl] at h3; cases h3

theorem unpackMode_again (hz : s.z.Lawful) (hC : s.C.Lawful) (verbose : Bool) (params : CryptoParams) (hh : params.header = none) (hlist : Listing cwd inputs w u fs) (hsrc : ∀ f ∈ inputs, ∃ ns, Plainly cwd f ns) (hfs : Packable u fs)
    (hst : ∀ f ∈ fs, s.z.storable (stored u f).name) {secret : Bytes} (hP : DecryptsTo s.C secret c (s.z.encode (fs.map (stored u)))) (g : OverGround s cwd inputs w input output c v)
    (h : UnpackKilled s input output verbose params secret v y) (hn : OverNext s output params.key secret y) :
    ∃ y', unpackMode s input output verbose { params with force := .forced } y = (.ok (), y') ∧ Overlaid (TempPlace s.tmp) cwd inputs w (toPath s.cwd output) v y' := by
  have hS := stores hlist hsrc hfs
  have hb := unpack_killed hz hC verbose params hh hS hfs hst hP h g
  have g' := g.after hS hb
  obtain ⟨q, i, hq, hc, -⟩ := g'.source
  obtain ⟨y', h1, h2⟩ := unpackMode_over s hz cwd inputs w input output verbose { params with force := .forced } secret c
    ⟨hn.faultless, g'.tree, g'.allocated, hh, rfl, ⟨q, i, hq, hc⟩, hn.supplied, g'.target, hn.temp⟩ hlist hsrc hfs hst hP
  refine ⟨y', h1, h2.root, h2.way, h2.dirs, h2.files, fun q n hl => h2.kept q n (hb.keeps hl), fun q hl => ?_, fun k hk hno => ?_⟩
  · by_cases he : y'.look q = y.look q
    · rw [he] at hl
      rcases hb.look q with h3 | ⟨-, -, h3 | ⟨x, z, hx, hz, rfl⟩⟩ | ⟨-, ⟨x, i, hx, rfl⟩ | ⟨h3, -⟩, -⟩
      · exact absurd h3 hl
      · exact .inl h3
      · exact .inr (.inl ⟨z, x, _, rfl, hx, hz⟩)
      · exact .inr (.inl ⟨x, x, _, rfl, hx, List.prefix_refl _⟩)
      · exact .inr (.inr h3)
    · rcases h2.new q he with h3 | h3 | h3
      · exact .inl h3
      · exact .inr (.inl h3)
      · exact h3.elim
  · rw [h2.others k (Nat.lt_of_lt_of_le hk hb.nextIno) ?_, hb.files k hk ?_]
    · rintro p (⟨x, i, hx, rfl⟩ | ⟨-, hn⟩) hl
      · exact hno x i hx hl
      · rw [hn] at hl; cases hl
    · intro x i hx hl
      rcases hb.look (onPaper (toPath s.cwd output) ++ x) with h3 | ⟨-, h3, -⟩ | ⟨-, -, j, hj, h3⟩
      · exact hno x i hx (h3 ▸ hl)
      · rw [h3] at hl; cases hl
      · rw [h3] at hl; cases hl; omega

/-- A run that has come to its end. -/
theorem Crashes.ended {ε α : Type} {c : Prog ε α} (hc : Crashes c) {v v' : World} {r : Res ε α} (h : c v = (r, v')) : StoppedAt c v v' := by
  obtain ⟨es, h1, h2, -⟩ := (hc v).log
  rw [h] at h2
  exact ⟨es, h1, by rw [show v'.disk = _ from h2]; exact Moment.finish es _⟩

theorem unpackMode_twice (hz : s.z.Lawful) (hC : s.C.Lawful) (verbose verbose' : Bool) (params params' : CryptoParams) (hh : params.header = none) (hh' : params'.header = none) (hlist : Listing cwd inputs w u fs)
    (hsrc : ∀ f ∈ inputs, ∃ ns, Plainly cwd f ns) (hfs : Packable u fs) (hst : ∀ f ∈ fs, s.z.storable (stored u f).name) {secret : Bytes} (hP : DecryptsTo s.C secret c (s.z.encode (fs.map (stored u))))
    (g : OverGround s cwd inputs w input output c v) (hn : OverNext s output params.key secret v) (hsup : ∀ k, Supplies s.words s.cwd .direct params.key v k → k = secret) :
    ∃ v', unpackMode s input output verbose { params with force := .forced } v = (.ok (), v') ∧ ∀ y, y.disk = v'.disk → OverNext s output params'.key secret y →
      ∃ y', unpackMode s input output verbose' { params' with force := .forced } y = (.ok (), y') ∧ (∀ q, y'.look q = v'.look q) ∧ ∀ q k, v'.look q = some (.file k) → y'.file k = v'.file k := by
  have hS := stores hlist hsrc hfs
  obtain ⟨q, i, hq, hc, -⟩ := g.source
  obtain ⟨v', h1, o1⟩ := unpackMode_over s hz cwd inputs w input output verbose { params with force := .forced } secret c
    ⟨hn.faultless, g.tree, g.allocated, hh, rfl, ⟨q, i, hq, hc⟩, hn.supplied, g.target, hn.temp⟩ hlist hsrc hfs hst hP
  have hb := unpack_killed_step hz hC verbose { params with force := .forced } hh hS hfs hst hP g (by rw [hn.faultless]; exact fun k hk => nomatch hk) hsup (Crashes.ended (unpackMode_crashes _ _ _ _ _) h1)
  have g' := g.after hS hb
  refine ⟨v', h1, fun y hy hn' => ?_⟩
  have hly : ∀ q, y.look q = v'.look q := World.look_congr (disk_dir hy)
  have g2 : OverGround s cwd inputs w input output c y := g'.after hS (.same g'.allocated g'.tree hy)
  obtain ⟨q2, i2, hq2, hc2, -⟩ := g2.source
  obtain ⟨y', h2, o2⟩ := unpackMode_over s hz cwd inputs w input output verbose' { params' with force := .forced } secret c
    ⟨hn'.faultless, g2.tree, g2.allocated, hh', rfl, ⟨q2, i2, hq2, hc2⟩, hn'.supplied, g2.target, hn'.temp⟩ hlist hsrc hfs hst hP
  have hlook : ∀ q, y'.look q = v'.look q := by
    intro q
    cases hl : v'.look q with
    | some n => exact o2.kept q n ((hly q).trans hl)
    | none =>
      by_cases he : y'.look q = y.look q
      · rw [he, hly, hl]
      · exfalso
        rcases o2.new q he with h | ⟨z, x, n, rfl, hx, hz⟩ | h
        · rw [o1.way q h] at hl; cases hl
        · have := nothing_below hb.tree hl (onPaper (toPath s.cwd output) ++ x) ((List.prefix_append_right_inj _).2 hz)
          cases n with
          | dir => rw [o1.dirs x hx] at this; cases this
          | file k =>
            obtain ⟨j, hj, -⟩ := o1.files x k hx
            rw [hj] at this; cases this
        · exact h
  refine ⟨y', h2, hlook, fun q k hq => ?_⟩
  by_cases hp : ∃ x i, PackedAs cwd inputs w (.file i) x ∧ v'.look (onPaper (toPath s.cwd output) ++ x) = some (.file k)
  · obtain ⟨x, i, hx, hk⟩ := hp
    obtain ⟨j, hj, hf⟩ := o1.files x i hx
    obtain ⟨j', hj', hf'⟩ := o2.files x i hx
    rw [hk] at hj
    cases hj
    rw [hlook, hk] at hj'
    cases hj'
    rw [hf, hf']
  · rw [o2.others k (by rw [disk_nextIno hy]; exact hb.allocated q k hq) (fun x i hx hl => hp ⟨x, i, hx, by rw [← hly]; exact hl⟩), disk_file hy]

end

end Volaris.Cli
