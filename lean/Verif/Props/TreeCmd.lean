import Verif.Proofs.PackSession
import Verif.Props.CmdRoundTrip
import Verif.Props.UnpackCmd
import Verif.Props.PackCmd
/-!
# The pack and unpack commands, one after the other
-/
namespace Volaris.Props
open Spec Example Cli
variable {σ : Type}

/-- What the pack command leaves behind when everything is in place. -/
theorem packed_then (s : Sys σ) (hC : s.C.Lawful) (inputs : List (List Char)) (output : List Char) (pp : PackParams) (params : CryptoParams)
    (a : Algorithm) (secret : Bytes) (w : World) (hpp : pp.eraseSource = true → params.force = .forced) (h : PackReady s inputs output params a secret w) :
    ∃ w' q j u0 fs, packMode s inputs output pp params a w = (.ok (), w') ∧ w.resolve (toPath s.cwd output) = .ok q ∧ w'.look q = some (.file j) ∧
      (pp.eraseSource = false → LeadsToFile w' (toPath s.cwd output) q j) ∧
      (pp.eraseSource = true → ∀ x, InSource s.cwd inputs w x → x ≠ [] → w'.look x = none) ∧
      Listing s.cwd inputs w u0 fs ∧ Packable u0 fs ∧ (∀ f ∈ fs, s.z.storable (Pack.stored u0 f).name) ∧ DecryptsTo s.C secret (w'.file j) (s.z.encode (fs.map (Pack.stored u0))) := by
  obtain ⟨u, c, u0, fs, h1, ⟨q, j, hq, hc⟩, h3, h4, h5, h6, -, hus, hother⟩ := packMode_ran s hC inputs output ⟨false⟩ params a secret rfl h
  have hfr := C67_frame s inputs output ⟨false⟩ params a w u _ h.tree h1
  obtain ⟨qo, hqo, -⟩ := h.target
  have hwu : ∀ x, w.look x = some .dir → u.look x = some .dir := by
    intro x hx
    rcases hfr.1 x with g | ⟨g, -⟩ | ⟨-, -, g, -⟩
    · rw [g]; exact hx
    · rw [hx] at g; cases g
    · cases g
  have hqe : q = qo := by
    have := World.resolve_mono (w := w) (w' := u) hwu hqo
    rw [hq.resolve] at this
    cases this
    rfl
  subst hqe
  rcases pp with ⟨er⟩
  cases er with
  | false => exact ⟨u, q, j, u0, fs, h1, hqo, hq.look, fun _ => hq, (fun e => nomatch e), h3, h4, h5, hc.symm ▸ h6⟩
  | true =>
    have hlead : ∀ f ∈ inputs, ∃ T, LeadsToDir u (toPath s.cwd f) T := fun f hf => by
      obtain ⟨T, hT⟩ := (h.sources f hf).2
      exact ⟨T, World.resolve_mono hwu hT.resolve, hwu _ hT.look⟩
    have hut : TreeOk u := by
      have := (packMode_crashes s inputs output ⟨false⟩ params a w).tree h.tree
      rw [h1] at this
      exact this
    have hok := eraseInputs_forced s inputs u hus hut (fun f hf => ⟨(h.sources f hf).1, hlead f hf⟩) h.disjoint
    obtain ⟨r, w1, hr, her, -, hgone⟩ := eraseInputs_cases s .forced inputs u hut (fun f hf q i g => by
      obtain ⟨T, hT⟩ := hlead f hf
      have := hT.resolve
      rw [g.resolve] at this
      cases this
      have := hT.look
      rw [g.look] at this
      cases this)
    rw [hr] at hok
    cases hok
    have hT : ∀ f ∈ inputs, ∀ T, LeadsToDir u (toPath s.cwd f) T → LeadsToDir w (toPath s.cwd f) T := by
      intro f hf T hT
      obtain ⟨T', hT'⟩ := (h.sources f hf).2
      have := World.resolve_mono (w := w) (w' := u) hwu hT'.resolve
      rw [hT.resolve] at this
      cases this
      exact hT'
    have hin : ∀ x, InSource s.cwd inputs u x → InSource s.cwd inputs w x := fun x ⟨f, hf, T, g, hx⟩ => ⟨f, hf, T, hT f hf T g, hx⟩
    obtain ⟨hnot, hnotf⟩ := h.outside.out q hqo
    have hj : w1.file j = u.file j := by
      refine her.files j fun x hx hl => ?_
      have hxw := hin x hx
      have hxq : x ≠ q := by rintro rfl; exact hnot hxw
      rw [hother q hqo x hxq] at hl
      rcases hfr.1 q with g | ⟨-, -, j', g1, g2⟩ | ⟨-, -, g, -⟩
      · rw [hq.look] at g
        exact hnotf j g.symm x hxw hl
      · rw [hq.look] at g2
        cases g2
        exact absurd (h.outside.allocated x j hl) (by omega)
      · cases g
    refine ⟨w1, q, j, u0, fs, ?_, hqo, by rw [her.outside _ fun g => hnot (hin _ g)]; exact hq.look, (fun e => nomatch e), fun _ x hx hne => ?_, h3, h4, h5, (hj.trans hc).symm ▸ h6⟩
    · rw [packMode_split, Prog.bind_ok h1, hpp rfl]
      exact hr
    · obtain ⟨f, hf, T, hT0, hx⟩ := hx
      obtain ⟨T', hT', g, -⟩ := hgone rfl f hf
      have := (hT f hf T' hT').resolve
      rw [hT0.resolve] at this
      cases this
      exact g x hx hne

/-! ### C70 -/

/-- **C70.** When everything is in place, and the inputs are not to be erased or need not be asked for, the pack command succeeds, and from then on its output can be unpacked: on whatever machine (`s'`, with the same primitives and zip code) and in whatever
directory tree `v` the file turns up, the unpack command with the same secret succeeds, and below its output directory there is then exactly what was below the inputs of the pack command: every
directory (the empty ones too) and every file with its content, under the same relative paths, and nothing else. -/
theorem C70_round_trip (s s' : Sys σ) (hC : s.C.Lawful) (hz : s.z.Lawful) (hs : s'.C = s.C ∧ s'.z = s.z) (inputs : List (List Char)) (output : List Char) (pp : PackParams) (params : CryptoParams)
    (a : Algorithm) (secret : Bytes) (w : World) (hpp : pp.eraseSource = true → params.force = .forced) (h : PackReady s inputs output params a secret w) :
    ∃ w' q j, packMode s inputs output pp params a w = (.ok (), w') ∧ w.resolve (toPath s.cwd output) = .ok q ∧ w'.look q = some (.file j) ∧
      (pp.eraseSource = false → LeadsToFile w' (toPath s.cwd output) q j) ∧
      (pp.eraseSource = true → ∀ x, InSource s.cwd inputs w x → x ≠ [] → w'.look x = none) ∧
      ∀ (input' output' : List Char) (verbose : Bool) (params' : CryptoParams) (v : World), UnpackReady s' input' output' params' secret (w'.file j) v →
        ∃ v', unpackMode s' input' output' verbose params' v = (.ok (), v') ∧ Returned s.cwd inputs w (onPaper (toPath s'.cwd output')) v' := by
  obtain ⟨w', q, j, u0, fs, h1, h2, h3, h4, h5, hl, hp, hst, hd⟩ := packed_then s hC inputs output pp params a secret w hpp h
  refine ⟨w', q, j, h1, h2, h3, h4, h5, fun input' output' verbose params' v hv => ?_⟩
  rw [← hs.1, ← hs.2] at hd
  rw [← hs.2] at hst
  obtain ⟨v', g1, g2, g3⟩ := unpackMode_nil s' (hs.2 ▸ hz) input' output' verbose params' secret _ hv hp hst hd
  exact ⟨v', g1, returned hl h.tree (fun f hf => (h.sources f hf).1) g2 g3⟩

/-! #### A case that meets the hypotheses -/

theorem length_le_of_mem {α : Type} [BEq α] [LawfulBEq α] : ∀ {l L : List α}, l.Nodup → (∀ x ∈ l, x ∈ L) → l.length ≤ L.length := by
  intro l
  induction l with
  | nil => intros; exact Nat.zero_le _
  | cons a l ih =>
    intro L hn hm
    rw [List.nodup_cons] at hn
    have ha := hm a List.mem_cons_self
    have := ih (L := L.erase a) hn.2 fun x hx => (List.mem_erase_of_ne (by rintro rfl; exact hn.1 hx)).2 (hm x (List.mem_cons_of_mem _ hx))
    rw [List.length_erase_of_mem ha] at this
    have := List.length_pos_of_mem ha
    rw [List.length_cons]
    omega

theorem encode_length {n : Nat} : ∀ {l : List ZipEntry}, (∀ e ∈ l, (zipEntryBytes e).length ≤ n) → (toyZip.encode l).length ≤ n * l.length := by
  intro l
  induction l with
  | nil => intro _; exact Nat.zero_le _
  | cons e l ih =>
    intro h
    have h1 := h e List.mem_cons_self
    have h2 := ih fun e he => h e (List.mem_cons_of_mem _ he)
    show (zipEntryBytes e ++ toyZip.encode l).length ≤ _
    rw [List.length_append, List.length_cons, Nat.mul_succ]
    omega

/-- What `pack a o` puts into the archive. -/
def exEntries : List ZipEntry := [⟨['a', '/'], []⟩, ⟨['a', '/', 'x'], [1, 2, 3]⟩, ⟨['a', '/', 'b', '/'], []⟩, ⟨['a', '/', 'b', '/', 'y'], [1, 2, 3]⟩]

theorem exBelow {lines : List String} {T : Path} {ns : List Name} {n : Node} (hT : LeadsToDir (exWorld lines []) (toPath exPackSys.cwd ['a']) T) (h : (exWorld lines []).look (T ++ ns) = some n) :
    T = [['a']] ∧ (ns = [] ∧ n = .dir ∨ ns = [['x']] ∧ n = .file 0 ∨ ns = [['b']] ∧ n = .dir ∨ ns = [['b'], ['y']] ∧ n = .file 1) := by
  have h1 := hT.resolve
  have h2 : (exWorld lines []).resolve (toPath exPackSys.cwd ['a']) = .ok [['a']] := rfl
  rw [h2] at h1
  cases h1
  refine ⟨rfl, ?_⟩
  have := World.mem_of_look (by simp) h
  have hd : (exWorld lines []).dir = [([['a'], ['b'], ['y']], .file 1), ([['a'], ['b']], .dir), ([['a'], ['x']], .file 0), ([['a']], .dir), ([['z']], .file 2)] := by rfl
  rw [hd] at this
  simp only [List.cons_append, List.nil_append, List.mem_cons, Prod.mk.injEq, List.cons.injEq, true_and, List.not_mem_nil, or_false] at this
  rcases this with h | h | h | h | h
  · exact .inr (.inr (.inr h))
  · exact .inr (.inr (.inl h))
  · exact .inr (.inl h)
  · exact .inl h
  · exact absurd h.1.1 (by decide)

theorem exArchives {lines : List String} {l : List ZipEntry} (h : Archives exPackSys.cwd [['a']] (exWorld lines []) l) : ∀ e ∈ l, e ∈ exEntries := by
  intro e he
  obtain ⟨f, hf, T, hT, ns, hk⟩ := h.only e he
  rw [List.mem_singleton] at hf
  subst hf
  rcases hk with ⟨i, hk, rfl⟩ | ⟨hk, rfl⟩
  · obtain ⟨-, h | h | h | h⟩ := exBelow hT hk
    · cases h.2
    · obtain ⟨rfl, h⟩ := h
      cases h
      exact List.mem_cons_of_mem _ List.mem_cons_self
    · cases h.2
    · obtain ⟨rfl, h⟩ := h
      cases h
      exact List.mem_cons_of_mem _ (List.mem_cons_of_mem _ (List.mem_cons_of_mem _ List.mem_cons_self))
  · obtain ⟨-, h | h | h | h⟩ := exBelow hT hk
    · obtain ⟨rfl, -⟩ := h
      exact List.mem_cons_self
    · cases h.2
    · obtain ⟨rfl, -⟩ := h
      exact List.mem_cons_of_mem _ (List.mem_cons_of_mem _ List.mem_cons_self)
    · cases h.2

theorem exTempReady (lines : List String) : TempReady exPackSys.tmp (exWorld lines []) := by
  intro name hn
  refine ⟨[name], rfl, ?_, rfl⟩
  cases h : (exWorld lines []).look [name] with
  | none => rfl
  | some n =>
    have := World.mem_of_look (by simp) h
    have hd : (exWorld lines []).dir = [([['a'], ['b'], ['y']], .file 1), ([['a'], ['b']], .dir), ([['a'], ['x']], .file 0), ([['a']], .dir), ([['z']], .file 2)] := by rfl
    rw [hd] at this
    simp only [List.mem_cons, Prod.mk.injEq, List.cons.injEq, List.not_mem_nil, or_false, reduceCtorEq, and_false, false_and, and_true, false_or] at this
    rcases this with ⟨rfl, -⟩ | ⟨rfl, -⟩ <;> cases hn

theorem exTempApart (name : Name) (hn : name.length = 16) (q : Path) (hq : (exWorld [] []).resolve (toPath exPackSys.cwd ['o']) = .ok q) : (exWorld [] []).resolve (exPackSys.tmp.push [.name name]) ≠ .ok q := by
  intro h
  have e : (exWorld [] []).resolve (toPath exPackSys.cwd ['o']) = .ok [['o']] := by rfl
  rw [e] at hq
  cases hq
  have e2 : (exWorld [] []).resolve (exPackSys.tmp.push [.name name]) = .ok [name] := by rfl
  rw [e2] at h
  cases h
  cases hn

/-- Everything is in place on the small disk to pack `a` to `o`. -/
theorem exPackReady : PackReady exPackSys [['a']] ['o'] exParams .aes256Gcm [112, 119] (exWorld [] []) where
  faultless := rfl
  tree := exWorld_tree _ _
  sources := by
    intro f hf
    rw [List.mem_singleton] at hf
    subst hf
    refine ⟨⟨[['a']], rfl, rfl, by simp, fun n hn => ?_⟩, [['a']], rfl, rfl⟩
    rw [List.mem_singleton.1 hn]
    exact ⟨by decide, by decide, by decide, by decide, by decide⟩
  disjoint := List.pairwise_singleton _ _
  below := by
    constructor
    · intro f hf T hT ns hl n hn
      rw [List.mem_singleton] at hf
      subst hf
      obtain ⟨x, hx⟩ := Option.ne_none_iff_exists'.1 hl
      have key : n = ['x'] ∨ n = ['b'] ∨ n = ['y'] := by
        obtain ⟨-, ⟨rfl, -⟩ | ⟨rfl, -⟩ | ⟨rfl, -⟩ | ⟨rfl, -⟩⟩ := exBelow hT hx <;> simp at hn <;> simp [hn]
      rcases key with rfl | rfl | rfl <;> exact ⟨by decide, by decide, by decide, by decide, by decide⟩
    · intro f hf T hT ns n i hl
      rw [List.mem_singleton] at hf
      subst hf
      rw [List.append_assoc] at hl
      have key : n = ['x'] ∨ n = ['b'] ∨ n = ['y'] := by
        have hn : (ns ++ [n]).getLast? = some n := by simp
        obtain ⟨-, ⟨h, -⟩ | ⟨h, -⟩ | ⟨h, -⟩ | ⟨h, -⟩⟩ := exBelow hT hl <;> rw [h] at hn <;> simp at hn <;> simp [← hn]
      rcases key with rfl | rfl | rfl <;> decide
  header := rfl
  outside := exPack_outside _ _
  target := ⟨[['o']], by rfl, .inr ⟨by decide +kernel, by decide +kernel⟩⟩
  temp := ⟨exTempReady [] _ (by simp), exTempApart _ (by simp)⟩
  key := by
    refine ⟨by decide, exWorld [] [], .inl ⟨.inl ?_, rfl⟩, rfl⟩
    rintro ⟨q, n, h1, h2⟩
    have e : (exWorld [] []).resolve (toPath exPackSys.cwd ['o']) = .ok [['o']] := by rfl
    rw [e] at h1
    cases h1
    have e2 : (exWorld [] []).look [['o']] = none := by decide +kernel
    rw [e2] at h2
    cases h2
  primitives := toy_works _ _ _ (by decide)
  storable := by
    intro l hl e he
    have key : ∀ e ∈ exEntries, toyZip.storable e.name = true := by decide
    exact key e (exArchives hl e he)
  size := by
    intro l hl hn
    have h1 : l.length ≤ 4 := by
      have := length_le_of_mem (L := exEntries.map (·.name)) hn fun x hx => by
        obtain ⟨e, he, rfl⟩ := List.mem_map.1 hx
        exact List.mem_map.2 ⟨e, exArchives hl e he, rfl⟩
      rw [List.length_map] at this
      exact this
    have h2 : (toyZip.encode l).length ≤ 100 * l.length := encode_length fun e he => by
      have key : ∀ e ∈ exEntries, (zipEntryBytes e).length ≤ 100 := by decide
      exact key e (exArchives hl e he)
    show (toyZip.encode l).length / 2 ^ 20 ≤ 2 ^ 31 - 1
    omega

/-- And to pack and erase it without a question. -/
example : PackReady exPackSys [['a']] ['o'] { exParams with force := .forced } .aes256Gcm [112, 119] (exWorld [] []) :=
  let h := exPackReady
  ⟨h.faultless, h.tree, h.sources, h.disjoint, h.below, h.header, h.outside, h.target, h.temp, ⟨h.key.1, exWorld [] [], .inl ⟨.inr rfl, rfl⟩, rfl⟩, h.primitives, h.storable, h.size⟩

/-- `pack a o`. -/
def exPackPlain : Res Error Unit × World := packMode exPackSys [['a']] ['o'] { eraseSource := false } exParams .aes256Gcm (exWorld [] [])

/-- The tree after that. -/
def exPackedDir : List (Path × Node) :=
  [([['o']], .file 1000), ([['a'], ['b'], ['y']], .file 1), ([['a'], ['b']], .dir), ([['a'], ['x']], .file 0), ([['a']], .dir), ([['z']], .file 2)]

theorem exPackPlain_dir : exPackPlain.2.dir = exPackedDir := by decide +kernel

theorem exPackedDir_tree : TreeOk { exWorld [] [] with dir := exPackedDir } := by
  refine ⟨by decide, fun k n h => ?_⟩
  have h : (k, n) ∈ exPackedDir := h
  simp only [exPackedDir, List.mem_cons, Prod.mk.injEq, List.not_mem_nil, or_false] at h
  rcases h with ⟨rfl, rfl⟩ | ⟨rfl, rfl⟩ | ⟨rfl, rfl⟩ | ⟨rfl, rfl⟩ | ⟨rfl, rfl⟩ | ⟨rfl, rfl⟩ <;> exact ⟨by decide, rfl⟩

/-- And there everything is in place to unpack `o` to `u`. -/
theorem exUnpackReady : UnpackReady exPackSys ['o'] ['u'] exParams [112, 119] (exPackPlain.2.file 1000) exPackPlain.2 := by
  have hd := exPackPlain_dir
  have hmem : ∀ {q n}, q ≠ [] → exPackPlain.2.look q = some n → (q, n) ∈ exPackedDir := fun hq h => by rw [← hd]; exact World.mem_of_look hq h
  have hnone : ∀ {q}, q ≠ [] → (∀ n, (q, n) ∉ exPackedDir) → exPackPlain.2.look q = none := by
    intro q hq h
    cases hl : exPackPlain.2.look q with
    | none => rfl
    | some n => exact absurd (hmem hq hl) (h n)
  have htree : TreeOk exPackPlain.2 := exPackedDir_tree.congr hd
  have hway : ∀ q, OnTheWay (toPath exPackSys.cwd ['u']) q → q = [] ∨ q = [['u']] := by
    rintro q ⟨pre, hpre, rfl⟩
    have hpre : pre <+: [Comp.name ['u']] := hpre
    rcases List.prefix_cons_iff.1 hpre with rfl | ⟨t, rfl, ht⟩
    · exact .inl rfl
    · rw [List.prefix_nil.1 ht]
      exact .inr rfl
  have htmp : ∀ name : Name, onPaper (exPackSys.tmp.push [.name name]) = [name] := fun name => rfl
  refine ⟨by decide +kernel, htree, allocated_of ?_, rfl, ⟨[['o']], 1000, ⟨eq_ok_of (by decide +kernel), by decide +kernel⟩, rfl⟩,
    ⟨by decide, by show exPackPlain.2.env = _; decide +kernel⟩, ⟨World.look_nil _, ?_, ?_, ?_⟩, ?_⟩
  · intro k i h
    rw [hd] at h
    have e : exPackPlain.2.nextIno = 1002 := by decide +kernel
    rw [e]
    simp only [exPackedDir, List.mem_cons, Prod.mk.injEq, List.not_mem_nil, or_false, Node.file.injEq, reduceCtorEq, and_false, false_or] at h
    omega
  · intro q i hq hl
    rcases hway q hq with rfl | rfl
    · rw [World.look_nil] at hl; cases hl
    · have := hmem (by simp) hl
      simp [exPackedDir] at this
  · intro ns hns
    have e : onPaper (toPath exPackSys.cwd ['u']) = [['u']] := rfl
    rw [e]
    refine hnone (by simp) fun n hn => ?_
    simp [exPackedDir] at hn
  · intro q hq ns hns h
    have e : onPaper (toPath exPackSys.cwd ['u']) = [['u']] := rfl
    rw [e] at h
    rcases hway q hq with rfl | rfl
    · cases h
    · cases ns with
      | nil => exact hns rfl
      | cons a l => cases h
  · have ht : ∃ name : Name, name.length = 16 ∧ tempFile exPackSys exParams.key exPackPlain.2 = exPackSys.tmp.push [.name name] := ⟨_, by rw [List.length_map]; rfl, rfl⟩
    obtain ⟨name, hn, ht⟩ := ht
    rw [ht, htmp]
    have e : onPaper (toPath exPackSys.cwd ['u']) = [['u']] := rfl
    rw [e]
    refine ⟨⟨[name], ?_, hnone (by simp) fun n h => ?_, World.look_nil _⟩, ?_, ?_⟩
    · rw [World.resolve_congr (w := { exWorld [] [] with dir := exPackedDir }) hd]
      rfl
    · simp only [exPackedDir, List.mem_cons, Prod.mk.injEq, List.cons.injEq, List.not_mem_nil, or_false, reduceCtorEq, and_false, false_and, and_true, false_or] at h
      rcases h with ⟨rfl, -⟩ | ⟨rfl, -⟩ | ⟨rfl, -⟩ <;> cases hn
    · rintro ⟨t, ht⟩
      cases ht
      cases hn
    · intro h
      rcases hway _ h with h | h
      · cases h
      · cases h; cases hn

/-- So the tree comes back: `u/a/b/y` has the content of `a/b/y`. -/
example : ∃ v', unpackMode exPackSys ['o'] ['u'] false exParams exPackPlain.2 = (.ok (), v') ∧ v'.look [['u'], ['a'], ['b']] = some .dir ∧
    ∃ j, v'.look [['u'], ['a'], ['b'], ['y']] = some (.file j) ∧ v'.file j = [1, 2, 3] := by
  obtain ⟨w', q, j, he, -, -, hc, -, h⟩ := C70_round_trip exPackSys exPackSys (Example.toy_lawful _ (by decide)) toyZip_lawful ⟨rfl, rfl⟩ _ _ { eraseSource := false } _ _ _ _ (fun e => nomatch e) exPackReady
  have he' : exPackPlain = (.ok (), w') := he
  have hw : w' = exPackPlain.2 := by rw [he']
  have hc' : w'.file j = exPackPlain.2.file 1000 := by
    have hl := hc rfl
    rw [hw] at hl
    have := (leads_unique hl (q' := [['o']]) (i' := 1000) ⟨eq_ok_of (by decide +kernel), by decide +kernel⟩).2
    rw [hw, this]
  rw [hc'] at h
  obtain ⟨v', h1, h2⟩ := h ['o'] ['u'] false exParams exPackPlain.2 exUnpackReady
  have hp : Plainly exPackSys.cwd ['a'] [['a']] := by
    refine ⟨rfl, rfl, by simp, fun n hn => ?_⟩
    rw [List.mem_singleton.1 hn]
    exact ⟨by decide, by decide, by decide, by decide, by decide⟩
  have hT : LeadsToDir (exWorld [] []) (toPath exPackSys.cwd ['a']) [['a']] := ⟨rfl, rfl⟩
  have g1 := h2.dirs ['a'] (by simp) [['a']] [['a']] hp hT [['b']] rfl
  have g2 := h2.files ['a'] (by simp) [['a']] [['a']] hp hT [['b'], ['y']] 1 rfl
  have e : onPaper (toPath exPackSys.cwd ['u']) = [['u']] := rfl
  rw [e] at g1 g2
  exact ⟨v', h1, g1, g2⟩

end Volaris.Props
