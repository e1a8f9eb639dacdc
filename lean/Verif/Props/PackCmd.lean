import Verif.Proofs.PackCmd
import Verif.Props.EraseCmd
/-!
# C67: the pack command
-/
namespace Volaris.Props
open Spec Cli
variable {σ : Type}

theorem trail_dir {F : Path → Prop} {w u : World} (ht : Trail F w u) {d : Path} (h : w.look d = some .dir) : u.look d = some .dir := by
  rcases ht.extracts.look d with g | ⟨_, _, g⟩ | ⟨g, _⟩
  · rw [g]; exact h
  · exact g.elim
  · rw [h] at g; cases g

theorem inSource_trail {F : Path → Prop} {cwd : Path} {inputs : List (List Char)} {w u : World} (ht : Trail F w u) (x : Path) : InSource cwd inputs u x ↔ InSource cwd inputs w x := by
  unfold InSource
  constructor
  · rintro ⟨f, hf, T, hT, hx⟩
    exact ⟨f, hf, T, ⟨(ht.resolves _ _).1 hT.resolve, ht.dirs hT.look⟩, hx⟩
  · rintro ⟨f, hf, T, hT, hx⟩
    exact ⟨f, hf, T, ⟨(ht.resolves _ _).2 hT.resolve, trail_dir ht hT.look⟩, hx⟩

theorem eraseConsent_trail {F : Path → Prop} {force : ForceMode} {w u : World} (ht : Trail F w u) (h : EraseConsent force u) : EraseConsent force w := by
  rcases h with h | ⟨lines, rest, h1, h2⟩
  · exact .inl h
  · exact .inr ⟨lines, rest, h1.trans ht.stdin, h2⟩

/-- All outcomes of the pack command. -/
theorem packMode_cases (s : Sys σ) (inputs : List (List Char)) (output : List Char) (pp : PackParams) (params : CryptoParams) (a : Algorithm) (w w' : World) (r : Res Error Unit)
    (ht : TreeOk w) (he : packMode s inputs output pp params a w = (r, w')) :
    (Trail (PackTargets s output params w) w w' ∧ r ≠ .ok ()) ∨
    ∃ u secret, Trail (PackTargets s output params w) w u ∧ SuppliedTo s .validate params.key w secret ∧ Archived s inputs output params secret w u ∧
      ((pp.eraseSource = false ∧ r = .ok () ∧ w' = u) ∨
        (pp.eraseSource = true ∧ ErasedIn (InSource s.cwd inputs w) u w' ∧ (¬ SameFiles u w' → EraseConsent params.force w) ∧
          (r = .ok () → ∀ f ∈ inputs, ∃ T, LeadsToDir w (toPath s.cwd f) T ∧ (∀ x, T <+: x → x ≠ [] → w'.look x = none) ∧
            (∀ k i, T <+: k → u.look k = some (.file i) → w'.file i = [])))) := by
  have h := packMode_wp s inputs output pp params a w ht
  unfold wp at h
  rw [he] at h
  rcases h with h | ⟨u, secret, h1, h2, h3, h4, h5, h6⟩
  · exact .inl h
  · refine .inr ⟨u, secret, h1, h4, h5, ?_⟩
    cases hpp : pp.eraseSource with
    | false =>
      rw [hpp] at h6
      cases h6
      exact .inl ⟨rfl, rfl, rfl⟩
    | true =>
      rw [hpp] at h6
      right
      have hnf : ∀ f ∈ inputs, ∀ q i, ¬ LeadsToFile u (toPath s.cwd f) q i := by
        intro f hf q i hq
        obtain ⟨T, hT⟩ := h3 f hf
        have hr := (h1.resolves _ _).1 hq.resolve
        rw [hT.resolve] at hr; cases hr
        have := trail_dir h1 hT.look
        rw [hq.look] at this; cases this
      obtain ⟨r2, w2, e1, e2, e3, e4⟩ := eraseInputs_cases s params.force inputs u h2 hnf
      have h6' : (r, w') = (r2, w2) := h6.trans e1
      cases h6'
      refine ⟨rfl, e2.mono fun x => (inSource_trail h1 x).1, fun hs => eraseConsent_trail h1 (e3 hs), fun hr f hf => ?_⟩
      obtain ⟨T, g1, g2, g3⟩ := e4 hr f hf
      exact ⟨T, ⟨(h1.resolves _ _).1 g1.resolve, h1.dirs g1.look⟩, g2, g3⟩

/-! ### C67 -/

/-- **C67, what is touched.** Under every schedule of faults and however the pack command ends: a directory entry is as it was, or a new file has come into being where nothing was and where the
command may write (the output, the header file, the archive in the directory for temporary files), or the entry is gone, it was one of the sources, erasing was asked for and the user agreed to it;
and a file that existed before has its content unless it was at the place of the output or of the header file, and the user agreed to overwriting it, or was a source to be erased as above. -/
theorem C67_frame (s : Sys σ) (inputs : List (List Char)) (output : List Char) (pp : PackParams) (params : CryptoParams) (a : Algorithm) (w w' : World) (r : Res Error Unit)
    (ht : TreeOk w) (he : packMode s inputs output pp params a w = (r, w')) :
    (∀ x, w'.look x = w.look x ∨ (w.look x = none ∧ (Targets s.cwd output params w x ∨ TempPlace s.tmp x) ∧ ∃ j, w.nextIno ≤ j ∧ w'.look x = some (.file j)) ∨
      (w'.look x = none ∧ InSource s.cwd inputs w x ∧ pp.eraseSource = true ∧ EraseConsent params.force w)) ∧
    (∀ j, j < w.nextIno → w'.file j = w.file j ∨ (∃ q, Targets s.cwd output params w q ∧ w.look q = some (.file j)) ∨
      ((∃ q, InSource s.cwd inputs w q ∧ w.look q = some (.file j)) ∧ pp.eraseSource = true ∧ EraseConsent params.force w)) := by
  have base : ∀ u, Trail (PackTargets s output params w) w u →
      (∀ x, u.look x = w.look x ∨ (w.look x = none ∧ (Targets s.cwd output params w x ∨ TempPlace s.tmp x) ∧ ∃ j, w.nextIno ≤ j ∧ u.look x = some (.file j))) ∧
      (∀ j, j < w.nextIno → u.file j = w.file j ∨ ∃ q, Targets s.cwd output params w q ∧ w.look q = some (.file j)) := by
    intro u h
    refine ⟨fun x => ?_, fun j hj => ?_⟩
    · rcases h.extracts.look x with g | ⟨_, _, g⟩ | ⟨g1, g2, g3⟩
      · exact .inl g
      · exact g.elim
      · exact .inr ⟨g1, g2.imp id And.left, g3⟩
    · by_cases hq : ∃ q, Targets s.cwd output params w q ∧ w.look q = some (.file j)
      · exact .inr hq
      · refine .inl (h.extracts.files j hj fun q hF hl => ?_)
        rcases hF with hF | ⟨_, hF⟩
        · exact hq ⟨q, hF, hl⟩
        · rw [hl] at hF; cases hF
  rcases packMode_cases s inputs output pp params a w w' r ht he with ⟨h, _⟩ | ⟨u, secret, h, _, _, ⟨_, _, rfl⟩ | ⟨h1, h2, h3, _⟩⟩
  · obtain ⟨b1, b2⟩ := base w' h
    exact ⟨fun x => (b1 x).imp id .inl, fun j hj => (b2 j hj).imp id .inl⟩
  · obtain ⟨b1, b2⟩ := base w' h
    exact ⟨fun x => (b1 x).imp id .inl, fun j hj => (b2 j hj).imp id .inl⟩
  · obtain ⟨b1, b2⟩ := base u h
    by_cases hsame : SameFiles u w'
    · refine ⟨fun x => ?_, fun j hj => ?_⟩
      · rw [World.look_congr hsame.2]; exact (b1 x).imp id .inl
      · rw [hsame.1]; exact (b2 j hj).imp id .inl
    · have hc := h3 hsame
      refine ⟨fun x => ?_, fun j hj => ?_⟩
      · by_cases hx : InSource s.cwd inputs w x
        · rcases h2.entries x with g | g
          · rw [g]; exact (b1 x).imp id .inl
          · exact .inr (.inr ⟨g, hx, h1, hc⟩)
        · rw [h2.outside x hx]; exact (b1 x).imp id .inl
      · by_cases hq : ∃ q, InSource s.cwd inputs w q ∧ w.look q = some (.file j)
        · exact .inr (.inr ⟨hq, h1, hc⟩)
        · rw [h2.files j]
          · exact (b2 j hj).imp id .inl
          · intro k hk hl
            rcases b1 k with g | ⟨_, _, i, hi, g⟩
            · exact hq ⟨k, hk, by rw [← g]; exact hl⟩
            · rw [hl] at g; cases g; omega

theorem intact_of_trail {s : Sys σ} {inputs : List (List Char)} {output : List Char} {params : CryptoParams} {w u : World} (ho : Outside s.cwd inputs output params.header w)
    (h : Trail (PackTargets s output params w) w u) : Intact s.cwd inputs w u := by
  intro x hx n hn
  have hl : u.look x = w.look x := by
    rcases h.extracts.look x with g | ⟨_, _, g⟩ | ⟨g, _⟩
    · exact g
    · exact g.elim
    · rw [hn] at g; cases g
  refine ⟨hl.trans hn, ?_⟩
  rintro i rfl
  refine h.extracts.files i (ho.allocated _ _ hn) fun q hF hq => ?_
  rcases hF with (⟨_, hr⟩ | ⟨hd, hhd, _, hr⟩) | ⟨_, hF⟩
  · exact (ho.out q hr).2 i hq x hx hn
  · exact ((ho.hdr hd hhd).1 q hr).2 i hq x hx hn
  · rw [hq] at hF; cases hF

theorem keptAt_erased {cwd : Path} {inputs : List (List Char)} {p : PathBuf} {w u w' : World} {i : Nat} (h : KeptAt cwd inputs p w u i) (he : ErasedIn (InSource cwd inputs w) u w') :
    KeptAt cwd inputs p w w' i ∧ w'.file i = u.file i := by
  obtain ⟨q, h1, h2, h3, h4⟩ := h
  refine ⟨⟨q, h1, h2, by rw [he.outside q h2]; exact h3, fun x hx => ?_⟩, he.files i fun k hk => h4 k hk⟩
  rcases he.entries x with g | g
  · rw [g]; exact h4 x hx
  · rw [g]; simp

theorem keeps_erased {C : Crypto} {cwd : Path} {inputs : List (List Char)} {output : List Char} {header : Option (List Char)} {secret p : Bytes} {w u w' : World}
    (h : Spec.Keeps C cwd inputs output header secret p w u) (he : ErasedIn (InSource cwd inputs w) u w') : Spec.Keeps C cwd inputs output header secret p w w' := by
  obtain ⟨j, h1, h2⟩ := h
  obtain ⟨g1, g2⟩ := keptAt_erased h1 he
  refine ⟨j, g1, ?_⟩
  cases header with
  | none => rw [g2]; exact h2
  | some hd =>
    obtain ⟨k, h3, h4⟩ := h2
    obtain ⟨g3, g4⟩ := keptAt_erased h3 he
    exact ⟨k, g3, by rw [g2, g4]; exact h4⟩

/-- **C67, nothing is lost.** Under every schedule of faults without short transfers and however the pack command ends: if output and header file are beside the sources and different from each other,
then either everything below the inputs is as it was, or it was to be erased and the output (with the header file) decrypts, with the secret that the key source supplied, to an archive of every
directory and of every file with its content. -/
theorem C67_safe (s : Sys σ) (hC : s.C.Lawful) (inputs : List (List Char)) (output : List Char) (pp : PackParams) (params : CryptoParams) (a : Algorithm) (w w' : World) (r : Res Error Unit)
    (hns : ∀ k, Io.short k ∉ w.sched) (ht : TreeOk w) (ho : Outside s.cwd inputs output params.header w) (he : packMode s inputs output pp params a w = (r, w')) :
    Intact s.cwd inputs w w' ∨
    (pp.eraseSource = true ∧ EraseConsent params.force w ∧ ∃ secret l, SuppliedTo s .validate params.key w secret ∧ Archives s.cwd inputs w l ∧ Readable s.z l ∧
      Spec.Keeps s.C s.cwd inputs output params.header secret (s.z.encode l) w w') := by
  rcases packMode_cases s inputs output pp params a w w' r ht he with ⟨h, _⟩ | ⟨u, secret, h, hs, hA, ⟨_, _, rfl⟩ | ⟨h1, h2, h3, _⟩⟩
  · exact .inl (intact_of_trail ho h)
  · exact .inl (intact_of_trail ho h)
  · by_cases hsame : SameFiles u w'
    · left
      intro x hx n hn
      rw [World.look_congr hsame.2, hsame.1]
      exact intact_of_trail ho h x hx n hn
    · obtain ⟨l, hl, hr, hk⟩ := hA hC hns ho
      exact .inr ⟨h1, h3 hsame, secret, l, hs, hl, hr, keeps_erased hk h2⟩

/-- **C67, success.** If the pack command succeeds, the output (with the header file) holds such an archive; unless erasing was asked for the sources are as they were, and otherwise they are gone
and the files are empty. -/
theorem C67_success (s : Sys σ) (hC : s.C.Lawful) (inputs : List (List Char)) (output : List Char) (pp : PackParams) (params : CryptoParams) (a : Algorithm) (w w' : World)
    (hns : ∀ k, Io.short k ∉ w.sched) (ht : TreeOk w) (ho : Outside s.cwd inputs output params.header w) (he : packMode s inputs output pp params a w = (.ok (), w')) :
    (∃ secret l, SuppliedTo s .validate params.key w secret ∧ Archives s.cwd inputs w l ∧ Readable s.z l ∧ Spec.Keeps s.C s.cwd inputs output params.header secret (s.z.encode l) w w') ∧
    (pp.eraseSource = false → Intact s.cwd inputs w w') ∧
    (pp.eraseSource = true → ∀ x, InSource s.cwd inputs w x → x ≠ [] → w'.look x = none ∧ ∀ i, w.look x = some (.file i) → w'.file i = []) := by
  rcases packMode_cases s inputs output pp params a w w' _ ht he with ⟨_, h⟩ | ⟨u, secret, h, hs, hA, hcase⟩
  · exact absurd rfl h
  · obtain ⟨l, hl, hr, hk⟩ := hA hC hns ho
    rcases hcase with ⟨h1, _, rfl⟩ | ⟨h1, h2, h3, h4⟩
    · exact ⟨⟨secret, l, hs, hl, hr, hk⟩, fun _ => intact_of_trail ho h, fun h => by rw [h1] at h; cases h⟩
    · refine ⟨⟨secret, l, hs, hl, hr, keeps_erased hk h2⟩, (fun h => by rw [h1] at h; cases h), fun _ x hx hne => ?_⟩
      obtain ⟨f, hf, T, hT, hx'⟩ := hx
      obtain ⟨T', g1, g2, g3⟩ := h4 rfl f hf
      have : T' = T := by have := g1.resolve; rw [hT.resolve] at this; cases this; rfl
      subst this
      refine ⟨g2 x hx' hne, fun i hi => g3 x i hx' ?_⟩
      exact (intact_of_trail ho h x ⟨f, hf, T', hT, hx'⟩ _ hi).1

/-- **C67, from the command line.** The pack command erases its sources only if `--erase` was given, goes ahead without questions only if `--force` was given, and writes the header to where
`--header` says. -/
theorem C67_command (s : Sys σ) (m : Matches) (h : Accepted packArgs m) (w : World) :
    ∃ inputs output pp params a, m.explicit .input = some inputs ∧ Gives m .output output ∧ (pp.eraseSource = true ↔ ¬ Omits m .erase) ∧ (params.force = .forced ↔ ¬ Omits m .force) ∧
      (∀ hd, params.header = some hd ↔ Gives m .header hd) ∧ Cli.pack s m w = packMode s inputs output pp params a w := by
  obtain ⟨params, pp, hp, _, _, h2, h3, h4, _⟩ := packParams_run h (keyfile_default h (by simp)) w
  obtain ⟨v0, ⟨vs, hi⟩, _⟩ := required_value h (a := { id := .input, required := true, multiple := true }) (by simp [packArgs]) rfl w
  obtain ⟨output, ho, ho'⟩ := required_value h (a := { id := .output, required := true }) (by simp [packArgs]) rfl w
  have hdef : ∀ id, id = .erase ∨ id = .force ∨ id = .header → m.default id = none := by
    rintro id (rfl | rfl | rfl) <;> (unfold Matches.default; rw [h.args]; rfl)
  have hflag : ∀ id, m.default id = none → ((m.values id).isSome = true ↔ ¬ Omits m id) := by
    intro id hd
    rcases value_cases h id with ⟨v, ⟨vs, e⟩, _, g⟩ | ⟨ho, _, g⟩
    · rw [g]
      exact ⟨fun _ ho => (by rw [ho] at e; cases e), fun _ => rfl⟩
    · rw [g, hd]
      exact ⟨fun h => (by cases h), fun h => absurd ho h⟩
  have hin : getParams m .input w = (.ok (v0 :: vs), w) := by
    unfold getParams
    have : (getMany m .input : Prog Error _) w = (.ok (m.values .input), w) := by rw [getMany_release h.release]; rfl
    rw [Prog.bind_ok this]
    have hd : m.defines .input = true := by unfold Matches.defines; rw [h.args]; rfl
    rw [show m.values .input = some (v0 :: vs) from by unfold Matches.values; rw [hd, show m.explicit .input = some (v0 :: vs) from hi]; rfl]
    rfl
  refine ⟨v0 :: vs, output, pp, params, if (m.values .aes).isSome then .aes256Gcm else .xChaCha20Poly1305, hi, ho, ?_, ?_, fun hd => ?_, ?_⟩
  · rw [h2]; exact hflag _ (hdef _ (by simp))
  · rw [h3, ← hflag _ (hdef _ (by simp))]
    split <;> simp_all
  · rw [h4]
    rcases value_cases h .header with ⟨v, ⟨vs, e⟩, g, _⟩ | ⟨ho, g, _⟩
    · rw [g]
      constructor
      · intro e'; cases e'; exact ⟨vs, e⟩
      · rintro ⟨vs', e'⟩; rw [e] at e'; cases e'; rfl
    · rw [g, hdef _ (by simp)]
      constructor
      · intro e'; cases e'
      · rintro ⟨vs', e'⟩; rw [ho] at e'; cases e'
  · unfold Cli.pack
    rw [Prog.bind_ok hp]
    simp only
    rw [Prog.bind_ok (algorithm_run h.release w), Prog.bind_ok hin, Prog.bind_ok ho']

example : Accepted packArgs { args := packArgs, given := [(.input, [['a'], ['z']]), (.output, [['o']]), (.erase, [['1']])] } := ⟨rfl, by decide, rfl⟩

/-- The disk with the directory for temporary files at the root. -/
def exPackSys : Sys Bytes := { exSys with tmp := ⟨true, [], []⟩ }

/-- `pack a o --erase …` with an answer to the question. -/
def exPackErase (lines : List String) (sched : List Io) : Res Error Unit × World := packMode exPackSys [['a']] ['o'] { eraseSource := true } exParams .aes256Gcm (exWorld lines sched)

theorem exWorld_tree (lines : List String) (sched : List Io) : TreeOk (exWorld lines sched) := (Example.disk_ok sched).congr (w := Example.disk sched) rfl

theorem exPack_outside (lines : List String) (sched : List Io) : Outside exPackSys.cwd [['a']] ['o'] exParams.header (exWorld lines sched) := by
  refine ⟨(exSeparate lines sched).allocated, ?_, fun hd h => by cases h⟩
  intro q hq
  have : q = [['o']] := by
    have : (exWorld lines sched).resolve (toPath exPackSys.cwd ['o']) = .ok [['o']] := rfl
    rw [this] at hq; cases hq; rfl
  subst this
  refine ⟨?_, fun i hi => by cases hi⟩
  rintro ⟨f, hf, T, hT, hx⟩
  rw [List.mem_singleton] at hf
  subst hf
  have : (exWorld lines sched).resolve (toPath exPackSys.cwd ['a']) = .ok [['a']] := rfl
  have h2 := hT.resolve
  rw [this] at h2; cases h2
  exact absurd hx (by decide)

/-- The hypotheses are met by a run that succeeds and erases `a` … -/
example : exPackSys.C.Lawful ∧ (∀ k, Io.short k ∉ (exWorld ["y\n"] []).sched) ∧ TreeOk (exWorld ["y\n"] []) ∧ Outside exPackSys.cwd [['a']] ['o'] exParams.header (exWorld ["y\n"] []) ∧
    InSource exPackSys.cwd [['a']] (exWorld ["y\n"] []) [['a'], ['x']] ∧ EraseConsent exParams.force (exWorld ["y\n"] []) :=
  ⟨Example.toy_lawful _ (by decide), (by intro k h; cases h), exWorld_tree _ _, exPack_outside _ _, ⟨['a'], by simp, [['a']], ⟨rfl, rfl⟩, by decide⟩,
    .inr ⟨_, [], List.suffix_refl _, [], "y\n", rfl, by simp, .inl ⟨⟨'y', ['\n'], by decide, .inl rfl⟩, rfl⟩⟩⟩

example : exPackErase ["y\n"] [] = (.ok (), (exPackErase ["y\n"] []).2) ∧ (exPackErase ["y\n"] []).2.dir = [([['o']], .file 1000), ([['z']], .file 2)] :=
  ⟨run_of_fst (by decide +kernel), by decide +kernel⟩

/-- … by a run in which the user does not want to erase, which ends without touching the sources … -/
example : (exPackErase ["n\n"] []).1 = .abort (.exit 0) ∧ (exPackErase ["n\n"] []).2.look [['a'], ['x']] = some (.file 0) := by decide +kernel

/-- … and by one with a fault in the middle. -/
example : (exPackErase ["y\n"] (List.replicate 10 .full ++ [.fail])).1 ≠ .ok () ∧ (exPackErase ["y\n"] (List.replicate 10 .full ++ [.fail])).2.look [['a'], ['x']] = some (.file 0) := by decide +kernel

/-- `pack a a/o --erase … --force …`. -/
def exPackInside : Res Error Unit × World :=
  packMode exPackSys [['a']] ['a', '/', 'o'] { eraseSource := true } { exParams with force := .forced } .aes256Gcm (exWorld [] [])

/-- **C67 needs its hypothesis.** Without faults, a pack command whose output is inside a source that is to be erased succeeds, and afterwards neither the sources nor the output exist: everything
is lost. -/
theorem C67_inside : ∃ (inputs : List (List Char)) (output : List Char) (pp : PackParams) (params : CryptoParams) (w w' : World) (x : Path) (i : Nat), w.sched = [] ∧ TreeOk w ∧
    packMode exPackSys inputs output pp params .aes256Gcm w = (.ok (), w') ∧ InSource exPackSys.cwd inputs w x ∧ w.look x = some (.file i) ∧ w.file i ≠ [] ∧
    w'.look x = none ∧ w'.file i = [] ∧ (∀ q j, ¬ LeadsToFile w' (toPath exPackSys.cwd output) q j) ∧ ∀ y n, (y, n) ∈ w'.dir → (y, n) ∈ w.dir ∧ y = [['z']] := by
  have hdir : exPackInside.2.dir = [([['z']], .file 2)] := by decide +kernel
  refine ⟨[['a']], ['a', '/', 'o'], { eraseSource := true }, { exParams with force := .forced }, exWorld [] [], exPackInside.2, [['a'], ['x']], 0, rfl, exWorld_tree _ _,
    run_of_fst (x := exPackInside) (by decide +kernel), ⟨['a'], by simp, [['a']], ⟨rfl, rfl⟩, by decide⟩, rfl, by decide, by decide +kernel, by decide +kernel, ?_, ?_⟩
  · rintro q j ⟨hr, hl⟩
    have : (match exPackInside.2.resolve (toPath exPackSys.cwd ['a', '/', 'o']) with | .ok _ => false | .error _ => true) = true := by decide +kernel
    rw [hr] at this
    cases this
  · intro y n h
    rw [hdir] at h
    rw [List.mem_singleton] at h
    cases h
    exact ⟨by decide, rfl⟩

end Volaris.Props
