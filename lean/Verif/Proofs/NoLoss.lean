import Verif.Spec.NoLoss
import Verif.Proofs.History
/-!
# Careful lines lose nothing
-/
namespace Volaris.Cli
open Volaris.Spec Volaris.Cli.Argv Volaris.Props
variable {σ : Type}

/-- The secret that the key source supplies is the one it holds. -/
theorem supplied_is {s : Sys σ} {opts : List (String × List Char)} {secret x : Bytes} {w : World} {st : PasswordState} {key : Key} (hk : KeyIs s.cwd opts secret w)
    (h : (∀ path, valueOf opts "keyfile" = some path → key = .keyfile path) ∧ (valueOf opts "keyfile" = none → w.env.isSome → key = .env)) (hx : SuppliedTo s st key w x) : x = secret := by
  obtain ⟨-, u, ⟨hu, -, -⟩, hs⟩ := hx
  unfold KeyIs at hk
  cases hv : valueOf opts "keyfile" with
  | some path =>
    rw [hv] at hk
    obtain ⟨hp, q, k, h1, h2⟩ := hk
    rw [h.1 path hv] at hs
    unfold Supplies at hs
    simp only [if_neg hp] at hs
    obtain ⟨q', k', g1, g2⟩ := hs
    have hdir : u.dir = w.dir := by rw [hu]
    have hfile : u.file = w.file := by rw [hu]
    obtain ⟨-, rfl⟩ := leads_unique h1 ⟨by rw [← World.resolve_congr hdir]; exact g1.resolve, by rw [← World.look_congr hdir]; exact g1.look⟩
    rw [hfile] at g2
    exact g2.symm.trans h2
  | none =>
    rw [hv] at hk
    have hk : w.env = some secret := hk
    rw [h.2 hv (by rw [hk]; rfl)] at hs
    have hs : u.env = some x := hs
    rw [hu] at hs
    have := hk.symm.trans hs
    cases this; rfl

theorem Unwraps.inner {C : Crypto} {z : Zip} (hC : C.Lawful) {secret x y p : Bytes} (hp : ∀ y, ¬ DecryptsTo C secret p y) (h : Unwraps C z secret x p) (hf : FileOf C secret x y) : Unwraps C z secret y p := by
  cases h with
  | plain => exact absurd (hf.decrypts hC) (hp y)
  | layer h hy =>
    have := (h.fileOf hC).unique hC hf
    subst this
    exact hy
  | member hx => exact absurd (hf.decrypts hC) (hx y)

/-- A run, seen from its end or from any moment before. -/
theorem stopped_end {x : Prog ε α} (hx : Crashes x) (w : World) : StoppedAt x w (x w).2 := by
  obtain ⟨es, h1, h2, -⟩ := (hx w).log
  exact ⟨es, h1, by rw [h2]; exact .finish _ _⟩

theorem stopped_then {run : Prog Error (List String)} {x : Prog Error Unit} {w v : World} (h : run w = (x >>= fun _ => pure []) w) (hv : StoppedAt run w v) : StoppedAt x w v := by
  obtain ⟨es, h1, h2⟩ := hv
  refine ⟨es, ?_, h2⟩
  unfold Calls at h1 ⊢
  rw [h, then_pure] at h1
  exact h1

/-- What C71 and C72 say about one careful command. -/
theorem mode_keeps {s : Sys σ} {C : Crypto} {z : Zip} {input output : List Char} {secret p : Bytes} {T : Path → Prop} {E : Path → Nat → Prop} {w v : World} (hd : GoodDisk w.disk)
    (hch : Changes T E w v) (hT : ∀ q, T q → w.look q = none) (hE : ∀ q i, E q i → LeadsToFile w (toPath s.cwd input) q i)
    (hmain : ∀ q i, LeadsToFile w (toPath s.cwd input) q i → (LeadsToFile v (toPath s.cwd input) q i ∧ v.file i = w.file i) ∨
      ∃ qo j, LeadsToFile v (toPath s.cwd output) qo j ∧ (Unwraps C z secret (w.file i) p → Unwraps C z secret (v.file j) p))
    {q : Path} (hq : HoldsAt C z secret p w.disk q) : ∃ q', HoldsAt C z secret p v.disk q' := by
  obtain ⟨i, hl, hu⟩ := hq
  by_cases hin : ∃ q', LeadsToFile w (toPath s.cwd input) q' i
  · obtain ⟨q', hin⟩ := hin
    rcases hmain q' i hin with ⟨h1, h2⟩ | ⟨qo, j, h1, h2⟩
    · exact ⟨q', i, h1.look, by show Unwraps C z secret (v.file i) p; rw [h2]; exact hu⟩
    · exact ⟨qo, j, h1.look, h2 hu⟩
  · refine ⟨q, i, ?_, ?_⟩
    · rcases hch.look q with g | ⟨g, _⟩ | ⟨_, k, g1, g2⟩
      · exact g.trans hl
      · have := g.symm.trans hl
        cases this
      · have := g1.symm.trans hl
        cases this
        exact absurd ⟨q, hE q _ g2⟩ hin
    · have : v.file i = w.file i := by
        rcases hch.files i (hd.allocated q i hl) with g | ⟨x, g1, g2⟩ | ⟨_, x, _, g⟩
        · exact g
        · rw [hT x g1] at g2; cases g2
        · exact absurd ⟨x, hE x _ g⟩ hin
      show Unwraps C z secret (v.file i) p
      rw [this]; exact hu

theorem free_place {cwd : Path} {output : List Char} {w : World} (ho : ¬ Occupied w (toPath cwd output)) {q : Path} (hq : w.resolve (toPath cwd output) = .ok q) : w.look q = none := by
  cases hl : w.look q with
  | none => rfl
  | some n => exact absurd ⟨q, n, hq, hl⟩ ho

theorem free_apart {cwd : Path} {input output : List Char} {w : World} (ho : ¬ Occupied w (toPath cwd output)) {q : Path} {i : Nat} (hi : LeadsToFile w (toPath cwd input) q i) : Apart w (toPath cwd input) (toPath cwd output) := by
  refine ⟨fun x h1 h2 => ?_, fun x x' j _ h2 => ho ⟨x', _, h2.resolve, h2.look⟩⟩
  rw [hi.resolve] at h1
  cases h1
  exact ho ⟨q, _, h2, hi.look⟩

theorem header_start {bs : Bytes} {hd : Header} {aad : Bytes} (hh : IsHeader bs hd aad) : bs.head? = some 0xDE := by
  have h := hh.tag
  unfold slice at h
  rw [List.drop_zero] at h
  cases bs with
  | nil => cases hv : hd.headerType.version <;> rw [hv] at h <;> cases h
  | cons b bs =>
    rw [List.take_succ_cons] at h
    cases hv : hd.headerType.version <;> rw [hv] at h <;> (injection h with h1 h2; rw [h1]; rfl)

theorem finish_name {c : Command} {st : Option Argv.State} {name : List Char} {m : Matches} (h : Argv.finish c false st = some (name, m)) : name = c.name ∧ m.args = c.args := by
  unfold Argv.finish at h
  cases st with
  | none => cases h
  | some st =>
    simp only at h
    split at h
    · cases h; exact ⟨rfl, rfl⟩
    · cases h

/-- An archive is not an encrypted file. -/
theorem archive_plain {C : Crypto} (hC : C.Lawful) {z : Zip} (hst : OwnStart z) {secret : Bytes} (l : List ZipEntry) (y : Bytes) : ¬ DecryptsTo C secret (z.encode l) y := by
  intro h
  obtain ⟨hd, aad, mk, hh, _⟩ := h.fileOf hC
  exact hst l (header_start hh)

/-- A careful line, stopped at any moment. -/
theorem careful_keeps {C : Crypto} (hC : C.Lawful) {z : Zip} (hz : z.Lawful) (hst : OwnStart z) {secret p : Bytes} (hp : ∀ y, ¬ DecryptsTo C secret p y) {l : Invocation σ} {w v : World} (hc : Careful C z secret l w) (hd : GoodDisk w.disk)
    {run : Prog Error (List String)} (hrun : Cli.main l.sys l.debug l.argv = some run) (hv : StoppedAt run w v) {q : Path} (hq : HoldsAt C z secret p w.disk q) : ∃ q', HoldsAt C z secret p v.disk q' := by
  obtain ⟨hb, hcr, hzz, hline, hns⟩ := hc
  subst hcr
  subst hzz
  rw [hb] at hrun
  obtain ⟨hcmd, hw, hcon, hi, hh, hk, ho⟩ | ⟨hbef, haft, hne, hpi, hpo, hcon, hi, hh, hk, ho, hbeside⟩ := hline
  · next command opts input output words =>
    rcases hcmd with rfl | rfl
    · obtain ⟨run', h1, h2⟩ := C77_encrypt l.sys hw hcon hi
      rw [h1] at hrun
      cases hrun
      obtain ⟨params, passes, hsel, hkey, her, _, he⟩ := h2 w
      have hhd : params.header = none := hsel.header.trans hh
      have hv := stopped_then he hv
      have hkey' : (∀ path, valueOf opts "keyfile" = some path → params.key = .keyfile path) ∧ (valueOf opts "keyfile" = none → w.env.isSome → params.key = .env) := by
        unfold KeyChoice at hkey
        refine ⟨fun path hv => by rw [hv] at hkey; exact hkey, fun hv he => ?_⟩
        rw [hv] at hkey
        simp only [he, if_true] at hkey
        exact hkey
      refine mode_keeps (s := l.sys) (input := input) (output := output) hd (C71_encrypt_frame l.sys input output params _ w v hv) ?_ (fun q i h => h.2) ?_ hq
      · rintro x (⟨_, hx⟩ | ⟨hd, e, _⟩)
        · exact free_place ho hx
        · rw [hhd] at e; cases e
      · intro qi i hin
        rcases C71_encrypt l.sys hC input output params _ w v qi i hns ⟨hd.allocated, free_apart ho hin, fun x e => by rw [hhd] at e; cases e⟩ hin hv with g | ⟨_, x, g1, g2⟩
        · exact .inl g
        · obtain rfl := supplied_is hk hkey' g1
          rw [hhd] at g2
          obtain ⟨qo, j, g3, _, _, g4⟩ := g2
          exact .inr ⟨qo, j, g3, fun hu => .layer g4 hu⟩
    · obtain ⟨run', h1, h2⟩ := C77_decrypt l.sys hw hcon hi
      rw [h1] at hrun
      cases hrun
      obtain ⟨params, passes, hsel, hkey, her, _, he⟩ := h2 w
      have hhd : params.header = none := hsel.header.trans hh
      have hv := stopped_then he hv
      have hkey' : (∀ path, valueOf opts "keyfile" = some path → params.key = .keyfile path) ∧ (valueOf opts "keyfile" = none → w.env.isSome → params.key = .env) := by
        unfold OpenKeyChoice at hkey
        refine ⟨fun path hv => by rw [hv] at hkey; exact hkey, fun hv he => ?_⟩
        rw [hv] at hkey
        simp only [he, if_true] at hkey
        exact hkey
      refine mode_keeps (s := l.sys) (input := input) (output := output) hd (C72_decrypt_frame l.sys input output params w v hv) ?_ (fun q i h => h.2) ?_ hq
      · rintro x ⟨_, hx⟩
        exact free_place ho hx
      · intro qi i hin
        rcases C72_decrypt l.sys hC input output params w v qi i hns ⟨hd.allocated, free_apart ho hin, fun x e => by rw [hhd] at e; cases e⟩ hin hv with g | ⟨_, x, g1, g2⟩
        · exact .inl g
        · obtain rfl := supplied_is hk hkey' g1
          rw [hhd] at g2
          obtain ⟨qo, j, g3, _, _, g4⟩ := g2
          exact .inr ⟨qo, j, g3, fun hu => Unwraps.inner hC hp hu g4⟩
  · next before after wb wa inputs output =>
    obtain ⟨run', h1, h2⟩ := C77_pack l.sys hbef haft hne hpi hpo hcon hi
    rw [h1] at hrun
    cases hrun
    obtain ⟨params, hsel, hkey, her, he⟩ := h2 w
    have hhd : params.header = none := hsel.header.trans hh
    have hv := stopped_then he hv
    have hkey' : (∀ path, valueOf (before ++ after) "keyfile" = some path → params.key = .keyfile path) ∧ (valueOf (before ++ after) "keyfile" = none → w.env.isSome → params.key = .env) := by
      unfold KeyChoice at hkey
      refine ⟨fun path hv => by rw [hv] at hkey; exact hkey, fun hv he => ?_⟩
      rw [hv] at hkey
      simp only [he, if_true] at hkey
      exact hkey
    have hout : Outside l.sys.cwd inputs output params.header w :=
      ⟨hd.allocated, fun q hq => ⟨hbeside q hq, fun i hi => by rw [free_place ho hq] at hi; cases hi⟩, fun hd e => by rw [hhd] at e; cases e⟩
    have htree := GoodDisk.tree hd
    -- A file that is among the sources.
    have source : ∀ q i, InSource l.sys.cwd inputs w q → w.look q = some (.file i) → Unwraps l.sys.C l.sys.z secret (w.file i) p → ∃ q', HoldsAt l.sys.C l.sys.z secret p v.disk q' := by
      intro q i hin hl hu
      rcases C73_pack l.sys hC inputs output _ params _ w v hns htree hout hv with g | ⟨_, _, x, m, g1, g2, g3, g4⟩
      · obtain ⟨g1, g2⟩ := g q hin _ hl
        exact ⟨q, i, g1, by show Unwraps _ _ _ (v.file i) p; rw [g2 i rfl]; exact hu⟩
      · obtain rfl := supplied_is hk hkey' g1
        rw [hhd] at g4
        obtain ⟨j, ⟨qo, _, _, g5, _⟩, g6⟩ := g4
        refine ⟨qo, j, g5, .layer g6 ?_⟩
        obtain ⟨f, hf, T, hT, ns, rfl⟩ := hin
        exact .member (archive_plain hC hst m) (hz.decode_encode m g3.distinct g3.storable) (List.mem_map.2 ⟨_, g2.files f hf T hT ns i hl, rfl⟩) rfl rfl hu
    obtain ⟨i, hl, hu⟩ := hq
    obtain ⟨sc, r, w', he', hdisk⟩ := (packMode_crashes _ _ _ _ _ _).stopped hv
    obtain ⟨f1, f2⟩ := C67_frame l.sys inputs output _ params _ (w.withSched sc) w' r (treeOk_withSched sc htree) he'
    have hT : ∀ x, Targets l.sys.cwd output params (w.withSched sc) x → w.look x = none := by
      rintro x (⟨_, hx⟩ | ⟨hd, e, _⟩)
      · rw [Crashes.resolve_withSched] at hx
        exact free_place ho hx
      · rw [hhd] at e; cases e
    by_cases hin : ∃ x, InSource l.sys.cwd inputs w x ∧ w.look x = some (.file i)
    · obtain ⟨x, hx, hlx⟩ := hin
      exact source x i hx hlx hu
    · rw [inSource_withSched] at f1 f2
      refine ⟨q, i, ?_, ?_⟩
      · rw [hdisk]
        show w'.look q = _
        rcases f1 q with g | ⟨g, _⟩ | ⟨_, g, _⟩
        · exact g.trans hl
        · have := g.symm.trans hl
          cases this
        · exact absurd ⟨q, g, hl⟩ hin
      · rw [hdisk]
        show Unwraps _ _ _ (w'.file i) p
        rcases f2 i (hd.allocated q i hl) with g | ⟨x, g1, g2⟩ | ⟨⟨x, g1, g2⟩, _⟩
        · rw [g]; exact hu
        · have := (hT x g1).symm.trans g2
          cases this
        · exact absurd ⟨x, g1, g2⟩ hin

/-- A line that only looks. -/
theorem looking_same {l : Invocation σ} {d d' : Disk} {command : String} {words : List (List Char)} (hc : command = "hash" ∨ command = "unpack") (hi : Invokes command words l.argv) (h : Invoked l d d') :
    d'.dir = d.dir ∧ d'.file = d.file := by
  have release : ∀ run, Cli.main l.sys false l.argv = some run → ∀ w, SameFiles w (run w).2 := by
    intro run hrun w
    unfold Cli.main at hrun
    cases hg : getMatches false l.argv with
    | none => rw [hg] at hrun; cases hrun
    | some x =>
      obtain ⟨name, m⟩ := x
      rw [hg] at hrun
      cases hrun
      obtain ⟨⟨c, hcm, hn, ha⟩, hacc, hdeb, _⟩ := getMatches_some hg
      rcases hc with rfl | rfl
      · have := getMatches_invokes (command := "hash") (c := ⟨['h', 'a', 's', 'h'], none, hashArgs⟩) rfl rfl (fun f hf => by cases hf) hi
        obtain ⟨rfl, -⟩ := finish_name (this.symm.trans hg)
        exact hash_same l.sys m hdeb w
      · have := getMatches_invokes (command := "unpack") (c := ⟨['u', 'n', 'p', 'a', 'c', 'k'], some 'u', unpackArgs⟩) rfl rfl (fun f hf => by cases hf; exact ⟨rfl, by decide⟩) hi
        obtain ⟨rfl, hma⟩ := finish_name (this.symm.trans hg)
        show SameFiles w ((Cli.unpack l.sys m >>= fun _ => pure []) w).2
        rw [then_pure, C60_unpack_panics l.sys m ⟨hma, hacc, hdeb⟩ w]
        exact ⟨rfl, rfl⟩
  have either : ∀ run, Cli.main l.sys l.debug l.argv = some run → ∀ w, SameFiles w (run w).2 := by
    intro run hrun w
    cases hdb : l.debug with
    | false => rw [hdb] at hrun; exact release run hrun w
    | true =>
      rw [hdb] at hrun
      have := C79_debug_partial l.sys l.argv
      rw [hrun] at this
      cases hr : Cli.main l.sys false l.argv with
      | none => rw [hr] at this; exact this.elim
      | some rel =>
        rw [hr] at this
        rcases this with g | ⟨_, g⟩
        · rw [g]; exact release rel hr w
        · rw [g]; exact ⟨rfl, rfl⟩
  cases h with
  | refused _ _ => exact ⟨rfl, rfl⟩
  | ended w h => exact ⟨(either _ h w).2, (either _ h w).1⟩
  | killed w v h hv =>
    obtain ⟨sc, r, w', h1, h2⟩ := (line_either h).1.stopped hv
    have := either _ h (w.withSched sc)
    rw [h1] at this
    rw [h2]
    exact ⟨this.2, this.1⟩

/-- A line elsewhere. -/
theorem elsewhere_keeps {C : Crypto} {z : Zip} {secret p : Bytes} {l : Invocation σ} {d d' : Disk} (hq : ∀ q, HoldsAt C z secret p d q → ¬ Concerns l q) (h : Invoked l d d') (hd : GoodDisk d) {q : Path}
    (hh : HoldsAt C z secret p d q) : HoldsAt C z secret p d' q := by
  obtain ⟨h1, -, -⟩ := invoked_within h hd
  have hn := hq q hh
  obtain ⟨i, hl, hu⟩ := hh
  refine ⟨i, ?_, ?_⟩
  · rcases h1.look q with g | g | ⟨g, _⟩
    · exact g.trans hl
    · exact absurd g hn
    · rw [hl] at g; cases g
  · rcases h1.files i (hd.allocated q i hl) with g | ⟨x, g1, g2⟩
    · rw [g]; exact hu
    · exact absurd g1 (hq x ⟨i, g2, hu⟩)

theorem careful_history {C : Crypto} (hC : C.Lawful) {z : Zip} (hz : z.Lawful) (hst : OwnStart z) {secret p : Bytes} (hp : ∀ y, ¬ DecryptsTo C secret p y) {ls : List (Invocation σ)} {d d' : Disk} (h : CarefulHistory C z secret p ls d d') :
    GoodDisk d → ∀ q, HoldsAt C z secret p d q → ∃ q', HoldsAt C z secret p d' q' := by
  induction h with
  | nil d => exact fun _ q hq => ⟨q, hq⟩
  | elsewhere hq h _ ih => exact fun hd q hh => ih (invoked_within h hd).2.1 q (elsewhere_keeps hq h hd hh)
  | looking hc hi h _ ih =>
    intro hd q hh
    obtain ⟨h1, h2⟩ := looking_same hc hi h
    refine ih (invoked_within h hd).2.1 q ?_
    obtain ⟨i, g1, g2⟩ := hh
    exact ⟨i, by unfold lookDisk; rw [h1]; exact g1, by rw [h2]; exact g2⟩
  | ended w hc h _ ih =>
    intro hd q hh
    obtain ⟨q', h'⟩ := careful_keeps hC hz hst hp hc hd h (stopped_end (line_either h).1 w) hh
    exact ih (invoked_within (.ended w h) hd).2.1 q' h'
  | killed w v hc h hv _ ih =>
    intro hd q hh
    obtain ⟨q', h'⟩ := careful_keeps hC hz hst hp hc hd h hv hh
    exact ih (invoked_within (.killed w v h hv) hd).2.1 q' h'

end Volaris.Cli
