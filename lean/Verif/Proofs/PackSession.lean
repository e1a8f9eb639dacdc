import Verif.Spec.PackSession
import Verif.Proofs.Session
import Verif.Proofs.TreeCmd
import Verif.Proofs.EraseInputs
import Verif.Proofs.CrashSafe
/-!
# Packing directories with one line and getting them back with another
-/
namespace Volaris.Cli
open Volaris.Spec Volaris.Pack
variable {σ : Type}

theorem walk_names_ok {w : World} : ∀ (ns : List Name) (T q : Path), w.walk T (ns.map .name) = .ok q → q = T ++ ns := by
  intro ns
  induction ns with
  | nil => intro T q h; cases h; simp
  | cons n ns ih =>
    intro T q h
    unfold World.walk at h
    rw [List.map_cons] at h
    simp only at h
    split at h
    · rw [ih _ _ h]; simp
    · cases h
    · cases h

theorem walk_names_dirs {w : World} : ∀ (ns : List Name) (T q : Path), w.walk T (ns.map .name) = .ok q → ∀ j, j < ns.length → w.look (T ++ ns.take j) = some .dir := by
  intro ns
  induction ns with
  | nil => intro T q h j hj; cases hj
  | cons n ns ih =>
    intro T q h j hj
    unfold World.walk at h
    rw [List.map_cons] at h
    simp only at h
    split at h
    · next hd =>
      cases j with
      | zero => simpa using hd
      | succ j =>
        have := ih _ _ h j (by simpa using hj)
        simpa using this
    · cases h
    · cases h

theorem _root_.Volaris.Spec.Plainly.leads {cwd : Path} {f : List Char} {ns : List Name} (h : Plainly cwd f ns) {w : World} {T : Path} (hd : LeadsToDir w (toPath cwd f) T) : T = cwd ++ ns := by
  have := hd.resolve
  unfold World.resolve at this
  rw [h.names] at this
  have hs : (toPath cwd f).start = cwd := by
    unfold PathBuf.start
    rw [if_neg (by rw [h.relative]; decide)]
    rfl
  rw [hs] at this
  exact walk_names_ok _ _ _ this

/-- Nothing in the working directory that is no directory is among the sources. -/
theorem not_inSource {cwd : Path} {inputs : List (List Char)} {w : World} (hs : ∀ f ∈ inputs, ∃ ns, Plainly cwd f ns) {n : Name} (hn : w.look (cwd ++ [n]) ≠ some .dir) : ¬ InSource cwd inputs w (cwd ++ [n]) := by
  rintro ⟨f, hf, T, hT, hp⟩
  obtain ⟨ns, hns⟩ := hs f hf
  have hTe := hns.leads hT
  subst hTe
  have h1 : ns <+: [n] := (List.prefix_append_right_inj cwd).1 hp
  cases ns with
  | nil => exact hns.some rfl
  | cons m ms =>
    rw [List.cons_prefix_cons] at h1
    obtain ⟨rfl, h2⟩ := h1
    obtain rfl := List.prefix_nil.1 h2
    exact hn hT.look

theorem cwd_not_inSource {cwd : Path} {inputs : List (List Char)} {w : World} (hs : ∀ f ∈ inputs, ∃ ns, Plainly cwd f ns) : ¬ InSource cwd inputs w cwd := by
  rintro ⟨f, hf, T, hT, hp⟩
  obtain ⟨ns, hns⟩ := hs f hf
  have hTe := hns.leads hT
  subst hTe
  have := hp.length_le
  rw [List.length_append] at this
  exact hns.some (List.length_eq_zero_iff.1 (by omega))

theorem packReady {s : Sys σ} {inputs : List (List Char)} {output : List Char} {params : CryptoParams} {a : Algorithm} {secret : Bytes} {w : World} (hd : PackDesk s inputs output w) (hf : Fits s inputs w) (hh : params.header = none)
    (hx : secret ≠ []) (hsup : Supplies s.words s.cwd .validate params.key w secret) (hp : PrimitivesWork s.C a params.hashingAlgorithm secret) (hkd : keyDraws params.key = 0) : PackReady s inputs output params a secret w where
  faultless := hd.faultless
  tree := hd.tree
  sources := hd.sources
  disjoint := hd.disjoint
  below := hd.below
  header := hh
  outside := ⟨hd.allocated, fun q hq => by
    rw [resolve_plain hd.name hd.directory] at hq
    cases hq
    exact ⟨not_inSource (fun f hf => (hd.sources f hf).1) (by rw [hd.target]; simp), fun i hi => by rw [hd.target] at hi; cases hi⟩, fun x h => by rw [hh] at h; cases h⟩
  target := canHold_free hd.name hd.directory hd.target
  temp := by
    have e : tempFile s params.key w = tempFile s .env w := by unfold tempFile; rw [hkd]; rfl
    rw [e]
    refine ⟨hd.temp.1, fun q hq => ?_⟩
    rw [resolve_plain hd.name hd.directory] at hq
    cases hq
    exact hd.temp.2
  key := ⟨hx, w, .inl ⟨.inl (not_occupied hd.name hd.directory hd.target), rfl⟩, hsup⟩
  primitives := hp
  storable := hf.storable
  size := hf.size

theorem _root_.Volaris.Spec.Plainly.start {cwd : Path} {f : List Char} {ns : List Name} (h : Plainly cwd f ns) : (toPath cwd f).start = cwd := by
  unfold PathBuf.start
  rw [if_neg (by rw [h.relative]; decide)]
  rfl

/-- A directory that is beside what has been changed is still reached. -/
theorem _root_.Volaris.Spec.Plainly.stays {cwd : Path} {f : List Char} {ns ms : List Name} (h : Plainly cwd f ms) {w w' : World} {T : Path} (hd : LeadsToDir w (toPath cwd f) T) (hn : ¬ ns <+: ms)
    (ho : ∀ x, ¬ (cwd ++ ns) <+: x → w'.look x = w.look x) : LeadsToDir w' (toPath cwd f) T := by
  have hT := h.leads hd
  subst hT
  have hr := hd.resolve
  unfold World.resolve at hr
  rw [h.names, h.start] at hr
  have key : ∀ j, ¬ (cwd ++ ns) <+: (cwd ++ ms.take j) := fun j hp => hn (((List.prefix_append_right_inj cwd).1 hp).trans (List.take_prefix _ _))
  refine ⟨?_, ?_⟩
  · unfold World.resolve
    rw [h.names, h.start]
    exact World.walk_names w' ms cwd fun j hj => by rw [ho _ (key j)]; exact walk_names_dirs ms cwd _ hr j hj
  · have := key ms.length
    rw [List.take_length] at this
    rw [ho _ this]
    exact hd.look

/-- Erasing the inputs succeeds when no call fails and nothing is asked. -/
theorem eraseInputs_forced (s : Sys σ) : ∀ (fs : List (List Char)) (w : World), w.sched = [] → TreeOk w → (∀ f ∈ fs, (∃ ns, Plainly s.cwd f ns) ∧ ∃ T, LeadsToDir w (toPath s.cwd f) T) →
    (fs.Pairwise fun f g => ∀ ns ms, Plainly s.cwd f ns → Plainly s.cwd g ms → ¬ ns <+: ms ∧ ¬ ms <+: ns) → (eraseInputs s .forced fs w).1 = .ok () := by
  intro fs
  induction fs with
  | nil => intros; rfl
  | cons f fs ih =>
    intro w hs ht hsrc hdis
    obtain ⟨⟨ns, hns⟩, T, hT⟩ := hsrc f List.mem_cons_self
    obtain ⟨r, w1, he, hb, hor⟩ := secureErase_dir s f 1 .forced ht hT
    have hpr := secureErase_prunes s f 1 .forced w
    rw [he] at hpr
    replace hpr : Pruned w w1 := hpr
    have hTe := hns.leads hT
    subst hTe
    rcases hor with ⟨-, h, -⟩ | ⟨-, ⟨rfl, hgone, -⟩ | ⟨-, h⟩⟩
    · cases h
    · unfold eraseInputs
      rw [Prog.bind_ok he]
      rw [List.pairwise_cons] at hdis
      refine ih w1 (List.suffix_nil.1 (hs ▸ hpr.sched)) (ht.cut hpr hgone hb.outside) (fun g hg => ?_) hdis.2
      obtain ⟨⟨ms, hms⟩, T', hT'⟩ := hsrc g (List.mem_cons_of_mem _ hg)
      exact ⟨⟨ms, hms⟩, T', hms.stays hT' (hdis.1 g hg ns ms hns hms).1 hb.outside⟩
    · exact absurd hs h

end Volaris.Cli
