import Verif.Proofs.CmdOk
import Verif.Proofs.Draws
import Verif.Proofs.UnpackCmd
import Verif.Proofs.RoundTrip
import Verif.Spec.TreeCmd
import Verif.Props.Pack
/-!
# Packing directories and unpacking them, without faults
-/
namespace Volaris.Cli
open Volaris.Spec Volaris.Pack
variable {σ : Type}

theorem Plainly.inj {cwd : Path} {f : List Char} {ns ms : List Name} (h : Plainly cwd f ns) (g : Plainly cwd f ms) : ns = ms :=
  List.map_inj_right (fun _ _ h => Comp.name.inj h) |>.1 (h.names.symm.trans g.names)

theorem pairwise_ne {α : Type} {R : α → α → Prop} (hsym : ∀ a b, R a b → R b a) : ∀ {l : List α}, l.Pairwise R → ∀ {a b : α}, a ∈ l → b ∈ l → a ≠ b → R a b := by
  intro l
  induction l with
  | nil => intro _ a b ha; cases ha
  | cons x l ih =>
    intro h a b ha hb hne
    rw [List.pairwise_cons] at h
    rcases List.mem_cons.1 ha with ha' | ha' <;> rcases List.mem_cons.1 hb with hb' | hb'
    · exact absurd (ha'.trans hb'.symm) hne
    · exact ha' ▸ h.1 b hb'
    · exact hb' ▸ hsym _ _ (h.1 a ha')
    · exact ih h.2 ha' hb' hne

/-- What a listing of the inputs is like. -/
structure Listing (cwd : Path) (inputs : List (List Char)) (w v : World) (fs : List Storage.Entry) : Prop where
  dirs : ∀ f ∈ inputs, ∀ T, LeadsToDir w (toPath cwd f) T → ∀ ms, w.look (T ++ ms) = some .dir → Storage.Entry.dir ((toPath cwd f).push (ms.map .name)) ∈ fs
  files : ∀ f ∈ inputs, ∀ T, LeadsToDir w (toPath cwd f) T → ∀ ms i, w.look (T ++ ms) = some (.file i) →
    ∃ h, Storage.Entry.file ((toPath cwd f).push (ms.map .name)) h ∈ fs ∧ v.fd h = { ino := i, pos := 0 } ∧ v.file i = w.file i
  only : ∀ e ∈ fs, ∃ f ∈ inputs, ∃ T ms, LeadsToDir w (toPath cwd f) T ∧ pathOf e = (toPath cwd f).push (ms.map .name) ∧
    ((e = .dir (pathOf e) ∧ w.look (T ++ ms) = some .dir) ∨
     ∃ h i, e = .file (pathOf e) h ∧ w.look (T ++ ms) = some (.file i) ∧ v.fd h = { ino := i, pos := 0 } ∧ h < v.nextFd)
  paths : ∃ u, TreeOk u ∧ (∀ f ∈ inputs, ∃ T, LeadsToDir u (toPath cwd f) T) ∧ fs.map pathOf = inputs.flatMap fun f => Storage.World.below u (toPath cwd f)
  handles : (Pack.handles fs).Nodup

theorem pathOf_eq (e : Storage.Entry) : pathOf e = e.path := by cases e <;> rfl

theorem expand_paths : ∀ (es : List Storage.Entry) {fs : List Storage.Entry} {w w' : World}, (∀ e ∈ es, ∃ p, e = .dir p) → expand es w = (.ok fs, w') →
    fs.map pathOf = es.flatMap fun e => Storage.World.below w e.path := by
  intro es
  induction es with
  | nil =>
    intro fs w w' _ h
    cases h
    rfl
  | cons e es ih =>
    intro fs w w' hd h
    obtain ⟨p, rfl⟩ := hd e List.mem_cons_self
    unfold expand at h
    obtain ⟨f1, w1, h1, h⟩ := bind_eq_ok h
    obtain ⟨f2, w2, h2, h⟩ := bind_eq_ok h
    cases h
    have h1 : Storage.readEntries (Storage.World.below w p) w = (.ok f1, w1) := mapErr_eq_ok h1
    obtain ⟨hl1, hp1, -⟩ := readEntries_ok _ h1
    have h2 := ih (fun e he => hd e (List.mem_cons_of_mem _ he)) h2
    rw [List.map_append, List.flatMap_cons, h2]
    have e1 : f1.map pathOf = Storage.World.below w p := by
      rw [← hp1]
      exact List.map_congr_left fun e _ => pathOf_eq e
    have e2 : (fun e : Storage.Entry => Storage.World.below w1 e.path) = fun e => Storage.World.below w e.path := funext fun e => below_congr hl1.dir _
    rw [e1, e2]
    rfl

/-- Without faults, listing entries that exist succeeds. -/
theorem readEntries_nil : ∀ (ps : List PathBuf) {w : World}, w.sched = [] → (∀ p ∈ ps, (∃ q i, LeadsToFile w p q i) ∨ ∃ q, LeadsToDir w p q) →
    ∃ es w', Storage.readEntries ps w = (.ok es, w') := by
  intro ps
  induction ps with
  | nil => intro w _ _; exact ⟨[], w, rfl⟩
  | cons p ps ih =>
    intro w hs hp
    unfold Storage.readEntries
    rw [Prog.bind_ok (Prog.mapErr_ok (sys_nil hs))]
    obtain ⟨e, w1, h1⟩ : ∃ e w1, Storage.readFile p w = (.ok e, w1) := by
      rcases readInput_cases p w with ⟨q, i, s, _, _, he⟩ | ⟨q, _, he⟩ | ⟨e, s, _, he, h⟩
      · exact ⟨_, _, mapErr_eq_ok he⟩
      · exact ⟨_, _, mapErr_eq_ok he⟩
      · exfalso
        rcases h with h | h
        · exact h hs
        · rcases hp p List.mem_cons_self with hf | ⟨q, hd⟩
          · exact h hf
          · have : readInput p w = (.ok (.dir p), w) := by
              unfold readInput Storage.readFile
              have hdir : w.isDirAt p = true := by
                unfold World.isDirAt
                rw [hd.resolve]
                simp [hd.look]
              refine Prog.mapErr_ok ?_
              rw [Prog.bind_ok (show Volaris.isDir p w = (.ok true, w) by unfold Volaris.isDir; rw [hdir])]
              rfl
            rw [this] at he
            cases he
    rw [Prog.bind_ok h1]
    obtain ⟨hl1, -⟩ := readFile_ok h1
    obtain ⟨es, w2, h2⟩ := ih (w := w1) (List.suffix_nil.1 (hs ▸ hl1.sched)) (fun p hp' => by
      rcases hp p (List.mem_cons_of_mem _ hp') with ⟨q, i, h⟩ | ⟨q, h⟩
      · exact .inl ⟨q, i, leads_congr hl1.dir h⟩
      · exact .inr ⟨q, by rw [hl1.resolve]; exact h.resolve, by rw [hl1.look]; exact h.look⟩)
    exact ⟨e :: es, w2, by rw [Prog.bind_ok h2]; rfl⟩

theorem expand_nil : ∀ (es : List Storage.Entry) {w : World}, w.sched = [] → TreeOk w → (∀ e ∈ es, ∃ p q, e = .dir p ∧ LeadsToDir w p q) → ∃ fs w', expand es w = (.ok fs, w') := by
  intro es
  induction es with
  | nil => intro w _ _ _; exact ⟨[], w, rfl⟩
  | cons e es ih =>
    intro w hs ht hd
    obtain ⟨p, q, rfl, hq⟩ := hd _ List.mem_cons_self
    obtain ⟨f1, w1, h1⟩ := readEntries_nil (Storage.World.below w p) hs (fun x hx => by
      obtain ⟨ns, n, hn, rfl⟩ := (mem_below ht hq x).1 hx
      have hr := below_leads ht hq hn
      cases n with
      | dir => exact .inr ⟨_, hr, hn⟩
      | file i => exact .inl ⟨_, i, hr, hn⟩)
    obtain ⟨hl1, -⟩ := readEntries_ok _ h1
    obtain ⟨f2, w2, h2⟩ := ih (w := w1) (List.suffix_nil.1 (hs ▸ hl1.sched)) (ht.congr hl1.dir) (fun e he => by
      obtain ⟨p, q, h1, h2⟩ := hd e (List.mem_cons_of_mem _ he)
      exact ⟨p, q, h1, by rw [hl1.resolve]; exact h2.resolve, by rw [hl1.look]; exact h2.look⟩)
    refine ⟨f1 ++ f2, w2, ?_⟩
    unfold expand
    rw [Prog.bind_ok (show (match Storage.Entry.dir p with
        | .dir p => (Storage.readDir (.dir p)).mapErr Error.storage
        | .file p h => pure [.file p h] : Prog Error (List Storage.Entry)) w = (.ok f1, w1) from Prog.mapErr_ok h1), Prog.bind_ok h2]
    rfl

/-- Listing the inputs after files beside them were opened. -/
theorem listing_of_expand {cwd : Path} {inputs : List (List Char)} {w v v' : World} {F : Path → Prop} {fs : List Storage.Entry} (htr : Trail F w v) (htreev : TreeOk v)
    (hal : Allocated w) (hF : ∀ q, F q → ¬ InSource cwd inputs w q ∧ ∀ i, w.look q = some (.file i) → ∀ x, InSource cwd inputs w x → w.look x ≠ some (.file i))
    (hex : expand (inputs.map fun f => .dir (toPath cwd f)) v = (.ok fs, v')) (hdirs : ∀ f ∈ inputs, ∃ T, LeadsToDir w (toPath cwd f) T) :
    Listing cwd inputs w v' fs := by
  have hall : ∀ e ∈ inputs.map (fun f => Storage.Entry.dir (toPath cwd f)), ∃ p, e = .dir p := by intro e he; obtain ⟨f, _, rfl⟩ := List.mem_map.1 he; exact ⟨_, rfl⟩
  obtain ⟨hl, hlisted, hnd, hpaths⟩ := expand_ok _ hall hex
  have hp2 := expand_paths _ hall hex
  have up : ∀ {f T}, LeadsToDir w (toPath cwd f) T → LeadsToDir v (toPath cwd f) T := fun h => ⟨(htr.resolves _ _).2 h.resolve, htr.look h.look⟩
  have same : ∀ {x}, InSource cwd inputs w x → v.look x = w.look x := by
    intro x hx
    rcases htr.extracts.look x with h | ⟨_, _, h⟩ | ⟨_, h, _⟩
    · exact h
    · exact h.elim
    · exact absurd hx (hF _ h).1
  have kept : ∀ {x i}, InSource cwd inputs w x → w.look x = some (.file i) → v'.file i = w.file i := by
    intro x i hx hi
    rw [hl.file]
    exact htr.kept (hal x i hi) fun q hq hlq => (hF q hq).2 i hlq x hx hi
  refine ⟨fun f hf T hT ms hi => ?_, fun f hf T hT ms i hi => ?_, fun e he => ?_, ?_, hnd⟩
  · have hmem : (toPath cwd f).push (ms.map .name) ∈ fs.map Storage.Entry.path :=
      (hpaths _).2 ⟨toPath cwd f, List.mem_map.2 ⟨f, hf, rfl⟩, (mem_below htreev (up hT) _).2 ⟨ms, _, htr.look hi, rfl⟩⟩
    obtain ⟨x, hx, hxp⟩ := List.mem_map.1 hmem
    have hres := below_leads htreev (up hT) (htr.look hi)
    cases x with
    | dir p => have hxp : p = _ := hxp; subst hxp; exact hx
    | file p h =>
      obtain ⟨_, _, q, i, hq, _⟩ := hlisted _ hx
      have hxp : p = _ := hxp
      have := hq.resolve
      rw [hxp, hres] at this; cases this
      have := hq.look
      rw [htr.look hi] at this; cases this
  · have hin : InSource cwd inputs w (T ++ ms) := ⟨f, hf, T, hT, List.prefix_append ..⟩
    have hmem : (toPath cwd f).push (ms.map .name) ∈ fs.map Storage.Entry.path :=
      (hpaths _).2 ⟨toPath cwd f, List.mem_map.2 ⟨f, hf, rfl⟩, (mem_below htreev (up hT) _).2 ⟨ms, _, htr.look hi, rfl⟩⟩
    obtain ⟨x, hx, hxp⟩ := List.mem_map.1 hmem
    have hres := below_leads htreev (up hT) (htr.look hi)
    cases x with
    | dir p =>
      obtain ⟨q, hq⟩ := hlisted _ hx
      have hxp : p = _ := hxp
      have := hq.resolve
      rw [hxp, hres] at this; cases this
      have := hq.look
      rw [htr.look hi] at this; cases this
    | file p h =>
      have hxp : p = _ := hxp
      subst hxp
      obtain ⟨_, _, q, i', hq, h4⟩ := hlisted _ hx
      have := hq.resolve
      rw [hres] at this; cases this
      have := hq.look
      rw [htr.look hi] at this; cases this
      exact ⟨h, hx, h4, kept hin hi⟩
  · obtain ⟨p, hp, hb⟩ := (hpaths _).1 (List.mem_map.2 ⟨e, he, rfl⟩)
    obtain ⟨f, hf, hfe⟩ := List.mem_map.1 hp
    cases hfe
    obtain ⟨T, hT⟩ := hdirs f hf
    obtain ⟨ms, n, hn, hxp⟩ := (mem_below htreev (up hT) _).1 hb
    have hres := below_leads htreev (up hT) hn
    have hin : InSource cwd inputs w (T ++ ms) := ⟨f, hf, T, hT, List.prefix_append ..⟩
    refine ⟨f, hf, T, ms, hT, by rw [pathOf_eq]; exact hxp, ?_⟩
    cases e with
    | dir p =>
      left
      obtain ⟨q, hq⟩ := hlisted _ he
      have hxp : p = _ := hxp
      have h1 := hq.resolve
      rw [hxp, hres] at h1; cases h1
      exact ⟨rfl, by rw [← same hin]; exact hq.look⟩
    | file p h =>
      right
      obtain ⟨_, h2, q, i, hq, h4⟩ := hlisted _ he
      have hxp : p = _ := hxp
      have h1 := hq.resolve
      rw [hxp, hres] at h1; cases h1
      exact ⟨h, i, rfl, by rw [← same hin]; exact hq.look, h4, h2⟩
  · refine ⟨v, htreev, fun f hf => (hdirs f hf).imp fun T hT => up hT, ?_⟩
    rw [hp2, List.flatMap_map]
    rfl

/-- No path below a directory is listed twice. -/
theorem below_nodup {u : World} (ht : TreeOk u) {p : PathBuf} {T : Path} (hd : LeadsToDir u p T) : (Storage.World.below u p).Pairwise fun x y => (x.abs, x.comps) ≠ (y.abs, y.comps) := by
  obtain ⟨hb, hk⟩ := Storage.below_resolves ht hd
  rw [hb, List.pairwise_cons]
  constructor
  · intro y hy heq
    obtain ⟨k, hk', rfl⟩ := List.mem_map.1 hy
    obtain ⟨-, -, -, ⟨s, rfl⟩⟩ := hk k hk'
    have hne : s ≠ [] := by
      rintro rfl
      have := (List.mem_filter.1 hk').2
      simp at this
    have := (Prod.mk.inj heq).2
    rw [List.drop_left] at this
    change p.comps = p.comps ++ _ at this
    have := List.self_eq_append_right.1 this
    exact hne (List.map_eq_nil_iff.1 this)
  · rw [List.pairwise_map]
    refine List.Pairwise.imp_of_mem ?_ (ht.distinct.filter _)
    intro k k' h1 h2 hne heq
    obtain ⟨-, -, -, ⟨s, rfl⟩⟩ := hk k h1
    obtain ⟨-, -, -, ⟨s', rfl⟩⟩ := hk k' h2
    rw [List.drop_left, List.drop_left] at heq
    have := (Prod.mk.inj heq).2
    change p.comps ++ _ = p.comps ++ _ at this
    rw [List.append_cancel_left_eq] at this
    exact hne (by rw [List.map_inj_right (fun _ _ h => Comp.name.inj h) |>.1 this])

/-- A listing of inputs that are plain and apart can be packed. -/
theorem Listing.packable {cwd : Path} {inputs : List (List Char)} {w v : World} {fs : List Storage.Entry} (h : Listing cwd inputs w v fs) (htree : TreeOk w) (hino : ∀ x i, w.look x = some (.file i) → i < v.nextIno)
    (hsrc : ∀ f ∈ inputs, ∃ ns, Plainly cwd f ns) (hdis : inputs.Pairwise fun f g => ∀ ns ms, Plainly cwd f ns → Plainly cwd g ms → ¬ ns <+: ms ∧ ¬ ms <+: ns)
    (hbel : PlainBelow cwd inputs w) : Packable v fs := by
  -- the names of an entry
  have named : ∀ {e f T ms ns}, pathOf e = (toPath cwd f).push (ms.map .name) → Plainly cwd f ns → LeadsToDir w (toPath cwd f) T → Named e (ns ++ ms) := by
    intro e f T ms ns hp hn _
    refine ⟨by rw [hp]; exact hn.relative, ?_⟩
    rw [hp, List.map_append, ← hn.names]
    rfl
  have uniq : ∀ {e : Storage.Entry} {xs ys : List Name}, Named e xs → Named e ys → xs = ys := fun h1 h2 =>
    List.map_inj_right (fun _ _ h => Comp.name.inj h) |>.1 (h1.2.symm.trans h2.2)
  have comparable : ∀ {f g ns ns'}, f ∈ inputs → g ∈ inputs → Plainly cwd f ns → Plainly cwd g ns' → (ns <+: ns' ∨ ns' <+: ns) → f = g := by
    intro f g ns ns' hf hg hn hn' hc
    refine Classical.byContradiction fun hne => ?_
    have := pairwise_ne (R := fun f g => ∀ ns ms, Plainly cwd f ns → Plainly cwd g ms → ¬ ns <+: ms ∧ ¬ ms <+: ns) (fun a b h ns ms h1 h2 => (h ms ns h2 h1).symm) hdis hf hg hne ns ns' hn hn'
    exact hc.elim this.1 this.2
  refine ⟨?_, ?_, ?_, ?_, ?_, ?_, h.handles, ?_⟩
  · intro e he
    obtain ⟨f, hf, T, ms, hT, hp, hk⟩ := h.only e he
    obtain ⟨ns, hn⟩ := hsrc f hf
    have hN := named hp hn hT
    refine ⟨?_, fun n hm => ?_⟩
    · rw [hN.2]
      intro hnil
      exact hn.some (List.append_eq_nil_iff.1 (List.map_eq_nil_iff.1 hnil)).1
    · rw [hN.2] at hm
      obtain ⟨n', hm, hnn⟩ := List.mem_map.1 hm
      cases hnn
      rcases List.mem_append.1 hm with hm | hm
      · exact hn.plain n hm
      · refine hbel.plain f hf T hT ms ?_ n hm
        rcases hk with ⟨_, hk⟩ | ⟨_, _, _, hk, _⟩ <;> rw [hk] <;> simp
  · obtain ⟨u, hu, hdu, hpaths⟩ := h.paths
    have : (fs.map pathOf).Pairwise fun x y => (x.abs, x.comps) ≠ (y.abs, y.comps) := by
      rw [hpaths, List.pairwise_flatMap]
      refine ⟨fun f hf => ?_, ?_⟩
      · obtain ⟨T, hT⟩ := hdu f hf
        exact below_nodup hu hT
      · refine hdis.imp_of_mem ?_
        intro f g hf hg hfg x hx y hy heq
        obtain ⟨T, hT⟩ := hdu f hf
        obtain ⟨T', hT'⟩ := hdu g hg
        obtain ⟨ns, hn⟩ := hsrc f hf
        obtain ⟨ns', hn'⟩ := hsrc g hg
        obtain ⟨ms, _, _, rfl⟩ := (mem_below hu hT x).1 hx
        obtain ⟨ms', _, _, rfl⟩ := (mem_below hu hT' y).1 hy
        have := (Prod.mk.inj heq).2
        change (toPath cwd f).comps ++ _ = (toPath cwd g).comps ++ _ at this
        rw [hn.names, hn'.names, ← List.map_append, ← List.map_append] at this
        have := List.map_inj_right (fun _ _ h => Comp.name.inj h) |>.1 this
        have hc : ns <+: ns' ∨ ns' <+: ns := List.prefix_or_prefix_of_prefix (l₃ := ns ++ ms) (List.prefix_append ..) (this ▸ List.prefix_append ..)
        have hh := hfg ns ns' hn hn'
        exact hc.elim hh.1 hh.2
    unfold List.Nodup
    rw [List.pairwise_map] at this ⊢
    exact this
  · intro e he
    obtain ⟨f, hf, T, ms, hT, hp, _⟩ := h.only e he
    obtain ⟨ns, hn⟩ := hsrc f hf
    exact .inr (.inr ⟨_, named hp hn hT⟩)
  · intro p hd he xs n hN hxs
    obtain ⟨f, hf, T, ms, hT, hp, hk⟩ := h.only _ he
    obtain ⟨ns, hn⟩ := hsrc f hf
    have heq := uniq hN (named hp hn hT)
    rcases hk with ⟨hk, _⟩ | ⟨hd', i, _, hk, _⟩
    · cases hk
    have hms : ms ≠ [] := by
      rintro rfl
      rw [List.append_nil, hT.look] at hk
      cases hk
    obtain ⟨ms', m, rfl⟩ : ∃ ms' m, ms = ms' ++ [m] := ⟨ms.dropLast, ms.getLast hms, (List.dropLast_concat_getLast hms).symm⟩
    rw [← List.append_assoc] at heq
    obtain ⟨rfl, -⟩ := List.append_inj' heq rfl
    have hdir : w.look (T ++ ms') = some .dir := by
      have := htree.parent (k := T ++ (ms' ++ [m])) (by simp) hk
      rw [← List.append_assoc, List.dropLast_concat] at this
      exact this
    exact ⟨_, h.dirs f hf T hT ms' hdir, named rfl hn hT⟩
  · intro p hd p' he he' xs ys hN hN' hpre
    obtain ⟨f, hf, T, ms, hT, hp, hk⟩ := h.only _ he
    obtain ⟨g, hg, T', ms', hT', hp', hk'⟩ := h.only _ he'
    obtain ⟨ns, hn⟩ := hsrc f hf
    obtain ⟨ns', hn'⟩ := hsrc g hg
    have e1 := uniq hN (named hp hn hT)
    have e2 := uniq hN' (named hp' hn' hT')
    subst e1 e2
    rcases hk with ⟨hk, _⟩ | ⟨_, i, _, hk, _⟩
    · cases hk
    rcases hk' with ⟨_, hk'⟩ | ⟨_, _, hk', _⟩
    · have hfg : f = g := comparable hf hg hn hn' (List.prefix_or_prefix_of_prefix (l₃ := ns' ++ ms') ((List.prefix_append ..).trans hpre) (List.prefix_append ..))
      subst hfg
      have := Plainly.inj hn hn'
      subst this
      have : T = T' := by
        have := hT.resolve
        rw [hT'.resolve] at this
        cases this; rfl
      subst this
      obtain ⟨zs, hz⟩ := (List.prefix_append_right_inj _).1 hpre
      subst hz
      by_cases hz : zs = []
      · subst hz
        rw [List.append_nil, hk] at hk'
        cases hk'
      · have := htree.ancestors (T ++ ms) zs.length zs rfl (by rw [List.append_assoc, hk']; rfl) 0 (List.length_pos_iff.2 hz)
        rw [List.take_zero, List.append_nil, hk] at this
        cases this
    · cases hk'
  · intro p hd he xs n hN
    obtain ⟨f, hf, T, ms, hT, hp, hk⟩ := h.only _ he
    obtain ⟨ns, hn⟩ := hsrc f hf
    have heq := uniq hN (named hp hn hT)
    rcases hk with ⟨hk, _⟩ | ⟨hd', i, _, hk, _⟩
    · cases hk
    have hms : ms ≠ [] := by
      rintro rfl
      rw [List.append_nil, hT.look] at hk
      cases hk
    obtain ⟨ms', m, rfl⟩ : ∃ ms' m, ms = ms' ++ [m] := ⟨ms.dropLast, ms.getLast hms, (List.dropLast_concat_getLast hms).symm⟩
    rw [← List.append_assoc] at heq
    obtain ⟨-, e⟩ := List.append_inj' heq rfl
    cases e
    exact hbel.backslash f hf T hT ms' n i (by rw [List.append_assoc]; exact hk)
  · intro p hd he
    obtain ⟨f, hf, T, ms, hT, hp, hk⟩ := h.only _ he
    rcases hk with ⟨hk, _⟩ | ⟨hd', i, hk0, hk, hfd, hlt⟩
    · cases hk
    · cases hk0
      exact ⟨⟨hlt, by rw [hfd]; exact hino _ i hk⟩, by rw [hfd]⟩

/-- The pack command without faults. -/
theorem packMode_ran (s : Sys σ) (hC : s.C.Lawful) (inputs : List (List Char)) (output : List Char) (pp : PackParams) (params : CryptoParams) (a : Algorithm) (secret : Bytes) {w : World}
    (hpp : pp.eraseSource = false) (h : PackReady s inputs output params a secret w) :
    ∃ w' c v fs, packMode s inputs output pp params a w = (.ok (), w') ∧ ContentAt w' (toPath s.cwd output) c ∧ Listing s.cwd inputs w v fs ∧ Packable v fs ∧
      (∀ f ∈ fs, s.z.storable (stored v f).name) ∧ DecryptsTo s.C secret c (s.z.encode (fs.map (stored v))) ∧
      Archives s.cwd inputs w (fs.map (stored v)) ∧ w'.sched = [] ∧ ∀ q, w.resolve (toPath s.cwd output) = .ok q → ∀ x, x ≠ q → w'.look x = w.look x := by
  obtain ⟨hx, u, hac, hsup⟩ := h.key
  obtain ⟨ud, uf, us, ui, -⟩ := afterConsent_dir hac
  have hdirs : ∀ f ∈ inputs, ∃ T, LeadsToDir w (toPath s.cwd f) T := fun f hf => (h.sources f hf).2
  have hne : ¬ inputs.any (· = output) = true := by
    intro hany
    obtain ⟨f, hf, he⟩ := List.any_eq_true.1 hany
    obtain rfl := of_decide_eq_true he
    obtain ⟨T, hT⟩ := hdirs f hf
    exact (h.outside.out T hT.resolve).1 ⟨f, hf, T, hT, List.prefix_refl _⟩
  have e0 : (anyFile (inputs.map (toPath s.cwd)) : Prog Error Bool) w = (.ok false, w) := by
    unfold anyFile
    congr 2
    rw [List.any_eq_false]
    intro p hp
    obtain ⟨f, hf, rfl⟩ := List.mem_map.1 hp
    obtain ⟨T, hT⟩ := hdirs f hf
    rw [hT.resolve]
    simp [hT.look]
  have e1 := consent_after h.faultless hac
  have hus : u.sched = [] := us.trans h.faultless
  have e2 : readInputs s inputs u = (.ok (inputs.map fun f => .dir (toPath s.cwd f)), u) := by
    have : ∀ fs : List (List Char), (∀ f ∈ fs, ∃ T, LeadsToDir u (toPath s.cwd f) T) → readInputs s fs u = (.ok (fs.map fun f => .dir (toPath s.cwd f)), u) := by
      intro fs
      induction fs with
      | nil => intro _; rfl
      | cons f fs ih =>
        intro hall
        obtain ⟨T, hT⟩ := hall f List.mem_cons_self
        unfold readInputs
        have : readInput (toPath s.cwd f) u = (.ok (.dir (toPath s.cwd f)), u) := by
          unfold readInput Storage.readFile
          have hdir : u.isDirAt (toPath s.cwd f) = true := by
            unfold World.isDirAt
            rw [hT.resolve]
            simp [hT.look]
          refine Prog.mapErr_ok ?_
          rw [Prog.bind_ok (show Volaris.isDir (toPath s.cwd f) u = (.ok true, u) by unfold Volaris.isDir; rw [hdir])]
          rfl
        rw [Prog.bind_ok this, Prog.bind_ok (ih fun g hg => hall g (List.mem_cons_of_mem _ hg))]
        rfl
    refine this inputs fun f hf => ?_
    obtain ⟨T, hT⟩ := hdirs f hf
    exact ⟨T, by rw [World.resolve_congr ud]; exact hT.resolve, by rw [World.look_congr ud]; exact hT.look⟩
  obtain ⟨w3, e3⟩ := getSecret_nil hus hx hsup
  have l3 := (getSecret_looks u.nextFd s.words s.cwd params.key .validate u (Nat.le_refl _)).1
  rw [e3] at l3
  replace l3 : Looked u.nextFd u w3 := l3
  have hs3 : w3.sched = [] := List.suffix_nil.1 (hus ▸ l3.sched)
  have hd3 : w3.dir = w.dir := l3.dir.trans ud
  have hf3 : w3.file = w.file := l3.file.trans uf
  have hn3 : w3.nextIno = w.nextIno := l3.nextIno.trans ui
  have hal3 : Allocated w3 := fun x k hk => by
    rw [hn3]; rw [World.look_congr hd3] at hk; exact h.outside.allocated x k hk
  obtain ⟨qo, j, w4, e4, o4⟩ := openOutput_nil hs3 (canHold_congr hd3 h.target)
  have hs4 := o4.sched_nil hs3
  have hal4 := Opened.allocated o4 hal3
  have hqo : w.resolve (toPath s.cwd output) = .ok qo := by rw [← World.resolve_congr hd3]; exact o4.resolve
  have htr : Trail (· = qo) w3 w4 := Trail.opened o4 rfl
  have htree3 : TreeOk w3 := h.tree.congr hd3
  have htree4 : TreeOk w4 := by
    have := openOutput_tree (toPath s.cwd output) w3 htree3
    rw [e4] at this
    exact this
  have hin : ∀ x, InSource s.cwd inputs w3 x ↔ InSource s.cwd inputs w x := by
    intro x
    unfold InSource
    constructor
    · rintro ⟨f, hf, T, hT, hp⟩
      exact ⟨f, hf, T, ⟨by rw [← World.resolve_congr hd3]; exact hT.resolve, by rw [← World.look_congr hd3]; exact hT.look⟩, hp⟩
    · rintro ⟨f, hf, T, hT, hp⟩
      exact ⟨f, hf, T, ⟨by rw [World.resolve_congr hd3]; exact hT.resolve, by rw [World.look_congr hd3]; exact hT.look⟩, hp⟩
  have hlead3 : ∀ p T, LeadsToDir w3 p T ↔ LeadsToDir w p T := fun p T =>
    ⟨fun hT => ⟨by rw [← World.resolve_congr hd3]; exact hT.resolve, by rw [← World.look_congr hd3]; exact hT.look⟩,
     fun hT => ⟨by rw [World.resolve_congr hd3]; exact hT.resolve, by rw [World.look_congr hd3]; exact hT.look⟩⟩
  have hdirs3 : ∀ f ∈ inputs, ∃ T, LeadsToDir w3 (toPath s.cwd f) T := fun f hf => (hdirs f hf).imp fun T hT => (hlead3 _ _).2 hT
  have hF : ∀ q, q = qo → ¬ InSource s.cwd inputs w3 q ∧ ∀ i, w3.look q = some (.file i) → ∀ x, InSource s.cwd inputs w3 x → w3.look x ≠ some (.file i) := by
    rintro q rfl
    obtain ⟨h1, h2⟩ := h.outside.out q hqo
    refine ⟨fun hi => h1 ((hin _).1 hi), fun i hi x hx => ?_⟩
    rw [World.look_congr hd3] at hi ⊢
    exact h2 i hi x ((hin x).1 hx)
  obtain ⟨fs, w5, e5⟩ := expand_nil (inputs.map fun f => .dir (toPath s.cwd f)) hs4 htree4 (by
    intro e he
    obtain ⟨f, hf, rfl⟩ := List.mem_map.1 he
    obtain ⟨T, hT⟩ := hdirs3 f hf
    exact ⟨_, T, rfl, (htr.resolves _ _).2 hT.resolve, htr.look hT.look⟩)
  have hlist3 := listing_of_expand htr htree4 hal3 hF e5 hdirs3
  have l5 := (expand_ok _ (by intro e he; obtain ⟨f, _, rfl⟩ := List.mem_map.1 he; exact ⟨_, rfl⟩) e5).1
  have hlist : Listing s.cwd inputs w w5 fs := by
    refine ⟨fun f hf T hT ms hm => hlist3.dirs f hf T ((hlead3 _ _).2 hT) ms (by rw [World.look_congr hd3]; exact hm), fun f hf T hT ms i hm => ?_, fun e he => ?_, hlist3.paths, hlist3.handles⟩
    · obtain ⟨hd, h1, h2, h3⟩ := hlist3.files f hf T ((hlead3 _ _).2 hT) ms i (by rw [World.look_congr hd3]; exact hm)
      exact ⟨hd, h1, h2, by rw [h3, hf3]⟩
    · obtain ⟨f, hf, T, ms, hT, hp, hk⟩ := hlist3.only e he
      refine ⟨f, hf, T, ms, (hlead3 _ _).1 hT, hp, ?_⟩
      rw [World.look_congr hd3] at hk
      exact hk
  have hs5 : w5.sched = [] := List.suffix_nil.1 (hs4 ▸ l5.sched)
  have hpk : Packable w5 fs := hlist.packable h.tree (fun x i hi => by
      rw [l5.nextIno]
      have := h.outside.allocated x i hi
      rw [← hn3] at this
      exact Nat.lt_of_lt_of_le this htr.extracts.nextIno) (fun f hf => (h.sources f hf).1) h.disjoint h.below
  have harch : Archives s.cwd inputs w (fs.map (stored w5)) := by
    have := archives_of_listing htr htree4 hal3 hF e5 hdirs3
    refine ⟨fun f hf T hT ns i hi => ?_, fun f hf T hT ns hi => ?_, fun e he => ?_⟩
    · have := this.files f hf T ((hlead3 _ _).2 hT) ns i (by rw [World.look_congr hd3]; exact hi)
      rw [hf3] at this
      exact this
    · exact this.dirs f hf T ((hlead3 _ _).2 hT) ns (by rw [World.look_congr hd3]; exact hi)
    · obtain ⟨f, hf, T, hT, ns, hk⟩ := this.only e he
      refine ⟨f, hf, T, (hlead3 _ _).1 hT, ns, ?_⟩
      rw [World.look_congr hd3, hf3] at hk
      exact hk
  have hsto : ∀ f ∈ fs, s.z.storable (stored w5 f).name := fun f hf => h.storable _ harch _ (List.mem_map.2 ⟨f, hf, rfl⟩)
  have hcc : CanCreate w5 (tempPath s.tmp w5) := by
    have hname : tempPath s.tmp w5 = tempFile s params.key w := by
      have r4 : w4.rng = w3.rng := by
        have := Conc.rng_openOutput (toPath s.cwd output) w3
        rw [e4] at this
        exact this
      have r5 : w5.rng = w4.rng := by
        have := Conc.rng_expand (inputs.map fun f => .dir (toPath s.cwd f)) w4
        rw [e5] at this
        exact this
      have r1 : u.rng = w.rng := by rcases hac with ⟨_, rfl⟩ | ⟨_, _, _, _, rfl⟩ <;> rfl
      unfold tempPath tempFile tape
      rw [r5, r4, List.map_map]
      congr 3
      refine List.map_congr_left fun i _ => ?_
      show Storage.alphanumeric (w3.rng (0 + i)) = _
      rw [Conc.getSecret_drew e3, r1, Nat.zero_add]
    rw [hname]
    obtain ⟨q, h1, h2, h3⟩ := h.temp.1
    have hq : q ≠ qo := by
      rintro rfl
      exact h.temp.2 q hqo h1
    rw [← World.resolve_congr hd3] at h1
    rw [← World.look_congr hd3] at h2 h3
    refine ⟨q, by rw [l5.resolve]; exact (htr.resolves _ _).2 h1, ?_, by rw [l5.look]; exact htr.look h3⟩
    rw [l5.look, o4.others q hq]
    exact h2
  have hfdo : w5.fd w3.nextFd = { ino := j, pos := 0 } := by
    rw [l5.fds _ (by rw [o4.nextFd]; exact Nat.lt_succ_self _)]; exact o4.handle
  have hopen : OpenHandle w5 w3.nextFd := by
    refine ⟨Nat.lt_of_lt_of_le (by rw [o4.nextFd]; exact Nat.lt_succ_self _) l5.nextFd, ?_⟩
    rw [hfdo, l5.nextIno]
    exact hal4 _ _ o4.now
  obtain ⟨w6, e6, hdec, -⟩ := Pack.execute_ok hC s.z s.tmp (packRequest params a w3.nextFd fs none secret) w5 hs5 hcc hpk hsto hopen
    (by
      show w5.file (w5.fd w3.nextFd).ino = []
      rw [hfdo, l5.file]; exact o4.empty) rfl (.inl rfl) rfl h.primitives
    (h.size _ harch (stored_nodup hpk _))
  change DecryptsTo s.C secret (w6.file (w5.fd w3.nextFd).ino) (s.z.encode (fs.map (stored w5))) at hdec
  rw [hfdo] at hdec
  have hs6 : w6.sched = [] := by
    have := Pack.execute_shrinks s.C s.z s.tmp (packRequest params a w3.nextFd fs none secret) w5
    rw [e6] at this
    exact List.suffix_nil.1 (hs5 ▸ this)
  have htp := Trail.packed (F := fun q => q = qo ∨ (TempPlace s.tmp q ∧ w5.look q = none)) (.refl w5) s.C s.z s.tmp (packRequest params a w3.nextFd fs none secret)
    (by
      intro x hx
      have : x = w3.nextFd := List.mem_singleton.1 hx
      subst this
      exact ⟨qo, .inl rfl, by rw [hfdo, l5.look]; exact o4.now⟩)
    (fun q hq hn => .inr ⟨hq, hn⟩)
  rw [e6] at htp
  have hout6 : LeadsToFile w6 (toPath s.cwd output) qo j := htp.leads (leads_congr l5.dir ⟨(o4.resolves _ _).2 o4.resolve, o4.now⟩)
  obtain ⟨w7, e7⟩ := hashIf_nil s params.hashMode hs6 hout6
  have l7 := (hashIf_looks s w6.nextFd params.hashMode output w6 (Nat.le_refl _)).1
  rw [e7] at l7
  replace l7 : Looked w6.nextFd w6 w7 := l7
  have htemp : ∀ x, w6.look x = w5.look x := by
    obtain ⟨-, -, hx, -⟩ := Props.C43_pack_partial s.C s.z s.tmp (packRequest params a w3.nextFd fs none secret) w5 w6 (.ok ()) ⟨fun p hd hm => (hpk.opened p hd hm).1, hopen, fun hw hh => by cases hh⟩ hs5 e6 (.inl rfl)
    exact hx
  refine ⟨w7, w6.file j, w5, fs, ?_, ⟨qo, j, leads_congr l7.dir hout6, by rw [l7.file]⟩, hlist, hpk, hsto, hdec, harch, List.suffix_nil.1 (hs6 ▸ l7.sched), fun q hq x hx => by
    rw [hqo] at hq
    cases hq
    rw [l7.look, htemp, l5.look, o4.others x hx, World.look_congr hd3]⟩
  unfold packMode
  rw [if_neg hne, Prog.bind_ok e0, if_neg (by simp), Prog.bind_ok e1, Prog.bind_ok e2, Prog.bind_ok e3, Prog.bind_ok e4, h.header,
    Prog.bind_ok (show openHeader s params.force none w4 = (.ok none, w4) from rfl)]
  have e6' : packBody s params a (inputs.map fun f => .dir (toPath s.cwd f)) (.file (toPath s.cwd output) w3.nextFd) none secret w4 = (.ok (), w6) := by
    unfold packBody
    rw [Prog.bind_ok e5, Prog.bind_ok (streamOf_file _ _ w5)]
    change ((Pack.execute s.C s.z s.tmp (packRequest params a w3.nextFd fs none secret)).mapErr Error.pack >>= _) w5 = _
    rw [Prog.bind_ok (Prog.mapErr_ok e6), Prog.bind_ok (show flushOpt none w6 = (.ok (), w6) from rfl)]
    exact flushFile_nil hs6 _ _
  rw [Prog.bind_ok e6', Prog.bind_ok e7, hpp]
  rfl

theorem packMode_nil (s : Sys σ) (hC : s.C.Lawful) (inputs : List (List Char)) (output : List Char) (pp : PackParams) (params : CryptoParams) (a : Algorithm) (secret : Bytes) {w : World}
    (hpp : pp.eraseSource = false) (h : PackReady s inputs output params a secret w) :
    ∃ w' c v fs, packMode s inputs output pp params a w = (.ok (), w') ∧ ContentAt w' (toPath s.cwd output) c ∧ Listing s.cwd inputs w v fs ∧ Packable v fs ∧
      (∀ f ∈ fs, s.z.storable (stored v f).name) ∧ DecryptsTo s.C secret c (s.z.encode (fs.map (stored v))) := by
  obtain ⟨w', c, v, fs, h1, h2, h3, h4, h5, h6, -⟩ := packMode_ran s hC inputs output pp params a secret hpp h
  exact ⟨w', c, v, fs, h1, h2, h3, h4, h5, h6⟩

/-- The unpack command without faults, on an archive of entries that can be packed. -/
theorem unpackMode_nil (s : Sys σ) (hz : s.z.Lawful) (input output : List Char) (verbose : Bool) (params : CryptoParams) (secret c : Bytes) {v u : World} (h : UnpackReady s input output params secret c v)
    {fs : List Storage.Entry} (hfs : Packable u fs) (hst : ∀ f ∈ fs, s.z.storable (stored u f).name) (hP : DecryptsTo s.C secret c (s.z.encode (fs.map (stored u)))) :
    ∃ v', unpackMode s input output verbose params v = (.ok (), v') ∧ Restored fs u (onPaper (toPath s.cwd output)) v' ∧ v'.look (onPaper (toPath s.cwd output)) = some .dir := by
  obtain ⟨q, i, hq, rfl⟩ := h.source
  have e1 := readInput_nil h.faultless hq
  obtain ⟨w3, e3⟩ := getSecret_nil (w := v.opened i) h.faultless h.key.1 (Supplies.congr (w := v) rfl rfl rfl rfl rfl rfl h.key.2)
  have l3 := (getSecret_looks (v.opened i).nextFd s.words s.cwd params.key .direct (v.opened i) (Nat.le_refl _)).1
  rw [e3] at l3
  replace l3 : Looked (v.opened i).nextFd (v.opened i) w3 := l3
  have hs3 : w3.sched = [] := List.suffix_nil.1 ((show (v.opened i).sched = [] from h.faultless) ▸ l3.sched)
  have hd3 : w3.dir = v.dir := l3.dir
  have hf3 : w3.file = v.file := l3.file
  have hn3 : w3.nextIno = v.nextIno := l3.nextIno
  have hfd3 : w3.fd v.nextFd = { ino := i, pos := 0 } := by
    rw [l3.fds _ (Nat.lt_succ_self _)]; exact opened_fd v i
  have hlt3 : v.nextFd < w3.nextFd := Nat.lt_of_lt_of_le (Nat.lt_succ_self _) l3.nextFd
  have hlook : ∀ x, w3.look x = v.look x := World.look_congr hd3
  have hname : tempPath s.tmp w3 = tempFile s params.key v := by
    unfold tempPath tempFile tape
    rw [List.map_map]
    congr 3
    refine List.map_congr_left fun k _ => ?_
    show Storage.alphanumeric (w3.rng (0 + k)) = _
    rw [Conc.getSecret_drew e3, Nat.zero_add]
    rfl
  obtain ⟨t, ht1, ht2, ht3⟩ := h.temp.1
  obtain ⟨v4, e4, hres, hroot, hs4, hkeep⟩ := Unpack.execute_yes s.C hz s.tmp s.order
    { reader := v.nextFd, headerReader := none, rawKey := secret, outputDir := toPath s.cwd output, onZipFile := some (onZipFile params.force verbose) } w3 hs3 (h.tree.congr hd3)
    (onZipFile_talks params.force verbose) (onZipFile_new params.force verbose _)
    (by rw [hname]; exact ⟨t, by rw [World.resolve_congr hd3]; exact ht1, by rw [hlook]; exact ht2, by rw [hlook]; exact ht3⟩)
    ⟨by rw [hlook]; exact h.target.start, fun x k hx => by rw [hlook]; exact h.target.way x k hx, fun ns hns => by rw [hlook]; exact h.target.below ns hns, h.target.inward⟩
    (by rw [hname]; exact h.temp.2) rfl ⟨hlt3, by rw [hfd3, hn3]; exact h.allocated _ _ hq.look⟩ hfs hst (by
      show DecryptsTo s.C secret ((w3.file (w3.fd v.nextFd).ino).drop (w3.fd v.nextFd).pos) _
      rw [hfd3, hf3]; exact hP)
  have hin4 : LeadsToFile v4 (toPath s.cwd input) q i :=
    ⟨World.resolve_mono (w := v) (fun d hd => hkeep d _ (by rw [hlook]; exact hd)) hq.resolve, hkeep _ _ (by rw [hlook]; exact hq.look)⟩
  obtain ⟨v5, e5⟩ := hashIf_nil s params.hashMode hs4 hin4
  have l5 := (hashIf_looks s v4.nextFd params.hashMode input v4 (Nat.le_refl _)).1
  rw [e5] at l5
  replace l5 : Looked v4.nextFd v4 v5 := l5
  refine ⟨v5, ?_, ⟨fun p ns hp hn => by rw [l5.look]; exact hres.dirs p ns hp hn, fun p g ns hp hn => ?_, fun ns hns hl => hres.only ns hns (by rw [← l5.look]; exact hl)⟩,
    by rw [l5.look]; exact hroot⟩
  · unfold unpackMode
    rw [Prog.bind_ok e1, h.header, Prog.bind_ok (show readHeader s none (v.opened i) = (.ok none, v.opened i) from rfl), Prog.bind_ok e3, Prog.bind_ok (streamOf_file _ _ w3)]
    change ((Unpack.execute s.C s.z s.tmp s.order
      { reader := v.nextFd, headerReader := none, rawKey := secret, outputDir := toPath s.cwd output, onZipFile := some (onZipFile params.force verbose) }).mapErr Error.unpack >>= _) w3 = _
    rw [Prog.bind_ok (Prog.mapErr_ok e4)]
    exact e5
  · obtain ⟨j, h1, h2⟩ := hres.files p g ns hp hn
    exact ⟨j, by rw [l5.look]; exact h1, by rw [l5.file]; exact h2⟩

/-- What comes back from a listing is what was below the inputs. -/
theorem returned {cwd : Path} {inputs : List (List Char)} {w u v : World} {fs : List Storage.Entry} {T : Path} (h : Listing cwd inputs w u fs)
    (htree : TreeOk w) (hsrc : ∀ f ∈ inputs, ∃ ns, Plainly cwd f ns) (hres : Restored fs u T v) (hroot : v.look T = some .dir) : Returned cwd inputs w T v := by
  have named : ∀ {f ns ms} (e : Storage.Entry), Plainly cwd f ns → pathOf e = (toPath cwd f).push (ms.map .name) → Named e (ns ++ ms) := by
    intro f ns ms e hp he
    refine ⟨by rw [he]; exact hp.relative, ?_⟩
    rw [he]
    show (toPath cwd f).comps ++ _ = _
    rw [hp.names, List.map_append]
  refine ⟨hroot, fun f hf ns D hp hD ms hl => ?_, fun f hf ns D hp hD ms i hl => ?_, fun x hx hl => ?_⟩
  · rw [List.append_assoc]
    exact hres.dirs _ _ (h.dirs f hf D hD ms hl) (named _ hp rfl)
  · obtain ⟨g, h1, h2, h3⟩ := h.files f hf D hD ms i hl
    obtain ⟨j, h4, h5⟩ := hres.files _ _ _ h1 (named _ hp rfl)
    refine ⟨j, by rw [List.append_assoc]; exact h4, ?_⟩
    rw [h5]
    unfold World.data
    rw [h2, h3]
  · obtain ⟨e, he, ms, hn, hpre⟩ := hres.only x hx hl
    obtain ⟨f, hf, D, zs, hD, hpe, hk⟩ := h.only e he
    obtain ⟨ns, hp⟩ := hsrc f hf
    refine ⟨f, hf, ns, D, hp, hD, ?_⟩
    have hms : ms = ns ++ zs := by
      have := (named e hp hpe).2
      rw [hn.2] at this
      exact List.map_inj_right (fun _ _ h => Comp.name.inj h) |>.1 this
    subst hms
    rcases List.prefix_or_prefix_of_prefix hpre (List.prefix_append ns zs) with h1 | ⟨y, rfl⟩
    · exact .inl h1
    · refine .inr ⟨y, rfl, ?_⟩
      obtain ⟨z, hz⟩ := (List.prefix_append_right_inj ns).1 hpre
      subst hz
      have hsome : (w.look (D ++ (y ++ z))).isSome := by rcases hk with ⟨-, hk⟩ | ⟨_, _, -, hk, -⟩ <;> rw [hk] <;> rfl
      by_cases hzn : z = []
      · subst hzn
        rw [List.append_nil] at hsome
        intro hno
        rw [hno] at hsome
        cases hsome
      · have := htree.ancestors D _ (y ++ z) rfl hsome y.length (by rw [List.length_append]; have := List.length_pos_iff.2 hzn; omega)
        rw [List.take_left] at this
        rw [this]
        simp

end Volaris.Cli
