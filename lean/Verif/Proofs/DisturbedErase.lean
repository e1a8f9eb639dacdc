import Verif.Proofs.DisturbedThreads
/-!
# A command while other programs change the disk: erasing
-/
namespace Volaris.Dist
open Volaris.Spec Volaris.Cli
variable {N : Disk → Path → Prop} {I J : Nat → Prop} {a : World} {ε ε' α β σ : Type}

/-- A path in a directory. -/
theorem Root.push {p : PathBuf} (h : Root N p) (ns : List Name) : Named N (p.push (ns.map .name)) := by
  intro w q hq
  have : w.walk p.start (p.comps ++ ns.map .name) = .ok q := hq
  rw [World.walk_append] at this
  split at this
  · next T hT =>
    refine h w T q hT ?_
    rw [World.walk_lexical this]
    clear this hT hq
    induction ns generalizing T with
    | nil => exact List.prefix_refl _
    | cons n ns ih => exact (List.prefix_append T [n]).trans (ih (T ++ [n]))
  · cases this

theorem removeEntries_frame : ∀ (qs : List Path) (w : World), (Storage.removeEntries qs w).2.file = w.file ∧ (∀ q, q ∉ qs → (Storage.removeEntries qs w).2.look q = w.look q) ∧
    (Storage.removeEntries qs w).2.fd = w.fd ∧ (Storage.removeEntries qs w).2.nextFd = w.nextFd
  | [], w => ⟨rfl, fun _ _ => rfl, rfl, rfl⟩
  | p :: ps, w => by
    unfold Storage.removeEntries
    obtain ⟨s, h | ⟨e, h⟩⟩ := sys_cases w
    · rw [Prog.bind_ok h]
      have hrem : ∀ q, q ∉ p :: ps → (World.removed { w with sched := s } p).look q = w.look q := fun q hq =>
        (World.look_removed { w with sched := s } p q).trans (if_neg fun h => hq (by rw [h.2]; exact List.mem_cons_self ..))
      have hd : (∃ e, Storage.dropEntry p { w with sched := s } = (.err e, { w with sched := s })) ∨ Storage.dropEntry p { w with sched := s } = (.ok (), World.removed { w with sched := s } p) := by
        unfold Storage.dropEntry
        split
        · exact .inr rfl
        · split
          · exact .inl ⟨_, rfl⟩
          · exact .inr rfl
        · exact .inl ⟨_, rfl⟩
      rcases hd with ⟨e, hd⟩ | hd
      · rw [Prog.bind_err hd]
        exact ⟨rfl, fun q _ => World.look_congr (w := w) (w' := { w with sched := s }) rfl q, rfl, rfl⟩
      · rw [Prog.bind_ok hd]
        have ih := removeEntries_frame ps (World.removed { w with sched := s } p)
        exact ⟨ih.1, fun q hq => (ih.2.1 q fun h => hq (List.mem_cons_of_mem _ h)).trans (hrem q hq), ih.2.2⟩
    · rw [Prog.bind_err h]
      exact ⟨rfl, fun q _ => World.look_congr (w := w) (w' := { w with sched := s }) rfl q, rfl, rfl⟩

theorem fr_rmTree {p : PathBuf} (hp : Root N p) : FrK N Any (Thr.atom (Storage.rmTree p)) a I := .atom fun d hd => by
  have hg := good_crashes (.rmTree p) (a.on d) hd
  have hf : (Storage.rmTree p (a.on d)).2.file = d.file ∧ (∀ q, (Storage.rmTree p (a.on d)).2.look q ≠ lookDisk d q → N d q) ∧
      (Storage.rmTree p (a.on d)).2.fd = a.fd ∧ (Storage.rmTree p (a.on d)).2.nextFd = a.nextFd := by
    unfold Storage.rmTree
    split
    · next T hT =>
      split
      · obtain ⟨h1, h2, h3⟩ := removeEntries_frame (Storage.deepFirst (((a.on d).dir.map (·.1)).filter (T.isPrefixOf ·))) (a.on d)
        refine ⟨h1, fun q hq => hp (a.on d) T q hT (Classical.byContradiction fun hn => hq (h2 q fun h => hn ?_)), h3⟩
        have := (List.mem_filter.1 (Storage.mem_deepFirst.1 h)).2
        exact List.isPrefixOf_iff_prefix.1 this
      · exact ⟨rfl, fun q hq => absurd rfl hq, rfl, rfl⟩
    · exact ⟨rfl, fun q hq => absurd rfl hq, rfl, rfl⟩
  exact ⟨⟨hf.2.1, fun i _ hi => absurd (congrFun hf.1 i) hi, fun _ => hg.1, hg.2⟩, .of_eq hf.2.2.1 hf.2.2.2, fun _ _ => trivial⟩

theorem fr_readPath (p : PathBuf) : FrK N (fun e _ _ => e.path = p) (Steps.readFile p) a I := by
  unfold Steps.readFile
  refine (fr_look fun _ => rfl).bind fun b w J hf hi _ => ?_
  cases b with
  | true => exact .pure rfl
  | false => exact (fr_mapErr (fr_openFile p)).bind fun _ _ _ _ _ _ => .pure rfl

theorem fr_readEntries : ∀ (ps : List PathBuf) {a : World} {I : Nat → Prop}, FrK N (fun es _ _ => ∀ e ∈ es, e.path ∈ ps) (Steps.readEntries ps) a I
  | [], _, _ => .pure fun _ h => nomatch h
  | p :: ps, _, _ => by
    unfold Steps.readEntries
    refine (FrK.aside (.mapErr _ .sys)).bind fun _ _ _ _ _ _ => (fr_readPath p).bind fun e _ _ _ _ he => (fr_readEntries ps).bind fun es _ _ _ _ hs => .pure fun e' h' => ?_
    rcases List.mem_cons.1 h' with rfl | h'
    · rw [he]; exact List.mem_cons_self ..
    · exact List.mem_cons_of_mem _ (hs e' h')

theorem fr_walkDir {p : PathBuf} (hp : Root N p) : FrK N (fun es _ _ => ∀ e ∈ es, Named N e.path) (Steps.walkDir p) a I := by
  unfold Steps.walkDir
  refine FrK.bind (Q := fun ps _ _ => ∀ p' ∈ ps, Named N p') (.atom fun d hd => ⟨.same rfl rfl rfl, .of_eq rfl rfl, fun ps h p' hp' => ?_⟩) fun ps _ _ _ _ h => (fr_readEntries ps).mono fun es _ _ hes e he => h _ (hes e he)
  cases h
  unfold Storage.World.below at hp'
  split at hp'
  · rcases List.mem_cons.1 hp' with rfl | hp'
    · exact hp.named
    · obtain ⟨k, -, rfl⟩ := List.mem_map.1 hp'
      exact hp.push _
  · cases hp'

theorem fr_eraseDir (order : List Nat) (n : Int) {p : PathBuf} (hp : Root N p) : FrK N Any (Steps.eraseDirExecute order (.dir p) n) a I := by
  unfold Steps.eraseDirExecute
  refine FrK.bind (Q := fun es _ _ => ∀ e ∈ es, Named N e.path) (FrK.mapErr (fr_walkDir hp)) fun files _ _ _ _ hn => (fr_joinAll order fun t ht => ?_).bind fun _ _ _ _ _ _ => fr_mapErr (fr_mapErr (fr_rmTree hp))
  obtain ⟨e, he, rfl⟩ := List.mem_map.1 ht
  exact (frs_eraseThread (hn e (List.mem_filter.1 he).1) n).mapErr

theorem fr_readKind (p : PathBuf) : FrK N (fun e _ _ => e.isDir = true → e = .dir p) (Steps.readInput p) a I := by
  refine FrK.mapErr ?_
  unfold Steps.readFile
  refine (fr_look fun _ => rfl).bind fun b w J hf hi _ => ?_
  cases b with
  | true => exact .pure fun _ => rfl
  | false => exact (fr_mapErr (fr_openFile p)).bind fun _ _ _ _ _ _ => .pure fun h => nomatch h

theorem fr_secureErase (s : Sys σ) {input : List Char} (passes : Int) (force : ForceMode) (hp : Root N (toPath s.cwd input)) : FrT N (Steps.secureErase s input passes force) a I := by
  unfold Steps.secureErase
  refine (fr_readKind _).bindT fun e _ _ _ _ he => ?_
  split
  · rename_i h
    refine (FrK.aside (.getAnswer _ _ _)).bindT fun b w J _ _ _ => ?_
    cases b with
    | true =>
      rw [he h]
      exact (fr_eraseDir s.order passes hp).mapErr.weak
    | false => exact trivial
  · exact (fr_eraseThread hp.named passes).mapErr.weak

theorem fr_eraseIf (s : Sys σ) {input : List Char} {mode : EraseMode} (force : ForceMode) (hp : mode ≠ .ignoreFile → Root N (toPath s.cwd input)) : FrT N (Steps.eraseIf s mode force input) a I := by
  cases mode with
  | eraseFile n => exact fr_secureErase s n force (hp nofun)
  | ignoreFile => exact trivial

theorem fr_eraseInputs (s : Sys σ) (force : ForceMode) : ∀ {inputs : List (List Char)} {a : World} {I : Nat → Prop}, (∀ n ∈ inputs, Root N (toPath s.cwd n)) → FrT N (Steps.eraseInputs s force inputs) a I
  | [], _, _, _ => trivial
  | f :: fs, a, I, h => by
    unfold Steps.eraseInputs
    exact Fr.bind (fun _ _ _ _ => fr_eraseInputs s force fun n hn => h n (List.mem_cons_of_mem _ hn)) (fun _ _ _ _ => trivial) (fun _ _ _ _ => trivial) (fr_secureErase s 1 force (h f (List.mem_cons_self ..)))

theorem fr_encryptMode (s : Sys σ) {input output : List Char} {params : CryptoParams} (algorithm : Algorithm) (ho : Named N (toPath s.cwd output)) (hh : ∀ n, params.header = some n → Named N (toPath s.cwd n))
    (he : params.erase ≠ .ignoreFile → Root N (toPath s.cwd input)) : FrT N (Steps.encryptMode s input output params algorithm) a I := by
  unfold Steps.encryptMode
  split
  · exact trivial
  refine (fr_consent _ _ _).bindT fun _ _ _ _ _ _ => (fr_readInput _).bindT fun _ _ _ _ _ _ => (fr_getSecret _ _ _ _).bindT fun _ _ _ _ _ _ => (fr_openOutput ho).bindT fun o _ _ _ _ hx => ?_
  refine (fr_openHeader s params.force hh).bindT fun hd _ _ f1 i1 hy => ?_
  exact (fr_encryptBody s params algorithm _ _ (hx.keep f1 i1) hy).bindT fun _ _ _ _ _ _ => (fr_hashIf s _ _).bindT fun _ _ _ _ _ _ => fr_eraseIf s _ he

theorem fr_readHeader (s : Sys σ) : ∀ (o : Option (List Char)), FrK N Any (Steps.readHeader s o) a I
  | none => .pure trivial
  | some n => by
    unfold Steps.readHeader
    exact (fr_readInput _).bind fun _ _ _ _ _ _ => .pure trivial

theorem fr_decryptMode (s : Sys σ) {input output : List Char} {params : CryptoParams} (ho : Named N (toPath s.cwd output))
    (he : params.erase ≠ .ignoreFile → Root N (toPath s.cwd input)) : FrT N (Steps.decryptMode s input output params) a I := by
  unfold Steps.decryptMode
  split
  · exact trivial
  refine (fr_consent _ _ _).bindT fun _ _ _ _ _ _ => (fr_readInput _).bindT fun _ _ _ _ _ _ => (fr_readHeader s _).bindT fun _ _ _ _ _ _ => (fr_getSecret _ _ _ _).bindT fun _ _ _ _ _ _ => ?_
  refine (fr_openOutput ho).bindT fun o _ _ _ _ hx => ?_
  exact (fr_decryptBody s _ _ _ hx).bindT fun _ _ _ _ _ _ => (fr_hashIf s _ _).bindT fun _ _ _ _ _ _ => fr_eraseIf s _ he

end Volaris.Dist
