import Verif.Proofs.Names
import Verif.Proofs.Session
import Verif.Props.EraseCmd
import Verif.Props.PackCmd
import Verif.Props.CommandLine
/-!
# What a history of command lines can change
-/
namespace Volaris.Cli
open Volaris.Spec Volaris.Cli.Argv Volaris.Props
variable {σ : Type}

/-- The changes that an invocation may make. -/
structure Within (l : Invocation σ) (d d' : Disk) : Prop where
  look : ∀ q, lookDisk d' q = lookDisk d q ∨ Concerns l q ∨ (lookDisk d q = none ∧ TempPlace l.sys.tmp q ∧ ∃ j, lookDisk d' q = some (.file j))
  old : ∀ q j, lookDisk d' q = some (.file j) → j < d.nextIno → lookDisk d q = some (.file j)
  files : ∀ j, j < d.nextIno → d'.file j = d.file j ∨ ∃ q, Concerns l q ∧ lookDisk d q = some (.file j)

theorem look_disk (w : World) (q : Path) : lookDisk w.disk q = w.look q := rfl

theorem Within.same (l : Invocation σ) {d d' : Disk} (h1 : d'.dir = d.dir) (h2 : d'.file = d.file) : Within l d d' := by
  have : ∀ q, lookDisk d' q = lookDisk d q := fun q => by unfold lookDisk; rw [h1]
  exact ⟨fun q => .inl (this q), fun q j h _ => by rw [← this q]; exact h, fun j _ => .inl (by rw [h2])⟩

theorem named_of_resolve {l : Invocation σ} {v : List Char} (hv : Mentions l.argv v) {w : World} {q : Path} (hq : w.resolve (toPath l.sys.cwd v) = .ok q) {x : Path} (hx : q <+: x) : Concerns l x :=
  ⟨v, hv, by rw [show onPaper (toPath l.sys.cwd v) = q from (World.walk_lexical hq).symm]; exact hx⟩

/-- What C46 says, in these words. -/
theorem Within.of_changes {l : Invocation σ} {T : Path → Prop} {E : Path → Nat → Prop} {w w' : World} (h : Changes T E w w') (hT : ∀ q, T q → Concerns l q) (hE : ∀ q i, E q i → Concerns l q) : Within l w.disk w'.disk := by
  refine ⟨fun q => ?_, fun q j hq hj => ?_, fun j hj => ?_⟩
  · rcases h.look q with g | ⟨_, g, _⟩ | ⟨_, i, _, g⟩
    · exact .inl g
    · exact .inr (.inl (hT q g))
    · exact .inr (.inl (hE q i g))
  · rcases h.look q with g | ⟨_, _, k, g1, g2⟩ | ⟨g, _⟩
    · exact g.symm.trans hq
    · have hq : w'.look q = some (.file j) := hq
      rw [g2] at hq
      cases hq
      exact absurd hj (Nat.not_lt.2 g1)
    · have hq : w'.look q = some (.file j) := hq
      rw [g] at hq; cases hq
  · rcases h.files j hj with g | ⟨q, g1, g2⟩ | ⟨_, q, g1, g2⟩
    · exact .inl g
    · exact .inr ⟨q, hT q g1, g2⟩
    · exact .inr ⟨q, hE q j g2, g1⟩

/-- A command whose only changes are removals. -/
theorem Within.of_removals {l : Invocation σ} {w w' : World} (h1 : ∀ q, w'.look q = w.look q ∨ (w'.look q = none ∧ Concerns l q))
    (h2 : ∀ j, w'.file j = w.file j ∨ ∃ q, Concerns l q ∧ w.look q = some (.file j)) : Within l w.disk w'.disk := by
  refine ⟨fun q => ?_, fun q j hq _ => ?_, fun j _ => h2 j⟩
  · rcases h1 q with g | ⟨_, g⟩
    · exact .inl g
    · exact .inr (.inl g)
  · have hq : w'.look q = some (.file j) := hq
    rcases h1 q with g | ⟨g, _⟩
    · exact g.symm.trans hq
    · rw [g] at hq; cases hq

theorem then_pure {x : Prog Error Unit} {w : World} : ((x >>= fun _ => (pure [] : Prog Error (List String))) w).2 = (x w).2 := by
  rw [Prog.bind_run]
  rcases x w with ⟨_ | _ | _, _⟩ <;> rfl

theorem gives_mentioned {argv : List (List Char)} {name : List Char} {m : Matches} (h : getMatches false argv = some (name, m)) {id : Id} (hp : id ∈ pathIds) {v : List Char} (hv : Gives m id v) : Mentions argv v := by
  obtain ⟨vs, hv⟩ := hv
  exact getMatches_mentioned h hp hv v (by simp)

/-- The value for the header file, if there is one, is on the line. -/
theorem header_mentioned {argv : List (List Char)} {name : List Char} {m : Matches} (h : getMatches false argv = some (name, m)) {args : List Arg} (hA : Accepted args m) (hd : m.default .header = none) {v : List Char}
    (hv : (m.values .header).bind List.head? = some v) : Mentions argv v := by
  rcases value_cases hA .header with ⟨v', hg, g, _⟩ | ⟨_, g, _⟩
  · rw [hv] at g
    cases g
    exact gives_mentioned h (by simp [pathIds]) hg
  · rw [hv, hd] at g; cases g

theorem header_default {args : List Arg} {m : Matches} (h : Accepted args m) (ha : args ∈ [encryptArgs, decryptArgs, packArgs]) : m.default .header = none := by
  unfold Matches.default
  rw [h.args]
  simp only [List.mem_cons, List.not_mem_nil, or_false] at ha
  rcases ha with rfl | rfl | rfl <;> rfl

theorem encrypt_within {l : Invocation σ} {name : List Char} {m : Matches} (h : getMatches false l.argv = some (name, m)) (hA : Accepted encryptArgs m) (w : World) : Within l w.disk (Cli.encrypt l.sys m w).2.disk := by
  obtain ⟨params, hp, _, _, _, hh, _, _⟩ := parameterHandler_run hA (keyfile_default hA (by simp)) w
  obtain ⟨input, hi, hi'⟩ := required_value hA (a := { id := .input, required := true }) (by simp [encryptArgs]) rfl w
  obtain ⟨output, ho, ho'⟩ := required_value hA (a := { id := .output, required := true }) (by simp [encryptArgs]) rfl w
  have he : ∃ a, Cli.encrypt l.sys m w = encryptMode l.sys input output params a w := by
    unfold Cli.encrypt
    rw [Prog.bind_ok hp, Prog.bind_ok (algorithm_run hA.release w), Prog.bind_ok hi', Prog.bind_ok ho']
    exact ⟨_, rfl⟩
  obtain ⟨a, he⟩ := he
  rw [he]
  refine .of_changes (C46_encrypt l.sys input output params a w _ _ rfl) ?_ ?_
  · rintro q (⟨_, g⟩ | ⟨hd, e, _, g⟩)
    · exact named_of_resolve (gives_mentioned h (by simp [pathIds]) ho) g (List.prefix_refl _)
    · exact named_of_resolve (header_mentioned h hA (header_default hA (by simp)) (hh ▸ e)) g (List.prefix_refl _)
  · rintro q i ⟨_, g⟩
    exact named_of_resolve (gives_mentioned h (by simp [pathIds]) hi) g.resolve (List.prefix_refl _)

theorem decrypt_within {l : Invocation σ} {name : List Char} {m : Matches} (h : getMatches false l.argv = some (name, m)) (hA : Accepted decryptArgs m) (w : World) : Within l w.disk (Cli.decrypt l.sys m w).2.disk := by
  obtain ⟨params, hp, _, _, _, hh, _, _⟩ := parameterHandler_run hA (keyfile_default hA (by simp)) w
  obtain ⟨input, hi, hi'⟩ := required_value hA (a := { id := .input, required := true }) (by simp [decryptArgs]) rfl w
  obtain ⟨output, ho, ho'⟩ := required_value hA (a := { id := .output, required := true }) (by simp [decryptArgs]) rfl w
  have he : Cli.decrypt l.sys m w = decryptMode l.sys input output params w := by
    unfold Cli.decrypt
    rw [Prog.bind_ok hp, Prog.bind_ok hi', Prog.bind_ok ho']
  rw [he]
  refine .of_changes (C46_decrypt l.sys input output params w _ _ rfl) ?_ ?_
  · rintro q ⟨_, g⟩
    exact named_of_resolve (gives_mentioned h (by simp [pathIds]) ho) g (List.prefix_refl _)
  · rintro q i ⟨_, g⟩
    exact named_of_resolve (gives_mentioned h (by simp [pathIds]) hi) g.resolve (List.prefix_refl _)

theorem erase_within {l : Invocation σ} {name : List Char} {m : Matches} (h : getMatches false l.argv = some (name, m)) (hA : Accepted eraseArgs m) (w : World) (ht : TreeOk w) :
    Within l w.disk (Cli.erase l.sys m w).2.disk := by
  obtain ⟨input, hi, _⟩ := required_value hA (a := { id := .input, required := true }) (by simp [eraseArgs]) rfl w
  have hm := gives_mentioned h (by simp [pathIds]) hi
  by_cases hf : ∃ q i, LeadsToFile w (toPath l.sys.cwd input) q i
  · obtain ⟨q, i, hq⟩ := hf
    obtain ⟨_, _, h3, h4, h5, _⟩ := C66_file l.sys m hA input hi w q i hq _ _ rfl
    have hn : Concerns l q := named_of_resolve hm hq.resolve (List.prefix_refl _)
    refine .of_removals (fun x => ?_) (fun j => ?_)
    · by_cases hx : x = q
      · subst hx
        exact h4.imp id (⟨·, hn⟩)
      · exact .inl (h3 x hx)
    · by_cases hj : j = i
      · exact .inr ⟨q, hn, hj ▸ hq.look⟩
      · exact .inl (h5 j hj)
  · by_cases hd : ∃ T, LeadsToDir w (toPath l.sys.cwd input) T
    · obtain ⟨T, hT⟩ := hd
      obtain ⟨_, _, _, h4, h5, h6, _⟩ := C66_directory l.sys m hA input hi w T ht hT _ _ rfl
      refine .of_removals (fun x => ?_) (fun j => ?_)
      · by_cases hx : T <+: x
        · exact (h5 x).imp id (⟨·, named_of_resolve hm hT.resolve hx⟩)
        · exact .inl (h4 x hx)
      · by_cases hj : ∃ k, T <+: k ∧ w.look k = some (.file j)
        · obtain ⟨k, hk, hl⟩ := hj
          exact .inr ⟨k, named_of_resolve hm hT.resolve hk, hl⟩
        · exact .inl (h6 j fun k hk hl => hj ⟨k, hk, hl⟩)
    · obtain ⟨e, w', h1, h2, _⟩ := C66_nothing l.sys m hA input hi w (fun q i g => hf ⟨q, i, g⟩) (fun q g => hd ⟨q, g⟩)
      rw [h1]
      exact .same l h2.2 h2.1

theorem pack_within {l : Invocation σ} {name : List Char} {m : Matches} (h : getMatches false l.argv = some (name, m)) (hA : Accepted packArgs m) (w : World) (ht : TreeOk w) :
    Within l w.disk (Cli.pack l.sys m w).2.disk := by
  obtain ⟨inputs, output, pp, params, a, hi, ho, _, _, hh, he⟩ := C67_command l.sys m hA w
  have hin := getMatches_mentioned h (by simp [pathIds]) hi
  rw [he]
  obtain ⟨h1, h2⟩ := C67_frame l.sys inputs output pp params a w _ _ ht rfl
  have hT : ∀ q, Targets l.sys.cwd output params w q → Concerns l q := by
    rintro q (⟨_, g⟩ | ⟨hd, e, _, g⟩)
    · exact named_of_resolve (gives_mentioned h (by simp [pathIds]) ho) g (List.prefix_refl _)
    · exact named_of_resolve (gives_mentioned h (by simp [pathIds]) ((hh hd).1 e)) g (List.prefix_refl _)
  have hS : ∀ q, InSource l.sys.cwd inputs w q → Concerns l q := by
    rintro q ⟨f, hf, T, hT, hq⟩
    exact named_of_resolve (hin f hf) hT.resolve hq
  refine ⟨fun q => ?_, fun q j hq hj => ?_, fun j hj => ?_⟩
  · rcases h1 q with g | ⟨g1, g2 | g2, j, _, g3⟩ | ⟨_, g, _⟩
    · exact .inl g
    · exact .inr (.inl (hT q g2))
    · exact .inr (.inr ⟨g1, g2, j, g3⟩)
    · exact .inr (.inl (hS q g))
  · rcases h1 q with g | ⟨_, _, k, g1, g2⟩ | ⟨g, _⟩
    · exact g.symm.trans hq
    · have := g2.symm.trans hq
      cases this
      exact absurd hj (Nat.not_lt.2 g1)
    · have := g.symm.trans hq
      cases this
  · rcases h2 j hj with g | ⟨q, g1, g2⟩ | ⟨⟨q, g1, g2⟩, _⟩
    · exact .inl g
    · exact .inr ⟨q, hT q g1, g2⟩
    · exact .inr ⟨q, hS q g1, g2⟩

theorem hash_same (s : Sys σ) (m : Matches) (hr : m.debug = false) (w : World) : SameFiles w (Cli.hash s m w).2 := by
  unfold Cli.hash
  rw [Prog.bind_ok (show getMany m .input w = (.ok (m.values .input), w) by unfold getMany; rw [hr]; rfl)]
  have := (hashStream_looks s w.nextFd ((m.values .input).getD []) w (Nat.le_refl _)).1
  exact ⟨this.file, this.dir⟩

/-- Every line makes only such changes. -/
theorem line_within {l : Invocation σ} {run : Prog Error (List String)} (h : Cli.main l.sys false l.argv = some run) (w : World) (ht : TreeOk w) : Within l w.disk (run w).2.disk := by
  unfold Cli.main at h
  cases hg : getMatches false l.argv with
  | none => rw [hg] at h; cases h
  | some x =>
    obtain ⟨name, m⟩ := x
    rw [hg] at h
    cases h
    obtain ⟨⟨c, hc, hn, ha⟩, hacc, hdeb, _⟩ := getMatches_some hg
    have hA : Accepted c.args m := ⟨ha, hacc, hdeb⟩
    subst hn
    simp only [commands, List.mem_cons, List.not_mem_nil, or_false] at hc
    rcases hc with rfl | rfl | rfl | rfl | rfl | rfl
    · show Within l w.disk ((Cli.encrypt l.sys m >>= fun _ => pure []) w).2.disk
      rw [then_pure]; exact encrypt_within hg hA w
    · show Within l w.disk ((Cli.decrypt l.sys m >>= fun _ => pure []) w).2.disk
      rw [then_pure]; exact decrypt_within hg hA w
    · show Within l w.disk ((Cli.erase l.sys m >>= fun _ => pure []) w).2.disk
      rw [then_pure]; exact erase_within hg hA w ht
    · have := hash_same l.sys m hdeb w
      exact .same l this.2 this.1
    · show Within l w.disk ((Cli.pack l.sys m >>= fun _ => pure []) w).2.disk
      rw [then_pure]; exact pack_within hg hA w ht
    · show Within l w.disk ((Cli.unpack l.sys m >>= fun _ => pure []) w).2.disk
      rw [then_pure, C60_unpack_panics l.sys m hA w]
      exact .same l rfl rfl

theorem line_crashes {s : Sys σ} {argv : List (List Char)} {run : Prog Error (List String)} (h : Cli.main s false argv = some run) : Crashes run := by
  rcases C78_six_commands s argv with g | ⟨m, run', g, hr⟩
  · rw [g] at h; cases h
  · rw [g] at h
    cases h
    rcases hr with ⟨_, rfl⟩ | ⟨_, rfl⟩ | ⟨_, rfl⟩ | ⟨_, rfl⟩ | ⟨_, rfl⟩ | ⟨_, rfl⟩
    · exact .bind (encrypt_crashes s m) fun _ => .pure _
    · exact .bind (decrypt_crashes s m) fun _ => .pure _
    · exact .bind (erase_crashes s m) fun _ => .pure _
    · exact .bind (pack_crashes s m) fun _ => .pure _
    · exact .bind (unpack_crashes s m) fun _ => .pure _
    · exact .bind (getMany_crashes m .input) fun _ => hashStream_crashes s _

/-- A line of either build. -/
theorem line_either {l : Invocation σ} {run : Prog Error (List String)} (h : Cli.main l.sys l.debug l.argv = some run) : Crashes run ∧ ∀ w, TreeOk w → Within l w.disk (run w).2.disk := by
  cases hd : l.debug with
  | false => rw [hd] at h; exact ⟨line_crashes h, fun w => line_within h w⟩
  | true =>
    rw [hd] at h
    have := C79_debug_partial l.sys l.argv
    rw [h] at this
    cases hr : Cli.main l.sys false l.argv with
    | none => rw [hr] at this; exact this.elim
    | some release =>
      rw [hr] at this
      rcases this with g | ⟨_, g⟩
      · have : run = release := funext g
        subst this
        exact ⟨line_crashes hr, fun w => line_within hr w⟩
      · have : run = Prog.lift (.abort .panic) := funext g
        subst this
        exact ⟨.lift _, fun w _ => .same l rfl rfl⟩

theorem effects_nextIno (es : List Ev) : ∀ d : Disk, d.nextIno ≤ (effects es d).nextIno := by
  induction es with
  | nil => exact fun d => Nat.le_refl _
  | cons e es ih =>
    intro d
    refine Nat.le_trans ?_ (ih (effect e d))
    cases e <;> first | exact Nat.le_refl _ | exact Nat.le_succ _

theorem GoodDisk.tree {w : World} (h : GoodDisk w.disk) : TreeOk w := ⟨h.distinct, h.parents⟩

/-- What one invocation does. -/
theorem invoked_within {l : Invocation σ} {d d' : Disk} (h : Invoked l d d') (hd : GoodDisk d) : Within l d d' ∧ GoodDisk d' ∧ d.nextIno ≤ d'.nextIno := by
  have ends : ∀ {run : Prog Error (List String)} (w : World), Cli.main l.sys l.debug l.argv = some run → GoodDisk w.disk → Within l w.disk (run w).2.disk ∧ GoodDisk (run w).2.disk ∧ w.nextIno ≤ (run w).2.nextIno := by
    intro run w h hd
    obtain ⟨hc, hw⟩ := line_either h
    obtain ⟨es, -, he, -⟩ := (hc w).log
    have ht := (hc w).tree (GoodDisk.tree hd)
    refine ⟨hw w (GoodDisk.tree hd), ⟨ht.distinct, ht.parents, allocated_crashes hc hd.allocated⟩, ?_⟩
    have := effects_nextIno es w.disk
    rw [← he] at this
    exact this
  cases h with
  | refused _ _ => exact ⟨.same l rfl rfl, hd, Nat.le_refl _⟩
  | ended w h => exact ends w h hd
  | killed w v h hv =>
    obtain ⟨sched, r, w', h1, h2⟩ := (line_either h).1.stopped hv
    have := ends (w.withSched sched) h hd
    rw [h1] at this
    rw [h2]
    exact this

/-- What a history does. -/
theorem history_within {ls : List (Invocation σ)} {d d' : Disk} (h : History ls d d') : GoodDisk d → GoodDisk d' ∧
    (∀ q, (∀ l ∈ ls, ¬ Concerns l q) → lookDisk d' q = lookDisk d q ∨ (lookDisk d q = none ∧ ∃ l ∈ ls, TempPlace l.sys.tmp q ∧ ∃ j, lookDisk d' q = some (.file j))) ∧
    (∀ q j, lookDisk d' q = some (.file j) → j < d.nextIno → lookDisk d q = some (.file j)) ∧
    (∀ j, j < d.nextIno → (∀ q, lookDisk d q = some (.file j) → ∀ l ∈ ls, ¬ Concerns l q) → d'.file j = d.file j) := by
  induction h with
  | nil d => exact fun hd => ⟨hd, fun q _ => .inl rfl, fun q j h _ => h, fun j _ _ => rfl⟩
  | @cons l ls d d' d'' h _ ih =>
    intro hd
    obtain ⟨h1, h2, h3⟩ := invoked_within h hd
    obtain ⟨g0, g1, g2, g3⟩ := ih h2
    refine ⟨g0, fun q hq => ?_, fun q j hq hj => h1.old q j (g2 q j hq (Nat.lt_of_lt_of_le hj h3)) hj, fun j hj hq => ?_⟩
    · have hl : ¬ Concerns l q := hq l (by simp)
      rcases g1 q (fun l' hl' => hq l' (by simp [hl'])) with e | ⟨e, l', hl', ht, hj⟩
      · rcases h1.look q with e' | e' | ⟨e1, e2, j, e3⟩
        · exact .inl (e.trans e')
        · exact absurd e' hl
        · exact .inr ⟨e1, l, by simp, e2, j, e.trans e3⟩
      · rcases h1.look q with e' | e' | ⟨e1, e2, j, e3⟩
        · exact .inr ⟨e'.symm.trans e, l', by simp [hl'], ht, hj⟩
        · exact absurd e' hl
        · rw [e] at e3; cases e3
    · rw [g3 j (Nat.lt_of_lt_of_le hj h3) fun q hq' l' hl' => hq q (h1.old q j hq' hj) l' (by simp [hl'])]
      rcases h1.files j hj with e | ⟨q, e1, e2⟩
      · exact e
      · exact absurd e1 (hq q e2 l (by simp))

end Volaris.Cli
