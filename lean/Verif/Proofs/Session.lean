import Verif.Spec.Session
import Verif.Proofs.CmdOk
import Verif.Proofs.EraseStage
import Verif.Proofs.ZipName
import Verif.Props.Cli
import Verif.Props.Crash
import Verif.Props.CmdRoundTrip
/-!
# One command after the other
-/
namespace Volaris.Cli
open Volaris.Spec

theorem toPath_plain {cwd : Path} {n : List Char} (h : Plain n) : toPath cwd n = { abs := false, cwd, comps := [.name n] } := by
  have h1 : ZipName.comps n = [.name n] := by
    have := ZipName.comps_body (p := { abs := false, cwd, comps := [.name n] }) ⟨by simp, fun m hm => by
      simp only [List.mem_singleton, Comp.name.injEq] at hm; subst hm; exact h⟩
    simpa [ZipName.body, ZipName.ofComp, List.intercalate] using this
  unfold toPath
  rw [h1]
  have : n.head? ≠ some '/' := fun e => h.2.1 (List.mem_of_mem_head? e)
  simp [this]

theorem resolve_plain {cwd : Path} {n : List Char} (h : Plain n) {w : World} (hd : w.look cwd = some .dir) : w.resolve (toPath cwd n) = .ok (cwd ++ [n]) := by
  rw [toPath_plain h]
  show w.walk cwd [.name n] = _
  unfold World.walk
  rw [hd]
  rfl

/-- What is at a path on the disk. -/
def lookDir (d : List (Path × Node)) (p : Path) : Option Node := if p = [] then some .dir else (d.find? (·.1 = p)).map (·.2)

/-- No call takes a file number that is not new. -/
theorem effect_allocated (e : Ev) (d : Disk) (h : ∀ q i, lookDir d.dir q = some (.file i) → i < d.nextIno) : ∀ q i, lookDir (effect e d).dir q = some (.file i) → i < (effect e d).nextIno := by
  intro q i hq
  have sub : ∀ keep : Path × Node → Bool, lookDir (d.dir.filter keep) q = some (.file i) → (∀ n, keep (q, n) = true) ∨ (∀ n, keep (q, n) = false) → lookDir d.dir q = some (.file i) := by
    intro keep hk hc
    unfold lookDir at hk ⊢
    by_cases h0 : q = []
    · rw [if_pos h0] at hk; cases hk
    · rw [if_neg h0] at hk ⊢
      rw [List.find?_filter] at hk
      rcases hc with hc | hc
      · have : (fun a : Path × Node => decide (keep a = true ∧ decide (a.1 = q) = true)) = fun a => decide (a.1 = q) := by
          funext ⟨a, n⟩
          by_cases ha : a = q
          · subst ha; simp [hc n]
          · simp [ha]
        rw [this] at hk
        exact hk
      · have : d.dir.find? (fun a : Path × Node => decide (keep a = true ∧ decide (a.1 = q) = true)) = none := by
          rw [List.find?_eq_none]
          rintro ⟨a, n⟩ -
          by_cases ha : a = q
          · subst ha; simp [hc n]
          · simp [ha]
        rw [this] at hk
        cases hk
  have cons : ∀ p n, lookDir ((p, n) :: d.dir) q = some (.file i) → n = .file i ∨ lookDir d.dir q = some (.file i) := by
    intro p n hk
    unfold lookDir at hk ⊢
    by_cases h0 : q = []
    · rw [if_pos h0] at hk; cases hk
    · rw [if_neg h0] at hk ⊢
      by_cases hp : p = q
      · subst hp
        simp at hk
        exact .inl hk
      · simp only [List.find?_cons, hp, decide_false] at hk
        exact .inr hk
  cases e with
  | write j off bs => exact h q i hq
  | truncate j => exact h q i hq
  | create p =>
    show i < d.nextIno + 1
    rcases cons _ _ hq with g | g
    · cases g; exact Nat.lt_succ_self _
    · exact Nat.lt_succ_of_lt (h q i g)
  | mkdir p =>
    rcases cons _ _ hq with g | g
    · cases g
    · exact h q i g
  | unlink p =>
    refine h q i (sub _ hq ?_)
    by_cases hp : q = p
    · exact .inr fun n => by simp [hp]
    · exact .inl fun n => by simp [hp]

theorem effects_allocated (es : List Ev) : ∀ d : Disk, (∀ q i, lookDir d.dir q = some (.file i) → i < d.nextIno) → ∀ q i, lookDir (effects es d).dir q = some (.file i) → i < (effects es d).nextIno := by
  induction es with
  | nil => exact fun d h => h
  | cons e es ih => exact fun d h => ih _ (effect_allocated e d h)

theorem allocated_crashes {ε α : Type} {x : Prog ε α} (hx : Crashes x) {w : World} (h : Allocated w) : Allocated (x w).2 := by
  obtain ⟨es, -, he, -⟩ := (hx w).log
  have := effects_allocated es w.disk h
  rw [← he] at this
  exact this

/-- What is at the places that a command works on, and at the others. -/
theorem changes_at {T : Path → Prop} {E : Path → Nat → Prop} {w w' : World} (h : Changes T E w w') {qi qo : Path} {i : Nat} (hT : ∀ x, T x → x = qo) (hE : ∀ x k, E x k → x = qi ∧ k = i)
    (ho : w.look qo = none) :
    (∀ x, x ≠ qi → x ≠ qo → w'.look x = w.look x) ∧ (∀ j, j < w.nextIno → j ≠ i → w'.file j = w.file j) ∧ ∀ j, w'.look qo = some (.file j) → w.nextIno ≤ j := by
  refine ⟨fun x h1 h2 => ?_, fun j hj hne => ?_, fun j hj => ?_⟩
  · rcases h.look x with g | ⟨_, g, _⟩ | ⟨_, k, _, g⟩
    · exact g
    · exact absurd (hT x g) h2
    · exact absurd (hE x k g).1 h1
  · rcases h.files j hj with g | ⟨x, g1, g2⟩ | ⟨_, x, _, g⟩
    · exact g
    · rw [hT x g1, ho] at g2; cases g2
    · exact absurd (hE x j g).2 hne
  · rcases h.look qo with g | ⟨_, _, k, g1, g2⟩ | ⟨g, _⟩
    · rw [hj, ho] at g; cases g
    · rw [hj] at g2; cases g2; exact g1
    · rw [hj] at g; cases g

theorem name_ne {cwd : Path} {a b : List Char} (h : a ≠ b) : cwd ++ [a] ≠ cwd ++ [b] := fun e => h (by simpa using e)

theorem cwd_ne (cwd : Path) (a : List Char) : cwd ≠ cwd ++ [a] := fun e => by
  have := congrArg List.length e
  simp at this

/-- Two names in the working directory of which at most one is taken are apart. -/
theorem apart_names {cwd : Path} {a b : List Char} (ha : Plain a) (hb : Plain b) {w : World} (hd : w.look cwd = some .dir) (hne : a ≠ b) (hfree : w.look (cwd ++ [b]) = none) :
    Apart w (toPath cwd a) (toPath cwd b) := by
  refine ⟨fun q h1 h2 => ?_, fun q q' i _ h2 => ?_⟩
  · rw [resolve_plain ha hd] at h1
    rw [resolve_plain hb hd] at h2
    cases h1
    injection h2 with h2
    exact name_ne hne h2.symm
  · have := h2.resolve
    rw [resolve_plain hb hd] at this
    cases this
    rw [h2.look] at hfree
    cases hfree

theorem not_occupied {cwd : Path} {b : List Char} (hb : Plain b) {w : World} (hd : w.look cwd = some .dir) (hfree : w.look (cwd ++ [b]) = none) : ¬ Occupied w (toPath cwd b) := by
  rintro ⟨q, n, h1, h2⟩
  rw [resolve_plain hb hd] at h1
  cases h1
  rw [h2] at hfree
  cases hfree

theorem canHold_free {cwd : Path} {b : List Char} (hb : Plain b) {w : World} (hd : w.look cwd = some .dir) (hfree : w.look (cwd ++ [b]) = none) : CanHold w (toPath cwd b) :=
  ⟨cwd ++ [b], resolve_plain hb hd, .inr ⟨hfree, by rw [List.dropLast_concat]; exact hd⟩⟩

/-- The key that a line names is there. -/
theorem supplies_from {σ : Type} {s : Sys σ} {opts : List (String × List Char)} {i : Nat} {secret : Bytes} {w : World} (hd : w.look s.cwd = some .dir) (hk : KeyFrom s.cwd opts i secret w) {key : Key}
    (h : (∀ path, valueOf opts "keyfile" = some path → key = .keyfile path) ∧ (valueOf opts "keyfile" = none → w.env.isSome → key = .env)) (state : PasswordState) : Supplies s.words s.cwd state key w secret := by
  obtain ⟨-, hk⟩ := hk
  cases hv : valueOf opts "keyfile" with
  | some path =>
    rw [hv] at hk
    obtain ⟨h1, h2, k, h3, -, h4⟩ := hk
    rw [h.1 path hv]
    show if path = ['-'] then _ else _
    rw [if_neg h2]
    exact ⟨_, k, ⟨resolve_plain h1 hd, h3⟩, h4⟩
  | none =>
    rw [hv] at hk
    rw [h.2 hv (by rw [show w.env = some secret from hk]; rfl)]
    exact hk

/-- What one of the two commands has done when it has moved something from `input` to `output`. -/
structure Moved (cwd : Path) (input output : List Char) (i : Nat) (c : Bytes) (w w' : World) : Prop where
  sched : w'.sched = []
  env : w'.env = w.env
  allocated : Allocated w'
  gone : w'.look (cwd ++ [input]) = none
  there : ∃ j, w'.look (cwd ++ [output]) = some (.file j) ∧ w.nextIno ≤ j ∧ w'.file j = c
  others : ∀ x, x ≠ cwd ++ [input] → x ≠ cwd ++ [output] → w'.look x = w.look x
  files : ∀ j, j < w.nextIno → j ≠ i → w'.file j = w.file j

theorem Erased.sched_nil {mode : EraseMode} {q : Path} {i : Nat} {u w' : World} {r : Res Error Unit} (h : Erased mode q i u r w') (hs : u.sched = []) : w'.sched = [] := by
  rcases h with ⟨_, _, rfl⟩ | ⟨_, _, h, _⟩ | ⟨n, u', _, h1, h2, _⟩
  · exact hs
  · exact absurd hs h
  · have := h2.sched.trans h1.sched
    rw [hs] at this
    exact List.suffix_nil.1 this

theorem Erased.gone {mode : EraseMode} {q : Path} {i : Nat} {u w' : World} (h : Erased mode q i u (.ok ()) w') (hm : ∃ n, mode = .eraseFile n) : w'.look q = none := by
  obtain ⟨n, rfl⟩ := hm
  rcases h with ⟨h, _⟩ | ⟨_, h, _⟩ | ⟨n, u', _, _, _, h⟩
  · cases h
  · exact absurd rfl h
  · rcases h with ⟨_, h, _⟩ | ⟨h, _⟩
    · exact h
    · exact absurd rfl h

theorem encrypt_moves {σ : Type} (s : Sys σ) (hC : s.C.Lawful) {input output : List Char} {params : CryptoParams} {a : Algorithm} {secret : Bytes} {i : Nat} {w : World} (hs : w.sched = []) (hal : Allocated w)
    (hd : w.look s.cwd = some .dir) (hi : Plain input) (ho : Plain output) (hin : w.look (s.cwd ++ [input]) = some (.file i)) (hfree : w.look (s.cwd ++ [output]) = none)
    (hx : secret ≠ []) (hsup : Supplies s.words s.cwd .validate params.key w secret) (hh : params.header = none) (he : ∃ n, params.erase = .eraseFile n)
    (hp : PrimitivesWork s.C a params.hashingAlgorithm secret) (hlim : (w.file i).length / 2 ^ 20 ≤ s.C.ctrMax) :
    ∃ w' c, encryptMode s input output params a w = (.ok (), w') ∧ Moved s.cwd input output i c w w' ∧ DecryptsTo s.C secret c (w.file i) := by
  have hne : input ≠ output := by
    rintro rfl
    rw [hin] at hfree; cases hfree
  have hl : LeadsToFile w (toPath s.cwd input) (s.cwd ++ [input]) i := ⟨resolve_plain hi hd, hin⟩
  have hready : EncryptReady s input output params a secret (s.cwd ++ [input]) i w := {
    faultless := hs
    names := hne
    source := hl
    separate := ⟨hal, apart_names hi ho hd hne hfree, fun x h => by rw [hh] at h; cases h⟩
    target := canHold_free ho hd hfree
    header := fun x h => by rw [hh] at h; cases h
    key := ⟨hx, w, .inl ⟨.inl (not_occupied ho hd hfree), rfl⟩, hsup⟩
    primitives := hp
    size := hlim }
  obtain ⟨w', hrun, henc⟩ := Props.C68_encrypt s hC input output params a secret _ i w hready
  unfold Spec.Encrypted at henc
  rw [hh] at henc
  obtain ⟨c, ⟨q, j, hq, hc⟩, hdec⟩ := henc
  have hch := Props.C46_encrypt s input output params a w w' _ hrun
  obtain ⟨h1, h2, h3⟩ := changes_at hch (qi := s.cwd ++ [input]) (qo := s.cwd ++ [output]) (i := i)
    (fun x hx => by
      rcases hx with ⟨_, hx⟩ | ⟨x', hx, _⟩
      · rw [resolve_plain ho hd] at hx; cases hx; rfl
      · rw [hh] at hx; cases hx)
    (fun x k hx => by
      obtain ⟨_, hx⟩ := hx
      have := Props.leads_unique hl hx
      exact ⟨this.1.symm, this.2.symm⟩) hfree
  have hd' : w'.look s.cwd = some .dir := by rw [h1 _ (cwd_ne _ _) (cwd_ne _ _)]; exact hd
  have hq' := hq.resolve
  rw [resolve_plain ho hd'] at hq'
  cases hq'
  have hcr := encryptMode_crashes s input output params a
  refine ⟨w', c, hrun, ⟨?_, ?_, ?_, ?_, ⟨j, hq.look, h3 j hq.look, hc⟩, h1, h2⟩, hdec⟩
  · rcases encryptMode_cases s input output params a w hrun with ⟨_, h⟩ | ⟨u, q, k, _, ht, _, _, _, h⟩
    · exact absurd rfl h
    · exact h.sched_nil (by have := ht.sched; rw [hs] at this; exact List.suffix_nil.1 this)
  · have := (hcr w).aside.1; rw [hrun] at this; exact this
  · have := allocated_crashes hcr hal; rw [hrun] at this; exact this
  · rcases encryptMode_cases s input output params a w hrun with ⟨_, h⟩ | ⟨u, q, k, _, ht, hq, _, _, h⟩
    · exact absurd rfl h
    · obtain ⟨rfl, rfl⟩ := Props.leads_unique hl hq
      exact h.gone he

theorem decrypt_moves {σ : Type} (s : Sys σ) {input output : List Char} {params : CryptoParams} {secret p : Bytes} {i : Nat} {w : World} (hs : w.sched = []) (hal : Allocated w)
    (hd : w.look s.cwd = some .dir) (hi : Plain input) (ho : Plain output) (hin : w.look (s.cwd ++ [input]) = some (.file i)) (hfree : w.look (s.cwd ++ [output]) = none)
    (hx : secret ≠ []) (hsup : Supplies s.words s.cwd .direct params.key w secret) (hh : params.header = none) (he : ∃ n, params.erase = .eraseFile n)
    (hdec : DecryptsTo s.C secret (w.file i) p) :
    ∃ w', decryptMode s input output params w = (.ok (), w') ∧ Moved s.cwd input output i p w w' := by
  have hne : input ≠ output := by
    rintro rfl
    rw [hin] at hfree; cases hfree
  have hl : LeadsToFile w (toPath s.cwd input) (s.cwd ++ [input]) i := ⟨resolve_plain hi hd, hin⟩
  have hready : DecryptReady s input output params secret (w.file i) w := {
    faultless := hs
    names := hne
    source := ⟨_, i, hl, rfl⟩
    separate := ⟨hal, apart_names hi ho hd hne hfree, fun x h => by rw [hh] at h; cases h⟩
    target := canHold_free ho hd hfree
    key := ⟨hx, w, .inl ⟨.inl (not_occupied ho hd hfree), rfl⟩, hsup⟩ }
  obtain ⟨w', hrun, ⟨q, j, hq, hc⟩⟩ := Props.C68_decrypt s input output params secret (w.file i) p w hready (by unfold Unlocks; rw [hh]; exact hdec)
  have hch := Props.C46_decrypt s input output params w w' _ hrun
  obtain ⟨h1, h2, h3⟩ := changes_at hch (qi := s.cwd ++ [input]) (qo := s.cwd ++ [output]) (i := i)
    (fun x hx => by
      obtain ⟨_, hx⟩ := hx
      rw [resolve_plain ho hd] at hx; cases hx; rfl)
    (fun x k hx => by
      obtain ⟨_, hx⟩ := hx
      have := Props.leads_unique hl hx
      exact ⟨this.1.symm, this.2.symm⟩) hfree
  have hd' : w'.look s.cwd = some .dir := by rw [h1 _ (cwd_ne _ _) (cwd_ne _ _)]; exact hd
  have hq' := hq.resolve
  rw [resolve_plain ho hd'] at hq'
  cases hq'
  have hcr := decryptMode_crashes s input output params
  refine ⟨w', hrun, ?_, ?_, ?_, ?_, ⟨j, hq.look, h3 j hq.look, hc⟩, h1, h2⟩
  · rcases decryptMode_cases s input output params w hrun with ⟨_, h⟩ | ⟨u, q, k, _, ht, _, _, _, h⟩
    · exact absurd rfl h
    · exact h.sched_nil (by have := ht.sched; rw [hs] at this; exact List.suffix_nil.1 this)
  · have := (hcr w).aside.1; rw [hrun] at this; exact this
  · have := allocated_crashes hcr hal; rw [hrun] at this; exact this
  · rcases decryptMode_cases s input output params w hrun with ⟨_, h⟩ | ⟨u, q, k, _, ht, hq, _, _, h⟩
    · exact absurd rfl h
    · obtain ⟨rfl, rfl⟩ := Props.leads_unique hl hq
      exact h.gone he

end Volaris.Cli
