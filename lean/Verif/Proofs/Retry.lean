import Verif.Spec.Retry
import Verif.Props.Crash
import Verif.Proofs.Session
import Verif.Props.CmdRoundTrip
/-!
# Commands that are killed and started again
-/
namespace Volaris.Cli
open Volaris.Spec Volaris.Props
variable {σ : Type} {ε α : Type}

/-- No call gives a second name to a file. -/
theorem effect_unshared (e : Ev) (d : Disk) (h : ∀ q i, lookDir d.dir q = some (.file i) → i < d.nextIno) (q q' : Path) (i : Nat) (hne : q ≠ q') (hq : lookDir (effect e d).dir q = some (.file i))
    (hq' : lookDir (effect e d).dir q' = some (.file i)) : lookDir d.dir q = some (.file i) ∧ lookDir d.dir q' = some (.file i) := by
  have cons : ∀ p n q, lookDir ((p, n) :: d.dir) q = some (.file i) → (p = q ∧ n = .file i) ∨ lookDir d.dir q = some (.file i) := by
    intro p n q hk
    unfold lookDir at hk ⊢
    by_cases h0 : q = []
    · rw [if_pos h0] at hk; cases hk
    · rw [if_neg h0] at hk ⊢
      by_cases hp : p = q
      · subst hp
        simp at hk
        exact .inl ⟨rfl, hk⟩
      · simp only [List.find?_cons, hp, decide_false] at hk
        exact .inr hk
  have sub : ∀ p q, lookDir (d.dir.filter (·.1 ≠ p)) q = some (.file i) → lookDir d.dir q = some (.file i) := by
    intro p q hk
    unfold lookDir at hk ⊢
    by_cases h0 : q = []
    · rw [if_pos h0] at hk; cases hk
    · rw [if_neg h0] at hk ⊢
      rw [List.find?_filter] at hk
      by_cases hp : q = p
      · subst hp
        have : d.dir.find? (fun a : Path × Node => decide (decide (a.1 ≠ q) = true ∧ decide (a.1 = q) = true)) = none := by
          rw [List.find?_eq_none]
          rintro ⟨a, n⟩ -
          simp
        rw [this] at hk
        cases hk
      · have : (fun a : Path × Node => decide (decide (a.1 ≠ p) = true ∧ decide (a.1 = q) = true)) = fun a => decide (a.1 = q) := by
          funext ⟨a, n⟩
          by_cases ha : a = q
          · subst ha; simp [hp]
          · simp [ha]
        rw [this] at hk
        exact hk
  cases e with
  | write j off bs => exact ⟨hq, hq'⟩
  | truncate j => exact ⟨hq, hq'⟩
  | create p =>
    rcases cons _ _ _ hq with ⟨g, gi⟩ | g <;> rcases cons _ _ _ hq' with ⟨g', gi'⟩ | g'
    · exact absurd (g.symm.trans g') hne
    · cases gi; exact absurd (h _ _ g') (Nat.lt_irrefl _)
    · cases gi'; exact absurd (h _ _ g) (Nat.lt_irrefl _)
    · exact ⟨g, g'⟩
  | mkdir p =>
    rcases cons _ _ _ hq with ⟨g, gi⟩ | g
    · cases gi
    rcases cons _ _ _ hq' with ⟨g', gi'⟩ | g'
    · cases gi'
    exact ⟨g, g'⟩
  | unlink p => exact ⟨sub _ _ hq, sub _ _ hq'⟩

theorem effects_unshared (es : List Ev) : ∀ d : Disk, (∀ q i, lookDir d.dir q = some (.file i) → i < d.nextIno) → ∀ q q' i, q ≠ q' → lookDir (effects es d).dir q = some (.file i) →
    lookDir (effects es d).dir q' = some (.file i) → lookDir d.dir q = some (.file i) ∧ lookDir d.dir q' = some (.file i) := by
  induction es with
  | nil => exact fun d _ q q' i _ h1 h2 => ⟨h1, h2⟩
  | cons e es ih =>
    intro d h q q' i hne h1 h2
    obtain ⟨g1, g2⟩ := ih _ (effect_allocated e d h) q q' i hne h1 h2
    exact effect_unshared e d h q q' i hne g1 g2

/-- Two names are the same file after a command only if they were before. -/
theorem unshared_crashes {x : Prog ε α} (hx : Crashes x) {w : World} (h : Allocated w) {q q' : Path} {i : Nat} (hne : q ≠ q') (h1 : (x w).2.look q = some (.file i)) (h2 : (x w).2.look q' = some (.file i)) :
    w.look q = some (.file i) ∧ w.look q' = some (.file i) := by
  obtain ⟨es, -, he, -⟩ := (hx w).log
  have := effects_unshared es w.disk h q q' i hne
  rw [← he] at this
  exact this h1 h2

/-- The disk of `v` comes from that of `w` by creating and changing files at `F`, and no file got a second name. -/
structure After (F : Path → Prop) (w v : World) : Prop where
  look : ∀ q, v.look q = w.look q ∨ (w.look q = none ∧ F q ∧ ∃ j, w.nextIno ≤ j ∧ v.look q = some (.file j))
  files : ∀ j, j < w.nextIno → (∀ q, F q → w.look q ≠ some (.file j)) → v.file j = w.file j
  nextIno : w.nextIno ≤ v.nextIno
  allocated : Allocated v
  unshared : ∀ q q' i, q ≠ q' → v.look q = some (.file i) → v.look q' = some (.file i) → w.look q = some (.file i) ∧ w.look q' = some (.file i)

namespace After
variable {F : Path → Prop} {w u v : World}

theorem same (hal : Allocated w) (h : v.disk = w.disk) : After F w v where
  look q := .inl (World.look_congr (disk_dir h) q)
  files j _ _ := by rw [disk_file h]
  nextIno := by rw [disk_nextIno h]; exact Nat.le_refl _
  allocated q i hq := by rw [disk_nextIno h]; rw [World.look_congr (disk_dir h)] at hq; exact hal q i hq
  unshared q q' i _ h1 h2 := by rw [World.look_congr (disk_dir h)] at h1 h2; exact ⟨h1, h2⟩

theorem trans (h : After F w u) (g : After F u v) : After F w v where
  look q := by
    rcases h.look q with h1 | ⟨h1, h2, j, h3, h4⟩ <;> rcases g.look q with g1 | ⟨g1, g2, k, g3, g4⟩
    · exact .inl (g1.trans h1)
    · exact .inr ⟨h1 ▸ g1, g2, k, Nat.le_trans h.nextIno g3, g4⟩
    · exact .inr ⟨h1, h2, j, h3, g1.trans h4⟩
    · rw [h4] at g1; cases g1
  files j hj hF := by
    rw [g.files j (Nat.lt_of_lt_of_le hj h.nextIno), h.files j hj hF]
    intro q hq hl
    rcases h.look q with h1 | ⟨h1, h2, k, h3, h4⟩
    · exact hF q hq (h1 ▸ hl)
    · rw [h4] at hl; cases hl; omega
  nextIno := Nat.le_trans h.nextIno g.nextIno
  allocated := g.allocated
  unshared q q' i hne h1 h2 := by
    obtain ⟨g1, g2⟩ := g.unshared q q' i hne h1 h2
    exact h.unshared q q' i hne g1 g2

theorem mono {G : Path → Prop} (h : After F w v) (hF : ∀ q, F q → G q) : After G w v where
  look q := (h.look q).imp id fun ⟨a, b, c⟩ => ⟨a, hF q b, c⟩
  files j hj hG := h.files j hj fun q hq => hG q (hF q hq)
  nextIno := h.nextIno
  allocated := h.allocated
  unshared := h.unshared

/-- After a run, and so after a run that was stopped. -/
theorem stopped {x : Prog ε α} (hx : Crashes x) (hal : Allocated w) (hv : StoppedAt x w v) (ht : ∀ s r w', x (w.withSched s) = (r, w') → Trail F (w.withSched s) w') : After F w v := by
  obtain ⟨s, r, w', he, hd⟩ := hx.stopped hv
  have ha' : Allocated (w.withSched s) := fun q i h => hal q i h
  have t := ht s r w' he
  have e2 : (x (w.withSched s)).2 = w' := by rw [he]
  refine ⟨fun q => ?_, fun j hj hF => ?_, ?_, fun q i hq => ?_, fun q q' i hne h1 h2 => ?_⟩
  · rw [World.look_congr (disk_dir hd)]
    rcases t.extracts.look q with h | ⟨_, _, h⟩ | h
    · exact .inl h
    · exact h.elim
    · exact .inr h
  · rw [disk_file hd]; exact t.extracts.files j hj hF
  · rw [disk_nextIno hd]; exact t.extracts.nextIno
  · rw [disk_nextIno hd]
    rw [World.look_congr (disk_dir hd)] at hq
    have := allocated_crashes hx ha'
    rw [e2] at this
    exact this q i hq
  · rw [World.look_congr (disk_dir hd)] at h1 h2
    rw [← e2] at h1 h2
    exact unshared_crashes hx ha' hne h1 h2

theorem dir_iff (h : After F w v) (q : Path) : v.look q = some .dir ↔ w.look q = some .dir := by
  rcases h.look q with h1 | ⟨h1, _, j, _, h2⟩
  · rw [h1]
  · rw [h1, h2]; simp

theorem keeps (h : After F w v) {q : Path} {n : Node} (hl : w.look q = some n) : v.look q = some n := by
  rcases h.look q with h1 | ⟨h1, _⟩
  · rw [h1]; exact hl
  · rw [h1] at hl; cases hl

theorem resolves (h : After F w v) (p : PathBuf) (q : Path) : v.resolve p = .ok q ↔ w.resolve p = .ok q :=
  ⟨World.resolve_mono fun _ hd => (h.dir_iff _).1 hd, World.resolve_mono fun _ hd => (h.dir_iff _).2 hd⟩

theorem leads (h : After F w v) {p : PathBuf} {q : Path} {i : Nat} (hl : LeadsToFile w p q i) : LeadsToFile v p q i :=
  ⟨(h.resolves p q).2 hl.resolve, h.keeps hl.look⟩

theorem canHold (h : After F w v) {p : PathBuf} (hc : CanHold w p) : CanHold v p := by
  obtain ⟨q, h1, h2⟩ := hc
  refine ⟨q, (h.resolves p q).2 h1, ?_⟩
  rcases h2 with ⟨i, h2⟩ | ⟨h2, h3⟩
  · exact .inl ⟨i, h.keeps h2⟩
  · rcases h.look q with h4 | ⟨_, _, j, _, h4⟩
    · exact .inr ⟨h4.trans h2, (h.dir_iff _).2 h3⟩
    · exact .inl ⟨j, h4⟩

theorem apart (h : After F w v) {p p' : PathBuf} (ha : Apart w p p') : Apart v p p' := by
  refine ⟨fun q h1 h2 => ha.1 q ((h.resolves _ _).1 h1) ((h.resolves _ _).1 h2), fun q q' i h1 h2 => ?_⟩
  have r1 := (h.resolves _ _).1 h1.resolve
  have r2 := (h.resolves _ _).1 h2.resolve
  have hne : q ≠ q' := by rintro rfl; exact ha.1 q r1 r2
  obtain ⟨g1, g2⟩ := h.unshared q q' i hne h1.look h2.look
  exact ha.2 q q' i ⟨r1, g1⟩ ⟨r2, g2⟩

theorem separate (h : After F w v) {cwd : Path} {input output : List Char} {header : Option (List Char)} (hs : Separate cwd input output header w) : Separate cwd input output header v :=
  ⟨h.allocated, h.apart hs.out, fun hd e => ⟨h.apart (hs.hdr hd e).1, h.apart (hs.hdr hd e).2⟩⟩

theorem outputApart (h : After F w v) {cwd : Path} {input output : List Char} {header : Option (List Char)} (hs : OutputApart cwd input output header w) : OutputApart cwd input output header v :=
  ⟨h.allocated, h.apart hs.inp, fun hd e => h.apart (hs.hdr hd e)⟩

end After

/-- Where encrypting may write at all. -/
def AnyTarget (cwd : Path) (output : List Char) (header : Option (List Char)) (w : World) (q : Path) : Prop :=
  w.resolve (toPath cwd output) = .ok q ∨ ∃ hd, header = some hd ∧ w.resolve (toPath cwd hd) = .ok q

theorem encrypt_trail (s : Sys σ) (input output : List Char) (params : CryptoParams) (a : Algorithm) (hm : params.erase = .ignoreFile) {w w' : World} {r : Res Error Unit}
    (he : encryptMode s input output params a w = (r, w')) : Trail (AnyTarget s.cwd output params.header w) w w' := by
  have hF : ∀ q, Targets s.cwd output params w q → AnyTarget s.cwd output params.header w q := by
    rintro q (⟨_, h⟩ | ⟨hd, e, _, h⟩)
    · exact .inl h
    · exact .inr ⟨hd, e, h⟩
  rcases encryptMode_cases s input output params a w he with ⟨h, _⟩ | ⟨u, q', i', secret, ht, hq, hsup, hp, h⟩
  · exact h.mono hF
  · rcases h with ⟨_, _, rfl⟩ | ⟨⟨n, hn⟩, _⟩ | ⟨n, _, hn, _⟩
    · exact ht.mono hF
    · rw [hm] at hn; cases hn
    · rw [hm] at hn; cases hn

theorem decrypt_trail (s : Sys σ) (input output : List Char) (params : CryptoParams) (hm : params.erase = .ignoreFile) {w w' : World} {r : Res Error Unit}
    (he : decryptMode s input output params w = (r, w')) : Trail (AnyTarget s.cwd output none w) w w' := by
  have hF : ∀ q, OutputPlace s.cwd params.force output w q → AnyTarget s.cwd output none w q := fun q h => .inl h.2
  rcases decryptMode_cases s input output params w he with ⟨h, _⟩ | ⟨u, q', i', secret, ht, hq, hsup, hp, h⟩
  · exact h.mono hF
  · rcases h with ⟨_, _, rfl⟩ | ⟨⟨n, hn⟩, _⟩ | ⟨n, _, hn, _⟩
    · exact ht.mono hF
    · rw [hm] at hn; cases hn
    · rw [hm] at hn; cases hn

theorem anyTarget_withSched {cwd : Path} {output : List Char} {header : Option (List Char)} {w : World} (s : List Io) (q : Path) : AnyTarget cwd output header (w.withSched s) q ↔ AnyTarget cwd output header w q := by
  unfold AnyTarget
  simp only [World.resolve_congr (withSched_dir w s)]

theorem After.target {F : Path → Prop} {w v : World} (h : After F w v) (cwd : Path) (output : List Char) (header : Option (List Char)) (q : Path) : AnyTarget cwd output header v q ↔ AnyTarget cwd output header w q := by
  unfold AnyTarget
  simp only [h.resolves]

theorem encrypt_after (s : Sys σ) (input output : List Char) (params : CryptoParams) (a : Algorithm) (hm : params.erase = .ignoreFile) {w v : World} (hal : Allocated w)
    (hv : StoppedAt (encryptMode s input output params a) w v) : After (AnyTarget s.cwd output params.header w) w v :=
  .stopped (encryptMode_crashes _ _ _ _ _) hal hv fun sc _ _ he => (encrypt_trail s input output params a hm he).mono fun q => (anyTarget_withSched sc q).1

theorem decrypt_after (s : Sys σ) (input output : List Char) (params : CryptoParams) (hm : params.erase = .ignoreFile) {w v : World} (hal : Allocated w)
    (hv : StoppedAt (decryptMode s input output params) w v) : After (AnyTarget s.cwd output none w) w v :=
  .stopped (decryptMode_crashes _ _ _ _) hal hv fun sc _ _ he => (decrypt_trail s input output params hm he).mono fun q => (anyTarget_withSched sc q).1

/-- An attempt to encrypt that was killed: before it came to erasing, or the output is complete. -/
theorem encrypt_killed (s : Sys σ) (hC : s.C.Lawful) (input output : List Char) (params : CryptoParams) (a : Algorithm) {w v : World} {q : Path} {i : Nat} (hns : ∀ k, Io.short k ∉ w.sched)
    (hsep : Separate s.cwd input output params.header w) (hin : LeadsToFile w (toPath s.cwd input) q i) (hk : StoppedAt (encryptMode s input output params a) w v) :
    After (AnyTarget s.cwd output params.header w) w v ∨
      (params.erase ≠ .ignoreFile ∧ ∃ secret, SuppliedTo s .validate params.key w secret ∧ Preserves s.C s.cwd output params.header secret (w.file i) q i v) := by
  by_cases hm : params.erase = .ignoreFile
  · exact .inl (encrypt_after s input output params a hm hsep.allocated hk)
  · rw [encryptMode_split] at hk
    rcases Crashes.stopped_bind (encryptMode_crashes _ _ _ _ _) (fun _ => eraseIf_crashes _ _ _ _) hk with hk' | ⟨_, u, hu, hk'⟩
    · exact .inl (encrypt_after s input output { params with erase := .ignoreFile } a rfl hsep.allocated hk')
    · right
      obtain ⟨q', i', secret, g1, g2, g3, g4⟩ := C48_success s hC input output { params with erase := .ignoreFile } a w u hns hsep hu
      rw [if_pos rfl] at g4
      obtain ⟨rfl, rfl⟩ := leads_unique hin g1
      obtain ⟨sc, r, w', he, hd⟩ := (eraseIf_crashes _ _ _ _).stopped hk'
      have hwp := eraseIf_wp s params.erase params.force input (u := u.withSched sc) (q := q) (i := i) ((leads_withSched u sc _ _ _).2 g4.1)
      unfold wp at hwp
      rw [he] at hwp
      exact ⟨hm, secret, g2, preserves_disk hd (Cli.Preserves.erased (preserves_disk (World.withSched_disk u sc) g3) hwp)⟩

/-- The same for an attempt to decrypt. -/
theorem decrypt_killed (s : Sys σ) (hC : s.C.Lawful) (input output : List Char) (params : CryptoParams) {w v : World} {q : Path} {i : Nat} (hns : ∀ k, Io.short k ∉ w.sched)
    (hsep : OutputApart s.cwd input output params.header w) (hin : LeadsToFile w (toPath s.cwd input) q i) (hk : StoppedAt (decryptMode s input output params) w v) :
    After (AnyTarget s.cwd output none w) w v ∨
      (params.erase ≠ .ignoreFile ∧ ∃ secret, SuppliedTo s .direct params.key w secret ∧ Restores s.C s.cwd output params.header secret (w.file i) q i w v) := by
  by_cases hm : params.erase = .ignoreFile
  · exact .inl (decrypt_after s input output params hm hsep.allocated hk)
  · rw [decryptMode_split] at hk
    rcases Crashes.stopped_bind (decryptMode_crashes _ _ _ _) (fun _ => eraseIf_crashes _ _ _ _) hk with hk' | ⟨_, u, hu, hk'⟩
    · exact .inl (decrypt_after s input output { params with erase := .ignoreFile } rfl hsep.allocated hk')
    · right
      obtain ⟨q', i', secret, g1, g2, g3⟩ := C59_success s hC input output { params with erase := .ignoreFile } w u hns hsep hu
      obtain ⟨rfl, rfl⟩ := leads_unique hin g1
      have g4 : LeadsToFile u (toPath s.cwd input) q i := (decrypt_trail s input output { params with erase := .ignoreFile } rfl hu).leads hin
      obtain ⟨sc, r, w', he, hd⟩ := (eraseIf_crashes _ _ _ _).stopped hk'
      have hwp := eraseIf_wp s params.erase params.force input (u := u.withSched sc) (q := q) (i := i) ((leads_withSched u sc _ _ _).2 g4)
      unfold wp at hwp
      rw [he] at hwp
      exact ⟨hm, secret, g2, restores_disk hd (Cli.Restores.erased (restores_disk (World.withSched_disk u sc) g3) hwp)⟩

/-- Any number of attempts: until the first of them that gets to the point `Q`, only targets have changed. -/
theorem killed_after {cmd : ForceMode → Prog Error Unit} {cwd : Path} {output : List Char} {header : Option (List Char)} {Q : World → World → Prop} (I : World → Prop)
    (hI : ∀ w v : World, I w → After (AnyTarget cwd output header w) w v → I v) (hal : ∀ w, I w → Allocated w)
    (hc : ∀ force (w v : World), I w → (∀ k, Io.short k ∉ w.sched) → StoppedAt (cmd force) w v → After (AnyTarget cwd output header w) w v ∨ Q w v) {w v : World} (hk : Killed cmd w v) :
    I w → After (AnyTarget cwd output header w) w v ∨ OneOfThem cmd w v Q := by
  induction hk with
  | never h => exact fun hi => .inl (.same (hal _ hi) h)
  | @again w u v force hns h hn ih =>
    intro hi
    rcases hc force w u hi hns h with h1 | h1
    · rcases ih (hI _ _ hi h1) with h2 | ⟨f, x, y, h2, h3, h4, h5⟩
      · exact .inl (h1.trans (h2.mono fun q => (h1.target cwd output header q).1))
      · exact .inr ⟨f, x, y, .again force hns h h2, h3, h4, h5⟩
    · exact .inr ⟨force, w, u, .never rfl, h, hn, h1⟩

end Volaris.Cli
