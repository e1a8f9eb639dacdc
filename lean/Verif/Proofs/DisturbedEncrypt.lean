import Verif.Spec.DisturbedEncrypt
import Verif.Proofs.Observed
import Verif.Proofs.EndToEnd
/-!
# Encryption while other programs change the disk
-/
namespace Volaris.Dist
open Volaris.Spec Volaris.Cli
variable {ε ε' α β σ : Type}

/-- How far an encryption is: the files in `E` were emptied when they had these names; the header and `c` were written; finished. -/
inductive Sealing where
  | opening (E : List (List Char × Nat))
  | body (oh : Nat) (hb : Bytes) (o start : Nat) (c : Bytes)
  | erasing

variable {det er : Prop} {L : List Char → Disk → Disk → Nat → Prop} {out hdr : List Char} {complete : Bytes → Prop}

/-- What a step can do at each stage. -/
inductive Puts (det er : Prop) (L : List Char → Disk → Disk → Nat → Prop) (out hdr : List Char) (complete : Bytes → Prop) : Sealing → Disk → Disk → Sealing → Prop
  | opening {d d' : Disk} {E : List (List Char × Nat)} : KeepsNames (d, d') → d'.file = d.file → Puts det er L out hdr complete (.opening E) d d' (.opening E)
  | emptied {d d' : Disk} {E : List (List Char × Nat)} {name : List Char} {j : Nat} : KeepsNames (d, d') → (∀ i, i ≠ j → d'.file i = d.file i) → d'.file j = [] → L name d d' j → name = out ∨ name = hdr →
      Puts det er L out hdr complete (.opening E) d d' (.opening ((name, j) :: E))
  | header {d d' : Disk} {E : List (List Char × Nat)} {oh o start : Nat} {hb : Bytes} : KeepsNames (d, d') → (hdr, oh) ∈ E → (out, o) ∈ E → (¬ det → oh = o ∧ start = hb.length) → (det → start = 0) →
      d'.file oh = writeAt (d.file oh) 0 hb → (∀ i, i ≠ oh → d'.file i = d.file i) → Puts det er L out hdr complete (.opening E) d d' (.body oh hb o start [])
  | idle {d d' : Disk} {oh o start : Nat} {hb c : Bytes} : KeepsNames (d, d') → d'.file = d.file → Puts det er L out hdr complete (.body oh hb o start c) d d' (.body oh hb o start c)
  | put {d d' : Disk} {oh o start : Nat} {hb c b : Bytes} : KeepsNames (d, d') → d'.file o = writeAt (d.file o) (start + c.length) b → (∀ i, i ≠ o → d'.file i = d.file i) →
      Puts det er L out hdr complete (.body oh hb o start c) d d' (.body oh hb o start (c ++ b))
  | last {d d' : Disk} {oh o start : Nat} {hb c : Bytes} : er → complete (hb ++ c) → Puts det er L out hdr complete (.body oh hb o start c) d d' .erasing
  | erasing {d d' : Disk} : Puts det er L out hdr complete .erasing d d' .erasing

theorem keeps_dir {d d' : Disk} (h : d'.dir = d.dir) : KeepsNames (d, d') := fun q n hl => by
  have : lookDisk d' = lookDisk d := by funext q; unfold lookDisk; rw [h]
  exact this ▸ hl

theorem still_opening {E : List (List Char × Nat)} : Still (Puts det er L out hdr complete) (.opening E) := fun _ _ h hd => .opening (keeps_dir hd) h
theorem still_body {oh o start : Nat} {hb c : Bytes} : Still (Puts det er L out hdr complete) (.body oh hb o start c) := fun _ _ h hd => .idle (keeps_dir hd) h

/-! ## From the stages to what the steps are -/

def Sealing.Complete (complete : Bytes → Prop) : Sealing → Prop
  | .opening _ => False
  | .body _ hb _ _ c => complete (hb ++ c)
  | .erasing => True

variable {D : Disk → Prop}

theorem Obs.laid {Q : Unit → World → Sealing → Prop} (hQ : ∀ y w s, Q y w s → s.Complete complete) {oh o start : Nat} {hb : Bytes} : ∀ (ds : List Disk) {t : Thr Error Unit} {a : World} {c : Bytes}, (∀ d ∈ ds, D d) →
    Obs D (Puts det er L out hdr complete) Q t a (.body oh hb o start c) → ∃ during afterwards c', Proc.among ds ⟨a, t⟩ = during ++ afterwards ∧ Lays o (start + c.length) c' during ∧ (∀ st ∈ during, KeepsNames st) ∧
      (afterwards ≠ [] → er ∧ complete (hb ++ (c ++ c'))) ∧ ((Proc.after ds ⟨a, t⟩).rest = .done (.ok ()) → complete (hb ++ (c ++ c')))
  | ds, .done r, a, c, _, h => by
    refine ⟨[], [], [], by cases ds <;> rfl, .nil, fun _ h => (nomatch h), fun h => absurd rfl h, fun e => ?_⟩
    have e : r = .ok () := by cases ds <;> (injection e)
    rw [List.append_nil]
    exact hQ _ _ _ (h () e)
  | [], .step eff k, a, c, _, _ => ⟨[], [], [], rfl, .nil, fun _ h => (nomatch h), fun h => absurd rfl h, fun e => nomatch e⟩
  | d :: ds, .step eff k, a, c, hds, h => by
    obtain ⟨s', hg, h⟩ := h d (hds d (List.mem_cons_self ..))
    have hds' : ∀ d ∈ ds, D d := fun d hd => hds d (List.mem_cons_of_mem _ hd)
    cases hg with
    | idle hn hf =>
      obtain ⟨b, e, q', h1, h2, h4, h3⟩ := Obs.laid hQ ds hds' h
      exact ⟨_ :: b, e, q', congrArg (List.cons _) h1, .idle hf h2, fun st hs => (List.mem_cons.1 hs).elim (fun e => e ▸ hn) (h4 st), h3⟩
    | @put _ _ _ _ _ _ _ p hn hf1 hf2 =>
      obtain ⟨b, e, q', h1, h2, h4, h3⟩ := Obs.laid hQ ds hds' h
      rw [List.append_assoc] at h3
      rw [List.length_append, ← Nat.add_assoc] at h2
      exact ⟨_ :: b, e, p ++ q', congrArg (List.cons _) h1, .put hf1 hf2 h2, fun st hs => (List.mem_cons.1 hs).elim (fun e => e ▸ hn) (h4 st), h3⟩
    | last he hw => exact ⟨[], _, [], rfl, .nil, fun _ h => (nomatch h), fun _ => ⟨he, by rwa [List.append_nil]⟩, fun _ => by rwa [List.append_nil]⟩

theorem Obs.seals {Q : Unit → World → Sealing → Prop} (hQ : ∀ y w s, Q y w s → s.Complete complete) : ∀ (ds : List Disk) {t : Thr Error Unit} {a : World} {E : List (List Char × Nat)} (pre : List (Disk × Disk)), (∀ d ∈ ds, D d) →
    (∀ st ∈ pre, OnlyEmpties (L out) (L hdr) st) → (∀ x ∈ E, ∃ st ∈ pre, st.2.file x.2 = [] ∧ L x.1 st.1 st.2 x.2) →
    Obs D (Puts det er L out hdr complete) Q t a (.opening E) → Seals det er ((Proc.after ds ⟨a, t⟩).rest = .done (.ok ())) (L out) (L hdr) complete (pre ++ Proc.among ds ⟨a, t⟩)
  | ds, .done r, a, E, pre, _, hp, hE, h => by
    refine .inl ⟨fun e => ?_, fun st hs => ?_⟩
    · have e : r = .ok () := by cases ds <;> (injection e)
      exact hQ _ _ _ (h () e)
    · rw [show Proc.among ds ⟨a, .done r⟩ = [] from by cases ds <;> rfl, List.append_nil] at hs
      exact hp st hs
  | [], .step eff k, a, E, pre, _, hp, hE, _ => by
    refine .inl ⟨fun e => (nomatch e), fun st hs => hp st ?_⟩
    rwa [show Proc.among [] ⟨a, .step eff k⟩ = [] from rfl, List.append_nil] at hs
  | d :: ds, .step eff k, a, E, pre, hds, hp, hE, h => by
    obtain ⟨s', hg, h⟩ := h d (hds d (List.mem_cons_self ..))
    have hds' : ∀ d ∈ ds, D d := fun d hd => hds d (List.mem_cons_of_mem _ hd)
    have e : pre ++ Proc.among (d :: ds) ⟨a, .step eff k⟩ = (pre ++ [(d, (eff (a.on d)).disk)]) ++ Proc.among ds ⟨eff (a.on d), k (a.on d)⟩ := by
      rw [List.append_assoc]; rfl
    cases hg with
    | opening h1 h2 =>
      rw [e]
      refine Obs.seals hQ ds _ hds' (fun st hs => ?_) (fun x hx => ?_) h
      · rcases List.mem_append.1 hs with hs | hs
        · exact hp st hs
        · rw [List.mem_singleton.1 hs]; exact ⟨h1, fun i => .inl (by simp only [h2])⟩
      · obtain ⟨st, hs, hf⟩ := hE x hx
        exact ⟨st, List.mem_append_left _ hs, hf⟩
    | @emptied _ _ _ name j h1 h2 h3 h4 h5 =>
      rw [e]
      refine Obs.seals hQ ds _ hds' (fun st hs => ?_) (fun x hx => ?_) h
      · rcases List.mem_append.1 hs with hs | hs
        · exact hp st hs
        · rw [List.mem_singleton.1 hs]
          refine ⟨h1, fun i => ?_⟩
          by_cases hi : i = j
          · subst hi
            refine .inr ⟨h3, ?_⟩
            rcases h5 with rfl | rfl
            · exact .inl h4
            · exact .inr h4
          · exact .inl (h2 i hi)
      · rcases List.mem_cons.1 hx with rfl | hx
        · exact ⟨_, List.mem_append_right _ (List.mem_singleton.2 rfl), h3, h4⟩
        · obtain ⟨st, hs, hf⟩ := hE x hx
          exact ⟨st, List.mem_append_left _ hs, hf⟩
    | @header _ _ _ oh o start hb hn h1 h2 h3 h4 h5 h6 =>
      obtain ⟨b, c, q', g1, g2, g5, g3, g4⟩ := Obs.laid hQ ds hds' h
      refine .inr ⟨pre, d, (eff (a.on d)).disk, b, c, oh, hb, o, start, q', ?_, hp, fun st hs => (List.mem_cons.1 hs).elim (fun e => e ▸ hn) (g5 st), hE _ h1, hE _ h2, h5, h6, h3, h4, g2, g3, g4⟩
      rw [e, g1]; simp

/-! ## The body -/

section
variable {C : Crypto} {ds : List Disk} {a : World}

theorem chunk_zero_append {b p : Bytes} (hb : b.length = blockLen) : chunk (b ++ p) 0 = b := by
  unfold chunk
  rw [Nat.zero_mul, List.drop_zero, List.take_append_of_le_length (by omega), List.take_of_length_le (by omega)]

theorem chunk_succ_append {b p : Bytes} (hb : b.length = blockLen) (k : Nat) : chunk (b ++ p) (k + 1) = chunk p k := by
  unfold chunk
  rw [show (k + 1) * blockLen = b.length + k * blockLen from by rw [hb, Nat.add_mul]; omega, ← List.drop_drop, List.drop_left]

theorem obs_write {wh oh o start : Nat} {hb c b : Bytes} (hfd : a.fd wh = ⟨o, start + c.length⟩) :
    Obs D (Puts det er L out hdr complete) (fun _ w s' => s' = .body oh hb o start (c ++ b) ∧ w.fd wh = ⟨o, start + (c ++ b).length⟩ ∧ (∀ h, h ≠ wh → w.fd h = a.fd h) ∧ (NoShort a.sched → NoShort w.sched))
      (Thr.atom (writeAll wh b)) a (.body oh hb o start c) := fun d _ => by
  have hfd' : (a.on d).fd wh = ⟨o, start + c.length⟩ := hfd
  have go : ∀ {w' : World} {e : Bytes}, w'.core = ((a.on d).put wh e).core → Puts det er L out hdr complete (.body oh hb o start c) d w'.disk (.body oh hb o start (c ++ e)) := by
    intro w' e' e
    have hf : w'.file = ((a.on d).put wh e').file := World.file_of_core e
    refine .put (keeps_dir (World.dir_of_core e)) ?_ fun i hi => ?_
    · show w'.file o = _
      rw [hf]
      simp only [World.put, hfd', if_true]; rfl
    · show w'.file i = _
      rw [hf]
      simp only [World.put, hfd', if_neg hi]; rfl
  have hsh : NoShort a.sched → NoShort ((writeAll wh b) (a.on d)).2.sched := fun n => Shrinks.short (.writeAll wh b) (w := a.on d) n
  rcases writeAll_spec wh b (a.on d) with ⟨w', e, hc⟩ | ⟨er, k, w', hk, e, hc⟩ <;> simp only [e] at hsh ⊢
  · refine ⟨_, go hc, fun y _ => ⟨rfl, ?_, fun h hh => ?_, hsh⟩⟩
    · show w'.fd wh = _
      rw [World.fd_of_core hc, World.put_fd_same, hfd', List.length_append, Nat.add_assoc]
    · show w'.fd h = _
      rw [World.fd_of_core hc, World.put_fd_ne _ _ hh]; rfl
  · exact ⟨_, go hc, fun _ h => nomatch h⟩

theorem encAt_ok {st : Stream} {last : Bool} {aad m x : Bytes} (h : st.encAt C last aad m = .ok x) : st.position ≤ C.ctrMax ∧ C.enc st.algorithm st.key (streamNonce st.pre st.position last) aad m = some x := by
  unfold Stream.encAt at h
  split at h
  · cases h
  · cases hd : C.enc st.algorithm st.key (streamNonce st.pre st.position last) aad m with
    | none => rw [hd] at h; cases h
    | some x => rw [hd] at h; cases h; exact ⟨by omega, rfl⟩

theorem encryptNext_ok {st st' : Stream} {aad m x : Bytes} (h : st.encryptNext C aad m = .ok (x, st')) :
    st.position < C.ctrMax ∧ C.enc st.algorithm st.key (streamNonce st.pre st.position false) aad m = some x ∧ st' = { st with position := st.position + 1 } := by
  unfold Stream.encryptNext at h
  split at h
  · cases h
  · next hne =>
    cases hx : st.encAt C false aad m with
    | ok m' =>
      rw [hx] at h; cases h
      have := encAt_ok hx
      exact ⟨by omega, this.2, rfl⟩
    | err e => rw [hx] at h; cases h
    | abort e => rw [hx] at h; cases h

theorem encryptLast_ok {st : Stream} {aad m x : Bytes} (h : st.encryptLast C aad m = .ok x) : st.position ≤ C.ctrMax ∧ C.enc st.algorithm st.key (streamNonce st.pre st.position true) aad m = some x := encAt_ok h

theorem obs_encLoop {rh wh oh o start ino : Nat} {hb aad : Bytes} (hn : rh ≠ wh) : ∀ (fuel : Nat) {st : Stream} {c : Bytes} {a : World}, NoShort a.sched → a.fd rh = ⟨ino, st.position * blockLen⟩ → a.fd wh = ⟨o, start + c.length⟩ →
    Obs (· ∈ ds) (Puts det er L out hdr complete) (fun _ _ s' => ∃ p c', s' = .body oh hb o start (c ++ c') ∧ Sealed C st.algorithm st.key st.pre aad st.position p c' ∧
      ∀ k, k ≤ p.length / blockLen → ∃ d ∈ ds, chunk p k = chunk (d.file ino) (st.position + k)) (Steps.encLoop C rh wh aad fuel st) a (.body oh hb o start c) := by
  intro fuel
  induction fuel with
  | zero => _
  | succ n ih => _
  all_goals
    intro st c a hsh hrd hwr
    unfold Steps.encLoop
    refine Obs.bind (Q := fun b w s' => s' = .body oh hb o start c ∧ NoShort w.sched ∧ w.fd wh = a.fd wh ∧ w.fd rh = ⟨ino, st.position * blockLen + b.length⟩ ∧ b.length ≤ blockLen ∧ ∃ d ∈ ds, b = chunk (d.file ino) st.position) ?_ (Obs.atomErr fun d hd => ?_)
    case refine_2 =>
      have hw : Within [rh] [] (read rh BLOCK_SIZE) := .read _ (by simp)
      have hw := hw (a.on d)
      refine ⟨_, .idle (keeps_dir hw.dir) (funext fun i => hw.files i (by simp)), fun y hy => ⟨rfl, Shrinks.short (.read _ _) (w := a.on d) hsh, hw.fds wh (by simpa using Ne.symm hn) (by simp), ?_⟩⟩
      have hy' := read_noShort (w := a.on d) (w' := (read rh BLOCK_SIZE (a.on d)).2) (b := y) hsh (by rw [← hy])
      have hrest : (a.on d).rest rh = (d.file ino).drop (st.position * blockLen) := by
        show (d.file (a.fd rh).ino).drop (a.fd rh).pos = _
        rw [hrd]
      rw [hrest] at hy'
      refine ⟨?_, by rw [hy', List.length_take]; exact Nat.min_le_left _ _, d, hd, hy'⟩
      rcases read_spec rh BLOCK_SIZE (a.on d) with ⟨k, w', e', -, -, hc⟩ | ⟨e', w', e', -⟩ <;> rw [e'] at hy <;> cases hy
      show (read rh BLOCK_SIZE (a.on d)).2.fd rh = _
      rw [e']
      show w'.fd rh = _
      rw [World.fd_of_core hc, World.adv_fd_same]
      show Fd.mk (a.fd rh).ino ((a.fd rh).pos + _) = _
      rw [hrd]
    rintro buf w s' ⟨rfl, hsh', hw, hr, hle, d, hd, hb'⟩
    simp only
    split
    · next hl =>
      refine Obs.lift fun r hr' => ?_
      obtain ⟨m, st'⟩ := r
      simp only
      have hst : st.position < C.ctrMax ∧ C.enc st.algorithm st.key (streamNonce st.pre st.position false) aad buf = some m ∧ st' = { st with position := st.position + 1 } := encryptNext_ok hr'
      obtain ⟨hlt, henc, rfl⟩ := hst
      refine Obs.bind ?_ (Obs.atomErr (obs_write (b := m) (hw.trans hwr)))
      rintro _ w2 s' ⟨rfl, hw2, hfr, hsh2⟩
      first
        | exact .abort
        | refine (ih (st := { st with position := st.position + 1 }) (hsh2 hsh') ((hfr rh hn).trans (hr.trans ?_)) hw2).mono ?_
          · simp only [Nat.add_mul, Nat.one_mul]
            rw [hl]; rfl
          · rintro _ w3 s' ⟨p, c', rfl, hs, hk⟩
            refine ⟨buf ++ p, m ++ c', by rw [List.append_assoc], .next hlt hl henc hs, fun k hkk => ?_⟩
            cases k with
            | zero => exact ⟨d, hd, by rw [chunk_zero_append hl]; exact hb'⟩
            | succ k =>
              obtain ⟨d', hd', e⟩ := hk k (by
                rw [List.length_append, show buf.length = blockLen from hl, Nat.add_comm blockLen, Nat.add_div_right _ blockLen_pos] at hkk
                omega)
              exact ⟨d', hd', by rw [chunk_succ_append hl, e, show st.position + 1 + k = st.position + (k + 1) from by omega]⟩
    · next hl =>
      refine Obs.lift fun m hr' => ?_
      have hst : st.position ≤ C.ctrMax ∧ C.enc st.algorithm st.key (streamNonce st.pre st.position true) aad buf = some m := encryptLast_ok hr'
      refine (Obs.atomErr (obs_write (b := m) (hw.trans hwr))).mono fun _ w2 s' hx => ?_
      have hlt : buf.length < blockLen := Nat.lt_of_le_of_ne hle hl
      refine ⟨buf, m, hx.1, .last hst.1 hlt hst.2, fun k hkk => ⟨d, hd, ?_⟩⟩
      rw [Nat.div_eq_of_lt hlt, Nat.le_zero] at hkk
      subst hkk
      rw [Nat.add_zero, ← hb']
      unfold chunk
      rw [Nat.zero_mul, List.drop_zero, List.take_of_length_le (by omega)]

/-! ## The whole file -/

theorem prepared (hC : C.Lawful) {req : Encrypt.Request} {w w' : World} {r : Header × Stream} (h : Encrypt.prepare C req w = (.ok r, w')) (hv : req.headerType.version = .v5) :
    r.2.position = 0 ∧ ∀ hb aad p c, r.1.serialize = .ok hb → r.1.createAad = .ok aad → Sealed C r.2.algorithm r.2.key r.2.pre aad 0 p c → DecryptsTo C req.rawKey (hb ++ c) p := by
  rcases prepare_eq C hC req w with ⟨hk, ek, hto, hec, hm, hel, hp⟩ | ⟨e, n, hp, _⟩ <;> rw [hp] at h <;> cases h
  refine ⟨rfl, fun hb aad p c hser ha hs => ?_⟩
  have he : Volaris.Encrypted C req { w with file := fun _ => p } False hb aad p c 0 :=
    { mode := hm, version := .inr hv, prefixed := List.prefix_refl _, whole := False.elim, slot := ⟨hk, ek, hto, hec, hel, hser, ha, hs⟩ }
  obtain ⟨hl, hd, mk, ht, hi, hr, hbody⟩ := he.fileOf hC (.inl hv)
  refine Spec.FileOf.decrypts hC ⟨hd, aad, mk, hi c, hr, ?_⟩
  rw [List.drop_left' (by rw [hl, ht])]
  exact hbody

theorem Kept'.within {R : List Nat} {d : Disk} {w : World} (ht : Touches R [] (a.on d) w) (hR : ∀ h ∈ R, a.nextFd ≤ h) (hs : NoShort a.sched → NoShort w.sched) : Kept' a w where
  fds := by rw [ht.nextFd]; exact Nat.le_refl _
  fd := fun x hx => ht.fds x (fun h => by have := hR x h; omega) (by simp)
  env := ht.env
  stdin := by rw [ht.stdin]; exact List.suffix_refl _
  tty := by rw [ht.tty]; exact List.suffix_refl _
  short := hs

/-- Going to the start. -/
theorem obs_rewind {s : Sealing} {h : Nat} (hs : Still (Puts det er L out hdr complete) s) :
    Obs D (Puts det er L out hdr complete) (fun _ w s' => s' = s ∧ w.fd h = ⟨(a.fd h).ino, 0⟩ ∧ (∀ x, x ≠ h → w.fd x = a.fd x) ∧ (NoShort a.sched → NoShort w.sched)) (Thr.atom (rewind h)) a s := fun d _ => by
  have hsh : NoShort a.sched → NoShort ((rewind h) (a.on d)).2.sched := fun n => Shrinks.short (.rewind h) (w := a.on d) n
  rcases rewind_spec h (a.on d) with ⟨w', e, hc⟩ | ⟨e, w', e, hc⟩ <;> simp only [e] at hsh ⊢
  · refine ⟨s, hs d w'.disk (by show w'.file = _; rw [World.file_of_core hc]; rfl) (World.dir_of_core hc), fun _ _ => ⟨rfl, ?_, fun x hx => ?_, hsh⟩⟩
    · show w'.fd h = _
      rw [World.fd_of_core hc]; simp [World.setPos]; rfl
    · show w'.fd x = _
      rw [World.fd_of_core hc, World.setPos_fd_ne _ _ hx]; rfl
  · exact ⟨s, hs d w'.disk (by show w'.file = _; rw [World.file_of_core hc]; rfl) (World.dir_of_core hc), fun _ h => nomatch h⟩

/-- Writing the header. -/
theorem obs_writeFirst {h oh o start : Nat} {hb : Bytes} {E : List (List Char × Nat)} (hsh : NoShort a.sched) (hfd : a.fd h = ⟨oh, 0⟩) (hE : (hdr, oh) ∈ E) (hE' : (out, o) ∈ E) (h1 : ¬ det → oh = o ∧ start = hb.length) (h2 : det → start = 0) :
    Obs D (Puts det er L out hdr complete) (fun _ w s' => s' = .body oh hb o start [] ∧ w.fd h = ⟨oh, hb.length⟩ ∧ (∀ x, x ≠ h → w.fd x = a.fd x) ∧ NoShort w.sched) (Thr.atom (write h hb)) a (.opening E) := fun d _ => by
  have hfd' : (a.on d).fd h = ⟨oh, 0⟩ := hfd
  have hs' : NoShort ((write h hb) (a.on d)).2.sched := Shrinks.short (.write h hb) (w := a.on d) hsh
  cases e : write h hb (a.on d) with
  | mk r w' =>
    rw [e] at hs'
    cases r with
    | ok n =>
      have hc := write_noShort (w := a.on d) hsh e
      refine ⟨_, .header (keeps_dir (by simp only [e]; exact World.dir_of_core hc)) hE hE' h1 h2 ?_ fun i hi => ?_, fun _ _ => ⟨rfl, ?_, fun x hx => ?_, by simpa only [e] using hs'⟩⟩
      · simp only [e]
        show w'.file oh = _
        rw [World.file_of_core hc]
        simp only [World.put, hfd', if_true]; rfl
      · simp only [e]
        show w'.file i = _
        rw [World.file_of_core hc]
        simp only [World.put, hfd', if_neg hi]; rfl
      · simp only [e]
        rw [World.fd_of_core hc, World.put_fd_same, hfd', Nat.zero_add]
      · simp only [e]
        rw [World.fd_of_core hc, World.put_fd_ne _ _ hx]; rfl
    | err e' =>
      rcases write_spec h hb (a.on d) with ⟨k, w'', e'', -⟩ | ⟨e'', w'', e'', hc⟩ <;> rw [e] at e'' <;> cases e''
      refine ⟨.opening E, still_opening _ _ ?_ ?_, fun y hy => ?_⟩
      · simp only [e]
        show w'.file = _
        rw [World.file_of_core hc]; rfl
      · simp only [e]; exact World.dir_of_core hc
      · simp only [e] at hy; cases hy
    | abort e' =>
      rcases write_spec h hb (a.on d) with ⟨k, w'', e'', -⟩ | ⟨e'', w'', e'', hc⟩ <;> rw [e] at e'' <;> cases e''

theorem obs_execute (hC : C.Lawful) {req : Encrypt.Request} (hv : req.headerType.version = .v5) {o : Nat} {E : List (List Char × Nat)} (hsh : NoShort a.sched) (hn : req.reader ≠ req.writer) (hfd : (a.fd req.writer).ino = o) (ho : (out, o) ∈ E) (hsame : ¬ det → hdr = out)
    (hd : det ↔ req.headerWriter ≠ none) (hh : ∀ hw, req.headerWriter = some hw → hw ≠ req.writer ∧ hw ≠ req.reader ∧ (hdr, (a.fd hw).ino) ∈ E) :
    Obs (· ∈ ds) (Puts det er L out hdr complete) (fun _ _ s' => ∃ oh hb start c p, s' = .body oh hb o start c ∧ SeenIn ds (a.fd req.reader).ino p ∧ DecryptsTo C req.rawKey (hb ++ c) p) (Steps.encryptExecute C req) a (.opening E) := by
  unfold Steps.encryptExecute
  refine Obs.bind (Q := fun r w s' => s' = .opening E ∧ w.fd = a.fd ∧ NoShort w.sched ∧ r.2.position = 0 ∧
    ∀ hb aad p c, r.1.serialize = .ok hb → r.1.createAad = .ok aad → Sealed C r.2.algorithm r.2.key r.2.pre aad 0 p c → DecryptsTo C req.rawKey (hb ++ c) p) ?_ fun d _ => ?_
  case refine_2 =>
    have hw := prepare_within C req [] [] (a.on d)
    exact ⟨_, still_opening _ _ (funext fun i => hw.files i (by simp)) hw.dir, fun y hy => ⟨rfl, funext fun x => hw.fds x (by simp) (by simp), Shrinks.short (.prepare C req) (w := a.on d) hsh,
      prepared hC (w := a.on d) (w' := _) (by rw [← hy]) hv⟩⟩
  rintro ⟨header, st⟩ w1 s' ⟨rfl, e1, n1, hpos, hdec⟩
  simp only at hpos hdec ⊢
  refine Obs.bind ?_ (Obs.atomErr (obs_rewind still_opening))
  rintro _ w2 s' ⟨rfl, e2, f2, n2⟩
  have n2 := n2 n1
  rw [e1, hfd] at e2
  refine Obs.bind (Q := fun _ w s' => ∃ oh hb start, s' = .body oh hb o start [] ∧ header.serialize = .ok hb ∧ w.fd req.writer = ⟨o, start⟩ ∧ w.fd req.reader = a.fd req.reader ∧ NoShort w.sched) ?_ ?_
  · rintro _ w3 s' ⟨oh, hb, start, rfl, hser, hw3, hr3, n3⟩
    refine Obs.lift fun aad ha => ?_
    have ha := mapErr_ok ha
    refine Obs.bind ?_ (Obs.atomErr (obs_rewind still_body))
    rintro _ w4 s' ⟨rfl, e4, f4, n4⟩
    rw [hr3] at e4
    unfold Steps.encryptFile
    refine Obs.mapErr (Obs.bind ?_ (obs_encLoop hn C.ctrMax (c := []) (n4 n3) (ino := (a.fd req.reader).ino) (e4.trans (by rw [hpos, Nat.zero_mul])) ((f4 _ (Ne.symm hn)).trans hw3)))
    rintro _ w5 s' ⟨p, c, rfl, hs, hk⟩
    refine (Obs.atomErr (obs_within (R := []) (.flush _) (.flush _) still_body)).mono fun _ _ s' hx => ⟨oh, hb, start, c, p, hx.1, fun k hkk => ?_, ?_⟩
    · obtain ⟨d, hd, e⟩ := hk k hkk
      exact ⟨d, hd, by rw [e, hpos, Nat.zero_add]⟩
    · rw [hpos] at hs
      exact hdec hb aad p c hser ha hs
  · unfold Steps.writeHeader
    cases hw : req.headerWriter with
    | none =>
      have hnd : ¬ det := fun h => hd.1 h hw
      refine Obs.lift fun hb hser => ?_
      refine Obs.bind ?_ (Obs.atomErr (obs_writeFirst n2 e2 (hsame hnd ▸ ho) ho (fun _ => ⟨rfl, rfl⟩) fun h => absurd h hnd))
      rintro _ w3 s' ⟨rfl, g1, g2, g3⟩
      exact .pure ⟨o, hb, hb.length, rfl, mapErr_ok hser, g1, by rw [g2 _ hn, f2 _ hn, e1], g3⟩
    | some h =>
      have hde : det := hd.2 (by rw [hw]; exact fun h => nomatch h)
      obtain ⟨k1, k2, k3⟩ := hh h hw
      refine Obs.bind ?_ (Obs.atomErr (obs_rewind still_opening))
      rintro _ w3 s' ⟨rfl, e3, f3, n3⟩
      refine Obs.lift fun hb hser => ?_
      rw [f2 h k1, e1] at e3
      refine Obs.bind ?_ (Obs.atomErr (obs_writeFirst (n3 n2) e3 k3 ho (fun h => absurd hde h) fun _ => rfl))
      rintro _ w4 s' ⟨rfl, g1, g2, g3⟩
      exact .pure ⟨_, hb, 0, rfl, mapErr_ok hser, by rw [g2 _ (Ne.symm k1), f3 _ (Ne.symm k1), e2], by rw [g2 _ (Ne.symm k2), f3 _ (Ne.symm k2), f2 _ hn, e1], g3⟩

end

/-! ## The command -/

section
variable {ds : List Disk} {a : World}

/-- An entry that was opened for writing, to a file that was emptied then. -/
def Emptied (name : List Char) (a : World) (e : Storage.Entry) (w : World) (E : List (List Char × Nat)) (s : Sealing) : Prop := ∃ h, e.stream = .ok h ∧ a.nextFd ≤ h ∧ h < w.nextFd ∧ (w.fd h).pos = 0 ∧ s = .opening ((name, (w.fd h).ino) :: E)

theorem obs_openOutput (p : PathBuf) {name : List Char} (hname : name = out ∨ name = hdr) (hL : ∀ d d' q i, (a.on d).resolve p = .ok q → lookDisk d' q = some (.file i) → L name d d' i) {E : List (List Char × Nat)} : Obs D (Puts det er L out hdr complete) (fun e w s' => Kept' a w ∧ Emptied name a e w E s') (Steps.openOutput p) a (.opening E) := by
  unfold Steps.openOutput Steps.orElse
  refine Obs.mapErr (Obs.bind (Q := fun r w s' => Kept' a w ∧ match r with | .ok e => Emptied name a e w E s' | _ => s' = .opening E) ?_ fun d _ => ?_)
  · rintro r w s' ⟨hk, hr⟩
    cases r with
    | ok e => exact .pure ⟨hk, hr⟩
    | abort e => exact .abort
    | err e =>
      simp only at hr ⊢
      subst hr
      intro d _
      have hsh : NoShort w.sched → NoShort ((Storage.writeFile p) (w.on d)).2.sched := fun n => Shrinks.short (.writeFile p) (w := w.on d) n
      obtain ⟨sc, ⟨e, h⟩ | ⟨q, i, hq, hl, h⟩⟩ := writeFile_cases p (w.on d) <;> simp only [h] at hsh ⊢
      · exact ⟨.opening E, still_opening _ _ rfl rfl, fun _ h => nomatch h⟩
      · refine ⟨.opening ((name, i) :: E), .emptied (keeps_dir rfl) (fun j e => if_neg e) (if_pos rfl) (hL _ _ q i ((World.resolve_congr (w := a.on d) (w' := w.on d) rfl _).symm.trans hq) hl) hname, fun y hy => ?_⟩
        · cases hy
          have ef : (World.truncated (World.opened { w.on d with sched := sc } i) i).fd (w.on d).nextFd = ⟨i, 0⟩ := opened_fd { w.on d with sched := sc } i
          refine ⟨hk.trans ⟨?_, hsh⟩, (w.on d).nextFd, rfl, hk.fds, Nat.lt_succ_self _, by rw [ef], by rw [ef]⟩
          have := Kept.opened (a := w) (w := { w.on d with sched := sc }) rfl rfl rfl rfl rfl i
          exact ⟨this.fds, this.fd, this.env, this.stdin, this.tty⟩
  · have hsh : NoShort a.sched → NoShort ((Storage.createFile p) (a.on d)).2.sched := fun n => Shrinks.short (.createFile p) (w := a.on d) n
    unfold Prog.attempt
    obtain ⟨sc, ⟨e, h⟩ | ⟨q, hq, hl, h⟩⟩ := createFile_cases p (a.on d) <;> simp only [h] at hsh ⊢
    · exact ⟨.opening E, still_opening _ _ rfl rfl, fun y hy => by
        cases hy
        exact ⟨⟨⟨Nat.le_refl _, fun _ _ => rfl, rfl, List.suffix_refl _, List.suffix_refl _⟩, hsh⟩, rfl⟩⟩
    · refine ⟨.opening ((name, (a.on d).nextIno) :: E), .emptied (fun q' n hn => ?_) (fun j e => if_neg e) (if_pos rfl) (hL _ _ q _ hq (look_new _ hl)) hname, fun y hy => ?_⟩
      · have hn : (a.on d).look q' = some n := hn
        show (World.created { a.on d with sched := sc } q).look q' = some n
        rw [World.look_created]
        split
        · next e => rw [e] at hn; exact hn
        · rw [if_neg (fun e => by rw [e, hl] at hn; cases hn)]; exact hn
      · cases hy
        have ef : (World.opened (World.created { a.on d with sched := sc } q) (a.on d).nextIno).fd (a.on d).nextFd = ⟨(a.on d).nextIno, 0⟩ := opened_fd (World.created { a.on d with sched := sc } q) _
        refine ⟨⟨.opened (a := a) (w := World.created { a.on d with sched := sc } q) rfl rfl rfl rfl rfl _, hsh⟩, (a.on d).nextFd, rfl, Nat.le_refl _, Nat.lt_succ_self _, by rw [ef], by rw [ef]⟩

theorem obs_openHeader (sys : Sys σ) (force : ForceMode) (header : Option (List Char)) (hname : header.getD out = hdr) (hL : ∀ name, header = some name → ∀ d d' q i, (a.on d).resolve (toPath sys.cwd name) = .ok q → lookDisk d' q = some (.file i) → L name d d' i) {E : List (List Char × Nat)} :
    Obs D (Puts det er L out hdr complete) (fun e w s' => Kept' a w ∧ ∃ E', s' = .opening E' ∧ (∀ i ∈ E, i ∈ E') ∧ (optStream e = none ↔ header = none) ∧ ∀ h, optStream e = some h → a.nextFd ≤ h ∧ (header.getD [], (w.fd h).ino) ∈ E') (Steps.openHeader sys force header) a (.opening E) := by
  cases header with
  | none => exact .pure ⟨.refl a, E, rfl, fun _ h => h, ⟨fun _ => rfl, fun _ => rfl⟩, fun _ h => nomatch h⟩
  | some path =>
    refine Obs.bind ?_ (obs_consent _ _ _ still_opening)
    rintro _ w s' ⟨rfl, k1⟩
    refine Obs.bind ?_ (obs_openOutput _ (.inr hname) fun d d' q i hq hl => hL _ rfl d d' q i ((World.resolve_congr (w := a.on d) (w' := w.on d) rfl _).symm.trans hq) hl)
    rintro e w2 s' ⟨k2, h, hst, hle, hlt, -, rfl⟩
    cases e with
    | dir p => cases hst
    | file p x =>
      cases hst
      refine .pure ⟨k1.trans k2, _, rfl, fun i hi => List.mem_cons_of_mem _ hi, ⟨fun h => (nomatch h), fun h => (nomatch h)⟩, fun y hy => ?_⟩
      cases hy
      exact ⟨Nat.le_trans k1.fds hle, List.mem_cons_self ..⟩

theorem obs_encryptBody {sys : Sys σ} {params : CryptoParams} {algorithm : Algorithm} {input output : Storage.Entry} {header : Option Storage.Entry} {rawKey : Bytes} {rh wh : Nat} {E : List (List Char × Nat)} (hC : sys.C.Lawful)
    (hsh : NoShort a.sched) (hi : input.stream = .ok rh) (ho : output.stream = .ok wh) (hlt : rh < wh) (hE : (out, (a.fd wh).ino) ∈ E) (hsame : ¬ det → hdr = out) (hd : det ↔ optStream header ≠ none) (hh : ∀ x, optStream header = some x → wh < x ∧ (hdr, (a.fd x).ino) ∈ E) :
    Obs (· ∈ ds) (Puts det er L out hdr complete) (fun _ _ s' => ∃ oh hb o start c p, s' = .body oh hb o start c ∧ SeenIn ds (a.fd rh).ino p ∧ DecryptsTo sys.C rawKey (hb ++ c) p)
      (Steps.encryptBody sys params algorithm input output header rawKey) a (.opening E) := by
  unfold Steps.encryptBody Steps.streamOf
  rw [hi, ho]
  refine Obs.lift fun x hx => Obs.lift fun y hy => ?_
  cases hx; cases hy
  refine Obs.bind ?_ (Obs.mapErr (obs_execute hC rfl hsh (by simp only; omega) rfl hE hsame hd fun hw hhw => ?_))
  · rintro _ w s' ⟨oh, hb, start, c, p, rfl, h1, h2⟩
    have done : ∀ {w : World}, Obs (· ∈ ds) (Puts det er L out hdr complete) (fun _ _ s' => ∃ oh hb o start c p, s' = .body oh hb o start c ∧ SeenIn ds (a.fd rh).ino p ∧ DecryptsTo sys.C rawKey (hb ++ c) p)
        ((Steps.flushFile output).mapErr Error.storage) w (.body oh hb (a.fd wh).ino start c) := by
      intro w
      unfold Steps.flushFile
      refine Obs.mapErr (Obs.lift fun x _ => ?_)
      exact (Obs.atomErr (obs_quiet (fun w => have h := (show Within [] [] (flush x) from .flush x) w; ⟨funext fun i => h.files i (by simp), h.dir⟩) still_body)).mono fun _ _ s' hx => ⟨oh, hb, _, start, c, p, hx, h1, h2⟩
    refine Obs.bind (Q := fun _ _ s' => s' = .body oh hb (a.fd wh).ino start c) ?_ ?_
    · rintro _ w s' rfl
      exact done
    · unfold Steps.flushOpt
      cases header with
      | none => exact .pure rfl
      | some e =>
        unfold Steps.flushFile
        refine Obs.mapErr (Obs.lift fun x _ => ?_)
        exact Obs.atomErr (obs_quiet (fun w => have h := (show Within [] [] (flush x) from .flush x) w; ⟨funext fun i => h.files i (by simp), h.dir⟩) still_body)
  · have := hh hw hhw
    exact ⟨by simp only; omega, by simp only; omega, this.2⟩

theorem obs_erasing {t : Thr ε α} : ∀ {a : World}, Obs D (Puts det er L out hdr complete) (fun _ _ s => s.Complete complete) t a .erasing := by
  induction t with
  | done r => intro a y _; exact trivial
  | step eff k ih => intro a d _; exact ⟨.erasing, .erasing, ih _⟩

theorem obs_finish {oh o start : Nat} {hb c : Bytes} (he : er) (hq : complete (hb ++ c)) {t : Thr ε α} : Obs D (Puts det er L out hdr complete) (fun _ _ s => s.Complete complete) t a (.body oh hb o start c) := by
  cases t with
  | done r => exact fun _ _ => hq
  | step eff k => exact fun d _ => ⟨.erasing, .last he hq, obs_erasing⟩

theorem obs_encryptMode {sys : Sys σ} {input output : List Char} {params : CryptoParams} {algorithm : Algorithm} (hC : sys.C.Lawful) (hsh : NoShort a.sched) :
    Obs (· ∈ ds) (Puts (params.header ≠ none) (params.erase ≠ .ignoreFile) (Leads a sys.cwd) output (params.header.getD output) (Captures sys a ds input params.key)) (fun _ _ s => s.Complete (Captures sys a ds input params.key))
      (Steps.encryptMode sys input output params algorithm) a (.opening []) := by
  unfold Steps.encryptMode
  split
  · exact .fail
  · refine Obs.bind ?_ (obs_consent _ _ _ still_opening)
    rintro _ w1 s' ⟨rfl, k1⟩
    refine Obs.bind ?_ (obs_readInput _ still_opening)
    rintro inputFile w2 s' ⟨rfl, k2, hin⟩
    refine Obs.bind ?_ (obs_getSecret _ _ _ _ still_opening)
    rintro pw w3 s' ⟨rfl, k3, hpw⟩
    have hpw := supply_mono (k1.toKept.trans k2.toKept) hpw
    refine Obs.bind ?_ (obs_openOutput _ (name := output) (.inl rfl) fun d d' q i hq hl => ⟨q, (World.resolve_congr (w := a.on d) (w' := w3.on d) rfl _).symm.trans hq, hl⟩)
    rintro outputFile w4 s' ⟨k4, wh, hwh, hle, hlt, -, rfl⟩
    refine Obs.bind ?_ (obs_openHeader sys _ _ rfl fun name _ d d' q i hq hl => ⟨q, (World.resolve_congr (w := a.on d) (w' := w4.on d) rfl _).symm.trans hq, hl⟩)
    rintro headerFile w5 s' ⟨k5, E', rfl, hE, hnone, hhd⟩
    cases hst : inputFile.stream with
    | err e =>
      unfold Steps.encryptBody Steps.streamOf
      rw [hst]
      exact Obs.bind (Q := fun _ _ _ => False) (fun _ _ _ h => h.elim) (Obs.lift fun y hy => by cases hy)
    | abort e =>
      unfold Steps.encryptBody Steps.streamOf
      rw [hst]
      exact Obs.bind (Q := fun _ _ _ => False) (fun _ _ _ h => h.elim) (Obs.lift fun y hy => by cases hy)
    | ok rh =>
      obtain ⟨g1, g2, d, q, hd, hq, hl⟩ := hin rh hst
      have hrh : w5.fd rh = w2.fd rh := by
        have := k3.fds; have := k4.fds
        rw [k5.fd rh (by omega), k4.fd rh (by omega), k3.fd rh g1]
      have hnamed : NamedOn a ds sys.cwd input (w5.fd rh).ino := ⟨d, hd, q, (World.resolve_congr (w := a.on d) (w' := w1.on d) rfl _).symm.trans hq, by rw [hrh]; exact hl⟩
      refine Obs.bind ?_ (obs_encryptBody hC (k5.short (k4.short (k3.short (k2.short (k1.short hsh))))) hst hwh (by have := k3.fds; omega) (hE _ (by rw [k5.fd wh hlt]; exact List.mem_cons_self ..))
        (fun h => by cases hh : params.header with | none => rfl | some x => exact absurd (by rw [hh]; exact fun h => nomatch h) h)
        ⟨fun h e => h (hnone.1 e), fun h e => h (hnone.2 e)⟩ fun x hx => ⟨by have := (hhd x hx).1; omega, by
          have h2 := (hhd x hx).2
          cases hh : params.header with
          | none => rw [hnone.2 hh] at hx; cases hx
          | some y => rw [hh] at h2; exact h2⟩)
      rintro _ w6 s' ⟨oh, hb, o, start, c, p, rfl, h1, h2⟩
      have hcomp : Captures sys a ds input params.key (hb ++ c) := ⟨_, pw, p, hnamed, h1, hpw, h2⟩
      refine Obs.bind ?_ (obs_hashIf sys _ _ still_body)
      rintro _ w7 s' rfl
      unfold Steps.eraseIf
      cases he : params.erase with
      | ignoreFile => exact .pure hcomp
      | eraseFile passes => exact obs_finish (fun h => nomatch h) hcomp

end

theorem seen_unchanged {ds : List Disk} {i : Nat} {p x : Bytes} (h : SeenIn ds i p) (hx : ∀ d ∈ ds, d.file i = x) : p = x := by
  have hk : ∀ k, k ≤ p.length / blockLen → chunk p k = chunk x k := fun k hk => by
    obtain ⟨d, hd, e⟩ := h k hk
    rw [e, hx d hd]
  have go : ∀ k, k ≤ p.length / blockLen + 1 → p.take (k * blockLen) = x.take (k * blockLen) := by
    intro k
    induction k with
    | zero => simp
    | succ k ih =>
      intro h
      rw [← chunk_next, ← chunk_next, ih (by omega), hk k (by omega)]
  have hb : 0 < blockLen := by decide
  have hlt : p.length < (p.length / blockLen + 1) * blockLen := Nat.lt_mul_of_div_lt (Nat.lt_succ_self _) hb
  have e := go (p.length / blockLen + 1) (Nat.le_refl _)
  rw [List.take_of_length_le (by omega)] at e
  have hl := congrArg List.length e
  rw [List.length_take] at hl
  rw [List.take_of_length_le (by omega)] at e
  exact e

end Volaris.Dist
