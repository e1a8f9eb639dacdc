import Verif.Spec.TogetherDecrypt
import Verif.Proofs.Together
/-!
# Decryption of a file that does not change while other programs change the disk
-/
namespace Volaris.Dist
open Volaris.Spec Volaris.Cli
variable {ε ε' α β σ S : Type}

/-- A step that changes no file and no name can be one from this stage to that. -/
def Shift (G : S → Disk → Disk → S → Prop) (s s' : S) : Prop := ∀ d d', d'.file = d.file → d'.dir = d.dir → G s d d' s'

theorem still_shift {G : S → Disk → Disk → S → Prop} {s : S} (h : Still G s) : Shift G s s := h

section
variable {D : Disk → Prop} {G : S → Disk → Disk → S → Prop} {a : World} {s s' : S}

/-- A call on one handle, which changes no file. -/
theorem obs_on {h : Nat} {x : Prog ε α} {P : α → World → Prop} (hx : Within [h] [] x) (hq : Shrinks x) (hG : Shift G s s') (hp : ∀ d, D d → ∀ y w, x (a.on d) = (.ok y, w) → P y w) :
    Obs D G (fun y w s'' => s'' = s' ∧ (∀ z, z ≠ h → w.fd z = a.fd z) ∧ (NoShort a.sched → NoShort w.sched) ∧ P y w) (Thr.atom x) a s := fun d hd =>
  have ht := hx (a.on d)
  ⟨s', hG _ _ (funext fun i => ht.files i (by simp)) ht.dir, fun y hy => ⟨rfl, fun z hz => ht.fds z (by simpa using hz) (by simp), fun n => Shrinks.short hq (w := a.on d) n, hp d hd y _ (by rw [← hy])⟩⟩

variable {ds : List Disk} {i : Nat} {x : Bytes}

theorem rest_of {h pos : Nat} (hfd : a.fd h = ⟨i, pos⟩) {d : Disk} (hd : d.file i = x) : (a.on d).rest h = x.drop pos := by
  show (d.file (a.fd h).ino).drop (a.fd h).pos = _
  rw [hfd]; simp only [hd]

/-- Reading bytes of a file that does not change. -/
theorem obs_readExact {h n pos : Nat} (hG : Shift G s s') (hx : ∀ d ∈ ds, d.file i = x) (hfd : a.fd h = ⟨i, pos⟩) :
    Obs (· ∈ ds) G (fun y w s'' => s'' = s' ∧ (∀ z, z ≠ h → w.fd z = a.fd z) ∧ (NoShort a.sched → NoShort w.sched) ∧ y = (x.drop pos).take n ∧ n ≤ (x.drop pos).length ∧ w.fd h = ⟨i, pos + n⟩) (Thr.atom (readExact h n)) a s :=
  obs_on (P := fun y w => y = (x.drop pos).take n ∧ n ≤ (x.drop pos).length ∧ w.fd h = ⟨i, pos + n⟩) (.readExact n (by simp)) (.readExact h n) hG fun d hd y w e => by
    rcases readExact_spec h n (a.on d) with ⟨w', hl, e', hc⟩ | ⟨e', w', k, e', -⟩ <;> rw [e'] at e <;> cases e
    rw [rest_of hfd (hx d hd)] at hl
    refine ⟨by rw [rest_of hfd (hx d hd)], hl, ?_⟩
    rw [World.fd_of_core hc, World.adv_fd_same]
    show Fd.mk (a.fd h).ino ((a.fd h).pos + n) = _
    rw [hfd]

theorem obs_deserialize {h : Nat} (hG : Shift G s s') (hG' : Still G s') (hx : ∀ d ∈ ds, d.file i = x) (hfd : a.fd h = ⟨i, 0⟩) :
    Obs (· ∈ ds) G (fun r w s'' => s'' = s' ∧ (∀ z, z ≠ h → w.fd z = a.fd z) ∧ (NoShort a.sched → NoShort w.sched) ∧ IsHeader x r.1 r.2 ∧ w.fd h = ⟨i, headerSize r.1.headerType.version⟩) (Steps.deserialize h) a s := by
  unfold Steps.deserialize
  refine Obs.bind ?_ (Obs.atomErr (obs_readExact hG hx hfd))
  rintro vb w s'' ⟨rfl, f1, n1, rfl, l1, e1⟩
  refine Obs.bind ?_ (Obs.atomErr (obs_on (h := h) (P := fun _ w => w.fd h = ⟨i, 0⟩) (.seekCur (-2) (by simp)) (.seekCur h _) hG' fun d hd y w' e => ?_))
  · rintro _ w2 s'' ⟨rfl, f2, n2, e2⟩
    rw [List.drop_zero] at l1 ⊢
    cases hv : parseVersion (x.take 2) with
    | none => exact .fail
    | some v =>
      refine Obs.bind ?_ (Obs.atomErr (obs_readExact hG' hx e2))
      rintro full w3 s'' ⟨rfl, f3, n3, rfl, l3, e3⟩
      rw [List.drop_zero] at l3 ⊢
      refine .done fun r hr => ?_
      obtain ⟨ev, hi⟩ := (parseHeader_iff x v r.1 r.2 hv l3).1 hr
      refine ⟨rfl, fun z hz => by rw [f3 z hz, f2 z hz, f1 z hz], fun n => n3 (n2 (n1 n)), hi, ?_⟩
      rw [e3, ev, size_eq, Nat.zero_add]
  · rcases seekCur_spec h (-2) (w.on d) with ⟨w'', e', h0, hc⟩ | ⟨er, w'', e', -⟩ <;> rw [e'] at e <;> cases e
    rw [World.fd_of_core hc]
    have : (w.on d).fd h = ⟨i, 0 + 2⟩ := e1
    simp [World.setPos, this]

end

/-! ## The body -/

section
variable {C : Crypto} {ds : List Disk} {i : Nat} {x : Bytes} {a : World} {det er : Prop} {L : List Char → Disk → Disk → Nat → Prop} {out hdr : List Char} {complete : Bytes → Prop}

theorem decryptNext_ok {st st' : Stream} {aad c m : Bytes} (h : st.decryptNext C aad c = .ok (m, st')) :
    st.position < C.ctrMax ∧ C.dec st.algorithm st.key (streamNonce st.pre st.position false) aad c = some m ∧ st' = { st with position := st.position + 1 } := by
  unfold Stream.decryptNext at h
  split at h
  · cases h
  · next hne =>
    cases hx : st.decAt C false aad c with
    | ok m' =>
      rw [hx] at h; cases h
      have := decAt_ok hx
      exact ⟨by omega, this.2, rfl⟩
    | err e => rw [hx] at h; cases h
    | abort e => rw [hx] at h; cases h

theorem obs_decLoop (hC : C.Lawful) {rh wh o : Nat} {aad : Bytes} (hn : rh ≠ wh) (hx : ∀ d ∈ ds, d.file i = x) : ∀ (fuel : Nat) {st : Stream} {q : Bytes} {pos : Nat} {a : World}, NoShort a.sched → a.fd rh = ⟨i, pos⟩ → a.fd wh = ⟨o, 0 + q.length⟩ →
    Obs (· ∈ ds) (Puts det er L out hdr complete) (fun _ _ s' => ∃ q', s' = .body o [] o 0 (q ++ q') ∧ Sealed C st.algorithm st.key st.pre aad st.position q' (x.drop pos)) (Steps.decLoop C rh wh aad fuel st) a (.body o [] o 0 q) := by
  intro fuel
  induction fuel with
  | zero => _
  | succ n ih => _
  all_goals
    intro st q pos a hsh hrd hwr
    unfold Steps.decLoop
    refine Obs.bind ?_ (Obs.atomErr (obs_on (h := rh) (P := fun b w => b = (x.drop pos).take (BLOCK_SIZE + 16) ∧ w.fd rh = ⟨i, pos + b.length⟩) (.read _ (by simp)) (.read _ _) (still_shift still_body) fun d hd b w e => ?_))
    case refine_2 =>
      have hb := read_noShort (w := a.on d) hsh e
      rw [rest_of hrd (hx d hd)] at hb
      refine ⟨hb, ?_⟩
      rcases read_spec rh (BLOCK_SIZE + 16) (a.on d) with ⟨k, w', e', -, -, hc⟩ | ⟨e', w', e', -⟩ <;> rw [e'] at e <;> cases e
      rw [World.fd_of_core hc, World.adv_fd_same]
      show Fd.mk (a.fd rh).ino ((a.fd rh).pos + _) = _
      rw [hrd]
    rintro buf w s' ⟨rfl, f1, n1, hb, hr⟩
    have hw := (f1 wh (Ne.symm hn)).trans hwr
    simp only
    split
    · next hl =>
      refine Obs.lift fun r hr' => ?_
      obtain ⟨m, st'⟩ := r
      simp only
      have hst : st.position < C.ctrMax ∧ C.dec st.algorithm st.key (streamNonce st.pre st.position false) aad buf = some m ∧ st' = { st with position := st.position + 1 } := decryptNext_ok hr'
      obtain ⟨hlt, hdec, rfl⟩ := hst
      have henc := hC.enc_dec _ _ _ _ _ _ hdec
      refine Obs.bind ?_ (Obs.atomErr (obs_write (b := m) hw))
      rintro _ w2 s' ⟨rfl, hw2, hfr, hsh2⟩
      first
        | exact .abort
        | refine (ih (st := { st with position := st.position + 1 }) (hsh2 (n1 hsh)) ((hfr rh hn).trans hr) hw2).mono ?_
          rintro _ w3 s' ⟨q', rfl, hs⟩
          refine ⟨m ++ q', by rw [List.append_assoc], ?_⟩
          have hm : m.length = blockLen := by
            have := hC.enc_len _ _ _ _ _ _ henc
            have e : BLOCK_SIZE = blockLen := rfl
            omega
          have e : x.drop pos = buf ++ x.drop (pos + buf.length) := by
            rw [← List.drop_drop]
            conv => lhs; rw [← List.take_append_drop buf.length (x.drop pos)]
            congr 1
            rw [hl]; exact hb.symm
          rw [e]
          exact .next hlt hm henc hs
    · next hl =>
      refine Obs.lift fun m hr' => ?_
      have hst : st.position ≤ C.ctrMax ∧ C.dec st.algorithm st.key (streamNonce st.pre st.position true) aad buf = some m := decAt_ok hr'
      refine (Obs.atomErr (obs_write (b := m) hw)).mono fun _ w2 s' hx => ⟨m, hx.1, ?_⟩
      have hlt : (x.drop pos).length < BLOCK_SIZE + 16 := by
        apply Nat.lt_of_not_le
        intro hle
        exact hl (by rw [hb, List.length_take]; exact Nat.min_eq_left hle)
      rw [List.take_of_length_le (by omega)] at hb
      have henc := hC.enc_dec _ _ _ _ _ _ hst.2
      rw [← hb] at hlt ⊢
      have e : BLOCK_SIZE = blockLen := rfl
      exact .last hst.1 (by have := hC.enc_len _ _ _ _ _ _ henc; omega) henc

theorem obs_decryptRest (hC : C.Lawful) {req : Decrypt.Request} {h : Header} {aad bs : Bytes} (hi : IsHeader bs h aad) {o pos : Nat} (hn : req.reader ≠ req.writer) (hx : ∀ d ∈ ds, d.file i = x) (hsh : NoShort a.sched)
    (hrd : a.fd req.reader = ⟨i, pos⟩) (hwr : a.fd req.writer = ⟨o, 0⟩) :
    Obs (· ∈ ds) (Puts det er L out hdr complete) (fun _ _ s' => ∃ q mk, s' = .body o [] o 0 q ∧ Recovers C req.rawKey h mk ∧ BodyOf C h mk aad q (x.drop pos)) (Steps.decryptRest C req h aad) a (.body o [] o 0 []) := by
  unfold Steps.decryptRest
  have hrec : ∀ {mk}, decryptMasterKey C req.rawKey h = .ok mk → Recovers C req.rawKey h mk := fun {mk} hk => by
    rcases decryptMasterKey_cases hC req.rawKey hi with ⟨mk', h1, h2, -⟩ | ⟨e, h1, -⟩ <;> rw [hk] at h1 <;> cases h1
    exact h2
  cases hmode : h.headerType.mode with
  | memoryMode =>
    refine Obs.bind ?_ (Obs.atomErr (obs_on (h := req.reader) (P := fun b _ => b = x.drop pos) (.readToEnd (by simp)) (.readToEnd _) (still_shift still_body) fun d hd b w e => ?_))
    case refine_2 => rw [readToEnd_ok e, rest_of hrd (hx d hd)]
    rintro buf w s' ⟨rfl, f1, n1, rfl⟩
    refine Obs.lift fun mk hk => Obs.lift fun c hc => Obs.lift fun m hdec => ?_
    have hc : c = ⟨h.headerType.algorithm, mk⟩ := by
      have := mapErr_ok hc
      unfold Cipher.initialize at this
      split at this <;> cases this
      rfl
    subst hc
    have hdec : C.dec h.headerType.algorithm mk h.nonce aad (x.drop pos) = some m := by
      have := mapErr_ok hdec
      unfold Cipher.decrypt at this
      split at this
      · cases this
      · cases hx : C.dec h.headerType.algorithm mk h.nonce aad (x.drop pos) with
        | none => simp only [hx] at this; cases this
        | some x => simp only [hx] at this; cases this; rfl
    refine (Obs.atomErr (obs_write (c := []) (b := m) ((f1 _ (Ne.symm hn)).trans hwr))).mono fun _ w2 s' hx => ⟨m, mk, hx.1, hrec (mapErr_ok hk), ?_⟩
    simp only [BodyOf, hmode]
    exact hC.enc_dec _ _ _ _ _ _ hdec
  | streamMode =>
    refine Obs.lift fun mk hk => Obs.lift fun st hst => Obs.mapErr ?_
    have hst : st = ⟨h.headerType.algorithm, mk, h.nonce, 0⟩ := by
      have := mapErr_ok hst
      unfold decInitialize at this
      split at this
      · cases this
      · split at this <;> cases this
        rfl
    subst hst
    unfold Steps.decryptFile
    refine Obs.bind ?_ (obs_decLoop hC hn hx C.ctrMax (q := []) hsh hrd hwr)
    rintro _ w s' ⟨q', rfl, hq⟩
    exact (Obs.atomErr (obs_within (R := []) (.flush _) (.flush _) still_body)).mono fun _ _ s' hx => ⟨q', mk, hx.1, hrec (mapErr_ok hk), (bodyOf_stream hmode).2 hq⟩

/-- What the input `x`, with the content of the header file if there is one, decrypts to. -/
def Opening (C : Crypto) (pw : Bytes) (hdr : Option Bytes) (x y : Bytes) : Prop :=
  match hdr with
  | none => FileOf C pw x y
  | some h => DetachedFileOf C pw h x y

/-- The header has been written: nothing. -/
theorem shift_body {E : List (List Char × Nat)} {o : Nat} (hd : ¬ det) (hE : (out, o) ∈ E) (hE' : (hdr, o) ∈ E) : Shift (Puts det er L out hdr complete) (.opening E) (.body o [] o 0 []) := fun d d' hf hd' =>
  .header (keeps_dir hd') hE' hE (fun _ => ⟨rfl, rfl⟩) (fun h => absurd h hd) (by rw [hf]; unfold writeAt; simp) fun _ _ => by rw [hf]

theorem obs_decryptExecute (hC : C.Lawful) {req : Decrypt.Request} {o : Nat} {E : List (List Char × Nat)} {hb : Option Bytes} (hd : ¬ det) (hE : (out, o) ∈ E) (hE' : (hdr, o) ∈ E) (hn : req.reader ≠ req.writer) (hx : ∀ d ∈ ds, d.file i = x) (hsh : NoShort a.sched)
    (hrd : a.fd req.reader = ⟨i, 0⟩) (hwr : a.fd req.writer = ⟨o, 0⟩)
    (hh : match req.headerReader with | none => hb = none | some hr => hr ≠ req.reader ∧ hr ≠ req.writer ∧ ∃ j y, a.fd hr = ⟨j, 0⟩ ∧ (∀ d ∈ ds, d.file j = y) ∧ hb = some y) :
    Obs (· ∈ ds) (Puts det er L out hdr complete) (fun _ _ s' => ∃ q, s' = .body o [] o 0 q ∧ Opening C req.rawKey hb x q) (Steps.decryptExecute C req) a (.opening E) := by
  unfold Steps.decryptExecute Steps.getHeader
  cases hhr : req.headerReader with
  | none =>
    rw [hhr] at hh
    subst hh
    refine Obs.bind ?_ (Obs.mapErr (obs_deserialize (shift_body hd hE hE') still_body hx hrd))
    rintro ⟨h, aad⟩ w s' ⟨rfl, f1, n1, hi, e1⟩
    refine (obs_decryptRest hC hi hn hx (n1 hsh) e1 ((f1 _ (Ne.symm hn)).trans hwr)).mono ?_
    rintro _ w2 s' ⟨q, mk, rfl, hr, hb⟩
    exact ⟨q, rfl, h, aad, mk, hi, hr, hb⟩
  | some hr =>
    rw [hhr] at hh
    obtain ⟨k1, k2, j, y, hfd, hy, rfl⟩ := hh
    refine Obs.bind (Q := fun (r : Header × Bytes) w s' => s' = Sealing.body o [] o 0 [] ∧ NoShort w.sched ∧ w.fd req.writer = ⟨o, 0⟩ ∧ IsHeader y r.1 r.2 ∧ ∃ pos, w.fd req.reader = ⟨i, pos⟩ ∧ x.drop pos = detachedBody (headerSize r.1.headerType.version) x) ?_
      (Obs.bind ?_ (Obs.mapErr (obs_deserialize (shift_body hd hE hE') still_body hy hfd)))
    · rintro ⟨h, aad⟩ w s' ⟨rfl, n1, e1, hi, pos, e2, hp⟩
      refine (obs_decryptRest hC hi hn hx n1 e2 e1).mono ?_
      rintro _ w2 s' ⟨q, mk, rfl, hr, hb⟩
      exact ⟨q, rfl, h, aad, mk, hi, hr, by rw [← hp]; exact hb⟩
    · rintro ⟨h, aad⟩ w s' ⟨rfl, f1, n1, hi, -⟩
      have hr1 := (f1 _ (Ne.symm k1)).trans hrd
      have hw1 := (f1 _ (Ne.symm k2)).trans hwr
      have n1 := n1 hsh
      have hsz : h.getSize = headerSize h.headerType.version := size_eq _
      simp only [hsz]
      refine Obs.bind ?_ (Obs.atomErr (obs_on (h := req.reader) (P := fun b w => b = x.take (headerSize h.headerType.version) ∧ w.fd req.reader = ⟨i, b.length⟩) (.readUpTo _ (by simp)) (.readUpTo _ _) (still_shift still_body) fun d hd b w2 e => ?_))
      case refine_2 =>
        rcases readUpTo_spec req.reader (headerSize h.headerType.version) (w.on d) with ⟨s', e'⟩ | ⟨k, s', -, e'⟩ <;> rw [e'] at e <;> cases e
        have hrest : (w.on d).rest req.reader = x := rest_of hr1 (hx d hd)
        rw [hrest]
        refine ⟨rfl, ?_⟩
        show ((w.on d).adv req.reader _).fd req.reader = _
        rw [World.adv_fd_same]
        show Fd.mk (w.fd req.reader).ino ((w.fd req.reader).pos + _) = _
        rw [hr1, Nat.zero_add]
      rintro got w2 s' ⟨rfl, f2, n2, rfl, e2⟩
      have hw2 := (f2 _ (Ne.symm hn)).trans hw1
      have hz : ((x.take (headerSize h.headerType.version)) ++ zeros (headerSize h.headerType.version - (x.take (headerSize h.headerType.version)).length)).all (· == 0) = true ↔ ∀ b ∈ x.take (headerSize h.headerType.version), b = 0 := by
        rw [all_zero_iff]
        constructor
        · intro h b hb; exact h b (List.mem_append_left _ hb)
        · intro h b hb
          rcases List.mem_append.1 hb with hb | hb
          · exact h b hb
          · exact List.eq_of_mem_replicate hb
      split
      · next hne =>
        refine Obs.bind ?_ (Obs.atomErr (obs_rewind still_body))
        rintro _ w3 s' ⟨rfl, e3, f3, n3⟩
        refine .pure ⟨rfl, n3 (n2 n1), (f3 _ (Ne.symm hn)).trans hw2, hi, 0, ?_, ?_⟩
        · rw [e3, e2]
        · rw [List.drop_zero]
          unfold detachedBody
          rw [if_neg fun hall => ?_]
          rw [hz.2 hall] at hne
          cases hne
      · next hne =>
        refine .pure ⟨rfl, n2 n1, hw2, hi, _, e2, ?_⟩
        unfold detachedBody
        rw [if_pos (hz.1 (by simpa using hne)), List.length_take]
        simp only
        by_cases hlen : headerSize h.headerType.version ≤ x.length
        · rw [Nat.min_eq_left hlen]
        · rw [List.drop_of_length_le (by omega), List.drop_of_length_le (by omega)]

end

/-! ## The command -/

section
variable {ds : List Disk} {a : World} {i : Nat} {x : Bytes} {er : Prop} {complete : Bytes → Prop}

theorem obs_readHeader {G : S → Disk → Disk → S → Prop} {D : Disk → Prop} {s : S} (sys : Sys σ) (header : Option (List Char)) (hs : Still G s) :
    Obs D G (fun e w s' => s' = s ∧ Kept' a w ∧ (header = none → e = none) ∧ ∀ f, e = some f → ∀ hr, f.stream = .ok hr → a.nextFd ≤ hr ∧ hr < w.nextFd ∧ (w.fd hr).pos = 0 ∧
      ∃ name d q, header = some name ∧ D d ∧ (a.on d).resolve (toPath sys.cwd name) = .ok q ∧ lookDisk d q = some (.file (w.fd hr).ino)) (Steps.readHeader sys header) a s := by
  cases header with
  | none => exact .pure ⟨rfl, .refl a, fun _ => rfl, fun _ h => nomatch h⟩
  | some path =>
    unfold Steps.readHeader Steps.readInput Steps.readFile
    refine Obs.bind (Q := fun e w s' => s' = s ∧ Kept' a w ∧ ∀ h, e.stream = .ok h → a.nextFd ≤ h ∧ h < w.nextFd ∧ (w.fd h).pos = 0 ∧ ∃ d q, D d ∧ (a.on d).resolve (toPath sys.cwd path) = .ok q ∧ lookDisk d q = some (.file (w.fd h).ino)) ?_
      (Obs.mapErr (Obs.bind ?_ (obs_same (fun _ => rfl) hs)))
    · rintro e w s' ⟨rfl, k, h⟩
      refine .pure ⟨rfl, k, fun h => (nomatch h), fun f hf hr hs => ?_⟩
      cases hf
      obtain ⟨h1, h2, h3, d, q, h4⟩ := h hr hs
      exact ⟨h1, h2, h3, path, d, q, rfl, h4⟩
    · rintro b w s' ⟨rfl, hk⟩
      cases b with
      | true => exact .pure ⟨rfl, hk, fun _ h => nomatch h⟩
      | false =>
        refine Obs.bind ?_ (Obs.atomErr (obs_openFile _ hs))
        rintro h w2 s' ⟨rfl, hk2, h0, h1, h2, d, q, hd, hq, hl⟩
        refine .pure ⟨rfl, hk.trans hk2, fun y hy => ?_⟩
        cases hy
        exact ⟨Nat.le_trans hk.fds h0, h1, h2, d, q, hd, (World.resolve_congr (w := a.on d) (w' := w.on d) rfl _).symm.trans hq, hl⟩

/-- What the command can make of the content `x` of its input. -/
def Reveals (sys : Sys σ) (a : World) (ds : List Disk) (params : CryptoParams) (x y : Bytes) : Prop :=
  ∃ pw hb, MaySupply params.key a ds pw ∧ Opening sys.C pw hb x y ∧
    ∀ b, hb = some b → ∃ name d q j, params.header = some name ∧ d ∈ ds ∧ (a.on d).resolve (toPath sys.cwd name) = .ok q ∧ lookDisk d q = some (.file j) ∧ b = d.file j

theorem obs_decryptMode {sys : Sys σ} {input output : List Char} {params : CryptoParams} {det : Prop} (hC : sys.C.Lawful) (hsh : NoShort a.sched) (hdet : ¬ det)
    (hnamed : ∀ d ∈ ds, ∀ p n, (a.on d).resolve (toPath sys.cwd input) = .ok p → lookDisk d p = some n → n = .file i) (hx : ∀ d ∈ ds, d.file i = x)
    (hhdr : ∀ name ∈ params.header.toList, ∀ d ∈ ds, ∀ p j, (a.on d).resolve (toPath sys.cwd name) = .ok p → lookDisk d p = some (.file j) → ∀ d' ∈ ds, d'.file j = d.file j) :
    Obs (· ∈ ds) (Puts det er (Leads a sys.cwd) output output complete) (fun _ _ s => s.Complete (Reveals sys a ds params x)) (Steps.decryptMode sys input output { params with erase := .ignoreFile }) a (.opening []) := by
  unfold Steps.decryptMode
  split
  · exact .fail
  · refine Obs.bind ?_ (obs_consent _ _ _ still_opening)
    rintro _ w1 s' ⟨rfl, k1⟩
    refine Obs.bind ?_ (obs_readInput _ still_opening)
    rintro inputFile w2 s' ⟨rfl, k2, hin⟩
    refine Obs.bind ?_ (obs_readHeader sys _ still_opening)
    rintro headerFile w3 s' ⟨rfl, k3, hnone, hhd⟩
    refine Obs.bind ?_ (obs_getSecret _ _ _ _ still_opening)
    rintro pw w4 s' ⟨rfl, k4, hpw⟩
    have hpw := supply_mono ((k1.toKept.trans k2.toKept).trans k3.toKept) hpw
    refine Obs.bind ?_ (obs_openOutput _ (name := output) (.inl rfl) fun d d' q i hq hl => ⟨q, (World.resolve_congr (w := a.on d) (w' := w4.on d) rfl _).symm.trans hq, hl⟩)
    rintro outputFile w5 s' ⟨k5, wh, hwh, hle, hlt, hp0, rfl⟩
    cases hst : inputFile.stream with
    | err e =>
      unfold Steps.decryptBody Steps.streamOf
      rw [hst]
      exact Obs.bind (Q := fun _ _ _ => False) (fun _ _ _ h => h.elim) (Obs.lift fun y hy => by cases hy)
    | abort e =>
      unfold Steps.decryptBody Steps.streamOf
      rw [hst]
      exact Obs.bind (Q := fun _ _ _ => False) (fun _ _ _ h => h.elim) (Obs.lift fun y hy => by cases hy)
    | ok rh =>
      obtain ⟨g1, g2, d, q, hd, hq, hl⟩ := hin rh hst
      have l3 := k3.fds
      have l4 := k4.fds
      have hrh : w5.fd rh = ⟨i, 0⟩ := by
        rw [k5.fd rh (by omega), k4.fd rh (by omega), k3.fd rh g1]
        have := hnamed d hd q _ ((World.resolve_congr (w := a.on d) (w' := w1.on d) rfl _).symm.trans hq) hl
        cases e : w2.fd rh
        rw [e] at g2 this
        cases this
        cases g2
        rfl
      have hwr : w5.fd wh = ⟨(w5.fd wh).ino, 0⟩ := by
        cases e : w5.fd wh
        rw [e] at hp0
        cases hp0
        rfl
      -- the header
      have hh : ∃ hb : Option Bytes, (match optStream headerFile with | none => hb = none | some hr => hr ≠ rh ∧ hr ≠ wh ∧ ∃ j y, w5.fd hr = ⟨j, 0⟩ ∧ (∀ d ∈ ds, d.file j = y) ∧ hb = some y) ∧
          ∀ b, hb = some b → ∃ name d q j, params.header = some name ∧ d ∈ ds ∧ (a.on d).resolve (toPath sys.cwd name) = .ok q ∧ lookDisk d q = some (.file j) ∧ b = d.file j := by
        cases ho : optStream headerFile with
        | none => exact ⟨none, rfl, fun _ h => nomatch h⟩
        | some hr =>
          cases headerFile with
          | none => cases ho
          | some f =>
            cases f with
            | dir p => cases ho
            | file p h =>
              cases ho
              obtain ⟨m1, m2, m3, name, d, q, m4, m5, m6, m7⟩ := hhd _ rfl _ rfl
              have m6 := (World.resolve_congr (w := a.on d) (w' := w2.on d) rfl _).symm.trans m6
              refine ⟨some (d.file (w3.fd hr).ino), ⟨by omega, by omega, (w3.fd hr).ino, _, ?_, fun d' hd' => hhdr name (by rw [show params.header = _ from m4]; exact List.mem_singleton.2 rfl) d m5 q _ m6 m7 d' hd', rfl⟩, fun b hb => ?_⟩
              · rw [k5.fd hr (by omega), k4.fd hr (by omega), ← m3]
              · cases hb
                exact ⟨name, d, q, _, m4, m5, m6, m7, rfl⟩
      obtain ⟨hb, hh, hfrom⟩ := hh
      unfold Steps.decryptBody Steps.streamOf
      rw [hst, hwh]
      refine Obs.bind (Q := fun _ _ s' => ∃ o q, s' = Sealing.body o [] o 0 q ∧ Reveals sys a ds params x q) ?_ (Obs.lift fun r hr => Obs.lift fun r' hr' => ?_)
      · rintro _ w6 s' ⟨o, q, rfl, ho⟩
        refine Obs.bind ?_ (obs_hashIf sys _ _ still_body)
        rintro _ w7 s' rfl
        exact .pure ho
      · cases hr
        cases hr'
        refine Obs.bind ?_ (Obs.mapErr (obs_decryptExecute (o := (w5.fd wh).ino) (hb := hb) hC hdet (List.mem_singleton.2 rfl) (List.mem_singleton.2 rfl) (by simp only; omega) hx (k5.short (k4.short (k3.short (k2.short (k1.short hsh))))) hrh hwr hh))
        rintro _ w6 s' ⟨q, rfl, ho⟩
        unfold Steps.flushFile
        refine Obs.mapErr (Obs.lift fun z _ => ?_)
        exact (Obs.atomErr (obs_within (R := []) (.flush _) (.flush _) still_body)).mono fun _ _ s' hz => ⟨_, q, hz.1, pw, hb, hpw, ho, hfrom⟩

end

theorem decryptMode_split (s : Sys σ) (input output : List Char) (params : CryptoParams) :
    Steps.decryptMode s input output params =
      (Steps.decryptMode s input output { params with erase := .ignoreFile } >>= fun _ => Steps.eraseIf s params.erase params.force input) := by
  unfold Steps.decryptMode Steps.decryptBody
  split
  · rfl
  · simp only [thr_assoc]
    rfl

/-- Decryption. -/
def decryptWork {cs : List (Started σ)} {k : Nat} {M : List (Disk × Disk)} {i : Nat} {x : Bytes} {c : Started σ} {input output : List Char} {params : CryptoParams} {P : Disk → Prop} {q : Path} (hc : c.Decrypts M i input output params)
    (hu : c.Undisturbed cs k M output none) (hP : ∀ d, c.HasOpened M output params x d → P d) : Work cs M q i x P k c :=
  sealWork (header := none) (complete := Reveals c.s c.self (before M q i x) params x) (first := Steps.decryptMode c.s input output { params with erase := .ignoreFile }) (by rw [hc.cmd]; exact decryptMode_split ..)
    (by
      have hsub : ∀ d ∈ before M q i x, ∃ st ∈ M, st.1 = d := fun d hd => (mem_before.1 hd).1
      refine obs_decryptMode (i := i) hc.lawful hc.noShort (fun h => h rfl) (fun d hd p n hp hl => ?_) (fun d hd => (mem_before.1 hd).2.2.2) fun name hn d hd p j hp hl d' hd' => ?_
      · obtain ⟨st, hst, rfl⟩ := hsub d hd
        exact hc.named st hst p n hp hl
      · obtain ⟨st, hst, rfl⟩ := hsub d hd
        obtain ⟨st', hst', rfl⟩ := hsub d' hd'
        exact hc.header name hn st hst p j hp hl st' hst')
    (fun name hn st hst p => by
      cases List.mem_singleton.1 hn
      exact hc.apart st hst p)
    (fun _ h => (nomatch h))
    (fun he name hn => by
      cases List.mem_singleton.1 hn
      exact hc.own he)
    hu <| by
    rintro d oh hb o start b hl ⟨pw, hdr, hsup, hop, hfrom⟩
    refine hP d ?_
    have hsub : ∀ d ∈ before M q i x, d ∈ M.map (·.1) := fun d hd => List.mem_map.2 (mem_before.1 hd).1
    obtain ⟨-, -, st, hst, p, h1, h2⟩ := hl
    refine ⟨st, hst, p, o, pw, h1, h2.1, supply_more hsub hsup, ?_⟩
    rw [h2.2]
    cases hdr with
    | none =>
      have hop := FileOf.decrypts hc.lawful (show FileOf c.s.C pw x (hb ++ b) from hop)
      cases params.header with
      | none => exact hop
      | some name => exact .inl hop
    | some h =>
      obtain ⟨name, d', p', j, e1, e2, e3, e4, rfl⟩ := hfrom h rfl
      have hop := DetachedFileOf.decrypts hc.lawful (show DetachedFileOf c.s.C pw (d'.file j) x (hb ++ b) from hop)
      obtain ⟨st', hst', rfl⟩ := List.mem_map.1 (hsub d' e2)
      rw [e1]
      exact .inr ⟨st', hst', p', j, e3, e4, hop⟩

end Volaris.Dist
