import Verif.Spec.Forgery
import Verif.Proofs.EndToEnd
/-!
# Helper lemmas: whose content a decrypted file is
-/
namespace Volaris
open Volaris.Spec

theorem typeCode_inj : ∀ {v v' : HeaderVersion} {a a' : Algorithm} {m m' : Mode},
    versionCode v ++ algorithmCode a ++ modeCode m = versionCode v' ++ algorithmCode a' ++ modeCode m' → v = v' ∧ a = a' ∧ m = m' := by
  intro v v' a a' m m' h
  cases v <;> cases v' <;> cases a <;> cases a' <;> cases m <;> cases m' <;> first | exact ⟨rfl, rfl, rfl⟩ | (exact absurd h (by decide))

theorem slice_of_take {bs : Bytes} {i n k : Nat} (h : i + n ≤ k) : slice (bs.take k) i n = slice bs i n := by
  simp only [slice, List.drop_take, List.take_take]
  congr 1
  omega

/-- Where the associated data comes from: a beginning of the header that contains the type and the nonce. -/
theorem aad_type {bs : Bytes} {h : Header} {aad : Bytes} (hi : IsHeader bs h aad)
    (hv : h.headerType.version ≠ .v1 ∧ h.headerType.version ≠ .v2) :
    slice aad 0 6 = versionCode h.headerType.version ++ algorithmCode h.headerType.algorithm ++ modeCode h.headerType.mode ∧
    h.nonce = slice aad (match h.headerType.version with | .v3 => 38 | .v4 => 22 | _ => 6)
      (nonceLength h.headerType.algorithm h.headerType.mode) := by
  have h1 := hi.tag
  have h2 := hi.fields
  have h3 := hi.aad
  have h4 := hi.size
  have hn : nonceLength h.headerType.algorithm h.headerType.mode ≤ 24 := by
    cases h.headerType.algorithm <;> cases h.headerType.mode <;> decide
  cases hver : h.headerType.version with
  | v1 => exact absurd hver hv.1
  | v2 => exact absurd hver hv.2
  | v3 =>
    simp only [hver] at h1 h2 h3 h4 ⊢
    subst h3
    have e : ∀ i n, i + n ≤ 64 → slice (slice bs 0 64) i n = slice bs i n := fun i n hle => slice_of_take hle
    exact ⟨by rw [e _ _ (by omega)]; exact h1, by rw [e _ _ (by omega)]; exact h2.2.2⟩
  | v4 =>
    simp only [hver] at h1 h2 h3 h4 ⊢
    subst h3
    simp only [headerSize] at h4
    have e : ∀ i n tail, i + n ≤ 48 → slice (slice bs 0 48 ++ tail) i n = slice bs i n := by
      intro i n tail hle
      have hl : (bs.take 48).length = 48 := by rw [List.length_take]; omega
      rw [show slice bs 0 48 = bs.take 48 from rfl, ← slice_of_take (bs := bs.take 48 ++ tail) hle, ← slice_of_take (bs := bs) hle]
      congr 1
      rw [List.take_append_of_le_length (by omega), List.take_take, Nat.min_self]
    exact ⟨by rw [e _ _ _ (by omega)]; exact h1, by rw [e _ _ _ (by omega)]; exact h2.2.2⟩
  | v5 =>
    simp only [hver] at h1 h2 h3 h4 ⊢
    subst h3
    have e : ∀ i n, i + n ≤ 32 → slice (slice bs 0 32) i n = slice bs i n := fun i n hle => slice_of_take hle
    exact ⟨by rw [e _ _ (by omega)]; exact h1, by rw [e _ _ (by omega)]; exact h2.2.2⟩

/-- The associated data determines the type and the nonce of the header. -/
theorem same_type {bs bs' : Bytes} {h h' : Header} {aad : Bytes} (hi : IsHeader bs h aad)
    (hv : h.headerType.version ≠ .v1 ∧ h.headerType.version ≠ .v2) (hi' : IsHeader bs' h' aad) :
    h.headerType = h'.headerType ∧ h.nonce = h'.nonce := by
  have ⟨ht, hn⟩ := aad_type hi hv
  have hv' : h'.headerType.version ≠ .v1 ∧ h'.headerType.version ≠ .v2 := by
    have hl := congrArg List.length ht
    have h3 := hi'.aad
    refine ⟨fun hx => ?_, fun hx => ?_⟩ <;>
    · rw [hx] at h3
      simp only at h3
      rw [h3] at hl
      revert hl
      cases h.headerType.version <;> cases h.headerType.algorithm <;> cases h.headerType.mode <;> decide
  have ⟨ht', hn'⟩ := aad_type hi' hv'
  have ⟨e1, e2, e3⟩ := typeCode_inj (ht.symm.trans ht')
  have et : h.headerType = h'.headerType := by
    cases hx : h.headerType; cases hy : h'.headerType
    simp only [hx, hy] at e1 e2 e3
    rw [e1, e2, e3]
  exact ⟨et, by rw [hn, hn', et]⟩

section
variable {C : Crypto} {made : Made → Prop} {bs body : Bytes} {hd : Header} {aad mk : Bytes}

/-- In stream mode everything that opens belongs to the file the first block belongs to. -/
theorem unforged_stream (hC : C.Lawful) (hm : ProperlyMade C made) (hi : IsHeader bs hd aad)
    (hv : hd.headerType.version ≠ .v1 ∧ hd.headerType.version ≠ .v2) (hmode : hd.headerType.mode = .streamMode)
    (hu : Unforged C made hd aad mk body) {f : Made} (hf : made f) (hk : f.key = mk) (ha : f.aad = aad) :
    NoForgery C hd.headerType.algorithm mk hd.nonce aad f.plain body := by
  intro i c q hle hpre hlen hdec
  obtain ⟨g, hg, _, hgk, hga, m, henc, hgm⟩ := hu _ c q (by
    simp only [Presented, hmode]; exact ⟨i, hle, hpre, hlen, rfl⟩) hdec
  simp only at hgk hga henc hgm
  obtain ⟨bs', hi'⟩ := hm.header g hg
  rw [← hga] at hi'
  obtain ⟨ht, hn⟩ := same_type hi hv hi'
  rw [← ht, hmode] at hgm
  obtain ⟨j, last, hgen, hnon⟩ := hgm
  have hp : g.plain = f.plain := hm.fresh g f hg hf (by rw [hk, ← hgk]) (by rw [ha, ← hga])
  rw [hp] at hgen
  have hj : j ≤ C.ctrMax := by
    have := hm.blocks f hf (by
      obtain ⟨bs2, hi2⟩ := hm.header f hf
      rw [ha] at hi2
      rw [← (same_type hi hv hi2).1]; exact hmode)
    rcases hgen.2 with ⟨_, h⟩ | ⟨_, h⟩ <;> omega
  have hlt := hC.ctr_lt
  rw [← streamNonce_eq, ← streamNonce_eq] at hnon
  obtain ⟨_, rfl, rfl⟩ := streamNonce_inj (by rw [hn]) (by omega) (by omega) hnon
  have hq : q = m := by
    have := hC.dec_enc _ _ _ _ _ _ henc
    rw [hdec] at this
    exact Option.some.inj this
  rw [hq]
  exact hgen

/-- What opens is a beginning of the plaintext of one of the files. -/
theorem fragment_genuine (hC : C.Lawful) (hm : ProperlyMade C made) (hi : IsHeader bs hd aad)
    (hv : hd.headerType.version ≠ .v1 ∧ hd.headerType.version ≠ .v2) (hu : Unforged C made hd aad mk body) {out : Bytes}
    (hne : out ≠ []) (h : Fragment C hd mk aad body out) : ∃ f, made f ∧ out <+: f.plain := by
  cases hmode : hd.headerType.mode with
  | memoryMode =>
    simp only [Fragment, hmode] at h
    obtain ⟨p, hdec, hpre⟩ := h
    obtain ⟨f, hf, _, hfk, hfa, m, henc, hfm⟩ := hu hd.nonce body _ (by simp only [Presented, hmode]; exact ⟨trivial, trivial⟩) hdec
    simp only at hfk hfa henc hfm
    obtain ⟨bs', hi'⟩ := hm.header f hf
    rw [← hfa] at hi'
    rw [← (same_type hi hv hi').1, hmode] at hfm
    have := hC.dec_enc _ _ _ _ _ _ henc
    rw [hdec, hfm.2] at this
    exact ⟨f, hf, by rw [← Option.some.inj this]; exact hpre⟩
  | streamMode =>
    simp only [Fragment, hmode] at h
    obtain ⟨p, c, hpre, hop, hout⟩ := h
    have hp : p ≠ [] := by
      rintro rfl
      exact hne (List.prefix_nil.1 hout)
    obtain ⟨c1, q, h1, h2, h3⟩ := hop.first hp
    obtain ⟨f, hf, _, hfk, hfa, _⟩ := hu _ c1 q (by
      simp only [Presented, hmode]; exact ⟨0, Nat.zero_le _, by simpa using h1.trans hpre, h2, rfl⟩) h3
    have hn := unforged_stream hC hm hi hv hmode hu hf hfk.symm hfa.symm
    have := hop.genuine hn (by simpa using hpre)
    exact ⟨f, hf, hout.trans (by simpa using this)⟩

/-- A complete body is the plaintext of one of the files. -/
theorem body_genuine (hC : C.Lawful) (hm : ProperlyMade C made) (hi : IsHeader bs hd aad)
    (hv : hd.headerType.version ≠ .v1 ∧ hd.headerType.version ≠ .v2) (hu : Unforged C made hd aad mk body) {p : Bytes} {m : Nat}
    (hmem : hd.headerType.mode = .memoryMode → body.length ≤ m)
    (h : BodyOf C hd mk aad p (body.take m)) : ∃ f, made f ∧ p = f.plain := by
  cases hmode : hd.headerType.mode with
  | memoryMode =>
    rw [List.take_of_length_le (hmem hmode)] at h
    simp only [BodyOf, hmode] at h
    have hdec := hC.dec_enc _ _ _ _ _ _ h
    obtain ⟨f, hf, _, hfk, hfa, m, henc, hfm⟩ := hu hd.nonce body _ (by simp only [Presented, hmode]; exact ⟨trivial, trivial⟩) hdec
    simp only at hfk hfa henc hfm
    obtain ⟨bs', hi'⟩ := hm.header f hf
    rw [← hfa] at hi'
    rw [← (same_type hi hv hi').1, hmode] at hfm
    have := hC.dec_enc _ _ _ _ _ _ henc
    rw [hdec, hfm.2] at this
    exact ⟨f, hf, Option.some.inj this⟩
  | streamMode =>
    have hs := (bodyOf_stream hmode).1 h
    obtain ⟨c1, q, h1, h2, h3⟩ := hs.first hC
    obtain ⟨f, hf, _, hfk, hfa, _⟩ := hu _ c1 q (by
      simp only [Presented, hmode]
      exact ⟨0, Nat.zero_le _, by simpa using h1.trans (List.take_prefix _ _), h2, rfl⟩) h3
    have hn := unforged_stream hC hm hi hv hmode hu hf hfk.symm hfa.symm
    have := hs.genuine hC hn (by simpa using List.take_prefix _ _)
    exact ⟨f, hf, by simpa using this⟩

end

theorem Spec.FileOf.genuine {C : Crypto} (hC : C.Lawful) {made : Made → Prop} (hm : ProperlyMade C made) {pw content p : Bytes}
    (ha : Authenticated content) (hu : UnforgedFile C made pw content) (h : FileOf C pw content p) : ∃ f, made f ∧ p = f.plain := by
  obtain ⟨hd, aad, mk, hi, hr, hb⟩ := h
  refine body_genuine hC hm hi (ha _ _ hi) (hu _ _ _ hi hr) (m := (content.drop (headerSize hd.headerType.version)).length) (fun _ => Nat.le_refl _) ?_
  rw [List.take_length]; exact hb

theorem Spec.DetachedFileOf.genuine {C : Crypto} (hC : C.Lawful) {made : Made → Prop} (hm : ProperlyMade C made) {pw hdr content p : Bytes}
    (ha : Authenticated hdr) (hu : UnforgedDetached C made pw hdr content) (h : DetachedFileOf C pw hdr content p) : ∃ f, made f ∧ p = f.plain := by
  obtain ⟨hd, aad, mk, hi, hr, hb⟩ := h
  refine body_genuine hC hm hi (ha _ _ hi) (hu _ _ _ hi hr)
    (m := (detachedBody (headerSize hd.headerType.version) content).length) (fun _ => Nat.le_refl _) ?_
  rw [List.take_length]; exact hb

theorem wrote_of_setPos {rh wh : Nat} (hne : rh ≠ wh) {w w' : World} {n : Nat} {out : Bytes}
    (h : w'.core = ((w.setPos rh n).put wh out).core) : Wrote wh w w' out := by
  have hfd : (w.setPos rh n).fd wh = w.fd wh := World.setPos_fd_ne _ _ (Ne.symm hne)
  constructor
  · rw [World.file_of_core h, ← hfd, World.put_file_same]; simp
  · rw [World.fd_of_core h, World.put_fd_same, hfd]

/-- Decryption of an unforged file, embedded header. -/
theorem decrypt_faithful {C : Crypto} (hC : C.Lawful) {made : Made → Prop} (hm : ProperlyMade C made) {pw content : Bytes}
    (ha : Authenticated content) (hu : UnforgedFile C made pw content) {req : Decrypt.Request} {v : World} (hq : Asks req v pw content) :
    Faithful made req.writer v (Decrypt.execute C req v) := by
  have hc := hq.content
  have hk := hq.key
  subst hc hk
  rcases decrypt_embedded_spec hC req hq.embedded hq.handles v hq.files with
    ⟨hd, aad, mk, m, p, w', he, hi, hr, _, hno, hb, hcore, _⟩ | ⟨e, p, out, w', he, hcore, hout⟩
  · rw [he]
    obtain ⟨f, hf, rfl⟩ := body_genuine hC hm hi (ha _ _ hi) (hu _ _ _ hi hr) (fun h => by rw [hno (.inr h)]; exact Nat.le_refl _) hb
    exact .inl ⟨rfl, f, hf, (wrote_of_core hq.handles hcore).1⟩
  · rw [he]
    refine .inr ⟨e, rfl, ?_⟩
    by_cases ho : out = []
    · exact .inl ((put_nil_file hcore ho).trans rfl)
    · obtain ⟨hd, aad, mk, n, c, q, hi, hr, _, _, hfr⟩ := hout ho
      obtain ⟨f, hf, hpre⟩ := fragment_genuine hC hm hi (ha _ _ hi) (hu _ _ _ hi hr) ho hfr
      exact .inr ⟨f, out, hf, hpre, wrote_of_setPos hq.handles hcore⟩

/-- The same with a separate header. -/
theorem decrypt_faithful_detached {C : Crypto} (hC : C.Lawful) {made : Made → Prop} (hm : ProperlyMade C made) {pw hdr content : Bytes}
    (ha : Authenticated hdr) (hu : UnforgedDetached C made pw hdr content) {req : Decrypt.Request} {v : World} {hr : Nat}
    (hq : AsksDetached req v pw hdr content hr) : Faithful made req.writer v (Decrypt.execute C req v) := by
  have hc := hq.content
  have hk := hq.key
  have hx := hq.hdr
  subst hc hk hx
  rcases decrypt_detached_spec hC req hq.detached hq.header.1 hq.handles v hq.start hq.files with
    ⟨hd, aad, mk, m, k, n, p, w', he, hi, hr, _, hno, hb, hcore, _⟩ | ⟨e, k, n, out, w', he, hcore, hout⟩
  · rw [he]
    obtain ⟨f, hf, rfl⟩ := body_genuine hC hm hi (ha _ _ hi) (hu _ _ _ hi hr) (fun h => by rw [hno (.inr h)]; exact Nat.le_refl _) hb
    exact .inl ⟨rfl, f, hf, (wrote_of_detached hq.handles hq.header.2 hcore).1⟩
  · rw [he]
    refine .inr ⟨e, rfl, ?_⟩
    by_cases ho : out = []
    · exact .inl ((put_nil_file hcore ho).trans rfl)
    · obtain ⟨hd, aad, mk, n, c, q, hi, hr, _, _, hfr⟩ := hout ho
      obtain ⟨f, hf, hpre⟩ := fragment_genuine hC hm hi (ha _ _ hi) (hu _ _ _ hi hr) ho hfr
      exact .inr ⟨f, out, hf, hpre, (wrote_of_detached hq.handles hq.header.2 hcore).1⟩

/-! ### Versions 1 and 2 -/

theorem Sealed.block {C : Crypto} (hC : C.Lawful) {a : Algorithm} {key pre aad : Bytes} {j : Nat} {p c : Bytes}
    (h : Sealed C a key pre aad j p c) : ∀ i, i < p.length / blockLen →
      C.enc a key (blockNonce pre (j + i) false) aad (chunk p i) = some (slice c (i * (blockLen + tagLen)) (blockLen + tagLen)) := by
  induction h with
  | @last j p c hi hp hc =>
    intro i hlt
    rw [Nat.div_eq_of_lt hp] at hlt
    omega
  | @next j b p c cs hi hb hc ht ih =>
    intro i hlt
    have hl : c.length = blockLen + tagLen := by rw [hC.enc_len _ _ _ _ _ _ hc, hb]; rfl
    cases i with
    | zero =>
      rw [← streamNonce_eq]
      simp only [chunk, slice, Nat.zero_mul, List.drop_zero, Nat.add_zero]
      rw [← hb, List.take_left, hb, ← hl, List.take_left]
      exact hc
    | succ i =>
      have := ih i (by
        rw [List.length_append, hb, Nat.add_comm blockLen, Nat.add_div_right _ blockLen_pos] at hlt
        omega)
      rw [show j + (i + 1) = j + 1 + i by omega]
      have e1 : chunk (b ++ p) (i + 1) = chunk p i := by
        simp only [chunk]
        rw [Nat.succ_mul, Nat.add_comm, ← List.drop_drop]
        conv => lhs; arg 2; arg 2; rw [← hb, List.drop_left]
      have e2 : slice (c ++ cs) ((i + 1) * (blockLen + tagLen)) (blockLen + tagLen) = slice cs (i * (blockLen + tagLen)) (blockLen + tagLen) := by
        generalize blockLen + tagLen = L at hl ⊢
        simp only [slice]
        rw [Nat.succ_mul, Nat.add_comm, ← List.drop_drop]
        conv => lhs; arg 2; arg 2; rw [← hl, List.drop_left]
      rw [e1, e2]
      exact this

theorem slice_left {a b c : Bytes} {i n : Nat} (h1 : a.length = i) (h2 : b.length = n) : slice (a ++ b ++ c) i n = b := by
  simp only [slice]
  rw [List.append_assoc, ← h1, List.drop_left, ← h2, List.take_left]

/-- The header of the cut-out block. -/
theorem cutOut_header {content : Bytes} {h : Header} {aad : Bytes} (hi : IsHeader content h aad)
    (hv : h.headerType.version = .v1 ∨ h.headerType.version = .v2) (hm : h.headerType.mode = .streamMode) (i : Nat) :
    IsHeader (cutOut h content i)
      { h with headerType := { h.headerType with mode := .memoryMode }, nonce := blockNonce h.nonce i false } [] ∧
    (cutOut h content i).drop 64 = slice content (64 + i * (blockLen + tagLen)) (blockLen + tagLen) := by
  have h1 := hi.tag
  have h2 := hi.fields
  have h4 := hi.size
  have hbn : ∀ pre, (blockNonce pre i false).length = pre.length + 4 := fun pre => by simp [blockNonce]
  have hsl : ∀ a n, a + n ≤ content.length → (slice content a n).length = n := fun a n hle => by
    simp only [slice, List.length_take, List.length_drop]; omega
  have hn : nonceLength h.headerType.algorithm .streamMode ≤ 20 := by cases h.headerType.algorithm <;> decide
  have hn' : nonceLength h.headerType.algorithm .memoryMode = nonceLength h.headerType.algorithm .streamMode + 4 := by
    cases h.headerType.algorithm <;> rfl
  have hsize : 64 ≤ content.length := by
    rcases hv with hv | hv <;> rw [hv] at h4 <;> exact h4
  have htag : content.take 4 = versionCode h.headerType.version ++ algorithmCode h.headerType.algorithm := by
    have := congrArg (List.take 4) h1
    simp only [slice, List.drop_zero, List.take_take] at this
    rw [show min 4 6 = 4 from rfl] at this
    rw [this, List.append_assoc, ← List.append_assoc]
    exact List.take_left' (by cases h.headerType.version <;> cases h.headerType.algorithm <;> rfl)
  have h4l : (content.take 4).length = 4 := by rw [List.length_take]; omega
  have hml : (modeCode .memoryMode).length = 2 := rfl
  generalize hN : nonceLength h.headerType.algorithm .streamMode = n at hn hn'
  have key : ∀ front, 22 ≤ front → front ≤ 38 → oldNonceAt h.headerType.version = front →
      (cutOut h content i).length = 64 + (slice content (64 + i * (blockLen + tagLen)) (blockLen + tagLen)).length ∧
      slice (cutOut h content i) 0 6 = content.take 4 ++ modeCode .memoryMode ∧
      slice (cutOut h content i) 6 16 = slice content 6 16 ∧
      slice (cutOut h content i) front (n + 4) = blockNonce (slice content front n) i false ∧
      (cutOut h content i).drop 64 = slice content (64 + i * (blockLen + tagLen)) (blockLen + tagLen) := by
    intro front hf1 hf2 hfr
    have e : cutOut h content i = content.take 4 ++ modeCode .memoryMode ++ slice content 6 (front - 6) ++
      blockNonce (slice content front n) i false ++ List.replicate (64 - front - n - 4) 0 ++
      slice content (64 + i * (blockLen + tagLen)) (blockLen + tagLen) := by
      simp only [cutOut, hN, hfr]
    rw [e]
    generalize slice content (64 + i * (blockLen + tagLen)) (blockLen + tagLen) = body
    have l3 : (slice content 6 (front - 6)).length = front - 6 := hsl _ _ (by omega)
    have l4 : (blockNonce (slice content front n) i false).length = n + 4 := by rw [hbn, hsl _ _ (by omega)]
    have l64 : (content.take 4 ++ modeCode .memoryMode ++ slice content 6 (front - 6) ++
      blockNonce (slice content front n) i false ++ List.replicate (64 - front - n - 4) 0).length = 64 := by
      simp only [List.length_append, h4l, hml, l3, l4, List.length_replicate]; omega
    refine ⟨by rw [List.length_append, l64], ?_, ?_, ?_, List.drop_left' l64⟩
    · have := slice_left (a := []) (b := content.take 4 ++ modeCode .memoryMode)
        (c := slice content 6 (front - 6) ++ blockNonce (slice content front n) i false ++ List.replicate (64 - front - n - 4) 0 ++ body)
        (i := 0) (n := 6) rfl (by rw [List.length_append, h4l, hml])
      simpa only [List.nil_append, List.append_assoc] using this
    · have hsp : slice content 6 (front - 6) = slice content 6 16 ++ slice content 22 (front - 22) := by
        simp only [slice]
        rw [show front - 6 = 16 + (front - 22) by omega, List.take_add, List.drop_drop]
      have := slice_left (a := content.take 4 ++ modeCode .memoryMode) (b := slice content 6 16)
        (c := slice content 22 (front - 22) ++ blockNonce (slice content front n) i false ++ List.replicate (64 - front - n - 4) 0 ++ body)
        (i := 6) (n := 16) (by rw [List.length_append, h4l, hml]) (hsl _ _ (by omega))
      rw [hsp]
      simpa only [List.append_assoc] using this
    · have := slice_left (a := content.take 4 ++ modeCode .memoryMode ++ slice content 6 (front - 6))
        (b := blockNonce (slice content front n) i false)
        (c := List.replicate (64 - front - n - 4) 0 ++ body)
        (i := front) (n := n + 4) (by simp only [List.length_append, h4l, hml, l3]; omega) l4
      simpa only [List.append_assoc] using this
  rcases hv with hv | hv
  · obtain ⟨k1, k2, k3, k4, k5⟩ := key 38 (by omega) (by omega) (by rw [hv]; rfl)
    simp only [hv, hm, hN] at h2
    refine ⟨⟨?_, ?_, ?_, ?_⟩, k5⟩
    · simp only [hv, headerSize]; omega
    · rw [k2, htag]
    · simp only [hv, k3, hn', k4]
      exact ⟨h2.1, h2.2.1, by rw [h2.2.2]⟩
    · simp only [hv]
  · obtain ⟨k1, k2, k3, k4, k5⟩ := key 22 (by omega) (by omega) (by rw [hv]; rfl)
    simp only [hv, hm, hN] at h2
    refine ⟨⟨?_, ?_, ?_, ?_⟩, k5⟩
    · simp only [hv, headerSize]; omega
    · rw [k2, htag]
    · simp only [hv, k3, hn', k4]
      exact ⟨h2.1, h2.2.1, by rw [h2.2.2]⟩
    · simp only [hv]

end Volaris
