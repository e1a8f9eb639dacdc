import Verif.Proofs.Keys
import Verif.Proofs.Sched
import Verif.Model.Tools.Decrypt
namespace Volaris
open Spec

/-! ### Inverting successful runs -/

theorem Prog.bind_eq_ok {ε α β : Type} {x : Prog ε α} {f : α → Prog ε β} {w w' : World} {b : β}
    (h : (x >>= f) w = (.ok b, w')) : ∃ a w1, x w = (.ok a, w1) ∧ f a w1 = (.ok b, w') := by
  rw [Prog.bind_run] at h
  rcases hx : x w with ⟨_ | _ | _, w1⟩ <;> rw [hx] at h
  · exact ⟨_, _, rfl, h⟩
  · simp at h
  · simp at h

theorem Prog.mapErr_eq_ok {ε ε' α : Type} {x : Prog ε α} {f : ε → ε'} {w w' : World} {a : α}
    (h : (x.mapErr f) w = (.ok a, w')) : x w = (.ok a, w') := by
  rw [Prog.mapErr_run] at h
  rcases hx : x w with ⟨_ | _ | _, w1⟩ <;> rw [hx] at h <;> simp at h ⊢
  exact h

theorem bodyOf_stream {C : Crypto} {hd : Header} {mk aad p body : Bytes} (hm : hd.headerType.mode = .streamMode) :
    BodyOf C hd mk aad p body ↔ Sealed C hd.headerType.algorithm mk hd.nonce aad 0 p body := by
  simp only [BodyOf, hm]
  constructor
  · rintro ⟨h1, h2⟩
    exact h2.sealed (by rw [← streamNonces_body]) (by omega)
  · intro h
    refine ⟨?_, ?_⟩
    · have := h.counter; omega
    · rw [← streamNonces_body]; exact h.blocks

theorem Opened.first {C : Crypto} {a : Algorithm} {key pre aad p c : Bytes} (h : Opened C a key pre aad 0 p c)
    (hp : p ≠ []) : ∃ c1 q, c1 <+: c ∧ c1.length ≤ blockLen + tagLen ∧
      C.dec a key (blockNonce pre 0 (decide (c1.length < blockLen + tagLen))) aad c1 = some q := by
  cases h with
  | nil => exact absurd rfl hp
  | last hi hl hd =>
    refine ⟨c, p, List.prefix_refl _, by omega, ?_⟩
    rw [← streamNonce_eq, decide_eq_true hl]; exact hd
  | next hi hl hd ht =>
    rename_i b p' c' cs'
    refine ⟨c', b, List.prefix_append _ _, by omega, ?_⟩
    rw [← streamNonce_eq, hl]; simpa using hd

theorem Sealed.first {C : Crypto} (hC : C.Lawful) {a : Algorithm} {key pre aad p c : Bytes}
    (h : Sealed C a key pre aad 0 p c) : ∃ c1 q, c1 <+: c ∧ c1.length ≤ blockLen + tagLen ∧
      C.dec a key (blockNonce pre 0 (decide (c1.length < blockLen + tagLen))) aad c1 = some q := by
  cases h with
  | last _ hl hd =>
    have hlen := hC.enc_len _ _ _ _ _ _ hd
    refine ⟨c, p, List.prefix_refl _, by rw [hlen]; simp only [tagLen]; omega, ?_⟩
    rw [← streamNonce_eq, decide_eq_true (by rw [hlen]; simp only [tagLen]; omega)]
    exact hC.dec_enc _ _ _ _ _ _ hd
  | next hi hl hd ht =>
    rename_i b p' c' cs'
    have hlen := hC.enc_len _ _ _ _ _ _ hd
    have hl' : c'.length = blockLen + tagLen := by rw [hlen, hl]; rfl
    refine ⟨c', b, List.prefix_append _ _, by omega, ?_⟩
    rw [← streamNonce_eq, hl']; simpa using hC.dec_enc _ _ _ _ _ _ hd

/-- `out` is what a decryption of `body` that did not get to its end can have written: a prefix of what opened. -/
def Fragment (C : Crypto) (hd : Header) (mk aad body out : Bytes) : Prop :=
  match hd.headerType.mode with
  | .memoryMode => ∃ p, C.dec hd.headerType.algorithm mk hd.nonce aad body = some p ∧ out <+: p
  | .streamMode => ∃ p c, c <+: body ∧ Opened C hd.headerType.algorithm mk hd.nonce aad 0 p c ∧ out <+: p

/-- The body of `decrypt::execute` under every schedule. -/
theorem decBody_spec {C : Crypto} (hC : C.Lawful) (req : Decrypt.Request) (hne : req.reader ≠ req.writer) {bs : Bytes}
    {hd : Header} {aad : Bytes} (hi : IsHeader bs hd aad) (w : World)
    (hino : (w.fd req.reader).ino ≠ (w.fd req.writer).ino) :
    (∃ mk m p w', Decrypt.body C req hd aad w = (.ok (), w') ∧ Recovers C req.rawKey hd mk ∧
      m ≤ (w.rest req.reader).length ∧ (NoShort w.sched ∨ hd.headerType.mode = .memoryMode → m = (w.rest req.reader).length) ∧
      BodyOf C hd mk aad p ((w.rest req.reader).take m) ∧
      w'.core = ((w.adv req.reader m).put req.writer p).core ∧
      ∃ n c q, FirstCall hd (w.rest req.reader) n c ∧ C.dec hd.headerType.algorithm mk n aad c = some q) ∨
    (∃ e m out w', Decrypt.body C req hd aad w = (.err e, w') ∧
      w'.core = ((w.adv req.reader m).put req.writer out).core ∧
      (out ≠ [] → ∃ mk n c q, Recovers C req.rawKey hd mk ∧ FirstCall hd (w.rest req.reader) n c ∧
        C.dec hd.headerType.algorithm mk n aad c = some q ∧ Fragment C hd mk aad (w.rest req.reader) out)) := by
  have hnl := (isHeader_sized hi).1
  have hput0 : ∀ (w' : World) (m : Nat), w'.core = (w.adv req.reader m).core →
      w'.core = ((w.adv req.reader m).put req.writer []).core := by
    intro w' m h; rw [World.put_nil_core]; exact h
  unfold Decrypt.body
  cases hm : hd.headerType.mode with
  | memoryMode =>
    rw [hm] at hnl
    rcases readUpTo_spec req.reader ((w.rest req.reader).length + 1) w with ⟨s', e1⟩ | ⟨k, s', _, e1⟩
    · rw [List.take_of_length_le (by omega)] at e1
      simp only
      rw [Prog.bind_ok (Prog.mapErr_ok (show readToEnd req.reader w = _ from e1))]
      rcases decryptMasterKey_cases hC req.rawKey hi with ⟨mk, hk, hr, hl⟩ | ⟨e, hk, _⟩
      · rw [Prog.bind_run]
        simp only [hk, Res.mapErr_ok, Prog.lift_run]
        rw [Prog.bind_run]
        simp only [Cipher.initialize, hl, if_true, Res.mapErr_ok, Prog.lift_run]
        rw [Prog.bind_run]
        simp only [Cipher.decrypt, hnl, getNonceLen_eq, ne_eq, not_true, if_false, Prog.lift_run]
        cases hdec : C.dec hd.headerType.algorithm mk hd.nonce aad (w.rest req.reader) with
        | none =>
          right
          refine ⟨_, (w.rest req.reader).length, [], _, rfl, hput0 _ _ rfl, by simp⟩
        | some p =>
          simp only [Res.ofOption_some, Res.mapErr_ok]
          rcases writeAll_spec req.writer p { w.adv req.reader (w.rest req.reader).length with sched := s' } with
            ⟨w2, e2, hc2⟩ | ⟨e, k, w2, _, e2, hc2⟩
          · left
            refine ⟨mk, (w.rest req.reader).length, p, w2, Prog.mapErr_ok e2, hr, Nat.le_refl _, fun _ => rfl, ?_, hc2,
              _, _, p, by simp [FirstCall, hm], hdec⟩
            rw [List.take_length]
            simp only [BodyOf, hm]
            exact hC.enc_dec _ _ _ _ _ _ hdec
          · right
            refine ⟨_, (w.rest req.reader).length, p.take k, w2, Prog.mapErr_err e2, hc2, ?_⟩
            intro _
            exact ⟨mk, _, _, p, hr, by simp [FirstCall, hm], hdec, by simp only [Fragment, hm]; exact ⟨p, hdec, List.take_prefix _ _⟩⟩
      · right
        rw [Prog.bind_run]
        simp only [hk, Res.mapErr_err, Prog.lift_run]
        exact ⟨_, (w.rest req.reader).length, [], _, rfl, hput0 _ _ rfl, by simp⟩
    · right
      simp only
      rw [Prog.bind_err (Prog.mapErr_err (show readToEnd req.reader w = _ from e1))]
      exact ⟨_, k, [], _, rfl, hput0 _ _ rfl, by simp⟩
  | streamMode =>
    rw [hm] at hnl
    simp only
    rcases decryptMasterKey_cases hC req.rawKey hi with ⟨mk, hk, hr, hl⟩ | ⟨e, hk, _⟩
    · rw [Prog.bind_run]
      simp only [hk, Res.mapErr_ok, Prog.lift_run]
      rw [Prog.bind_run]
      simp only [decInitialize, hl, ne_eq, not_true, if_false, hnl, getNonceLen_eq, Res.mapErr_ok, Prog.lift_run]
      rcases decryptFile_spec C hC hne aad
        { algorithm := hd.headerType.algorithm, key := mk, pre := hd.nonce, position := 0 } rfl w hino with
        ⟨m, p, w', he, hml, hno, hseal, hc⟩ | ⟨e, m, p, c, k, w', he, hpre, hop, hc⟩
      · left
        obtain ⟨c1, q, h1, h2, h3⟩ := hseal.first hC
        refine ⟨mk, m, p, w', Prog.mapErr_ok he, hr, hml, fun h => hno (h.resolve_right (by simp [hm])), (bodyOf_stream hm).2 hseal, hc, _, c1, q, ?_, h3⟩
        simp only [FirstCall, hm]
        exact ⟨h1.trans (List.take_prefix _ _), h2, trivial⟩
      · right
        refine ⟨_, m, p.take k, w', Prog.mapErr_err he, hc, ?_⟩
        intro hout
        have hp : p ≠ [] := by rintro rfl; simp at hout
        obtain ⟨c1, q, h1, h2, h3⟩ := hop.first hp
        refine ⟨mk, _, c1, q, hr, ?_, h3, ?_⟩
        · simp only [FirstCall, hm]
          exact ⟨h1.trans hpre, h2, trivial⟩
        · simp only [Fragment, hm]
          exact ⟨p, c, hpre, hop, List.take_prefix _ _⟩
    · right
      rw [Prog.bind_run]
      simp only [hk, Res.mapErr_err, Prog.lift_run]
      refine ⟨_, 0, [], _, rfl, ?_, by simp⟩
      apply hput0; simp

/-- The body of `decrypt::execute` without faults, when there is something to decrypt. -/
theorem decBody_nil {C : Crypto} (hC : C.Lawful) (req : Decrypt.Request) (hne : req.reader ≠ req.writer) {bs : Bytes}
    {hd : Header} {aad mk p : Bytes} (hi : IsHeader bs hd aad) {w : World} (hs : w.sched = [])
    (hino : (w.fd req.reader).ino ≠ (w.fd req.writer).ino)
    (hr : Recovers C req.rawKey hd mk) (hb : BodyOf C hd mk aad p (w.rest req.reader)) :
    ∃ w', Decrypt.body C req hd aad w = (.ok (), w') ∧ w'.sched = [] ∧
      w'.core = ((w.adv req.reader (w.rest req.reader).length).put req.writer p).core := by
  have hnl := (isHeader_sized hi).1
  rcases decryptMasterKey_cases hC req.rawKey hi with ⟨mk', hk, hr', hl⟩ | ⟨e, hk, hno⟩
  · have := hr.unique hr'; subst this
    unfold Decrypt.body
    cases hm : hd.headerType.mode with
    | memoryMode =>
      rw [hm] at hnl
      simp only
      rw [Prog.bind_ok (Prog.mapErr_ok (readToEnd_nil hs req.reader)), Prog.bind_run]
      simp only [hk, Res.mapErr_ok, Prog.lift_run]
      rw [Prog.bind_run]
      simp only [Cipher.initialize, hl, if_true, Res.mapErr_ok, Prog.lift_run]
      rw [Prog.bind_run]
      simp only [BodyOf, hm] at hb
      simp only [Cipher.decrypt, hnl, getNonceLen_eq, ne_eq, not_true, if_false, Prog.lift_run,
        hC.dec_enc _ _ _ _ _ _ hb, Res.ofOption_some, Res.mapErr_ok]
      obtain ⟨w2, e2, hc2, hs2⟩ := writeAll_nil' (w := w.adv req.reader (w.rest req.reader).length)
        (by simpa using hs) req.writer p
      exact ⟨w2, Prog.mapErr_ok e2, hs2, hc2⟩
    | streamMode =>
      rw [hm] at hnl
      simp only
      rw [Prog.bind_run]
      simp only [hk, Res.mapErr_ok, Prog.lift_run]
      rw [Prog.bind_run]
      simp only [decInitialize, hl, ne_eq, not_true, if_false, hnl, getNonceLen_eq, Res.mapErr_ok, Prog.lift_run]
      obtain ⟨w2, e2, hc2, hs2⟩ := decryptFile_nil C hC hne aad
        (s := { algorithm := hd.headerType.algorithm, key := mk, pre := hd.nonce, position := 0 }) rfl
        ((bodyOf_stream hm).1 hb) hino hs
      exact ⟨w2, Prog.mapErr_ok e2, hs2, hc2⟩
  · exact absurd hr (hno mk)

/-! ### decrypt::execute -/

/-- `w'` is `w` after reading `n` bytes through `rh` and writing `out` through `wh`. -/
theorem wrote_of_core {rh wh : Nat} (hne : rh ≠ wh) {w w' : World} {n : Nat} {out : Bytes}
    (h : w'.core = ((w.adv rh n).put wh out).core) : Wrote wh w w' out ∧ Touches [rh] [wh] w w' := by
  have hc := Copied.of_core hne h
  refine ⟨⟨hc.content, by rw [hc.write]⟩, ?_⟩
  exact ((Touches.adv (R := [rh]) (W := [wh]) (by simp)).trans (Touches.put (by simp))).core_right h

theorem adv_adv_put {rh wh : Nat} {w w1 w' : World} {m n : Nat} {out : Bytes}
    (h1 : w1.core = (w.adv rh m).core) (h2 : w'.core = ((w1.adv rh n).put wh out).core) :
    w'.core = ((w.adv rh (m + n)).put wh out).core := by
  rw [h2]
  apply World.put_core_congr
  rw [World.adv_core_congr _ _ h1, World.adv_adv]

/-- Embedded header, every schedule. -/
theorem decrypt_embedded_spec {C : Crypto} (hC : C.Lawful) (req : Decrypt.Request) (hh : req.headerReader = none)
    (hne : req.reader ≠ req.writer) (w : World) (hino : (w.fd req.reader).ino ≠ (w.fd req.writer).ino) :
    (∃ hd aad mk m p w', Decrypt.execute C req w = (.ok (), w') ∧ IsHeader (w.rest req.reader) hd aad ∧
      Recovers C req.rawKey hd mk ∧
      m ≤ ((w.rest req.reader).drop (headerSize hd.headerType.version)).length ∧
      (NoShort w.sched ∨ hd.headerType.mode = .memoryMode → m = ((w.rest req.reader).drop (headerSize hd.headerType.version)).length) ∧
      BodyOf C hd mk aad p (((w.rest req.reader).drop (headerSize hd.headerType.version)).take m) ∧
      w'.core = ((w.adv req.reader (headerSize hd.headerType.version + m)).put req.writer p).core ∧
      ∃ n c q, FirstCall hd ((w.rest req.reader).drop (headerSize hd.headerType.version)) n c ∧
        C.dec hd.headerType.algorithm mk n aad c = some q) ∨
    (∃ e p out w', Decrypt.execute C req w = (.err e, w') ∧
      w'.core = ((w.setPos req.reader p).put req.writer out).core ∧
      (out ≠ [] → ∃ hd aad mk n c q, IsHeader (w.rest req.reader) hd aad ∧ Recovers C req.rawKey hd mk ∧
        FirstCall hd ((w.rest req.reader).drop (headerSize hd.headerType.version)) n c ∧
        C.dec hd.headerType.algorithm mk n aad c = some q ∧
        Fragment C hd mk aad ((w.rest req.reader).drop (headerSize hd.headerType.version)) out)) := by
  unfold Decrypt.execute Decrypt.getHeader
  rw [hh]
  simp only
  rcases hds : deserialize req.reader w with ⟨r, w1⟩
  have hsub : NoShort w.sched → NoShort w1.sched := fun h => h.run (.deserialize _) hds
  rcases deserialize_cases req.reader w with ⟨hd, aad, w1', he, hi, hc1⟩ | ⟨e, w1', p, he, hc1⟩
  · rw [hds] at he; cases he
    rw [Prog.bind_ok (Prog.mapErr_ok hds)]
    have hrest : w1.rest req.reader = (w.rest req.reader).drop (headerSize hd.headerType.version) := by
      rw [World.rest_of_core hc1, World.rest_adv]
    have hino1 : (w1.fd req.reader).ino ≠ (w1.fd req.writer).ino := by
      rw [World.fd_of_core hc1]; simpa using hino
    rcases decBody_spec hC req hne hi w1 hino1 with
      ⟨mk, m, p, w', he, hr, hm, hno, hb, hc, hfc⟩ | ⟨e, m, out, w', he, hc, hout⟩
    · left
      rw [hrest] at hm hno hb hfc
      exact ⟨hd, aad, mk, m, p, w', he, hi, hr, hm, fun hn => hno (hn.imp hsub id), hb,
        adv_adv_put hc1 hc, hfc⟩
    · right
      refine ⟨e, _, out, w', he, adv_adv_put hc1 hc, ?_⟩
      intro ho
      obtain ⟨mk, n, c, q, h1, h2, h3⟩ := hout ho
      rw [hrest] at h2 h3
      exact ⟨hd, aad, mk, n, c, q, hi, h1, h2, h3⟩
  · rw [hds] at he; cases he
    right
    rw [Prog.bind_err (Prog.mapErr_err hds)]
    refine ⟨_, p, [], w1, rfl, ?_, by simp⟩
    rw [World.put_nil_core]; exact hc1

theorem decrypt_embedded_nil {C : Crypto} (hC : C.Lawful) (req : Decrypt.Request) (hh : req.headerReader = none)
    (hne : req.reader ≠ req.writer) {w : World} (hs : w.sched = [])
    (hino : (w.fd req.reader).ino ≠ (w.fd req.writer).ino) {hd : Header} {aad mk p : Bytes}
    (hi : IsHeader (w.rest req.reader) hd aad) (hr : Recovers C req.rawKey hd mk)
    (hb : BodyOf C hd mk aad p ((w.rest req.reader).drop (headerSize hd.headerType.version))) :
    ∃ w', Decrypt.execute C req w = (.ok (), w') ∧ w'.sched = [] ∧
      w'.core = ((w.adv req.reader (w.rest req.reader).length).put req.writer p).core := by
  unfold Decrypt.execute Decrypt.getHeader
  rw [hh]
  simp only
  rw [Prog.bind_ok (Prog.mapErr_ok (deserialize_isHeader hs hi))]
  obtain ⟨w', he, hs', hc⟩ := decBody_nil hC req hne hi (w := w.adv req.reader (headerSize hd.headerType.version))
    (by simpa using hs) (by simpa using hino) hr (by rw [World.rest_adv]; exact hb)
  refine ⟨w', he, hs', ?_⟩
  rw [hc, World.rest_adv, World.adv_adv, List.length_drop, Nat.add_sub_cancel' hi.size]

/-! ### Detached header -/

theorem all_zero_iff (l : Bytes) : (l.all (· == 0)) = true ↔ ∀ b ∈ l, b = 0 := by simp

/-- The position and rest of the content handle after the header-sized look-ahead. -/
theorem getHeader_detached_spec (req : Decrypt.Request) {hr : Nat} (hh : req.headerReader = some hr)
    (hne : hr ≠ req.reader) (w : World) (hpos : (w.fd req.reader).pos = 0) :
    (∃ hd aad w' m n, Decrypt.getHeader req w = (.ok (hd, aad), w') ∧ IsHeader (w.rest hr) hd aad ∧
      w'.core = ((w.adv hr m).setPos req.reader n).core ∧
      w'.rest req.reader = detachedBody (headerSize hd.headerType.version) (w.data req.reader)) ∨
    (∃ e w' m n, Decrypt.getHeader req w = (.err e, w') ∧
      w'.core = ((w.setPos hr m).setPos req.reader n).core) := by
  unfold Decrypt.getHeader
  rw [hh]
  simp only
  rcases deserialize_cases hr w with ⟨hd, aad, w1, e1, hi, hc1⟩ | ⟨e, w1, p, e1, hc1⟩
  · rw [Prog.bind_ok (Prog.mapErr_ok e1)]
    have hfd1 : w1.fd req.reader = w.fd req.reader := by
      rw [World.fd_of_core hc1, World.adv_fd_ne _ _ (Ne.symm hne)]
    have hfile1 : w1.file = w.file := by rw [World.file_of_core hc1]; rfl
    have hrest1 : w1.rest req.reader = w.data req.reader := by
      simp [World.rest, World.data, hfd1, hfile1, hpos]
    have hsz : hd.getSize = headerSize hd.headerType.version := size_eq _
    simp only [hsz]
    rcases readUpTo_spec req.reader (headerSize hd.headerType.version) w1 with ⟨s', e2⟩ | ⟨k, s', _, e2⟩
    · rw [Prog.bind_ok (Prog.mapErr_ok e2), hrest1]
      simp only
      have hz : ((w.data req.reader).take (headerSize hd.headerType.version) ++
          zeros (headerSize hd.headerType.version - ((w.data req.reader).take (headerSize hd.headerType.version)).length)).all
            (· == 0) = true ↔ ∀ b ∈ (w.data req.reader).take (headerSize hd.headerType.version), b = 0 := by
        rw [all_zero_iff]
        constructor
        · intro h b hb; exact h b (List.mem_append_left _ hb)
        · intro h b hb
          rcases List.mem_append.1 hb with hb | hb
          · exact h b hb
          · exact List.eq_of_mem_replicate hb
      by_cases hall : ∀ b ∈ (w.data req.reader).take (headerSize hd.headerType.version), b = 0
      · left
        rw [hz.2 hall]
        refine ⟨hd, aad, _, headerSize hd.headerType.version,
          0 + ((w.data req.reader).take (headerSize hd.headerType.version)).length, rfl, hi, ?_, ?_⟩
        · show (World.setPos w1 req.reader _).core = _
          rw [hfd1, hpos]
          exact World.setPos_core_congr _ _ hc1
        · show (w1.adv req.reader
            ((w.data req.reader).take (headerSize hd.headerType.version)).length).rest req.reader = _
          rw [World.rest_adv, hrest1, detachedBody, if_pos hall, List.length_take]
          by_cases hlen : headerSize hd.headerType.version ≤ (w.data req.reader).length
          · rw [Nat.min_eq_left hlen]
          · rw [List.drop_of_length_le (by omega), List.drop_of_length_le (by omega)]
      · have hf : ((w.data req.reader).take (headerSize hd.headerType.version) ++
          zeros (headerSize hd.headerType.version - ((w.data req.reader).take (headerSize hd.headerType.version)).length)).all
            (· == 0) = false := by
          rw [← Bool.not_eq_true]; exact fun h => hall (hz.1 h)
        rw [hf]
        simp only [Bool.not_false, if_true]
        obtain ⟨w2, hw2⟩ : ∃ w2 : World, w2 = { w1.adv req.reader
          ((w.data req.reader).take (headerSize hd.headerType.version)).length with sched := s' } := ⟨_, rfl⟩
        rw [← hw2]
        have hc2 : w2.core = ((w.adv hr (headerSize hd.headerType.version)).setPos req.reader
            ((w.data req.reader).take (headerSize hd.headerType.version)).length).core := by
          rw [hw2]
          show (World.setPos w1 req.reader _).core = _
          rw [hfd1, hpos, Nat.zero_add]
          exact World.setPos_core_congr _ _ hc1
        rcases rewind_spec req.reader w2 with ⟨w3, e3, hc3⟩ | ⟨e, w3, e3, hc3⟩
        · left
          rw [Prog.bind_ok (Prog.mapErr_ok e3)]
          have hc4 : w3.core = ((w.adv hr (headerSize hd.headerType.version)).setPos req.reader 0).core := by
            rw [hc3, World.setPos_core_congr _ _ hc2, World.setPos_setPos]
          refine ⟨hd, aad, w3, headerSize hd.headerType.version, 0, rfl, hi, hc4, ?_⟩
          rw [World.rest_of_core hc4, detachedBody, if_neg hall]
          simp [World.rest, World.data]
        · right
          rw [Prog.bind_err (Prog.mapErr_err e3)]
          exact ⟨_, w3, (w.fd hr).pos + headerSize hd.headerType.version,
            ((w.data req.reader).take (headerSize hd.headerType.version)).length, rfl, hc3.trans hc2⟩
    · right
      rw [Prog.bind_err (Prog.mapErr_err e2)]
      refine ⟨_, _, (w.fd hr).pos + headerSize hd.headerType.version, (w.fd req.reader).pos + k, rfl, ?_⟩
      show (World.setPos w1 req.reader _).core = _
      rw [hfd1]
      exact World.setPos_core_congr _ _ hc1
  · right
    rw [Prog.bind_err (Prog.mapErr_err e1)]
    refine ⟨_, w1, p, (w.fd req.reader).pos, rfl, ?_⟩
    rw [hc1]
    have : (w.setPos hr p).fd req.reader = w.fd req.reader := World.setPos_fd_ne _ _ (Ne.symm hne)
    rw [← this, World.setPos_self]

theorem Shrinks.getHeader (req : Decrypt.Request) : Shrinks (Decrypt.getHeader req) := by
  unfold Decrypt.getHeader
  split
  · refine bind (mapErr _ (deserialize _)) fun ⟨hd, aad⟩ => bind (mapErr _ (readUpTo _ _)) fun b => ?_
    dsimp only
    split
    · exact bind (mapErr _ (rewind _)) fun _ => pure _
    · exact pure _
  · exact mapErr _ (deserialize _)

theorem setPos_adv_core (w : World) (h p n : Nat) : (w.setPos h p).adv h n = w.setPos h (p + n) := by
  simp [World.adv]

/-- Detached header, every schedule. -/
theorem decrypt_detached_spec {C : Crypto} (hC : C.Lawful) (req : Decrypt.Request) {hr : Nat}
    (hh : req.headerReader = some hr) (hnr : hr ≠ req.reader) (hne : req.reader ≠ req.writer)
    (w : World) (hpos : (w.fd req.reader).pos = 0) (hino : (w.fd req.reader).ino ≠ (w.fd req.writer).ino) :
    (∃ hd aad mk m k n p w', Decrypt.execute C req w = (.ok (), w') ∧ IsHeader (w.rest hr) hd aad ∧
      Recovers C req.rawKey hd mk ∧
      m ≤ (detachedBody (headerSize hd.headerType.version) (w.data req.reader)).length ∧
      (NoShort w.sched ∨ hd.headerType.mode = .memoryMode → m = (detachedBody (headerSize hd.headerType.version) (w.data req.reader)).length) ∧
      BodyOf C hd mk aad p ((detachedBody (headerSize hd.headerType.version) (w.data req.reader)).take m) ∧
      w'.core = (((w.setPos hr k).setPos req.reader n).put req.writer p).core ∧
      ∃ n c q, FirstCall hd (detachedBody (headerSize hd.headerType.version) (w.data req.reader)) n c ∧
        C.dec hd.headerType.algorithm mk n aad c = some q) ∨
    (∃ e k n out w', Decrypt.execute C req w = (.err e, w') ∧
      w'.core = (((w.setPos hr k).setPos req.reader n).put req.writer out).core ∧
      (out ≠ [] → ∃ hd aad mk n c q, IsHeader (w.rest hr) hd aad ∧ Recovers C req.rawKey hd mk ∧
        FirstCall hd (detachedBody (headerSize hd.headerType.version) (w.data req.reader)) n c ∧
        C.dec hd.headerType.algorithm mk n aad c = some q ∧
        Fragment C hd mk aad (detachedBody (headerSize hd.headerType.version) (w.data req.reader)) out)) := by
  unfold Decrypt.execute
  rcases getHeader_detached_spec req hh hnr w hpos with
    ⟨hd, aad, w1, m1, n1, e1, hi, hc1, hrest⟩ | ⟨e, w1, m, n, e1, hc1⟩
  · rw [Prog.bind_ok e1]
    have hsub : NoShort w.sched → NoShort w1.sched := fun h => h.run (.getHeader _) e1
    have hino1 : (w1.fd req.reader).ino ≠ (w1.fd req.writer).ino := by
      rw [World.fd_of_core hc1]; simpa using hino
    rcases decBody_spec hC req hne hi w1 hino1 with
      ⟨mk, m, p, w', he, hr', hm, hno, hb, hc, hfc⟩ | ⟨e, m, out, w', he, hc, hout⟩
    · left
      rw [hrest] at hm hno hb hfc
      refine ⟨hd, aad, mk, m, (w.fd hr).pos + m1, n1 + m, p, w', he, hi, hr', hm, fun hn => hno (hn.imp hsub id), hb, ?_, hfc⟩
      rw [hc]
      apply World.put_core_congr
      rw [World.adv_core_congr _ _ hc1, setPos_adv_core]
      rfl
    · right
      refine ⟨e, (w.fd hr).pos + m1, n1 + m, out, w', he, ?_, ?_⟩
      · rw [hc]
        apply World.put_core_congr
        rw [World.adv_core_congr _ _ hc1, setPos_adv_core]
        rfl
      · intro ho
        obtain ⟨mk, n, c, q, h1, h2, h3⟩ := hout ho
        rw [hrest] at h2 h3
        exact ⟨hd, aad, mk, n, c, q, hi, h1, h2, h3⟩
  · right
    rw [Prog.bind_err e1]
    refine ⟨e, m, n, [], w1, rfl, ?_, by simp⟩
    rw [World.put_nil_core]; exact hc1

theorem getHeader_detached_nil (req : Decrypt.Request) {hr : Nat} (hh : req.headerReader = some hr) {w : World}
    (hs : w.sched = []) {hd : Header} {aad : Bytes} (hi : IsHeader (w.rest hr) hd aad) :
    ∃ w', Decrypt.getHeader req w = (.ok (hd, aad), w') := by
  unfold Decrypt.getHeader
  rw [hh]
  simp only
  rw [Prog.bind_ok (Prog.mapErr_ok (deserialize_isHeader hs hi))]
  rw [Prog.bind_ok (Prog.mapErr_ok (readUpTo_nil (by simpa using hs) _ _))]
  dsimp only
  split
  · rw [Prog.bind_ok (Prog.mapErr_ok (rewind_nil (by simpa using hs) _))]; exact ⟨_, rfl⟩
  · exact ⟨_, rfl⟩

theorem decrypt_detached_nil {C : Crypto} (hC : C.Lawful) (req : Decrypt.Request) {hr : Nat}
    (hh : req.headerReader = some hr) (hnr : hr ≠ req.reader) (hne : req.reader ≠ req.writer)
    {w : World} (hs : w.sched = []) (hpos : (w.fd req.reader).pos = 0)
    (hino : (w.fd req.reader).ino ≠ (w.fd req.writer).ino) {hd : Header} {aad mk p : Bytes}
    (hi : IsHeader (w.rest hr) hd aad) (hr' : Recovers C req.rawKey hd mk)
    (hb : BodyOf C hd mk aad p (detachedBody (headerSize hd.headerType.version) (w.data req.reader))) :
    ∃ w' k n, Decrypt.execute C req w = (.ok (), w') ∧ w'.sched = [] ∧
      w'.core = (((w.setPos hr k).setPos req.reader n).put req.writer p).core := by
  obtain ⟨w1', e1'⟩ := getHeader_detached_nil req hh hs hi
  rcases getHeader_detached_spec req hh hnr w hpos with
    ⟨hd', aad', w1, m1, n1, e1, hi', hc1, hrest⟩ | ⟨e, w1, m, n, e1, hc1⟩
  · obtain ⟨rfl, rfl⟩ := isHeader_unique hi hi'
    unfold Decrypt.execute
    rw [Prog.bind_ok e1]
    have hs1 : w1.sched = [] := sched_nil_run (.getHeader _) hs e1
    have hino1 : (w1.fd req.reader).ino ≠ (w1.fd req.writer).ino := by
      rw [World.fd_of_core hc1]; simpa using hino
    obtain ⟨w', he, hs', hc⟩ := decBody_nil hC req hne hi hs1 hino1 hr' (by rw [hrest]; exact hb)
    refine ⟨w', (w.fd hr).pos + m1, n1 + (w1.rest req.reader).length, he, hs', ?_⟩
    rw [hc]
    apply World.put_core_congr
    rw [World.adv_core_congr _ _ hc1, setPos_adv_core]
    rfl
  · rw [e1] at e1'; simp at e1'

/-! ### What decrypt::execute touches, and that it returns -/

/-- The handles a decryption reads from. -/
def Decrypt.Request.readers (req : Decrypt.Request) : List Nat :=
  match req.headerReader with
  | some hr => [hr, req.reader]
  | none => [req.reader]

theorem decrypt_within (C : Crypto) (req : Decrypt.Request) :
    Within req.readers [req.writer] (Decrypt.execute C req) := by
  have hrd : req.reader ∈ req.readers := by unfold Decrypt.Request.readers; split <;> simp
  unfold Decrypt.execute
  refine .bind ?_ ?_
  · unfold Decrypt.getHeader
    split
    · next hr hh =>
      have hhr : hr ∈ req.readers := by simp [Decrypt.Request.readers, hh]
      refine .bind (.mapErr _ (.deserialize (.inl hhr))) fun ⟨hd, aad⟩ =>
        .bind (.mapErr _ (.readUpTo _ (.inl hrd))) fun b => ?_
      dsimp only
      split
      · exact .bind (.mapErr _ (.rewind (.inl hrd))) fun _ => .pure _
      · exact .pure _
    · exact .mapErr _ (.deserialize (.inl hrd))
  · rintro ⟨hd, aad⟩
    dsimp only
    unfold Decrypt.body
    split
    · exact .bind (.mapErr _ (.readToEnd (.inl hrd))) fun _ => .bind (.lift _) fun _ => .bind (.lift _) fun _ =>
        .bind (.lift _) fun _ => .mapErr _ (.writeAll _ (by simp))
    · exact .bind (.lift _) fun _ => .bind (.lift _) fun _ => .mapErr _ (.decryptFile _ _ _ (.inl hrd) (by simp))

theorem decBody_returns {C : Crypto} (hC : C.Lawful) (req : Decrypt.Request) {bs : Bytes}
    {hd : Header} {aad : Bytes} (hi : IsHeader bs hd aad) : Returns (Decrypt.body C req hd aad) := by
  have hnl := (isHeader_sized hi).1
  unfold Decrypt.body
  cases hm : hd.headerType.mode with
  | memoryMode =>
    rw [hm] at hnl
    simp only
    refine .bind (.mapErr _ (.readToEnd _)) fun ct => ?_
    rcases decryptMasterKey_cases hC req.rawKey hi with ⟨mk, hk, hr, hl⟩ | ⟨e, hk, _⟩
    · rw [hk]
      refine .bind_of (fun m => m = mk) (.lift (.ok _)) ?_ ?_
      · intro w a w' h; simp at h; exact h.1.symm
      · intro mk' hmk; rw [hmk]
        refine .bind_of (fun c => c = { algorithm := hd.headerType.algorithm, key := mk }) ?_ ?_ ?_
        · simp only [Cipher.initialize, hl, if_true]; exact .lift (.ok _)
        · intro w a w' h; simp only [Cipher.initialize, hl, if_true] at h; simp at h; exact h.1.symm
        · rintro _ rfl
          refine .bind (.lift (.mapErr _ ?_)) fun _ => .mapErr _ (.writeAll _ _)
          simp only [Cipher.decrypt, hnl, getNonceLen_eq, ne_eq, not_true, if_false]
          exact .ofOption _ _
    · rw [hk]
      intro w a
      simp [Prog.bind_run]
  | streamMode =>
    rw [hm] at hnl
    simp only
    rcases decryptMasterKey_cases hC req.rawKey hi with ⟨mk, hk, hr, hl⟩ | ⟨e, hk, _⟩
    · rw [hk]
      refine .bind_of (fun m => m = mk) (.lift (.ok _)) ?_ ?_
      · intro w a w' h; simp at h; exact h.1.symm
      · rintro _ rfl
        refine .bind (.lift (.mapErr _ ?_)) fun _ => .mapErr _ (.decryptFile _ _ _ _ _)
        simp only [decInitialize, hl, ne_eq, not_true, if_false, hnl, getNonceLen_eq]
        exact .ok _
    · rw [hk]
      intro w a
      simp [Prog.bind_run]

theorem decrypt_returns {C : Crypto} (hC : C.Lawful) (req : Decrypt.Request) :
    Returns (Decrypt.execute C req) := by
  unfold Decrypt.execute
  refine .bind_of (fun r => ∃ bs, IsHeader bs r.1 r.2) ?_ ?_ ?_
  · unfold Decrypt.getHeader
    split
    · refine .bind (.mapErr _ (.deserialize _)) fun ⟨hd, aad⟩ => .bind (.mapErr _ (.readUpTo _ _)) fun b => ?_
      dsimp only
      split
      · exact .bind (.mapErr _ (.rewind _)) fun _ => .pure _
      · exact .pure _
    · exact .mapErr _ (.deserialize _)
  · intro w r w' h
    unfold Decrypt.getHeader at h
    cases hh : req.headerReader with
    | some hr =>
      simp only [hh] at h
      obtain ⟨⟨hd, aad⟩, w1, h1, h⟩ := Prog.bind_eq_ok h
      have h1 := Prog.mapErr_eq_ok h1
      obtain ⟨b, w2, h2, h⟩ := Prog.bind_eq_ok h
      have : r = (hd, aad) := by
        dsimp only at h
        split at h
        · obtain ⟨_, _, _, h⟩ := Prog.bind_eq_ok h
          simp at h; exact h.1.symm
        · simp at h; exact h.1.symm
      subst this
      rcases deserialize_cases hr w with ⟨hd', aad', w1', he, hi, _⟩ | ⟨e, w1', p, he, hc1⟩
      · rw [h1] at he; cases he; exact ⟨_, hi⟩
      · rw [h1] at he; simp at he
    | none =>
      simp only [hh] at h
      have h := Prog.mapErr_eq_ok h
      rcases deserialize_cases req.reader w with ⟨hd', aad', w1', he, hi, _⟩ | ⟨e, w1', p, he, hc1⟩
      · rw [h] at he; cases he; exact ⟨_, hi⟩
      · rw [h] at he; simp at he
  · rintro ⟨hd, aad⟩ ⟨bs, hi⟩
    exact decBody_returns hC req hi

end Volaris
