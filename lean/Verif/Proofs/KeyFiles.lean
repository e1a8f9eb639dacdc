import Verif.Proofs.KeyOps
namespace Volaris
open Spec KeyOps

theorem replicate_of_all {bs : Bytes} (h : ∀ b ∈ bs, b = 0) : bs = zeros bs.length :=
  List.eq_replicate_iff.2 ⟨rfl, h⟩

/-- The associated data of a V5 file with zero padding. -/
theorem Spec.KeyFile.aad_eq {content : Bytes} {hd : Header} {ks : List Keyslot} {aad : Bytes} (hf : KeyFile content hd ks aad) :
    aad = hd.headerType.tag ++ hd.nonce ++ zeros (26 - nonceLength hd.headerType.algorithm hd.headerType.mode) := by
  have ha := hf.header.aad
  have ht := hf.header.tag
  have hfi := hf.header.fields
  have hsz := hf.header.size
  have hv := hf.v5
  have hp := replicate_of_all hf.padding
  have h24 := nonceLength_le hd.headerType.algorithm hd.headerType.mode
  simp only [hv, headerSize] at ha hfi hsz
  rw [slice_length _ _ _ (by omega)] at hp
  have htag : hd.headerType.tag = slice content 0 6 := by
    rw [ht]
    rcases hd with ⟨⟨v, a, m⟩, _, _, _⟩
    cases v <;> cases a <;> cases m <;> rfl
  rw [ha, htag, hfi.2.2, ← hp]
  have e : 32 = 6 + nonceLength hd.headerType.algorithm hd.headerType.mode +
    (26 - nonceLength hd.headerType.algorithm hd.headerType.mode) := by omega
  rw [e, slice_split, slice_split]
  simp only [Nat.zero_add]

/-- A header written over the old one. -/
theorem Spec.KeyFile.written {content : Bytes} {hd : Header} {ks : List Keyslot} {aad : Bytes} (hf : KeyFile content hd ks aad)
    {ks' : List Keyslot} (hl : ks'.length ≤ 4) (hs : ∀ k ∈ ks', SlotOk hd.headerType.algorithm k) (tail : Bytes) :
    KeyFile (bytesV5 hd.headerType hd.nonce ks' ++ tail)
      { hd with salt := some (zeros 16), keyslots := some ks' } ks' aad := by
  have hn := (isHeader_sized hf.header).1
  have hi := bytesV5_isHeader (t := hd.headerType) (ks := ks') hf.v5 hn hl hs tail
  refine ⟨by rw [hf.aad_eq]; exact hi, hf.v5, rfl, ?_⟩
  intro b hb
  have h24 := nonceLength_le hd.headerType.algorithm hd.headerType.mode
  have e : slice (bytesV5 hd.headerType hd.nonce ks' ++ tail) (6 + nonceLength hd.headerType.algorithm hd.headerType.mode)
      (26 - nonceLength hd.headerType.algorithm hd.headerType.mode) =
      zeros (26 - nonceLength hd.headerType.algorithm hd.headerType.mode) := by
    simp only [bytesV5, slice]
    rw [List.append_assoc, List.append_assoc, List.append_assoc, List.drop_left' (by simp [hn]),
      List.take_left' (by simp)]
  rw [e] at hb
  exact (List.mem_replicate.1 hb).2

/-- The effect of the (possibly partial) header write on the file. -/
theorem stored_content {h : Nat} {w w1 w' : World} {H : Bytes} {j n : Nat} (hw1 : w1.core = w.core)
    (hc : w'.core = ((w1.draw n).put h (H.take j)).core) (hH : H.length = 416) (hj : j ≤ 416)
    (hl : 416 ≤ (w.rest h).length) : HeaderReplaced h w w' (H.take j ++ (w.rest h).drop j) := by
  have hfd : w1.fd = w.fd := World.fd_of_core hw1
  have hfile : w1.file = w.file := World.file_of_core hw1
  have hjl : (H.take j).length = j := by rw [List.length_take]; omega
  have hpos : (w.fd h).pos + 416 ≤ (w.data h).length := by
    simp only [World.rest, List.length_drop] at hl; omega
  have hd : w'.data h = (w.data h).take (w.fd h).pos ++ (H.take j ++ (w.data h).drop ((w.fd h).pos + j)) := by
    have h1 : w'.data h = writeAt (w.data h) (w.fd h).pos (H.take j) := by
      rw [World.data_of_core hc]
      simp only [World.data, World.put, World.draw, hfd, hfile, if_true]
    rw [h1, writeAt_within _ _ _ (by omega), hjl, List.append_assoc]
  have htl : ((w.data h).take (w.fd h).pos).length = (w.fd h).pos := by rw [List.length_take]; omega
  refine ⟨?_, ?_, ?_, ?_, ?_⟩
  · rw [hd, List.drop_left' htl]; simp only [World.rest, List.drop_drop]
  · rw [hd, List.take_left' htl]
  · rw [List.drop_append, List.drop_eq_nil_of_le (by omega), hjl, List.drop_drop, List.nil_append]
    congr 1; omega
  · rw [List.length_append, hjl, List.length_drop]; omega
  · have t1 : Touches [] [h] w w1 := .of_core hw1
    have t2 : Touches [] [h] w1 (w1.draw n) := ⟨fun _ _ => rfl, fun _ => rfl, fun _ _ _ => rfl, rfl, rfl, rfl, rfl, rfl, rfl, rfl⟩
    exact ((t1.trans t2).trans (Touches.put (by simp))).core_right hc

theorem World.draw_zero (w : World) : w.draw 0 = w := rfl

/-! ### What decrypting says about a file -/

/-- A decryption set up to run in a concrete world. -/
theorem Spec.DecryptsTo.fileOf {C : Crypto} (hC : C.Lawful) {pw content p : Bytes} (h : DecryptsTo C pw content p) :
    FileOf C pw content p := by
  let v : World := Example.world fun i => if i = 0 then content else []
  let req : Decrypt.Request := { reader := 0, headerReader := none, writer := 1, rawKey := pw }
  have ha : Asks req v pw content := ⟨rfl, rfl, Nat.zero_ne_one, Nat.zero_ne_one, rfl⟩
  obtain ⟨v', hok, hw, _⟩ := h req v ha rfl
  obtain ⟨p', hf, hw'⟩ := decrypt_ok_fileOf hC ha (by intro k hk; simp [v, Example.world] at hk) hok
  have h1 := hw.content
  rw [hw'.content] at h1
  have : p' = p := by simpa [v, req, Example.world, writeAt_zero] using h1
  rw [← this]; exact hf

/-- Recovering the key of a V5 file. -/
theorem Spec.KeyFile.recovers {C : Crypto} {content pw : Bytes} {hd : Header} {ks : List Keyslot} {aad mk : Bytes} (hf : KeyFile content hd ks aad) :
    Recovers C pw hd mk ↔ ∃ before k after, ks = before ++ k :: after ∧ Opens C hd.headerType.algorithm pw k mk ∧
      OpensNone C hd.headerType.algorithm pw before := by
  simp only [Recovers, hf.v5, hf.slots, Option.some.injEq]
  rfl

theorem Spec.KeyFile.body {C : Crypto} (hC : C.Lawful) {content pw p : Bytes} {hd : Header} {ks : List Keyslot} {aad mk : Bytes}
    (hf : KeyFile content hd ks aad) (hr : Recovers C pw hd mk) (hd' : DecryptsTo C pw content p) :
    BodyOf C hd mk aad p (content.drop 416) := by
  obtain ⟨h2, aad2, mk2, hi, hr2, hb⟩ := hd'.fileOf hC
  obtain ⟨rfl, rfl⟩ := isHeader_unique hf.header hi
  have := hr.unique hr2; subst this
  rw [hf.v5] at hb
  exact hb

theorem Spec.KeyFile.decrypts {C : Crypto} (hC : C.Lawful) {content pw p : Bytes} {hd : Header} {ks : List Keyslot} {aad mk : Bytes}
    (hf : KeyFile content hd ks aad) (hone : ∃ k ∈ ks, ∃ m, Opens C hd.headerType.algorithm pw k m)
    (honly : OnlyOpens C hd.headerType.algorithm pw ks mk) (hb : BodyOf C hd mk aad p (content.drop 416)) :
    DecryptsTo C pw content p := by
  obtain ⟨k0, hm, m, o⟩ := hone
  obtain ⟨b, k, a, e, ⟨m', o'⟩, f⟩ := exists_first (P := fun k => ∃ m, Opens C hd.headerType.algorithm pw k m) hm ⟨m, o⟩
  have := honly k (by rw [e]; simp) _ o'; subst this
  apply Spec.FileOf.decrypts hC
  refine ⟨hd, aad, m', hf.header, hf.recovers.2 ⟨b, k, a, e, o', ?_⟩, by rw [hf.v5]; exact hb⟩
  intro x hx m hm; exact f x hx ⟨m, hm⟩

theorem Spec.KeyFile.refuses {C : Crypto} (hC : C.Lawful) {content pw : Bytes} {hd : Header} {ks : List Keyslot} {aad : Bytes}
    (hf : KeyFile content hd ks aad) (hno : OpensNone C hd.headerType.algorithm pw ks) : Refuses C pw content := by
  apply refuses_of hC
  intro h' aad' mk n c q hi' hr _ _
  obtain ⟨rfl, rfl⟩ := isHeader_unique hf.header hi'
  exact no_recovery hf.header hf.slots hno _ hr

theorem bodyOf_congr {C : Crypto} {hd hd' : Header} {mk aad p body : Bytes} (h1 : hd'.headerType = hd.headerType) (h2 : hd'.nonce = hd.nonce) :
    BodyOf C hd' mk aad p body ↔ BodyOf C hd mk aad p body := by
  unfold BodyOf; rw [h1, h2]

/-! ### Effects of successful operations, for every schedule -/

theorem tape_of_core {w w' : World} (h : w.core = w'.core) (i n : Nat) : tape w i n = tape w' i n := by
  simp only [tape, World.rng_of_core h]

/-- What a successful `add` did. -/
theorem add_effect {C : Crypto} (hC : C.Lawful) {req : NewKeyRequest} {w w' : World} {hd : Header} {ks : List Keyslot} {aad : Bytes}
    (hf : KeyFile (w.rest req.handle) hd ks aad) (hok : add C req w = (.ok (), w')) :
    ∃ before k0 after mk k j, ks = before ++ k0 :: after ∧ Opens C hd.headerType.algorithm req.rawKeyOld k0 mk ∧
      OpensNone C hd.headerType.algorithm req.rawKeyOld before ∧ mk ≠ List.replicate 32 0 ∧ ks.length < 4 ∧
      SealedSlot C hd.headerType.algorithm mk req.rawKeyNew req.hashAlgorithm (tape w 0 16)
        (tape w 16 (nonceLength hd.headerType.algorithm .memoryMode)) k ∧ SlotOk hd.headerType.algorithm k ∧
      j ≤ 416 ∧ (NoShort w.sched → j = 416) ∧
      HeaderReplaced req.handle w w' ((bytesV5 hd.headerType hd.nonce (ks ++ [k])).take j ++ (w.rest req.handle).drop j) := by
  have hsz := isHeader_sized hf.header
  have hks := hsz.2 ks hf.slots
  rcases load_cases req.handle w with ⟨hd', aad', ks', w1, hload, hi, hv, hk, hc1, hsh⟩ | ⟨e, w1, p, hload, _⟩
  · obtain ⟨rfl, rfl⟩ := isHeader_unique hf.header hi
    rw [hf.slots] at hk; cases hk
    rcases add_loaded hC hload hks.2 with ⟨e, he, _⟩ | ⟨mk, i, hidx, ⟨_, he⟩ | ⟨hne, ⟨e, n, he, _⟩ | ⟨k, hk, he⟩⟩⟩
    · rw [he] at hok; simp at hok
    · rw [he] at hok; simp at hok
    · rw [he] at hok; simp at hok
    · rw [tape_of_core hc1, tape_of_core hc1] at hk
      rcases withIndex_cases hC req.rawKeyOld hks.2 with ⟨mk', b, k0, af, h1, h2, h3, h4, h5, h6⟩ | ⟨h1, _⟩ | ⟨h1, _⟩
      · rw [hidx] at h1; cases h1
        have hkok : SlotOk hd.headerType.algorithm k := hk.ok hC h5 (by simp) (by simp)
        have hall : ∀ x ∈ ks ++ [k], SlotOk hd.headerType.algorithm x := by
          intro x hx
          rcases List.mem_append.1 hx with hx | hx
          · exact hks.2 x hx
          · rw [List.mem_singleton.1 hx]; exact hkok
        have hlen : (ks ++ [k]).length ≤ 4 := by simp; have := hks.1; omega
        rw [he] at hok
        rcases store_cases (h := req.handle) (w := w1.draw (16 + nonceLength hd.headerType.algorithm .memoryMode)) hf.v5 hlen hsz.1 hall with
          ⟨w2, j, hst, hj, hc, hns⟩ | ⟨e, w2, hst, _⟩
        · rw [hst] at hok; cases hok
          refine ⟨b, k0, af, mk, k, j, h2, h3, h4, h6, by have := hks.1; omega, hk, hkok, hj, ?_, ?_⟩
          · intro h; exact hns (h.of_suffix hsh)
          · refine stored_content hc1 hc (bytesV5_length hsz.1 hlen hall) hj ?_
            have := hf.header.size; rw [hf.v5] at this; exact this
        · rw [hst] at hok; simp at hok
      · rw [hidx] at h1; simp at h1
      · rw [hidx] at h1; simp at h1
  · have : add C req w = (.err e, w1) := by unfold add; rw [Prog.bind_err hload]
    rw [this] at hok; simp at hok

/-- What a successful `change` did. -/
theorem change_effect {C : Crypto} (hC : C.Lawful) {req : NewKeyRequest} {w w' : World} {hd : Header} {ks : List Keyslot} {aad : Bytes}
    (hf : KeyFile (w.rest req.handle) hd ks aad) (hok : change C req w = (.ok (), w')) :
    ∃ before k0 after mk k j, ks = before ++ k0 :: after ∧ Opens C hd.headerType.algorithm req.rawKeyOld k0 mk ∧
      OpensNone C hd.headerType.algorithm req.rawKeyOld before ∧ mk ≠ List.replicate 32 0 ∧
      SealedSlot C hd.headerType.algorithm mk req.rawKeyNew req.hashAlgorithm (tape w 0 16)
        (tape w 16 (nonceLength hd.headerType.algorithm .memoryMode)) k ∧ SlotOk hd.headerType.algorithm k ∧
      j ≤ 416 ∧ (NoShort w.sched → j = 416) ∧
      HeaderReplaced req.handle w w' ((bytesV5 hd.headerType hd.nonce (before ++ k :: after)).take j ++ (w.rest req.handle).drop j) := by
  have hsz := isHeader_sized hf.header
  have hks := hsz.2 ks hf.slots
  rcases load_cases req.handle w with ⟨hd', aad', ks', w1, hload, hi, hv, hk, hc1, hsh⟩ | ⟨e, w1, p, hload, _⟩
  · obtain ⟨rfl, rfl⟩ := isHeader_unique hf.header hi
    rw [hf.slots] at hk; cases hk
    rcases change_loaded hC hload hks.2 with ⟨e, he, _⟩ | ⟨mk, i, hidx, ⟨e, n, he, _⟩ | ⟨k, hk, he⟩⟩
    · rw [he] at hok; simp at hok
    · rw [he] at hok; simp at hok
    · rw [tape_of_core hc1, tape_of_core hc1] at hk
      rcases withIndex_cases hC req.rawKeyOld hks.2 with ⟨mk', b, k0, af, h1, h2, h3, h4, h5, h6⟩ | ⟨h1, _⟩ | ⟨h1, _⟩
      · rw [hidx] at h1; cases h1
        have hkok : SlotOk hd.headerType.algorithm k := hk.ok hC h5 (by simp) (by simp)
        have hset : ks.set b.length k = b ++ k :: af := by rw [h2]; simp
        rw [hset] at he
        have hall : ∀ x ∈ b ++ k :: af, SlotOk hd.headerType.algorithm x := by
          intro x hx
          rw [List.mem_append, List.mem_cons] at hx
          rcases hx with hx | rfl | hx
          · exact hks.2 x (by rw [h2]; simp [hx])
          · exact hkok
          · exact hks.2 x (by rw [h2]; simp [hx])
        have hlen : (b ++ k :: af).length ≤ 4 := by have := hks.1; rw [h2] at this; simpa using this
        rw [he] at hok
        rcases store_cases (h := req.handle) (w := w1.draw (16 + nonceLength hd.headerType.algorithm .memoryMode)) hf.v5 hlen hsz.1 hall with
          ⟨w2, j, hst, hj, hc, hns⟩ | ⟨e, w2, hst, _⟩
        · rw [hst] at hok; cases hok
          refine ⟨b, k0, af, mk, k, j, h2, h3, h4, h6, hk, hkok, hj, ?_, ?_⟩
          · intro h; exact hns (h.of_suffix hsh)
          · refine stored_content hc1 hc (bytesV5_length hsz.1 hlen hall) hj ?_
            have := hf.header.size; rw [hf.v5] at this; exact this
        · rw [hst] at hok; simp at hok
      · rw [hidx] at h1; simp at h1
      · rw [hidx] at h1; simp at h1
  · have : change C req w = (.err e, w1) := by unfold change; rw [Prog.bind_err hload]
    rw [this] at hok; simp at hok

/-- What a successful `delete` did. -/
theorem delete_effect {C : Crypto} (hC : C.Lawful) {h : Nat} {pw : Bytes} {w w' : World} {hd : Header} {ks : List Keyslot} {aad : Bytes}
    (hf : KeyFile (w.rest h) hd ks aad) (hok : delete C h pw w = (.ok (), w')) :
    ∃ before k0 after mk j, ks = before ++ k0 :: after ∧ Opens C hd.headerType.algorithm pw k0 mk ∧
      OpensNone C hd.headerType.algorithm pw before ∧ mk ≠ List.replicate 32 0 ∧
      j ≤ 416 ∧ (NoShort w.sched → j = 416) ∧
      HeaderReplaced h w w' ((bytesV5 hd.headerType hd.nonce (before ++ after)).take j ++ (w.rest h).drop j) := by
  have hsz := isHeader_sized hf.header
  have hks := hsz.2 ks hf.slots
  rcases load_cases h w with ⟨hd', aad', ks', w1, hload, hi, hv, hk, hc1, hsh⟩ | ⟨e, w1, p, hload, _⟩
  · obtain ⟨rfl, rfl⟩ := isHeader_unique hf.header hi
    rw [hf.slots] at hk; cases hk
    rcases delete_loaded hC (pw := pw) hload hks.2 with ⟨e, he, _⟩ | ⟨mk, i, hidx, he⟩
    · rw [he] at hok; simp at hok
    · rcases withIndex_cases hC pw hks.2 with ⟨mk', b, k0, af, h1, h2, h3, h4, h5, h6⟩ | ⟨h1, _⟩ | ⟨h1, _⟩
      · rw [hidx] at h1; cases h1
        have hset : ks.eraseIdx b.length = b ++ af := by
          rw [h2, List.eraseIdx_append_of_length_le (Nat.le_refl _)]; simp
        rw [hset] at he
        have hall : ∀ x ∈ b ++ af, SlotOk hd.headerType.algorithm x := by
          intro x hx
          rcases List.mem_append.1 hx with hx | hx
          · exact hks.2 x (by rw [h2]; simp [hx])
          · exact hks.2 x (by rw [h2]; simp [hx])
        have hlen : (b ++ af).length ≤ 4 := by have := hks.1; rw [h2] at this; simp at this ⊢; omega
        rw [he] at hok
        rcases store_cases (h := h) (w := w1) hf.v5 hlen hsz.1 hall with ⟨w2, j, hst, hj, hc, hns⟩ | ⟨e, w2, hst, _⟩
        · rw [hst] at hok; cases hok
          refine ⟨b, k0, af, mk, j, h2, h3, h4, h6, hj, ?_, ?_⟩
          · intro h; exact hns (h.of_suffix hsh)
          · refine stored_content (n := 0) hc1 hc (bytesV5_length hsz.1 hlen hall) hj ?_
            have := hf.header.size; rw [hf.v5] at this; exact this
        · rw [hst] at hok; simp at hok
      · rw [hidx] at h1; simp at h1
      · rw [hidx] at h1; simp at h1
  · have : delete C h pw w = (.err e, w1) := by unfold delete; rw [Prog.bind_err hload]
    rw [this] at hok; simp at hok

/-! ### Failing operations, for every schedule -/

/-- A run that returned and, if it failed, changed no file. -/
def SafeRun {α : Type} (w : World) (x : Res Error α × World) : Prop :=
  (∃ a w', x = (.ok a, w')) ∨ (∃ e w', x = (.err e, w') ∧ w'.file = w.file ∧ w'.dir = w.dir)

theorem store_safe {h : Nat} {w w0 : World} {hd : Header} {ks : List Keyslot} (hv : hd.headerType.version = .v5)
    (hl : ks.length ≤ 4) (hn : hd.nonce.length = nonceLength hd.headerType.algorithm hd.headerType.mode)
    (hs : ∀ k ∈ ks, SlotOk hd.headerType.algorithm k) (hf : w.file = w0.file) (hdir : w.dir = w0.dir) :
    SafeRun w0 (store h hd ks w) := by
  rcases store_cases (h := h) (w := w) hv hl hn hs with ⟨w', j, he, _⟩ | ⟨e, w', he, hc⟩
  · exact .inl ⟨_, w', he⟩
  · exact .inr ⟨e, w', he, (World.file_of_core hc).trans hf, (World.dir_of_core hc).trans hdir⟩

theorem add_safe {C : Crypto} (hC : C.Lawful) (req : NewKeyRequest) (w : World) : SafeRun w (add C req w) := by
  rcases load_cases req.handle w with ⟨hd, aad, ks, w1, hload, hi, hv, hk, hc1, hsh⟩ | ⟨e, w1, p, hload, hc⟩
  · have hsz := isHeader_sized hi
    have hks := hsz.2 ks hk
    have f1 := World.file_of_core hc1
    have d1 := World.dir_of_core hc1
    rcases add_loaded hC hload hks.2 with ⟨e, he, _⟩ | ⟨mk, i, hidx, ⟨_, he⟩ | ⟨hne, ⟨e, n, he, _⟩ | ⟨k, hk, he⟩⟩⟩
    · exact .inr ⟨_, _, he, f1, d1⟩
    · exact .inr ⟨_, _, he, f1, d1⟩
    · exact .inr ⟨_, _, he, f1, d1⟩
    · rw [he]
      rcases withIndex_cases hC req.rawKeyOld hks.2 with ⟨mk', b, k0, af, h1, h2, h3, h4, h5, h6⟩ | ⟨h1, _⟩ | ⟨h1, _⟩
      · rw [hidx] at h1; cases h1
        refine store_safe hv (by simp; have := hks.1; omega) hsz.1 ?_ f1 d1
        intro x hx
        rcases List.mem_append.1 hx with hx | hx
        · exact hks.2 x hx
        · rw [List.mem_singleton.1 hx]; exact hk.ok hC h5 (by simp) (by simp)
      · rw [hidx] at h1; simp at h1
      · rw [hidx] at h1; simp at h1
  · have : add C req w = (.err e, w1) := by unfold add; rw [Prog.bind_err hload]
    exact .inr ⟨_, _, this, (World.file_of_core hc).trans rfl, (World.dir_of_core hc).trans rfl⟩

theorem change_safe {C : Crypto} (hC : C.Lawful) (req : NewKeyRequest) (w : World) : SafeRun w (change C req w) := by
  rcases load_cases req.handle w with ⟨hd, aad, ks, w1, hload, hi, hv, hk, hc1, hsh⟩ | ⟨e, w1, p, hload, hc⟩
  · have hsz := isHeader_sized hi
    have hks := hsz.2 ks hk
    have f1 := World.file_of_core hc1
    have d1 := World.dir_of_core hc1
    rcases change_loaded hC hload hks.2 with ⟨e, he, _⟩ | ⟨mk, i, hidx, ⟨e, n, he, _⟩ | ⟨k, hk, he⟩⟩
    · exact .inr ⟨_, _, he, f1, d1⟩
    · exact .inr ⟨_, _, he, f1, d1⟩
    · rw [he]
      rcases withIndex_cases hC req.rawKeyOld hks.2 with ⟨mk', b, k0, af, h1, h2, h3, h4, h5, h6⟩ | ⟨h1, _⟩ | ⟨h1, _⟩
      · rw [hidx] at h1; cases h1
        refine store_safe hv (by simp; exact hks.1) hsz.1 ?_ f1 d1
        intro x hx
        rcases List.mem_or_eq_of_mem_set hx with hx | rfl
        · exact hks.2 x hx
        · exact hk.ok hC h5 (by simp) (by simp)
      · rw [hidx] at h1; simp at h1
      · rw [hidx] at h1; simp at h1
  · have : change C req w = (.err e, w1) := by unfold change; rw [Prog.bind_err hload]
    exact .inr ⟨_, _, this, (World.file_of_core hc).trans rfl, (World.dir_of_core hc).trans rfl⟩

theorem delete_safe {C : Crypto} (hC : C.Lawful) (h : Nat) (pw : Bytes) (w : World) : SafeRun w (delete C h pw w) := by
  rcases load_cases h w with ⟨hd, aad, ks, w1, hload, hi, hv, hk, hc1, hsh⟩ | ⟨e, w1, p, hload, hc⟩
  · have hsz := isHeader_sized hi
    have hks := hsz.2 ks hk
    have f1 := World.file_of_core hc1
    have d1 := World.dir_of_core hc1
    rcases delete_loaded hC (pw := pw) hload hks.2 with ⟨e, he, _⟩ | ⟨mk, i, hidx, he⟩
    · exact .inr ⟨_, _, he, f1, d1⟩
    · rw [he]
      refine store_safe hv ?_ hsz.1 (fun x hx => hks.2 x (List.mem_of_mem_eraseIdx hx)) f1 d1
      have := List.length_eraseIdx_le ks i
      have := hks.1; omega
  · have : delete C h pw w = (.err e, w1) := by unfold delete; rw [Prog.bind_err hload]
    exact .inr ⟨_, _, this, (World.file_of_core hc).trans rfl, (World.dir_of_core hc).trans rfl⟩

theorem verify_safe {C : Crypto} (hC : C.Lawful) (h : Nat) (pw : Bytes) (w : World) :
    ∃ r w', verify C h pw w = (r, w') ∧ (r = .ok () ∨ ∃ e, r = .err e) ∧ w'.file = w.file ∧ w'.dir = w.dir := by
  rcases verify_cases (C := C) h pw w with ⟨hd, aad, ks, w', p, hi, hv, hk, hc, he⟩ | ⟨e, w', p, he, hc⟩
  · refine ⟨_, w', he, ?_, (World.file_of_core hc).trans rfl, (World.dir_of_core hc).trans rfl⟩
    have hks := (isHeader_sized hi).2 ks hk
    rcases withIndex_cases hC pw hks.2 with ⟨mk', b, k0, af, h1, h2, h3, h4, h5, h6⟩ | ⟨h1, _⟩ | ⟨h1, _⟩
    · rw [h1]; exact .inl rfl
    · rw [h1]; exact .inr ⟨_, rfl⟩
    · rw [h1]; exact .inr ⟨_, rfl⟩
  · exact ⟨_, w', he, .inr ⟨e, rfl⟩, (World.file_of_core hc).trans rfl, (World.dir_of_core hc).trans rfl⟩

/-! ### Runs without faults -/

theorem withIndex_found {C : Crypto} (hC : C.Lawful) {a : Algorithm} {pw mk : Bytes} {ks before after : List Keyslot} {k0 : Keyslot}
    (hk : ∀ k ∈ ks, SlotOk a k) (hw : HashWorks C pw ks) (hsp : ks = before ++ k0 :: after) (ho : Opens C a pw k0 mk)
    (hb : OpensNone C a pw before) (hmk : mk ≠ List.replicate 32 0) :
    decryptV5MasterKeyWithIndex C ks pw a = .ok (mk, before.length) := by
  have key : ∀ b' k' a' m', ks = b' ++ k' :: a' → Opens C a pw k' m' → OpensNone C a pw b' → b' = before ∧ k' = k0 := by
    intro b' k' a' m' e o n
    have := first_split_unique (P := fun k => ∃ m, Opens C a pw k m) (e.symm.trans hsp) ⟨_, o⟩ ⟨_, ho⟩
      (by rintro y hy ⟨m, hm⟩; exact n y hy m hm) (by rintro y hy ⟨m, hm⟩; exact hb y hy m hm)
    exact ⟨this.1, this.2.1⟩
  rcases withIndex_cases hC pw hk with ⟨mk', b, k', af, h1, h2, h3, h4, h5, h6⟩ | ⟨h1, h2 | ⟨b, k', af, h2, h3, h4⟩⟩ | ⟨h1, k', h2, h3⟩
  · obtain ⟨rfl, rfl⟩ := key _ _ _ _ h2 h3 h4
    rw [h1, h3.unique ho]
  · exact absurd ho (h2 k0 (by rw [hsp]; simp) _)
  · obtain ⟨rfl, rfl⟩ := key _ _ _ _ h2 h3 h4
    exact absurd (ho.unique h3) hmk
  · obtain ⟨hk', hh⟩ := hw k' h2
    exact absurd hh (h3 _)

theorem withIndex_none {C : Crypto} (hC : C.Lawful) {a : Algorithm} {pw : Bytes} {ks : List Keyslot}
    (hk : ∀ k ∈ ks, SlotOk a k) (hw : HashWorks C pw ks) (hb : OpensNone C a pw ks) :
    decryptV5MasterKeyWithIndex C ks pw a = .err .incorrectKey := by
  rcases withIndex_cases hC pw hk with ⟨mk', b, k', af, h1, h2, h3, h4, h5, h6⟩ | ⟨h1, _⟩ | ⟨h1, k', h2, h3⟩
  · exact absurd h3 (hb k' (by rw [h2]; simp) _)
  · exact h1
  · obtain ⟨hk', hh⟩ := hw k' h2
    exact absurd hh (h3 _)

theorem add_nil {C : Crypto} (hC : C.Lawful) {req : NewKeyRequest} {w : World} {hd : Header} {ks before after : List Keyslot} {k0 : Keyslot}
    {aad mk : Bytes} (hs : w.sched = []) (hf : KeyFile (w.rest req.handle) hd ks aad) (hw : HashWorks C req.rawKeyOld ks)
    (hsp : ks = before ++ k0 :: after) (ho : Opens C hd.headerType.algorithm req.rawKeyOld k0 mk)
    (hb : OpensNone C hd.headerType.algorithm req.rawKeyOld before) (hmk : mk ≠ List.replicate 32 0) (h4 : ks.length ≠ 4)
    {hk ek : Bytes} (hh : HashesTo C req.hashAlgorithm req.rawKeyNew (tape w 0 16) hk)
    (he : C.enc hd.headerType.algorithm hk (tape w 16 (nonceLength hd.headerType.algorithm .memoryMode)) [] mk = some ek) :
    ∃ k, SealedSlot C hd.headerType.algorithm mk req.rawKeyNew req.hashAlgorithm (tape w 0 16)
        (tape w 16 (nonceLength hd.headerType.algorithm .memoryMode)) k ∧
      add C req w = (.ok (), (w.draw (16 + nonceLength hd.headerType.algorithm .memoryMode)).put req.handle
        (bytesV5 hd.headerType hd.nonce (ks ++ [k]))) := by
  have hsz := isHeader_sized hf.header
  have hks := hsz.2 ks hf.slots
  have hidx := withIndex_found hC hks.2 hw hsp ho hb hmk
  rcases add_loaded hC (load_nil hs hf.header hf.v5 hf.slots) hks.2 with ⟨e, _, h1⟩ | ⟨mk', i, h1, ⟨h, _⟩ | ⟨hne, ⟨e, n, _, hno⟩ | ⟨k, hk', hrun⟩⟩⟩
  · rw [hidx] at h1; simp at h1
  · exact absurd h h4
  · rw [hidx] at h1; cases h1
    exact absurd ⟨rfl, rfl, rfl, hk, hh, he⟩ (hno ⟨req.hashAlgorithm, ek, tape w 16 (nonceLength hd.headerType.algorithm .memoryMode), tape w 0 16⟩).1
  · rw [hidx] at h1; cases h1
    refine ⟨k, hk', ?_⟩
    rw [hrun]
    exact store_nil (w := w.draw _) hs hf.v5 (by rw [List.length_append, List.length_singleton]; have := hks.1; omega)

theorem change_nil {C : Crypto} (hC : C.Lawful) {req : NewKeyRequest} {w : World} {hd : Header} {ks before after : List Keyslot} {k0 : Keyslot}
    {aad mk : Bytes} (hs : w.sched = []) (hf : KeyFile (w.rest req.handle) hd ks aad) (hw : HashWorks C req.rawKeyOld ks)
    (hsp : ks = before ++ k0 :: after) (ho : Opens C hd.headerType.algorithm req.rawKeyOld k0 mk)
    (hb : OpensNone C hd.headerType.algorithm req.rawKeyOld before) (hmk : mk ≠ List.replicate 32 0)
    {hk ek : Bytes} (hh : HashesTo C req.hashAlgorithm req.rawKeyNew (tape w 0 16) hk)
    (he : C.enc hd.headerType.algorithm hk (tape w 16 (nonceLength hd.headerType.algorithm .memoryMode)) [] mk = some ek) :
    ∃ k, SealedSlot C hd.headerType.algorithm mk req.rawKeyNew req.hashAlgorithm (tape w 0 16)
        (tape w 16 (nonceLength hd.headerType.algorithm .memoryMode)) k ∧
      change C req w = (.ok (), (w.draw (16 + nonceLength hd.headerType.algorithm .memoryMode)).put req.handle
        (bytesV5 hd.headerType hd.nonce (before ++ k :: after))) := by
  have hsz := isHeader_sized hf.header
  have hks := hsz.2 ks hf.slots
  have hidx := withIndex_found hC hks.2 hw hsp ho hb hmk
  rcases change_loaded hC (load_nil hs hf.header hf.v5 hf.slots) hks.2 with ⟨e, _, h1⟩ | ⟨mk', i, h1, ⟨e, n, _, hno⟩ | ⟨k, hk', hrun⟩⟩
  · rw [hidx] at h1; simp at h1
  · rw [hidx] at h1; cases h1
    exact absurd ⟨rfl, rfl, rfl, hk, hh, he⟩ (hno ⟨req.hashAlgorithm, ek, tape w 16 (nonceLength hd.headerType.algorithm .memoryMode), tape w 0 16⟩).1
  · rw [hidx] at h1; cases h1
    refine ⟨k, hk', ?_⟩
    rw [hrun]
    refine (store_nil (w := w.draw _) hs hf.v5 (by rw [List.length_set]; exact hks.1)).trans ?_
    rw [hsp]; simp

theorem delete_nil {C : Crypto} (hC : C.Lawful) {h : Nat} {pw : Bytes} {w : World} {hd : Header} {ks before after : List Keyslot} {k0 : Keyslot}
    {aad mk : Bytes} (hs : w.sched = []) (hf : KeyFile (w.rest h) hd ks aad) (hw : HashWorks C pw ks)
    (hsp : ks = before ++ k0 :: after) (ho : Opens C hd.headerType.algorithm pw k0 mk)
    (hb : OpensNone C hd.headerType.algorithm pw before) (hmk : mk ≠ List.replicate 32 0) :
    delete C h pw w = (.ok (), w.put h (bytesV5 hd.headerType hd.nonce (before ++ after))) := by
  have hsz := isHeader_sized hf.header
  have hks := hsz.2 ks hf.slots
  have hidx := withIndex_found hC hks.2 hw hsp ho hb hmk
  rcases delete_loaded hC (load_nil hs hf.header hf.v5 hf.slots) hks.2 with ⟨e, _, h1⟩ | ⟨mk', i, h1, hrun⟩
  · rw [hidx] at h1; simp at h1
  · rw [hidx] at h1; cases h1
    have := hks.1
    rw [hrun, store_nil hs hf.v5 (by rw [hsp] at this ⊢; rw [List.eraseIdx_append_of_length_le (Nat.le_refl _)]; simp at this ⊢; omega)]
    rw [hsp, List.eraseIdx_append_of_length_le (Nat.le_refl _)]; simp

theorem verify_nil {C : Crypto} {h : Nat} {pw : Bytes} {w : World} {hd : Header} {ks : List Keyslot}
    {aad : Bytes} (hs : w.sched = []) (hi : IsHeader (w.rest h) hd aad) (hv : hd.headerType.version = .v5) (hk : hd.keyslots = some ks) :
    verify C h pw w = ((decryptV5MasterKeyWithIndex C ks pw hd.headerType.algorithm).bind fun _ => .ok (), w.adv h 416) := by
  unfold verify
  rw [Prog.bind_ok (Prog.mapErr_ok (deserialize_isHeader hs hi))]
  simp only
  rw [if_neg (by simp [hv, HeaderVersion.rank])]
  simp only [hk, hv]
  rw [Prog.bind_run]
  simp only [Prog.lift_run]
  cases decryptV5MasterKeyWithIndex C ks pw hd.headerType.algorithm <;> rfl

end Volaris
