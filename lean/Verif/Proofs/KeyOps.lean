import Verif.Proofs.EndToEnd
import Verif.Spec.KeyFiles
namespace Volaris
open Spec KeyOps

/-! ### The key search -/

theorem searchKeyslots_cases {C : Crypto} (hC : C.Lawful) {a : Algorithm} (pw : Bytes) {ks : List Keyslot}
    (hk : ∀ k ∈ ks, SlotOk a k) (i : Nat) :
    (∃ mk before k after, searchKeyslots C pw a i ks = .ok (some (mk, i + before.length)) ∧ ks = before ++ k :: after ∧
      Opens C a pw k mk ∧ (∀ k' ∈ before, ∀ m, ¬ Opens C a pw k' m) ∧ mk.length = 32) ∨
    (searchKeyslots C pw a i ks = .ok none ∧ ∀ k ∈ ks, ∀ m, ¬ Opens C a pw k m) ∨
    (searchKeyslots C pw a i ks = .err .keyHash ∧ ∃ k ∈ ks, ∀ hk, ¬ HashesTo C k.hashAlgorithm pw k.salt hk) := by
  induction ks generalizing i with
  | nil => exact .inr (.inl ⟨rfl, by simp⟩)
  | cons k ks ih =>
    have hs := hk k (by simp)
    unfold searchKeyslots
    cases hh : k.hashAlgorithm.hash C pw k.salt with
    | abort x => exact absurd hh (hash_returns C _ _ _ x)
    | err e =>
      refine .inr (.inr ⟨rfl, k, by simp, ?_⟩)
      intro hk' h1
      rw [hash_ok.2 h1] at hh; simp at hh
    | ok hk' =>
      have hto := hash_ok.1 hh
      have hl := hto.len hC
      simp only [Res.bind_ok, Cipher.initialize, hl, if_true, Res.mapErr_ok, Cipher.decrypt,
        hs.nonce, getNonceLen_eq, ne_eq, not_true, if_false]
      cases hd : C.dec a hk' k.nonce [] k.encryptedKey with
      | some mk =>
        have ho : Opens C a pw k mk := ⟨hk', hto, hd⟩
        refine .inl ⟨mk, [], k, ks, ?_, rfl, ho, by simp, ho.len hC hs⟩
        simp only [Res.ofOption_some]
        rw [vecToArr_id (n := MASTER_KEY_LEN) (ho.len hC hs)]
        simp
      | none =>
        have hno : ∀ m, ¬ Opens C a pw k m := by
          rintro m ⟨hk2, h1, d⟩
          rw [hto.unique h1, d] at hd; simp at hd
        simp only [Res.ofOption_none]
        rcases ih (fun x hx => hk x (by simp [hx])) (i + 1) with ⟨mk, b, k', af, h1, rfl, h3, h4, h5⟩ | ⟨h1, h2⟩ | ⟨h1, k', hk1, h2⟩
        · refine .inl ⟨mk, k :: b, k', af, ?_, rfl, h3, ?_, h5⟩
          · rw [h1]; simp; omega
          · intro x hx
            rcases List.mem_cons.1 hx with rfl | hx
            · exact hno
            · exact h4 x hx
        · refine .inr (.inl ⟨h1, ?_⟩)
          intro x hx
          rcases List.mem_cons.1 hx with rfl | hx
          · exact hno
          · exact h2 x hx
        · exact .inr (.inr ⟨h1, k', by simp [hk1], h2⟩)

/-- The search of the key operations: the first slot that opens, unless it holds the all-zero key. -/
theorem withIndex_cases {C : Crypto} (hC : C.Lawful) {a : Algorithm} (pw : Bytes) {ks : List Keyslot}
    (hk : ∀ k ∈ ks, SlotOk a k) :
    (∃ mk before k after, decryptV5MasterKeyWithIndex C ks pw a = .ok (mk, before.length) ∧ ks = before ++ k :: after ∧
      Opens C a pw k mk ∧ (∀ k' ∈ before, ∀ m, ¬ Opens C a pw k' m) ∧ mk.length = 32 ∧ mk ≠ List.replicate 32 0) ∨
    (decryptV5MasterKeyWithIndex C ks pw a = .err .incorrectKey ∧
      ((∀ k ∈ ks, ∀ m, ¬ Opens C a pw k m) ∨
       ∃ before k after, ks = before ++ k :: after ∧ Opens C a pw k (List.replicate 32 0) ∧
         ∀ k' ∈ before, ∀ m, ¬ Opens C a pw k' m)) ∨
    (decryptV5MasterKeyWithIndex C ks pw a = .err .keyHash ∧ ∃ k ∈ ks, ∀ hk, ¬ HashesTo C k.hashAlgorithm pw k.salt hk) := by
  unfold decryptV5MasterKeyWithIndex
  rcases searchKeyslots_cases hC pw hk 0 with ⟨mk, b, k', af, h1, h2, h3, h4, h5⟩ | ⟨h1, h2⟩ | ⟨h1, h2⟩
  · rw [h1]
    simp only [Res.bind_ok, Option.getD_some, Nat.zero_add]
    by_cases hz : mk = zeros MASTER_KEY_LEN
    · refine .inr (.inl ⟨by rw [if_pos hz], .inr ⟨b, k', af, h2, ?_, h4⟩⟩)
      rw [hz] at h3; exact h3
    · exact .inl ⟨mk, b, k', af, by rw [if_neg hz], h2, h3, h4, h5, hz⟩
  · rw [h1]
    exact .inr (.inl ⟨by simp [Option.getD_none], .inl h2⟩)
  · rw [h1]
    exact .inr (.inr ⟨rfl, h2⟩)

/-! ### Reading and writing the header in place -/

theorem load_cases (h : Nat) (w : World) :
    (∃ hd aad ks w', load h w = (.ok (hd, ks), w') ∧ IsHeader (w.rest h) hd aad ∧ hd.headerType.version = .v5 ∧
      hd.keyslots = some ks ∧ w'.core = w.core ∧ w'.sched <:+ w.sched) ∨
    (∃ e w' p, load h w = (.err e, w') ∧ w'.core = (w.setPos h p).core) := by
  unfold load
  rcases deserialize_cases h w with ⟨hd, aad, w1, he, hi, hc⟩ | ⟨e, w1, p, he, hc⟩
  · have hsh := Shrinks.deserialize h w
    rw [he] at hsh
    rw [Prog.bind_ok (Prog.mapErr_ok he)]
    simp only
    by_cases hv : hd.headerType.version = .v5
    · rw [hv] at hc
      have hk := hi.fields
      simp only [hv] at hk
      obtain ⟨_, ⟨ks, hks, _⟩, _⟩ := hk
      rw [if_neg (by simp [hv, HeaderVersion.rank])]
      have hsz : (hd.getSize : Int) = 416 := by simp [Header.getSize, size_eq, hv, headerSize]
      rw [hsz]
      have hpos : (w1.fd h).pos = (w.fd h).pos + 416 := by
        rw [World.fd_of_core hc]; simp [World.adv, World.setPos, headerSize]
      rcases seekCur_spec h (-416) w1 with ⟨w2, he2, _, hc2⟩ | ⟨e, w2, he2, hc2⟩
      · left
        have hsh2 := Shrinks.seekCur h (-416) w1
        rw [he2] at hsh2
        rw [Prog.bind_ok (Prog.mapErr_ok he2)]
        simp only [hks]
        refine ⟨hd, aad, ks, w2, rfl, hi, hv, hks, ?_, hsh2.trans hsh⟩
        have e1 : ((w1.fd h).pos : Int) + (-416) = ((w.fd h).pos : Int) := by rw [hpos]; omega
        rw [hc2, e1, Int.toNat_natCast, World.setPos_core, hc, ← World.setPos_core]
        congr 1
        simp only [World.adv, World.setPos_setPos]
        exact World.setPos_self w h
      · right
        rw [Prog.bind_err (Prog.mapErr_err he2)]
        exact ⟨_, w2, _, rfl, by rw [hc2, hc]; rfl⟩
    · right
      rw [if_pos (by revert hv; cases hd.headerType.version <;> simp [HeaderVersion.rank])]
      exact ⟨_, w1, _, rfl, by rw [hc]; rfl⟩
  · right
    rw [Prog.bind_err (Prog.mapErr_err he)]
    exact ⟨_, w1, p, rfl, hc⟩

theorem load_nil {h : Nat} {w : World} (hs : w.sched = []) {hd : Header} {aad : Bytes} {ks : List Keyslot}
    (hi : IsHeader (w.rest h) hd aad) (hv : hd.headerType.version = .v5) (hk : hd.keyslots = some ks) :
    load h w = (.ok (hd, ks), w) := by
  unfold load
  rw [Prog.bind_ok (Prog.mapErr_ok (deserialize_isHeader hs hi))]
  simp only
  rw [if_neg (by simp [hv, HeaderVersion.rank])]
  have hsz : (hd.getSize : Int) = 416 := by simp [Header.getSize, size_eq, hv, headerSize]
  have hpos : ((w.adv h (headerSize hd.headerType.version)).fd h).pos = (w.fd h).pos + 416 := by
    rw [hv]; simp [World.adv, World.setPos, headerSize]
  have hseek : seekCur h (-416) (w.adv h (headerSize hd.headerType.version)) = (.ok (), w) := by
    rw [seekCur_nil (by exact hs), hpos, if_neg (by omega)]
    have e1 : (((w.fd h).pos + 416 : Nat) : Int) + (-416) = ((w.fd h).pos : Int) := by omega
    rw [e1, Int.toNat_natCast]
    simp only [World.adv, World.setPos_setPos]
    rw [World.setPos_self]
  rw [hsz, Prog.bind_ok (Prog.mapErr_ok hseek)]
  simp only [hk]
  rfl

/-- Writing the new keyslots: one `write` call, so possibly only a part of the header. -/
theorem store_cases {h : Nat} {w : World} {hd : Header} {ks : List Keyslot} (hv : hd.headerType.version = .v5)
    (hl : ks.length ≤ 4) (hn : hd.nonce.length = nonceLength hd.headerType.algorithm hd.headerType.mode)
    (hs : ∀ k ∈ ks, SlotOk hd.headerType.algorithm k) :
    (∃ w' j, store h hd ks w = (.ok (), w') ∧ j ≤ 416 ∧
      w'.core = (w.put h ((bytesV5 hd.headerType hd.nonce ks).take j)).core ∧ (NoShort w.sched → j = 416)) ∨
    (∃ e w', store h hd ks w = (.err e, w') ∧ w'.core = w.core) := by
  have hlen := bytesV5_length hn hl hs
  unfold store Header.write
  rw [serialize_v5 (h := { hd with keyslots := some ks }) hv rfl hl]
  rw [Prog.mapErr_run, Prog.bind_run]
  simp only [Prog.lift_run]
  rw [Prog.bind_run, Prog.mapErr_run]
  have hws := write_spec h (bytesV5 hd.headerType hd.nonce ks) w
  rcases hws with ⟨k, w', he, hc⟩ | ⟨e, w', he, hc⟩
  · left
    rw [he]
    refine ⟨w', ?_⟩
    by_cases hns : NoShort w.sched
    · refine ⟨416, rfl, Nat.le_refl _, ?_, fun _ => rfl⟩
      rw [List.take_of_length_le (by omega)]
      exact write_noShort hns he
    · refine ⟨min k 416, rfl, Nat.min_le_right _ _, ?_, fun h => absurd h hns⟩
      rw [hc]
      congr 2
      rw [← hlen, ← List.take_eq_take_min]
  · right
    rw [he]
    exact ⟨_, w', rfl, hc⟩

theorem store_nil {h : Nat} {w : World} {hd : Header} {ks : List Keyslot} (hsc : w.sched = []) (hv : hd.headerType.version = .v5)
    (hl : ks.length ≤ 4) :
    store h hd ks w = (.ok (), w.put h (bytesV5 hd.headerType hd.nonce ks)) := by
  unfold store Header.write
  rw [serialize_v5 (h := { hd with keyslots := some ks }) hv rfl hl]
  rw [Prog.mapErr_run, Prog.bind_run]
  simp only [Prog.lift_run]
  rw [Prog.bind_run, Prog.mapErr_run, write_nil hsc]
  rfl

/-! ### The new keyslot -/

theorem Spec.SealedSlot.opens {C : Crypto} (hC : C.Lawful) {a : Algorithm} {mk pw : Bytes} {h : HashingAlgorithm} {salt nonce : Bytes} {k : Keyslot}
    (hk : SealedSlot C a mk pw h salt nonce k) : Opens C a pw k mk := by
  obtain ⟨key, h1, h2⟩ := hk.sealed
  refine ⟨key, ?_, ?_⟩
  · rw [hk.alg, hk.saltEq]; exact h1
  · rw [hk.nonceEq]; exact hC.dec_enc _ _ _ _ _ _ h2

theorem Spec.SealedSlot.ok {C : Crypto} (hC : C.Lawful) {a : Algorithm} {mk pw : Bytes} {h : HashingAlgorithm} {salt nonce : Bytes} {k : Keyslot}
    (hk : SealedSlot C a mk pw h salt nonce k) (hm : mk.length = 32) (hs : salt.length = 16)
    (hn : nonce.length = nonceLength a .memoryMode) : SlotOk a k := by
  obtain ⟨key, ⟨f, hf, _⟩, h2⟩ := hk.sealed
  refine ⟨?_, by rw [hk.nonceEq, hn], by rw [hk.saltEq, hs], by rw [hk.alg]; exact kdfParams_mem.2 ⟨f, hf⟩⟩
  have := hC.enc_len _ _ _ _ _ _ h2
  omega

theorem encryptMasterKey_cases {C : Crypto} (hC : C.Lawful) {a : Algorithm} {mk hk nonce : Bytes} (hm : mk.length = 32)
    (hl : hk.length = 32) (hn : nonce.length = nonceLength a .memoryMode) :
    (∃ ek, encryptMasterKey C mk hk nonce a = .ok ek ∧ C.enc a hk nonce [] mk = some ek) ∨
    (encryptMasterKey C mk hk nonce a = .err .masterKeyEncrypt ∧ C.enc a hk nonce [] mk = none) := by
  unfold encryptMasterKey
  simp only [Cipher.initialize, hl, if_true, Res.mapErr_ok, Res.bind_ok, Cipher.encrypt, hn, getNonceLen_eq, ne_eq, not_true, if_false]
  cases he : C.enc a hk nonce [] mk with
  | none => exact .inr ⟨rfl, rfl⟩
  | some ek =>
    refine .inl ⟨ek, ?_, rfl⟩
    simp only [Res.ofOption_some, Res.mapErr_ok, Res.bind_ok, Res.pure_eq]
    rw [vecToArr_id (n := ENCRYPTED_MASTER_KEY_LEN)]
    rw [hC.enc_len _ _ _ _ _ _ he, hm]; rfl

/-! ### The operations, after the header was loaded -/

/-- `add` from the loaded header on. -/
theorem add_loaded {C : Crypto} (hC : C.Lawful) {req : NewKeyRequest} {w w1 : World} {hd : Header} {ks : List Keyslot}
    (hload : load req.handle w = (.ok (hd, ks), w1)) (hk : ∀ k ∈ ks, SlotOk hd.headerType.algorithm k) :
    (∃ e, add C req w = (.err e, w1) ∧ decryptV5MasterKeyWithIndex C ks req.rawKeyOld hd.headerType.algorithm = .err e) ∨
    (∃ mk i, decryptV5MasterKeyWithIndex C ks req.rawKeyOld hd.headerType.algorithm = .ok (mk, i) ∧
      ((ks.length = 4 ∧ add C req w = (.err .tooManyKeyslots, w1)) ∨
       (ks.length ≠ 4 ∧ ((∃ e n, add C req w = (.err e, w1.draw n) ∧
          ∀ k, ¬ SealedSlot C hd.headerType.algorithm mk req.rawKeyNew req.hashAlgorithm (tape w1 0 16)
            (tape w1 16 (nonceLength hd.headerType.algorithm .memoryMode)) k ∧
          ((∀ hk, ¬ HashesTo C req.hashAlgorithm req.rawKeyNew (tape w1 0 16) hk) → e = .keyHash ∧ n ≤ 16 + nonceLength hd.headerType.algorithm .memoryMode)) ∨
        (∃ k, SealedSlot C hd.headerType.algorithm mk req.rawKeyNew req.hashAlgorithm (tape w1 0 16)
            (tape w1 16 (nonceLength hd.headerType.algorithm .memoryMode)) k ∧
          add C req w = store req.handle hd (ks ++ [k])
            (w1.draw (16 + nonceLength hd.headerType.algorithm .memoryMode))))))) := by
  unfold add
  rw [Prog.bind_ok hload]
  simp only
  rw [Prog.bind_run]
  simp only [Prog.lift_run]
  rcases withIndex_cases hC req.rawKeyOld hk with ⟨mk, b, k, af, h1, h2, h3, h4, h5, h6⟩ | ⟨h1, _⟩ | ⟨h1, _⟩
  · right
    rw [h1]
    refine ⟨mk, b.length, rfl, ?_⟩
    simp only
    by_cases h4' : ks.length = 4
    · left; exact ⟨h4', by rw [if_pos h4']; rfl⟩
    · right
      refine ⟨h4', ?_⟩
      rw [if_neg h4', Prog.bind_ok (show (genSalt : Prog Error Bytes) _ = _ from genBytes_draw _ _),
        Prog.bind_ok (show (genNonce _ _ : Prog Error Bytes) _ = _ from genBytes_draw _ _)]
      simp only [getNonceLen_eq, tape_draw, World.draw_draw, show SALT_LEN = 16 from rfl, Nat.add_zero]
      rw [Prog.bind_run]
      simp only [Prog.lift_run]
      cases hh : req.hashAlgorithm.hash C req.rawKeyNew (tape w1 0 16) with
      | abort x => exact absurd hh (hash_returns C _ _ _ x)
      | err e =>
        left
        refine ⟨_, _, rfl, fun k => ⟨?_, fun _ => ⟨rfl, by omega⟩⟩⟩
        rintro ⟨_, _, _, hk', h, _⟩
        rw [hash_ok.2 h] at hh; simp at hh
      | ok hk' =>
        have hto := hash_ok.1 hh
        simp only [Res.mapErr_ok]
        rw [Prog.bind_run]
        simp only [Prog.lift_run]
        rcases encryptMasterKey_cases hC (a := hd.headerType.algorithm) (nonce := tape w1 16 (nonceLength hd.headerType.algorithm .memoryMode))
          h5 (hto.len hC) (by simp) with ⟨ek, e1, e2⟩ | ⟨e1, e2⟩
        · right
          rw [e1]
          exact ⟨_, ⟨rfl, rfl, rfl, hk', hto, e2⟩, rfl⟩
        · left
          rw [e1]
          refine ⟨_, _, rfl, fun k => ⟨?_, fun h => absurd hto (h _)⟩⟩
          rintro ⟨_, _, _, hk2, h, h2⟩
          rw [h.unique hto, e2] at h2; simp at h2
  · exact .inl ⟨_, by rw [h1], h1⟩
  · exact .inl ⟨_, by rw [h1], h1⟩

/-- `change` from the loaded header on. -/
theorem change_loaded {C : Crypto} (hC : C.Lawful) {req : NewKeyRequest} {w w1 : World} {hd : Header} {ks : List Keyslot}
    (hload : load req.handle w = (.ok (hd, ks), w1)) (hk : ∀ k ∈ ks, SlotOk hd.headerType.algorithm k) :
    (∃ e, change C req w = (.err e, w1) ∧ decryptV5MasterKeyWithIndex C ks req.rawKeyOld hd.headerType.algorithm = .err e) ∨
    (∃ mk i, decryptV5MasterKeyWithIndex C ks req.rawKeyOld hd.headerType.algorithm = .ok (mk, i) ∧
      ((∃ e n, change C req w = (.err e, w1.draw n) ∧
          ∀ k, ¬ SealedSlot C hd.headerType.algorithm mk req.rawKeyNew req.hashAlgorithm (tape w1 0 16)
            (tape w1 16 (nonceLength hd.headerType.algorithm .memoryMode)) k ∧
          ((∀ hk, ¬ HashesTo C req.hashAlgorithm req.rawKeyNew (tape w1 0 16) hk) → e = .keyHash ∧ n ≤ 16 + nonceLength hd.headerType.algorithm .memoryMode)) ∨
        (∃ k, SealedSlot C hd.headerType.algorithm mk req.rawKeyNew req.hashAlgorithm (tape w1 0 16)
            (tape w1 16 (nonceLength hd.headerType.algorithm .memoryMode)) k ∧
          change C req w = store req.handle hd (ks.set i k)
            (w1.draw (16 + nonceLength hd.headerType.algorithm .memoryMode))))) := by
  unfold change
  rw [Prog.bind_ok hload]
  simp only
  rw [Prog.bind_run]
  simp only [Prog.lift_run]
  rcases withIndex_cases hC req.rawKeyOld hk with ⟨mk, b, k, af, h1, h2, h3, h4, h5, h6⟩ | ⟨h1, _⟩ | ⟨h1, _⟩
  · right
    rw [h1]
    refine ⟨mk, b.length, rfl, ?_⟩
    simp only
    rw [Prog.bind_ok (show (genSalt : Prog Error Bytes) _ = _ from genBytes_draw _ _)]
    rw [Prog.bind_run]
    simp only [Prog.lift_run, show SALT_LEN = 16 from rfl]
    cases hh : req.hashAlgorithm.hash C req.rawKeyNew (tape w1 0 16) with
    | abort x => exact absurd hh (hash_returns C _ _ _ x)
    | err e =>
      left
      refine ⟨_, _, rfl, fun k => ⟨?_, fun _ => ⟨rfl, by omega⟩⟩⟩
      rintro ⟨_, _, _, hk', h, _⟩
      rw [hash_ok.2 h] at hh; simp at hh
    | ok hk' =>
      have hto := hash_ok.1 hh
      simp only [Res.mapErr_ok]
      rw [Prog.bind_ok (show (genNonce _ _ : Prog Error Bytes) _ = _ from genBytes_draw _ _)]
      simp only [getNonceLen_eq, tape_draw, World.draw_draw, Nat.add_zero]
      rw [Prog.bind_run]
      simp only [Prog.lift_run]
      rcases encryptMasterKey_cases hC (a := hd.headerType.algorithm) (nonce := tape w1 16 (nonceLength hd.headerType.algorithm .memoryMode))
        h5 (hto.len hC) (by simp) with ⟨ek, e1, e2⟩ | ⟨e1, e2⟩
      · right
        rw [e1]
        refine ⟨⟨req.hashAlgorithm, ek, tape w1 16 (nonceLength hd.headerType.algorithm .memoryMode), tape w1 0 16⟩,
          ⟨rfl, rfl, rfl, hk', hto, e2⟩, ?_⟩
        simp only
        rw [if_pos (by rw [h2]; simp)]
      · left
        rw [e1]
        refine ⟨_, _, rfl, fun k => ⟨?_, fun h => absurd hto (h _)⟩⟩
        rintro ⟨_, _, _, hk2, h, h2⟩
        rw [h.unique hto, e2] at h2; simp at h2
  · exact .inl ⟨_, by rw [h1], h1⟩
  · exact .inl ⟨_, by rw [h1], h1⟩

/-- `delete` from the loaded header on. -/
theorem delete_loaded {C : Crypto} (hC : C.Lawful) {h : Nat} {pw : Bytes} {w w1 : World} {hd : Header} {ks : List Keyslot}
    (hload : load h w = (.ok (hd, ks), w1)) (hk : ∀ k ∈ ks, SlotOk hd.headerType.algorithm k) :
    (∃ e, delete C h pw w = (.err e, w1) ∧ decryptV5MasterKeyWithIndex C ks pw hd.headerType.algorithm = .err e) ∨
    (∃ mk i, decryptV5MasterKeyWithIndex C ks pw hd.headerType.algorithm = .ok (mk, i) ∧
      delete C h pw w = store h hd (ks.eraseIdx i) w1) := by
  unfold delete
  rw [Prog.bind_ok hload]
  simp only
  rw [Prog.bind_run]
  simp only [Prog.lift_run]
  rcases withIndex_cases hC pw hk with ⟨mk, b, k, af, h1, h2, h3, h4, h5, h6⟩ | ⟨h1, _⟩ | ⟨h1, _⟩
  · right
    rw [h1]
    refine ⟨mk, b.length, rfl, ?_⟩
    simp only
    rw [if_pos (by rw [h2]; simp)]
  · exact .inl ⟨_, by rw [h1], h1⟩
  · exact .inl ⟨_, by rw [h1], h1⟩

/-- `verify`, completely. -/
theorem verify_cases {C : Crypto} (h : Nat) (pw : Bytes) (w : World) :
    (∃ hd aad ks w' p, IsHeader (w.rest h) hd aad ∧ hd.headerType.version = .v5 ∧ hd.keyslots = some ks ∧
      w'.core = (w.setPos h p).core ∧
      verify C h pw w = ((decryptV5MasterKeyWithIndex C ks pw hd.headerType.algorithm).bind fun _ => .ok (), w')) ∨
    (∃ e w' p, verify C h pw w = (.err e, w') ∧ w'.core = (w.setPos h p).core) := by
  unfold verify
  rcases deserialize_cases h w with ⟨hd, aad, w1, he, hi, hc⟩ | ⟨e, w1, p, he, hc⟩
  · rw [Prog.bind_ok (Prog.mapErr_ok he)]
    simp only
    by_cases hv : hd.headerType.version = .v5
    · have hk := hi.fields
      simp only [hv] at hk
      obtain ⟨_, ⟨ks, hks, _⟩, _⟩ := hk
      rw [if_neg (by simp [hv, HeaderVersion.rank])]
      left
      refine ⟨hd, aad, ks, w1, _, hi, hv, hks, hc, ?_⟩
      simp only [hks]
      rw [Prog.bind_run]
      simp only [Prog.lift_run]
      cases decryptV5MasterKeyWithIndex C ks pw hd.headerType.algorithm <;> rfl
    · right
      rw [if_pos (by revert hv; cases hd.headerType.version <;> simp [HeaderVersion.rank])]
      exact ⟨_, w1, _, rfl, by rw [hc]; rfl⟩
  · right
    rw [Prog.bind_err (Prog.mapErr_err he)]
    exact ⟨_, w1, p, rfl, hc⟩

end Volaris
