import Verif.Proofs.KeyFiles
namespace Volaris
open Spec KeyOps

/-- The invariant of a history of key commands: the keyslots of the file belong to the passwords `l`. -/
structure KeyState (C : Crypto) (t : HeaderType) (nonce aad mk body : Bytes) (U : List Bytes) (h : Nat) (l : List Bytes) (w : World) : Prop where
  sched : w.sched = []
  sub : ∀ pw ∈ l, pw ∈ U
  body : (w.data h).drop 416 = body
  file : ∃ (hd : Header) (ps : List (Bytes × Keyslot)), KeyFile (w.data h) hd (ps.map Prod.snd) aad ∧ hd.headerType = t ∧ hd.nonce = nonce ∧
    ps.map Prod.fst = l ∧
    ∀ q ∈ ps, Opens C t.algorithm q.1 q.2 mk ∧ ∀ pw ∈ U, pw ≠ q.1 → ∀ m, ¬ Opens C t.algorithm pw q.2 m

theorem World.setPos_rest_zero (w : World) (h : Nat) : (w.setPos h 0).rest h = w.data h := by
  simp [World.rest, World.data, World.setPos]

/-- The world after a write of a whole header at the start of the file. -/
theorem KeyState.stored {C : Crypto} {t : HeaderType} {nonce aad mk body : Bytes} {U : List Bytes} {h : Nat} {l l' : List Bytes} {w : World}
    (hst : KeyState C t nonce aad mk body U h l w) {ps' : List (Bytes × Keyslot)} (n : Nat)
    (hlen : ps'.length ≤ 4) (hok : ∀ q ∈ ps', SlotOk t.algorithm q.2) (hl' : ps'.map Prod.fst = l') (hsub : ∀ pw ∈ l', pw ∈ U)
    (hps : ∀ q ∈ ps', Opens C t.algorithm q.1 q.2 mk ∧ ∀ pw ∈ U, pw ≠ q.1 → ∀ m, ¬ Opens C t.algorithm pw q.2 m) :
    KeyState C t nonce aad mk body U h l' (((w.setPos h 0).draw n).put h (bytesV5 t nonce (ps'.map Prod.snd))) := by
  obtain ⟨hd, ps, hf, rfl, rfl, _, _⟩ := hst.file
  have hn := (isHeader_sized hf.header).1
  have hsl : ∀ k ∈ ps'.map Prod.snd, SlotOk hd.headerType.algorithm k := by
    intro k hk
    obtain ⟨q, hq, rfl⟩ := List.mem_map.1 hk
    exact hok q hq
  have hl4 : (ps'.map Prod.snd).length ≤ 4 := by rw [List.length_map]; exact hlen
  have hH := bytesV5_length hn hl4 hsl
  have hsize : 416 ≤ (w.data h).length := by have := hf.header.size; rw [hf.v5] at this; exact this
  have hrep := stored_content (h := h) (w := w.setPos h 0) (w1 := w.setPos h 0) (n := n) (j := 416)
    (w' := ((w.setPos h 0).draw n).put h (bytesV5 hd.headerType hd.nonce (ps'.map Prod.snd))) rfl
    (by rw [List.take_of_length_le (by omega)]) hH (Nat.le_refl _) (by rw [World.setPos_rest_zero]; exact hsize)
  rw [World.setPos_rest_zero, List.take_of_length_le (by omega)] at hrep
  have hdata : (((w.setPos h 0).draw n).put h (bytesV5 hd.headerType hd.nonce (ps'.map Prod.snd))).data h =
      bytesV5 hd.headerType hd.nonce (ps'.map Prod.snd) ++ (w.data h).drop 416 := by
    have := hrep.now
    simpa using this
  refine ⟨hst.sched, hsub, ?_, ?_⟩
  · rw [hdata, List.drop_left' hH]; exact hst.body
  · rw [hdata]
    exact ⟨_, ps', hf.written hl4 hsl _, rfl, rfl, hl', hps⟩

/-- What knowing the password list says about the slot search. -/
theorem KeyState.find {C : Crypto} {a : Algorithm} {mk : Bytes} {U : List Bytes} {ps : List (Bytes × Keyslot)} {pw : Bytes}
    (hps : ∀ q ∈ ps, Opens C a q.1 q.2 mk ∧ ∀ pw ∈ U, pw ≠ q.1 → ∀ m, ¬ Opens C a pw q.2 m) (hU : pw ∈ U)
    (hm : pw ∈ ps.map Prod.fst) :
    ∃ p1 k p2, ps = p1 ++ (pw, k) :: p2 ∧ Opens C a pw k mk ∧ OpensNone C a pw (p1.map Prod.snd) ∧ pw ∉ p1.map Prod.fst := by
  obtain ⟨q, hq, rfl⟩ := List.mem_map.1 hm
  obtain ⟨b, y, af, e, hy, hb⟩ := exists_first (P := fun x : Bytes × Keyslot => x.1 = q.1) hq rfl
  obtain ⟨y1, y2⟩ := y
  simp only at hy; subst hy
  refine ⟨b, y2, af, e, (hps (q.1, y2) (by rw [e]; simp)).1, ?_, ?_⟩
  · intro k hk m
    obtain ⟨z, hz, rfl⟩ := List.mem_map.1 hk
    exact (hps z (by rw [e]; simp [hz])).2 _ hU (fun h => hb z hz h.symm) m
  · intro h
    obtain ⟨z, hz, h⟩ := List.mem_map.1 h
    exact hb z hz h

theorem KeyState.none {C : Crypto} {a : Algorithm} {mk : Bytes} {U : List Bytes} {ps : List (Bytes × Keyslot)} {pw : Bytes}
    (hps : ∀ q ∈ ps, Opens C a q.1 q.2 mk ∧ ∀ pw ∈ U, pw ≠ q.1 → ∀ m, ¬ Opens C a pw q.2 m) (hU : pw ∈ U)
    (hm : pw ∉ ps.map Prod.fst) : OpensNone C a pw (ps.map Prod.snd) := by
  intro k hk m
  obtain ⟨z, hz, rfl⟩ := List.mem_map.1 hk
  exact (hps z hz).2 _ hU (fun h => hm (List.mem_map.2 ⟨z, hz, h.symm⟩)) m

theorem KeyState.hashWorks {C : Crypto} {a : Algorithm} {mk : Bytes} {U : List Bytes} {ps : List (Bytes × Keyslot)} {pw : Bytes}
    (hps : ∀ q ∈ ps, Opens C a q.1 q.2 mk ∧ ∀ pw ∈ U, pw ≠ q.1 → ∀ m, ¬ Opens C a pw q.2 m) (hU : pw ∈ U)
    (hw : KeysWork C a mk U) : HashWorks C pw (ps.map Prod.snd) := by
  intro k hk
  obtain ⟨z, hz, rfl⟩ := List.mem_map.1 hk
  obtain ⟨_, ⟨f, hf, _⟩, _⟩ := (hps z hz).1
  obtain ⟨hk, h⟩ := Option.isSome_iff_exists.1 (hw.hash pw hU _ f hf z.2.salt)
  exact ⟨hk, f, hf, h⟩

/-- Worlds that differ from the start of the command by the position of the handle and the random bytes used. -/
theorem KeyState.unchanged {C : Crypto} {t : HeaderType} {nonce aad mk body : Bytes} {U : List Bytes} {h : Nat} {l : List Bytes} {w w' : World}
    (hst : KeyState C t nonce aad mk body U h l w) (hs : w'.sched = w.sched) (hd : w'.data h = w.data h) :
    KeyState C t nonce aad mk body U h l w' := by
  refine ⟨hs.trans hst.sched, hst.sub, by rw [hd]; exact hst.body, by rw [hd]; exact hst.file⟩

/-- One command: the file follows the list. -/
theorem KeyState.step {C : Crypto} (hC : C.Lawful) {t : HeaderType} {nonce aad mk body : Bytes} {U : List Bytes} {h : Nat} {l : List Bytes} {w : World}
    (hst : KeyState C t nonce aad mk body U h l w) (hmk : mk ≠ List.replicate 32 0) (hw : KeysWork C t.algorithm mk U)
    (c : KeyCmd) (hc : ∀ pw ∈ c.passwords, pw ∈ U)
    (ht : ∀ pw ∈ U, ∀ pw' ∈ U, pw ≠ pw' → ∀ hash k m,
      SealedSlot C t.algorithm mk pw hash (tape w 0 16) (tape w 16 (nonceLength t.algorithm .memoryMode)) k → ¬ Opens C t.algorithm pw' k m) :
    (c.onFile C h w).1 = (c.onList l).1 ∧
    KeyState C t nonce aad mk body U h (c.onList l).2 (c.onFile C h w).2 ∧
    ∃ d ≤ 16 + nonceLength t.algorithm .memoryMode, ∀ i n, tape (c.onFile C h w).2 i n = tape w (d + i) n := by
  obtain ⟨hd, ps, hf, rfl, rfl, rfl, hps⟩ := hst.file
  have hf0 : KeyFile ((w.setPos h 0).rest h) hd (ps.map Prod.snd) aad := by rw [World.setPos_rest_zero]; exact hf
  have hs0 : (w.setPos h 0).sched = [] := hst.sched
  have hks := (isHeader_sized hf.header).2 _ hf.slots
  have hsok : ∀ q ∈ ps, SlotOk hd.headerType.algorithm q.2 := fun q hq => hks.2 _ (List.mem_map.2 ⟨q, hq, rfl⟩)
  have hlen : ps.length ≤ 4 := by have := hks.1; rwa [List.length_map] at this
  have hsame : KeyState C hd.headerType hd.nonce aad mk body U h (ps.map Prod.fst) (w.setPos h 0) :=
    hst.unchanged rfl (by simp [World.data, World.setPos])
  have htape0 : ∀ i n, tape (w.setPos h 0) i n = tape w (0 + i) n := by intro i n; rw [Nat.zero_add]; rfl
  have hload := load_nil hs0 hf0.header hf0.v5 hf0.slots
  -- the fresh slot
  have hfresh : ∀ new ∈ U, ∀ k hash, SealedSlot C hd.headerType.algorithm mk new hash (tape (w.setPos h 0) 0 16)
      (tape (w.setPos h 0) 16 (nonceLength hd.headerType.algorithm .memoryMode)) k →
      Opens C hd.headerType.algorithm new k mk ∧ ∀ pw ∈ U, pw ≠ new → ∀ m, ¬ Opens C hd.headerType.algorithm pw k m := by
    intro new hnew k hash hk
    exact ⟨hk.opens hC, fun pw hpw hne m => ht new hnew pw hpw hne.symm hash k m hk⟩
  cases c with
  | verify pw =>
    have hU : pw ∈ U := hc pw (by simp [KeyCmd.passwords])
    have hrun : (KeyCmd.verify pw).onFile C h w = _ := verify_nil hs0 hf0.header hf0.v5 hf0.slots
    have hadv : KeyState C hd.headerType hd.nonce aad mk body U h (ps.map Prod.fst) ((w.setPos h 0).adv h 416) :=
      hsame.unchanged rfl (by simp [World.data, World.adv, World.setPos])
    by_cases hm : pw ∈ ps.map Prod.fst
    · obtain ⟨p1, k, p2, e, ho, hb, _⟩ := KeyState.find hps hU hm
      rw [withIndex_found hC hks.2 (KeyState.hashWorks hps hU hw) (after := p2.map Prod.snd) (by rw [e]; simp) ho hb hmk] at hrun
      rw [hrun]
      simp only [KeyCmd.onList, if_neg (not_not_intro hm)]
      exact ⟨rfl, hadv, 0, Nat.zero_le _, htape0⟩
    · rw [withIndex_none hC hks.2 (KeyState.hashWorks hps hU hw) (KeyState.none hps hU hm)] at hrun
      rw [hrun]
      simp only [KeyCmd.onList, if_pos hm]
      exact ⟨rfl, hadv, 0, Nat.zero_le _, htape0⟩
  | delete pw =>
    have hU : pw ∈ U := hc pw (by simp [KeyCmd.passwords])
    by_cases hm : pw ∈ ps.map Prod.fst
    · obtain ⟨p1, k, p2, e, ho, hb, hnot⟩ := KeyState.find hps hU hm
      have hrun : (KeyCmd.delete pw).onFile C h w = _ :=
        delete_nil hC hs0 hf0 (KeyState.hashWorks hps hU hw) (before := p1.map Prod.snd) (k0 := k) (after := p2.map Prod.snd)
          (by rw [e]; simp) ho hb hmk
      rw [hrun]
      simp only [KeyCmd.onList, if_neg (not_not_intro hm)]
      refine ⟨by trivial, ?_, 0, Nat.zero_le _, fun i n => by rw [Nat.zero_add]; rfl⟩
      have hst' := hst.stored (ps' := p1 ++ p2) (l' := (ps.map Prod.fst).erase pw) 0
        (by rw [e] at hlen; simp at hlen ⊢; omega) (fun q hq => hsok q (by rw [e]; rcases List.mem_append.1 hq with h | h <;> simp [h]))
        (by rw [e]; simp only [List.map_append, List.map_cons]; rw [List.erase_append_right _ hnot, List.erase_cons_head])
        (fun pw' hpw' => hst.sub _ (List.mem_of_mem_erase hpw'))
        (fun q hq => hps q (by rw [e]; rcases List.mem_append.1 hq with h | h <;> simp [h]))
      rw [List.map_append] at hst'
      exact hst'
    · simp only [KeyCmd.onList, if_pos hm]
      have hnone := withIndex_none hC hks.2 (KeyState.hashWorks hps hU hw) (KeyState.none hps hU hm)
      rcases delete_loaded (pw := pw) hC hload hks.2 with ⟨e, hr, h1⟩ | ⟨mk', i, h1, _⟩
      · rw [hnone] at h1; cases h1
        have hr : (KeyCmd.delete pw).onFile C h w = _ := hr
        rw [hr]
        exact ⟨rfl, hsame, 0, Nat.zero_le _, htape0⟩
      · rw [hnone] at h1; simp at h1
  | change old new hash =>
    have hU : old ∈ U := hc old (by simp [KeyCmd.passwords])
    have hN : new ∈ U := hc new (by simp [KeyCmd.passwords])
    by_cases hm : old ∈ ps.map Prod.fst
    · obtain ⟨p1, k0, p2, e, ho, hb, hnot⟩ := KeyState.find hps hU hm
      have hfound := withIndex_found hC hks.2 (KeyState.hashWorks hps hU hw) (before := p1.map Prod.snd) (k0 := k0)
        (after := p2.map Prod.snd) (by rw [e]; simp) ho hb hmk
      simp only [KeyCmd.onList, if_neg (not_not_intro hm)]
      by_cases hsup : hash ∈ supportedHashes
      · rw [if_neg (not_not_intro hsup)]
        obtain ⟨f, hkf⟩ := kdfParams_mem.1 hsup
        obtain ⟨hk, hhk⟩ := Option.isSome_iff_exists.1 (hw.hash new hN hash f hkf (tape (w.setPos h 0) 0 16))
        obtain ⟨ek, hek⟩ := Option.isSome_iff_exists.1
          (hw.enc hk (tape (w.setPos h 0) 16 (nonceLength hd.headerType.algorithm .memoryMode)) (hC.kdf_len _ _ _ _ hhk) (by simp))
        obtain ⟨k, hk, hrun⟩ := change_nil hC (req := { handle := h, rawKeyOld := old, rawKeyNew := new, hashAlgorithm := hash })
          hs0 hf0 (KeyState.hashWorks hps hU hw) (before := p1.map Prod.snd) (k0 := k0) (after := p2.map Prod.snd)
          (by rw [e]; simp) ho hb hmk ⟨f, hkf, hhk⟩ hek
        have hrun : (KeyCmd.change old new hash).onFile C h w = _ := hrun
        rw [hrun]
        refine ⟨rfl, ?_, _, Nat.le_refl _, fun i n => ?_⟩
        · have hkok : SlotOk hd.headerType.algorithm k :=
            hk.ok hC (ho.len hC (hsok (old, k0) (by rw [e]; simp))) (by simp) (by simp)
          have hst' := hst.stored (ps' := p1 ++ (new, k) :: p2) (l' := (ps.map Prod.fst).replace old new)
            (16 + nonceLength hd.headerType.algorithm .memoryMode)
            (by rw [e] at hlen; simp at hlen ⊢; omega)
            (by
              intro q hq
              rw [List.mem_append, List.mem_cons] at hq
              rcases hq with hq | rfl | hq
              · exact hsok q (by rw [e]; simp [hq])
              · exact hkok
              · exact hsok q (by rw [e]; simp [hq]))
            (by rw [e]; simp only [List.map_append, List.map_cons]; rw [List.replace_append_right hnot, List.replace_cons_self])
            (by
              intro pw' hpw'
              rw [e] at hpw'; simp only [List.map_append, List.map_cons] at hpw'
              rw [List.replace_append_right hnot, List.replace_cons_self, List.mem_append, List.mem_cons] at hpw'
              rcases hpw' with hx | rfl | hx
              · exact hst.sub _ (by rw [e]; simp only [List.map_append, List.map_cons]; simp [hx])
              · exact hN
              · exact hst.sub _ (by rw [e]; simp only [List.map_append, List.map_cons]; simp [hx]))
            (by
              intro q hq
              rw [List.mem_append, List.mem_cons] at hq
              rcases hq with hq | rfl | hq
              · exact hps q (by rw [e]; simp [hq])
              · exact hfresh new hN k hash hk
              · exact hps q (by rw [e]; simp [hq]))
          rw [List.map_append, List.map_cons] at hst'
          exact hst'
        · exact tape_draw (w.setPos h 0) _ i n
      · rw [if_pos hsup]
        rcases change_loaded (req := { handle := h, rawKeyOld := old, rawKeyNew := new, hashAlgorithm := hash }) hC hload hks.2 with
          ⟨e', _, h1⟩ | ⟨mk', i, h1, ⟨e', n, hr, hno⟩ | ⟨k, hk, _⟩⟩
        · have h1 : _ = Res.err e' := h1
          rw [hfound] at h1; simp at h1
        · have hr : (KeyCmd.change old new hash).onFile C h w = _ := hr
          obtain ⟨rfl, hn⟩ := (hno k0).2 (by
            rintro hk ⟨f, hf', _⟩
            exact hsup (kdfParams_mem.2 ⟨f, hf'⟩))
          rw [hr]
          exact ⟨rfl, hsame.unchanged rfl rfl, n, hn, fun i m => tape_draw (w.setPos h 0) n i m⟩
        · obtain ⟨_, ⟨f, hf', _⟩, _⟩ := hk.sealed
          exact absurd (kdfParams_mem.2 ⟨f, hf'⟩) hsup
    · simp only [KeyCmd.onList, if_pos hm]
      have hnone := withIndex_none hC hks.2 (KeyState.hashWorks hps hU hw) (KeyState.none hps hU hm)
      rcases change_loaded (req := { handle := h, rawKeyOld := old, rawKeyNew := new, hashAlgorithm := hash }) hC hload hks.2 with
        ⟨e, hr, h1⟩ | ⟨mk', i, h1, _⟩
      · have h1 : _ = Res.err e := h1
        rw [hnone] at h1; cases h1
        have hr : (KeyCmd.change old new hash).onFile C h w = _ := hr
        rw [hr]
        exact ⟨rfl, hsame, 0, Nat.zero_le _, htape0⟩
      · have h1 : _ = Res.ok (mk', i) := h1
        rw [hnone] at h1; simp at h1
  | add old new hash =>
    have hU : old ∈ U := hc old (by simp [KeyCmd.passwords])
    have hN : new ∈ U := hc new (by simp [KeyCmd.passwords])
    by_cases hm : old ∈ ps.map Prod.fst
    · obtain ⟨p1, k0, p2, e, ho, hb, hnot⟩ := KeyState.find hps hU hm
      have hfound := withIndex_found hC hks.2 (KeyState.hashWorks hps hU hw) (before := p1.map Prod.snd) (k0 := k0)
        (after := p2.map Prod.snd) (by rw [e]; simp) ho hb hmk
      simp only [KeyCmd.onList, if_neg (not_not_intro hm)]
      by_cases h4 : (ps.map Prod.fst).length = 4
      · rw [if_pos h4]
        have h4' : (ps.map Prod.snd).length = 4 := by rw [List.length_map] at h4 ⊢; exact h4
        rcases add_loaded (req := { handle := h, rawKeyOld := old, rawKeyNew := new, hashAlgorithm := hash }) hC hload hks.2 with
          ⟨e', _, h1⟩ | ⟨mk', i, h1, ⟨_, hr⟩ | ⟨hne, _⟩⟩
        · have h1 : _ = Res.err e' := h1
          rw [hfound] at h1; simp at h1
        · have hr : (KeyCmd.add old new hash).onFile C h w = _ := hr
          rw [hr]
          exact ⟨rfl, hsame, 0, Nat.zero_le _, htape0⟩
        · exact absurd h4' hne
      rw [if_neg h4]
      have h4' : (ps.map Prod.snd).length ≠ 4 := by rw [List.length_map] at h4 ⊢; exact h4
      by_cases hsup : hash ∈ supportedHashes
      · rw [if_neg (not_not_intro hsup)]
        obtain ⟨f, hkf⟩ := kdfParams_mem.1 hsup
        obtain ⟨hk, hhk⟩ := Option.isSome_iff_exists.1 (hw.hash new hN hash f hkf (tape (w.setPos h 0) 0 16))
        obtain ⟨ek, hek⟩ := Option.isSome_iff_exists.1
          (hw.enc hk (tape (w.setPos h 0) 16 (nonceLength hd.headerType.algorithm .memoryMode)) (hC.kdf_len _ _ _ _ hhk) (by simp))
        obtain ⟨k, hk, hrun⟩ := add_nil hC (req := { handle := h, rawKeyOld := old, rawKeyNew := new, hashAlgorithm := hash })
          hs0 hf0 (KeyState.hashWorks hps hU hw) (before := p1.map Prod.snd) (k0 := k0) (after := p2.map Prod.snd)
          (by rw [e]; simp) ho hb hmk h4' ⟨f, hkf, hhk⟩ hek
        have hrun : (KeyCmd.add old new hash).onFile C h w = _ := hrun
        rw [hrun]
        refine ⟨rfl, ?_, _, Nat.le_refl _, fun i n => ?_⟩
        · have hkok : SlotOk hd.headerType.algorithm k :=
            hk.ok hC (ho.len hC (hsok (old, k0) (by rw [e]; simp))) (by simp) (by simp)
          have hst' := hst.stored (ps' := ps ++ [(new, k)]) (l' := ps.map Prod.fst ++ [new])
            (16 + nonceLength hd.headerType.algorithm .memoryMode)
            (by rw [List.length_map] at h4; simp; omega)
            (by
              intro q hq
              rcases List.mem_append.1 hq with hq | hq
              · exact hsok q hq
              · rw [List.mem_singleton.1 hq]; exact hkok)
            (by simp)
            (by
              intro pw' hpw'
              rcases List.mem_append.1 hpw' with hx | hx
              · exact hst.sub _ hx
              · rw [List.mem_singleton.1 hx]; exact hN)
            (by
              intro q hq
              rcases List.mem_append.1 hq with hq | hq
              · exact hps q hq
              · rw [List.mem_singleton.1 hq]; exact hfresh new hN k hash hk)
          rw [List.map_append] at hst'
          exact hst'
        · exact tape_draw (w.setPos h 0) _ i n
      · rw [if_pos hsup]
        rcases add_loaded (req := { handle := h, rawKeyOld := old, rawKeyNew := new, hashAlgorithm := hash }) hC hload hks.2 with
          ⟨e', _, h1⟩ | ⟨mk', i, h1, ⟨he, _⟩ | ⟨_, ⟨e', n, hr, hno⟩ | ⟨k, hk, _⟩⟩⟩
        · have h1 : _ = Res.err e' := h1
          rw [hfound] at h1; simp at h1
        · exact absurd he h4'
        · have hr : (KeyCmd.add old new hash).onFile C h w = _ := hr
          obtain ⟨rfl, hn⟩ := (hno k0).2 (by
            rintro hk ⟨f, hf', _⟩
            exact hsup (kdfParams_mem.2 ⟨f, hf'⟩))
          rw [hr]
          exact ⟨rfl, hsame.unchanged rfl rfl, n, hn, fun i m => tape_draw (w.setPos h 0) n i m⟩
        · obtain ⟨_, ⟨f, hf', _⟩, _⟩ := hk.sealed
          exact absurd (kdfParams_mem.2 ⟨f, hf'⟩) hsup
    · simp only [KeyCmd.onList, if_pos hm]
      have hnone := withIndex_none hC hks.2 (KeyState.hashWorks hps hU hw) (KeyState.none hps hU hm)
      rcases add_loaded (req := { handle := h, rawKeyOld := old, rawKeyNew := new, hashAlgorithm := hash }) hC hload hks.2 with
        ⟨e, hr, h1⟩ | ⟨mk', i, h1, _⟩
      · have h1 : _ = Res.err e := h1
        rw [hnone] at h1; cases h1
        have hr : (KeyCmd.add old new hash).onFile C h w = _ := hr
        rw [hr]
        exact ⟨rfl, hsame, 0, Nat.zero_le _, htape0⟩
      · have h1 : _ = Res.ok (mk', i) := h1
        rw [hnone] at h1; simp at h1

/-- A history. -/
theorem KeyState.steps {C : Crypto} (hC : C.Lawful) {t : HeaderType} {nonce aad mk body : Bytes} {U : List Bytes} {h : Nat}
    (hmk : mk ≠ List.replicate 32 0) (hw : KeysWork C t.algorithm mk U) (cmds : List KeyCmd) :
    ∀ {l : List Bytes} {w : World}, KeyState C t nonce aad mk body U h l w → (∀ c ∈ cmds, ∀ pw ∈ c.passwords, pw ∈ U) →
      ToldApart C t.algorithm mk U w cmds.length →
      (onFileAll C h cmds w).1 = (onListAll cmds l).1 ∧
      KeyState C t nonce aad mk body U h (onListAll cmds l).2 (onFileAll C h cmds w).2 := by
  induction cmds with
  | nil => intro l w hst _ _; exact ⟨rfl, hst⟩
  | cons c cs ih =>
    intro l w hst hc ht
    obtain ⟨h1, h2, d, hd, htape⟩ := hst.step hC hmk hw c (hc c (by simp)) (by
      intro pw hpw pw' hpw' hne hash k m hk
      exact ht 0 (Nat.zero_le _) pw hpw pw' hpw' hne hash k m (by rw [Nat.zero_add]; exact hk))
    obtain ⟨h3, h4⟩ := ih h2 (fun c' h' => hc c' (by simp [h'])) (by
      intro i hi pw hpw pw' hpw' hne hash k m hk
      refine ht (d + i) ?_ pw hpw pw' hpw' hne hash k m ?_
      · rw [List.length_cons, Nat.add_mul]; omega
      · rw [htape, htape, ← Nat.add_assoc] at hk; exact hk)
    exact ⟨by simp only [onFileAll, onListAll]; rw [h1, h3], h4⟩

/-- What the invariant says about decryption. -/
theorem KeyState.decides {C : Crypto} (hC : C.Lawful) {t : HeaderType} {nonce aad mk body p : Bytes} {U : List Bytes} {h : Nat} {l : List Bytes} {w : World}
    (hst : KeyState C t nonce aad mk body U h l w) (hb : ∀ hd : Header, hd.headerType = t → hd.nonce = nonce → BodyOf C hd mk aad p body) :
    ∀ pw ∈ U, (pw ∈ l → DecryptsTo C pw (w.data h) p) ∧ (pw ∉ l → Refuses C pw (w.data h)) := by
  intro pw hU
  obtain ⟨hd, ps, hf, rfl, rfl, rfl, hps⟩ := hst.file
  refine ⟨fun hm => ?_, fun hm => hf.refuses hC (KeyState.none hps hU hm)⟩
  obtain ⟨p1, k, p2, e, ho, _, _⟩ := KeyState.find hps hU hm
  refine hf.decrypts hC ⟨k, by rw [e]; simp, mk, ho⟩ ?_ (by rw [hst.body]; exact hb hd rfl rfl)
  intro x hx m hm
  obtain ⟨z, hz, rfl⟩ := List.mem_map.1 hx
  by_cases hzp : pw = z.1
  · subst hzp; exact hm.unique (hps z hz).1
  · exact absurd hm ((hps z hz).2 pw hU hzp m)

end Volaris
