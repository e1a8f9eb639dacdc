import Verif.Proofs.KeyHistory
import Verif.Proofs.Fresh
import Verif.Proofs.KeyCmd
/-!
# Histories of key commands under faults
-/
namespace Volaris
open Spec KeyOps

/-! ### The schedule only gets shorter -/

theorem Shrinks.keyLoad (h : Nat) : Shrinks (load h) := by
  unfold load
  refine .bind (.mapErr _ (.deserialize _)) fun ⟨hd, aad⟩ => .ite (.throw _) (.bind (.mapErr _ (.seekCur _ _)) fun _ => ?_)
  split
  · exact .panic
  · exact .pure _

theorem Shrinks.keyStore (h : Nat) (hd : Header) (ks : List Keyslot) : Shrinks (store h hd ks) := by
  unfold store Header.write
  exact .mapErr _ (.bind (.lift _) fun _ => .bind (.mapErr _ (.write _ _)) fun _ => .pure _)

theorem Shrinks.onFile (C : Crypto) (h : Nat) (c : KeyCmd) (w : World) : (c.onFile C h w).2.sched <:+ w.sched := by
  cases c with
  | add old new hash =>
    refine (show Shrinks (add C _) from ?_) (w.setPos h 0)
    unfold add
    exact .bind (.keyLoad _) fun ⟨hd, ks⟩ => .bind (.lift _) fun ⟨mk, i⟩ => .ite (.throw _) (.bind (.genBytes _) fun _ =>
      .bind (.genBytes _) fun _ => .bind (.lift _) fun _ => .bind (.lift _) fun _ => .keyStore _ _ _)
  | change old new hash =>
    refine (show Shrinks (change C _) from ?_) (w.setPos h 0)
    unfold change
    exact .bind (.keyLoad _) fun ⟨hd, ks⟩ => .bind (.lift _) fun ⟨mk, i⟩ => .bind (.genBytes _) fun _ => .bind (.lift _) fun _ =>
      .bind (.genBytes _) fun _ => .bind (.lift _) fun _ => .ite (.keyStore _ _ _) .panic
  | delete pw =>
    refine (show Shrinks (delete C h pw) from ?_) (w.setPos h 0)
    unfold delete
    exact .bind (.keyLoad _) fun ⟨hd, ks⟩ => .bind (.lift _) fun ⟨mk, i⟩ => .ite (.keyStore _ _ _) .panic
  | verify pw =>
    refine (show Shrinks (verify C h pw) from ?_) (w.setPos h 0)
    unfold verify
    refine .bind (.mapErr _ (.deserialize _)) fun ⟨hd, aad⟩ => .ite (.throw _) ?_
    split
    · exact .panic
    · exact .bind (.lift _) fun _ => .pure _

/-! ### How much of the random source a command takes -/

/-- Every run of `x` uses up at most `N` bytes of the random source. -/
def Takes {ε α : Type} (N : Nat) (x : Prog ε α) : Prop := ∀ w, ∃ n ≤ N, Used n w (x w).2

namespace Takes
variable {ε ε' α β : Type}

theorem of_rng {N : Nat} {x : Prog ε α} (h : ∀ w, (x w).2.rng = w.rng) : Takes N x := fun w => ⟨0, Nat.zero_le _, .of_rng (h w)⟩

theorem mono {M N : Nat} {x : Prog ε α} (h : Takes M x) (hle : M ≤ N) : Takes N x := fun w =>
  let ⟨n, h1, h2⟩ := h w; ⟨n, Nat.le_trans h1 hle, h2⟩

theorem bind {M N : Nat} {x : Prog ε α} {f : α → Prog ε β} (hx : Takes M x) (hf : ∀ a, Takes N (f a)) : Takes (M + N) (x >>= f) := by
  intro w
  have h1 := hx w
  rw [Prog.bind_run]
  revert h1
  rcases x w with ⟨r, w'⟩
  rintro ⟨n, hn, h1⟩
  cases r with
  | ok a => obtain ⟨m, hm, h2⟩ := hf a w'; exact ⟨_, Nat.add_le_add hn hm, h1.trans h2⟩
  | err e => exact ⟨n, by omega, h1⟩
  | abort a => exact ⟨n, by omega, h1⟩

theorem then_ {N : Nat} {r : Res ε α} {f : α → Prog ε β} (hf : ∀ a, Takes N (f a)) : Takes N (Prog.lift r >>= f) := by
  have := bind (M := 0) (x := Prog.lift r) (of_rng fun _ => rfl) hf
  rwa [Nat.zero_add] at this

theorem draw {N n : Nat} {f : Bytes → Prog ε β} (hf : ∀ a, Takes N (f a)) : Takes (n + N) (Volaris.genBytes n >>= f) :=
  bind (fun w => ⟨n, Nat.le_refl _, fun i => by simp only [Volaris.genBytes, Nat.add_comm]⟩) hf

theorem last {n : Nat} {f : Bytes → Prog ε β} (hf : ∀ a, Takes 0 (f a)) : Takes n (Volaris.genBytes n >>= f) := draw (N := 0) hf

theorem nonce {a : Algorithm} {m : Mode} {f : Bytes → Prog ε β} (hf : ∀ b, Takes 0 (f b)) : Takes (nonceLength a m) (genNonce a m >>= f) := by
  rw [genNonce, getNonceLen_eq]; exact last hf

theorem ite {N : Nat} {c : Prop} [Decidable c] {x y : Prog ε α} (hx : Takes N x) (hy : Takes N y) :
    Takes N (if c then x else y) := by split <;> assumption

end Takes

/-- What a command takes of the random source, when the file has a V5 header. -/
theorem onFile_takes {C : Crypto} {h : Nat} {w : World} {hd : Header} {ks : List Keyslot} {aad : Bytes} (hf : KeyFile (w.data h) hd ks aad) (c : KeyCmd) :
    ∃ n ≤ 16 + nonceLength hd.headerType.algorithm .memoryMode, Used n w (c.onFile C h w).2 := by
  have hf0 : KeyFile ((w.setPos h 0).rest h) hd ks aad := by rw [World.setPos_rest_zero]; exact hf
  have hstore : ∀ (N : Nat) (x : Nat) (y : Header) (z : List Keyslot), Takes N (store x y z) := fun N x y z => .of_rng fun w => storeRng x y z w
  have hload : ∀ (f : Header × List Keyslot → Prog Error Unit), (∀ ks', Takes (16 + nonceLength hd.headerType.algorithm .memoryMode) (f (hd, ks'))) →
      ∃ n ≤ 16 + nonceLength hd.headerType.algorithm .memoryMode, Used n w ((load h >>= f) (w.setPos h 0)).2 := by
    intro f hfn
    rcases load_cases h (w.setPos h 0) with ⟨hd', aad', ks', w1, hl, hi, hv, hk, hc1, hsh⟩ | ⟨e, w1, p, hl, hc⟩
    · obtain ⟨rfl, rfl⟩ := isHeader_unique hf0.header hi
      rw [Prog.bind_ok hl]
      obtain ⟨n, hn, hu⟩ := hfn ks' w1
      exact ⟨n, hn, fun i => by rw [hu i, World.rng_of_core hc1]; rfl⟩
    · rw [Prog.bind_err hl]
      exact ⟨0, Nat.zero_le _, .of_rng (by rw [World.rng_of_core hc]; rfl)⟩
  cases c with
  | add old new hash =>
    refine hload _ fun ks' => .then_ fun ⟨mk, i⟩ => .ite (.of_rng fun _ => rfl) ?_
    exact .draw fun _ => .nonce fun _ => .then_ fun _ => .then_ fun _ => hstore _ _ _ _
  | change old new hash =>
    refine hload _ fun ks' => .then_ fun ⟨mk, i⟩ => ?_
    exact .draw fun _ => .then_ fun _ => .nonce fun _ => .then_ fun _ => .ite (hstore _ _ _ _) (.of_rng fun _ => rfl)
  | delete pw => exact hload _ fun ks' => .then_ fun ⟨mk, i⟩ => .ite (hstore _ _ _ _) (.of_rng fun _ => rfl)
  | verify pw =>
    refine ⟨0, Nat.zero_le _, .of_rng ?_⟩
    show (verify C h pw (w.setPos h 0)).2.rng = w.rng
    rcases verify_cases (C := C) h pw (w.setPos h 0) with ⟨hd, aad, ks, w', p, hi, hv, hk, hc, he⟩ | ⟨e, w', p, he, hc⟩
    · rw [he]; exact (World.rng_of_core hc).trans rfl
    · rw [he]; exact (World.rng_of_core hc).trans rfl

/-! ### The invariant -/

/-- The keyslots of the file belong to the passwords `l`. -/
structure KeyInv (C : Crypto) (t : HeaderType) (nonce aad mk body : Bytes) (U : List Bytes) (h : Nat) (l : List Bytes) (w : World) : Prop where
  sub : ∀ pw ∈ l, pw ∈ U
  body : (w.data h).drop 416 = body
  file : ∃ (hd : Header) (ps : List (Bytes × Keyslot)), KeyFile (w.data h) hd (ps.map Prod.snd) aad ∧ hd.headerType = t ∧ hd.nonce = nonce ∧
    ps.map Prod.fst = l ∧
    ∀ q ∈ ps, Opens C t.algorithm q.1 q.2 mk ∧ ∀ pw ∈ U, pw ≠ q.1 → ∀ m, ¬ Opens C t.algorithm pw q.2 m

/-- The keyslot that a password opens first is the first one of that password. -/
theorem KeyInv.split {C : Crypto} {a : Algorithm} {mk m pw : Bytes} {U : List Bytes} {ps : List (Bytes × Keyslot)} {before after : List Keyslot} {k0 : Keyslot}
    (hps : ∀ q ∈ ps, Opens C a q.1 q.2 mk ∧ ∀ pw ∈ U, pw ≠ q.1 → ∀ m, ¬ Opens C a pw q.2 m) (hU : pw ∈ U)
    (he : ps.map Prod.snd = before ++ k0 :: after) (ho : Opens C a pw k0 m) (hb : OpensNone C a pw before) :
    ∃ p1 p2, ps = p1 ++ (pw, k0) :: p2 ∧ p1.map Prod.snd = before ∧ p2.map Prod.snd = after ∧ m = mk ∧ pw ∉ p1.map Prod.fst := by
  obtain ⟨p1, p', rfl, e1, e2⟩ := List.map_eq_append_iff.1 he
  obtain ⟨q, p2, rfl, e3, e4⟩ := List.map_eq_cons_iff.1 e2
  obtain ⟨q1, q2⟩ := q
  simp only at e3; subst e3
  have hq := hps (q1, q2) (by simp)
  have hpw : pw = q1 := Classical.byContradiction fun hne => hq.2 pw hU hne m ho
  subst hpw
  refine ⟨p1, p2, rfl, e1, e4, ho.unique hq.1, fun hm => ?_⟩
  obtain ⟨z, hz, rfl⟩ := List.mem_map.1 hm
  exact hb z.2 (by rw [← e1]; exact List.mem_map.2 ⟨z, hz, rfl⟩) mk (hps z (by simp [hz])).1

/-- The file after a command has replaced the header. -/
theorem KeyInv.replaced {C : Crypto} {t : HeaderType} {nonce aad mk body : Bytes} {U : List Bytes} {h : Nat} {l l' : List Bytes} {w w' : World}
    (hst : KeyInv C t nonce aad mk body U h l w) {ps' : List (Bytes × Keyslot)}
    (hrep : HeaderReplaced h (w.setPos h 0) w' ((bytesV5 t nonce (ps'.map Prod.snd)).take 416 ++ ((w.setPos h 0).rest h).drop 416))
    (hlen : ps'.length ≤ 4) (hok : ∀ q ∈ ps', SlotOk t.algorithm q.2) (hl' : ps'.map Prod.fst = l') (hsub : ∀ pw ∈ l', pw ∈ U)
    (hps : ∀ q ∈ ps', Opens C t.algorithm q.1 q.2 mk ∧ ∀ pw ∈ U, pw ≠ q.1 → ∀ m, ¬ Opens C t.algorithm pw q.2 m) :
    KeyInv C t nonce aad mk body U h l' w' := by
  obtain ⟨hd, ps, hf, rfl, rfl, _, _⟩ := hst.file
  have hn := (isHeader_sized hf.header).1
  have hsl : ∀ k ∈ ps'.map Prod.snd, SlotOk hd.headerType.algorithm k := by
    intro k hk
    obtain ⟨q, hq, rfl⟩ := List.mem_map.1 hk
    exact hok q hq
  have hl4 : (ps'.map Prod.snd).length ≤ 4 := by rw [List.length_map]; exact hlen
  have hH := bytesV5_length hn hl4 hsl
  rw [World.setPos_rest_zero, List.take_of_length_le (by omega)] at hrep
  have hp : ((w.setPos h 0).fd h).pos = 0 := by simp [World.setPos]
  have hdata : w'.data h = bytesV5 hd.headerType hd.nonce (ps'.map Prod.snd) ++ (w.data h).drop 416 := by
    have := hrep.now
    rwa [hp, List.drop_zero] at this
  refine ⟨hsub, ?_, ?_⟩
  · rw [hdata, List.drop_left' hH]; exact hst.body
  · rw [hdata]
    exact ⟨_, ps', hf.written hl4 hsl _, rfl, rfl, hl', hps⟩

theorem KeyInv.unchanged {C : Crypto} {t : HeaderType} {nonce aad mk body : Bytes} {U : List Bytes} {h : Nat} {l : List Bytes} {w w' : World}
    (hst : KeyInv C t nonce aad mk body U h l w) (hd : w'.data h = w.data h) :
    KeyInv C t nonce aad mk body U h l w' :=
  ⟨hst.sub, by rw [hd]; exact hst.body, by rw [hd]; exact hst.file⟩

/-- What the invariant says about decryption. -/
theorem KeyInv.decides {C : Crypto} (hC : C.Lawful) {t : HeaderType} {nonce aad mk body p : Bytes} {U : List Bytes} {h : Nat} {l : List Bytes} {w : World}
    (hst : KeyInv C t nonce aad mk body U h l w) (hb : ∀ hd : Header, hd.headerType = t → hd.nonce = nonce → BodyOf C hd mk aad p body) :
    ∀ pw ∈ U, (pw ∈ l → DecryptsTo C pw (w.data h) p) ∧ (pw ∉ l → Refuses C pw (w.data h)) := by
  have hs : KeyState C t nonce aad mk body U h l { w with sched := [] } := ⟨rfl, hst.sub, hst.body, hst.file⟩
  exact hs.decides hC hb

/-- One command, under any faults but short transfers: if it reports success, the list has followed; otherwise the file is as it was. -/
theorem KeyInv.step {C : Crypto} (hC : C.Lawful) {t : HeaderType} {nonce aad mk body : Bytes} {U : List Bytes} {h : Nat} {l : List Bytes} {w : World}
    (hst : KeyInv C t nonce aad mk body U h l w) (hns : NoShort w.sched) (c : KeyCmd) (hc : ∀ pw ∈ c.passwords, pw ∈ U)
    (ht : ∀ pw ∈ U, ∀ pw' ∈ U, pw ≠ pw' → ∀ hash k m,
      SealedSlot C t.algorithm mk pw hash (tape w 0 16) (tape w 16 (nonceLength t.algorithm .memoryMode)) k → ¬ Opens C t.algorithm pw' k m) :
    ((c.onFile C h w).1 = .ok () ∧ (c.onList l).1 = .ok () ∧ KeyInv C t nonce aad mk body U h (c.onList l).2 (c.onFile C h w).2) ∨
    (∃ e, (c.onFile C h w).1 = .err e ∧ KeyInv C t nonce aad mk body U h l (c.onFile C h w).2) := by
  have hfd : ((w.setPos h 0).fd h).ino = (w.fd h).ino := by simp [World.setPos]
  have hdata : ∀ {w' : World}, Touches [] [h] (w.setPos h 0) w' → w'.file = w.file → w'.data h = w.data h := by
    intro w' ht hf
    simp only [World.data]; rw [hf, ht.inos, hfd]
  obtain ⟨hd, ps, hf, rfl, rfl, rfl, hps⟩ := hst.file
  have hf0 : KeyFile ((w.setPos h 0).rest h) hd (ps.map Prod.snd) aad := by rw [World.setPos_rest_zero]; exact hf
  have hks := (isHeader_sized hf.header).2 _ hf.slots
  have hsok : ∀ q ∈ ps, SlotOk hd.headerType.algorithm q.2 := fun q hq => hks.2 _ (List.mem_map.2 ⟨q, hq, rfl⟩)
  have hlen : ps.length ≤ 4 := by have := hks.1; rwa [List.length_map] at this
  have hns0 : NoShort (w.setPos h 0).sched := hns
  have hsup : ∀ {mk new : Bytes} {hash : HashingAlgorithm} {s n : Bytes} {k : Keyslot}, SealedSlot C hd.headerType.algorithm mk new hash s n k → hash ∈ supportedHashes := by
    intro mk new hash s n k hk
    obtain ⟨_, ⟨f, hf, _⟩, _⟩ := hk.sealed
    exact kdfParams_mem.2 ⟨f, hf⟩
  cases c with
  | verify pw =>
    have hU : pw ∈ U := hc pw (by simp [KeyCmd.passwords])
    show ((verify C h pw (w.setPos h 0)).1 = _ ∧ _ ∧ KeyInv _ _ _ _ _ _ _ _ _ (verify C h pw (w.setPos h 0)).2) ∨ ∃ e, (verify C h pw (w.setPos h 0)).1 = _ ∧ KeyInv _ _ _ _ _ _ _ _ _ (verify C h pw (w.setPos h 0)).2
    rcases verify_cases (C := C) h pw (w.setPos h 0) with ⟨hd', aad', ks', w', p, hi, hv, hk, hcc, he⟩ | ⟨e, w', p, he, hcc⟩
    · obtain ⟨rfl, rfl⟩ := isHeader_unique hf0.header hi
      rw [hf.slots] at hk; cases hk
      have hsame : KeyInv C hd.headerType hd.nonce aad mk body U h (ps.map Prod.fst) w' :=
        hst.unchanged (by rw [World.data_of_core hcc]; simp [World.data, World.setPos])
      rw [he]
      rcases withIndex_cases hC pw hks.2 with ⟨mk', b, k0, af, h1, h2, h3, h4, h5, h6⟩ | ⟨h1, _⟩ | ⟨h1, _⟩
      · obtain ⟨p1, p2, e, _, _, _, _⟩ := KeyInv.split hps hU h2 h3 h4
        have hm : pw ∈ ps.map Prod.fst := by rw [e]; simp
        simp only [KeyCmd.onList, if_neg (not_not_intro hm)]
        exact .inl ⟨by rw [h1]; rfl, by trivial, hsame⟩
      · exact .inr ⟨_, by rw [h1]; rfl, hsame⟩
      · exact .inr ⟨_, by rw [h1]; rfl, hsame⟩
    · rw [he]
      exact .inr ⟨_, rfl, hst.unchanged (by rw [World.data_of_core hcc]; simp [World.data, World.setPos])⟩
  | delete pw =>
    have hU : pw ∈ U := hc pw (by simp [KeyCmd.passwords])
    show ((delete C h pw (w.setPos h 0)).1 = _ ∧ _ ∧ KeyInv _ _ _ _ _ _ _ _ _ (delete C h pw (w.setPos h 0)).2) ∨ ∃ e, (delete C h pw (w.setPos h 0)).1 = _ ∧ KeyInv _ _ _ _ _ _ _ _ _ (delete C h pw (w.setPos h 0)).2
    have htouch : Touches [] [h] (w.setPos h 0) (delete C h pw (w.setPos h 0)).2 := (delete_within C h pw) _
    rcases delete_safe hC h pw (w.setPos h 0) with ⟨u, w', he⟩ | ⟨e, w', he, hfile, _⟩
    · obtain ⟨b, k0, af, mk', j, hsp, ho, hb, _, _, hj, hrep⟩ := delete_effect hC hf0 he
      have := hj hns0; subst this
      obtain ⟨p1, p2, e, e1, e2, rfl, hnot⟩ := KeyInv.split hps hU hsp ho hb
      subst e1 e2
      have hm : pw ∈ ps.map Prod.fst := by rw [e]; simp
      rw [he]
      simp only [KeyCmd.onList, if_neg (not_not_intro hm)]
      refine .inl ⟨by trivial, by trivial, hst.replaced (ps' := p1 ++ p2) (by rw [List.map_append]; exact hrep)
        (by rw [e] at hlen; simp at hlen ⊢; omega) (fun q hq => hsok q (by rw [e]; rcases List.mem_append.1 hq with h | h <;> simp [h]))
        (by rw [e]; simp only [List.map_append, List.map_cons]; rw [List.erase_append_right _ hnot, List.erase_cons_head])
        (fun pw' hpw' => hst.sub _ (List.mem_of_mem_erase hpw'))
        (fun q hq => hps q (by rw [e]; rcases List.mem_append.1 hq with h | h <;> simp [h]))⟩
    · rw [he] at htouch ⊢
      exact .inr ⟨_, rfl, hst.unchanged (hdata htouch hfile)⟩
  | change old new hash =>
    have hU : old ∈ U := hc old (by simp [KeyCmd.passwords])
    have hN : new ∈ U := hc new (by simp [KeyCmd.passwords])
    have hrun : (KeyCmd.change old new hash).onFile C h w = change C { handle := h, rawKeyOld := old, rawKeyNew := new, hashAlgorithm := hash } (w.setPos h 0) := rfl
    rw [hrun]
    have htouch : Touches [] [h] (w.setPos h 0) (change C { handle := h, rawKeyOld := old, rawKeyNew := new, hashAlgorithm := hash } (w.setPos h 0)).2 :=
      (change_within C { handle := h, rawKeyOld := old, rawKeyNew := new, hashAlgorithm := hash }) _
    rcases change_safe hC { handle := h, rawKeyOld := old, rawKeyNew := new, hashAlgorithm := hash } (w.setPos h 0) with ⟨u, w', he⟩ | ⟨e, w', he, hfile, _⟩
    · obtain ⟨b, k0, af, mk', k, j, hsp, ho, hb, _, hsl, hkok, _, hj, hrep⟩ := change_effect hC (show KeyFile ((w.setPos h 0).rest _) hd _ aad from hf0) he
      have := hj hns0; subst this
      obtain ⟨p1, p2, e, e1, e2, rfl, hnot⟩ := KeyInv.split hps hU hsp ho hb
      subst e1 e2
      have hm : old ∈ ps.map Prod.fst := by rw [e]; simp
      rw [he]
      simp only [KeyCmd.onList, if_neg (not_not_intro hm), if_neg (not_not_intro (hsup hsl))]
      refine .inl ⟨by trivial, by trivial, hst.replaced (ps' := p1 ++ (new, k) :: p2) (by rw [List.map_append, List.map_cons]; exact hrep)
        (by rw [e] at hlen; simp at hlen ⊢; omega)
        (by
          intro q hq
          rw [List.mem_append, List.mem_cons] at hq
          rcases hq with hq | rfl | hq
          · exact hsok q (by rw [e]; simp [hq])
          · exact hkok
          · exact hsok q (by rw [e]; simp [hq]))
        (by rw [e]; simp only [List.map_append, List.map_cons]; rw [List.replace_append_right hnot, List.replace_cons_self])
        (by
          intro pw' hpw'
          rw [e] at hpw'; simp only [List.map_append, List.map_cons] at hpw'
          rw [List.replace_append_right hnot, List.replace_cons_self, List.mem_append, List.mem_cons] at hpw'
          rcases hpw' with hx | rfl | hx
          · exact hst.sub _ (by rw [e]; simp only [List.map_append, List.map_cons]; simp [hx])
          · exact hN
          · exact hst.sub _ (by rw [e]; simp only [List.map_append, List.map_cons]; simp [hx]))
        (by
          intro q hq
          rw [List.mem_append, List.mem_cons] at hq
          rcases hq with hq | rfl | hq
          · exact hps q (by rw [e]; simp [hq])
          · exact ⟨hsl.opens hC, fun pw hpw hne m => ht new hN pw hpw hne.symm hash k m hsl⟩
          · exact hps q (by rw [e]; simp [hq]))⟩
    · rw [he] at htouch ⊢
      exact .inr ⟨_, rfl, hst.unchanged (hdata htouch hfile)⟩
  | add old new hash =>
    have hU : old ∈ U := hc old (by simp [KeyCmd.passwords])
    have hN : new ∈ U := hc new (by simp [KeyCmd.passwords])
    have hrun : (KeyCmd.add old new hash).onFile C h w = add C { handle := h, rawKeyOld := old, rawKeyNew := new, hashAlgorithm := hash } (w.setPos h 0) := rfl
    rw [hrun]
    have htouch : Touches [] [h] (w.setPos h 0) (add C { handle := h, rawKeyOld := old, rawKeyNew := new, hashAlgorithm := hash } (w.setPos h 0)).2 :=
      (add_within C { handle := h, rawKeyOld := old, rawKeyNew := new, hashAlgorithm := hash }) _
    rcases add_safe hC { handle := h, rawKeyOld := old, rawKeyNew := new, hashAlgorithm := hash } (w.setPos h 0) with ⟨u, w', he⟩ | ⟨e, w', he, hfile, _⟩
    · obtain ⟨b, k0, af, mk', k, j, hsp, ho, hb, _, h4, hsl, hkok, _, hj, hrep⟩ := add_effect hC (show KeyFile ((w.setPos h 0).rest _) hd _ aad from hf0) he
      have := hj hns0; subst this
      obtain ⟨p1, p2, e, e1, e2, rfl, hnot⟩ := KeyInv.split hps hU hsp ho hb
      have hm : old ∈ ps.map Prod.fst := by rw [e]; simp
      rw [List.length_map] at h4
      rw [he]
      simp only [KeyCmd.onList, if_neg (not_not_intro hm), if_neg (not_not_intro (hsup hsl)), List.length_map, if_neg (show ps.length ≠ 4 by omega)]
      refine .inl ⟨by trivial, by trivial, hst.replaced (ps' := ps ++ [(new, k)]) (by rw [List.map_append]; exact hrep)
        (by simp; omega)
        (by
          intro q hq
          rcases List.mem_append.1 hq with hq | hq
          · exact hsok q hq
          · rw [List.mem_singleton.1 hq]; exact hkok)
        (by simp)
        (by
          intro pw' hpw'
          rcases List.mem_append.1 hpw' with hx | hx
          · exact hst.sub _ hx
          · rw [List.mem_singleton.1 hx]; exact hN)
        (by
          intro q hq
          rcases List.mem_append.1 hq with hq | hq
          · exact hps q hq
          · rw [List.mem_singleton.1 hq]
            exact ⟨hsl.opens hC, fun pw hpw hne m => ht new hN pw hpw hne.symm hash k m hsl⟩)⟩
    · rw [he] at htouch ⊢
      exact .inr ⟨_, rfl, hst.unchanged (hdata htouch hfile)⟩

/-- A history. -/
theorem KeyInv.steps {C : Crypto} (hC : C.Lawful) {t : HeaderType} {nonce aad mk body : Bytes} {U : List Bytes} {h : Nat} (cmds : List KeyCmd) :
    ∀ {l : List Bytes} {w : World}, KeyInv C t nonce aad mk body U h l w → NoShort w.sched → (∀ c ∈ cmds, ∀ pw ∈ c.passwords, pw ∈ U) →
      ToldApart C t.algorithm mk U w cmds.length →
      (∀ r ∈ (onFileAll C h cmds w).1, ∀ a, r ≠ .abort a) ∧
      (∀ r ∈ (onListAll (successes cmds (onFileAll C h cmds w).1) l).1, r = .ok ()) ∧
      KeyInv C t nonce aad mk body U h (onListAll (successes cmds (onFileAll C h cmds w).1) l).2 (onFileAll C h cmds w).2 := by
  induction cmds with
  | nil => intro l w hst _ _ _; exact ⟨by simp [onFileAll], by simp [onFileAll, successes, onListAll], hst⟩
  | cons c cs ih =>
    intro l w hst hns hc ht
    have hstep := hst.step hC hns c (hc c (by simp)) (by
      intro pw hpw pw' hpw' hne hash k m hk
      exact ht 0 (Nat.zero_le _) pw hpw pw' hpw' hne hash k m (by rw [Nat.zero_add]; exact hk))
    obtain ⟨d, hd, hu⟩ : ∃ d ≤ 16 + nonceLength t.algorithm .memoryMode, Used d w (c.onFile C h w).2 := by
      obtain ⟨hdr, ps, hf, rfl, _⟩ := hst.file
      exact onFile_takes hf c
    have ht' : ToldApart C t.algorithm mk U (c.onFile C h w).2 cs.length := by
      intro i hi pw hpw pw' hpw' hne hash k m hk
      refine ht (d + i) ?_ pw hpw pw' hpw' hne hash k m ?_
      · rw [List.length_cons, Nat.add_mul]; omega
      · rw [hu.tape, hu.tape, ← Nat.add_assoc] at hk; exact hk
    have hns' : NoShort (c.onFile C h w).2.sched := hns.of_suffix (Shrinks.onFile C h c w)
    simp only [onFileAll]
    rcases hstep with ⟨h1, h2, h3⟩ | ⟨e, h1, h3⟩
    · obtain ⟨a1, a2, a3⟩ := ih h3 hns' (fun c' h' => hc c' (by simp [h'])) ht'
      rw [h1]
      simp only [successes, onListAll]
      refine ⟨?_, ?_, a3⟩
      · intro r hr a
        rcases List.mem_cons.1 hr with rfl | hr
        · simp
        · exact a1 r hr a
      · intro r hr
        rcases List.mem_cons.1 hr with rfl | hr
        · exact h2
        · exact a2 r hr
    · obtain ⟨a1, a2, a3⟩ := ih h3 hns' (fun c' h' => hc c' (by simp [h'])) ht'
      rw [h1]
      simp only [successes]
      refine ⟨?_, a2, a3⟩
      intro r hr a
      rcases List.mem_cons.1 hr with rfl | hr
      · simp
      · exact a1 r hr a

end Volaris
