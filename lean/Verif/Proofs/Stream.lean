import Verif.Proofs.Header
import Verif.Model.Stream
import Verif.Spec.Stream
namespace Volaris
open Spec

theorem blockLen_eq : BLOCK_SIZE = blockLen := rfl
theorem blockLen_pos : 0 < blockLen := by decide

theorem streamNonce_eq (pre : Bytes) (i : Nat) (last : Bool) : streamNonce pre i last = blockNonce pre i last := by
  simp only [streamNonce, blockNonce, le32, show List.range 4 = [0, 1, 2, 3] from rfl, List.map_cons, List.map_nil]
  simp

/-! ### Worlds during a stream -/

namespace World

theorem adv_put_core (w : World) {rh wh : Nat} (hne : rh ≠ wh) (m : Nat) (bs : Bytes) :
    ((w.adv rh m).put wh bs).core = ((w.put wh bs).adv rh m).core := by
  apply core_ext <;> try rfl
  · funext i
    simp only [adv_file, put, adv_ino]
    rw [adv_fd_ne _ _ (Ne.symm hne)]
  · funext i
    by_cases h1 : i = rh
    · subst h1
      rw [put_fd_ne _ _ hne]
      simp [put_fd_ne _ _ hne]
    · by_cases h2 : i = wh
      · subst h2; rw [adv_fd_ne _ _ h1]; simp [adv_fd_ne _ _ h1]
      · rw [put_fd_ne _ _ h2, adv_fd_ne _ _ h1, adv_fd_ne _ _ h1, put_fd_ne _ _ h2]

theorem rest_put (w : World) {rh wh : Nat} (hne : rh ≠ wh) (hino : (w.fd rh).ino ≠ (w.fd wh).ino) (bs : Bytes) :
    (w.put wh bs).rest rh = w.rest rh := by
  simp only [rest, data]
  rw [put_fd_ne _ _ hne, put_file_ne _ _ hino]

end World

theorem readSub (h n : Nat) (w : World) : ∀ o ∈ (read h n w).2.sched, o ∈ w.sched := by
  unfold read World.pop
  cases hs : w.sched with
  | nil => simp [hs]
  | cons o s => cases o <;> simp <;> intro o ho <;> right <;> exact ho

theorem writeLoop_sub (h : Nat) (s : List Io) : ∀ (bs : Bytes) (w : World),
    ∀ o ∈ (writeLoop h s bs w).2.sched, o ∈ s := by
  induction s with
  | nil => intro bs w o; simp only [writeLoop]; split <;> simp
  | cons a s ih =>
    intro bs w o
    simp only [writeLoop]
    split
    · simp
    · cases a with
      | full => simp; intro ho; right; exact ho
      | short k =>
        dsimp only
        split
        · simp; intro ho; right; exact ho
        · intro ho; right; exact ih _ _ _ ho
      | intr => intro ho; right; exact ih _ _ _ ho
      | fail => simp; intro ho; right; exact ho

theorem writeAllSub (h : Nat) (bs : Bytes) (w : World) : ∀ o ∈ (writeAll h bs w).2.sched, o ∈ w.sched :=
  writeLoop_sub h w.sched bs w

theorem writeAll_nil' {w : World} (hs : w.sched = []) (h : Nat) (bs : Bytes) :
    ∃ w', writeAll h bs w = (.ok (), w') ∧ w'.core = (w.put h bs).core ∧ w'.sched = [] := by
  by_cases hb : bs = []
  · subst hb; exact ⟨w, writeAll_empty w h, (World.put_nil_core w h).symm, hs⟩
  · exact ⟨_, writeAll_nil hs h hb, rfl, by simp [hs]⟩

/-- A schedule without short transfers. -/
def NoShort (s : List Io) : Prop := ∀ k, Io.short k ∉ s

theorem read_noShort {h n : Nat} {w w' : World} {b : Bytes} (hs : NoShort w.sched)
    (he : read h n w = (.ok b, w')) : b = (w.rest h).take n := by
  unfold read World.pop at he
  cases hsc : w.sched with
  | nil => rw [hsc] at he; simp at he; exact he.1.symm
  | cons o s =>
    rw [hsc] at he hs
    cases o with
    | full => simp at he; rw [← he.1]; rfl
    | short k => exact absurd (by simp) (hs k)
    | intr => simp at he
    | fail => simp at he

/-! ### The body as a relation with explicit counters -/

inductive Sealed (C : Crypto) (a : Algorithm) (key pre aad : Bytes) : Nat → Bytes → Bytes → Prop
  | last {i : Nat} {p c : Bytes} (hi : i ≤ C.ctrMax) (hp : p.length < blockLen)
      (hc : C.enc a key (streamNonce pre i true) aad p = some c) : Sealed C a key pre aad i p c
  | next {i : Nat} {b p c cs : Bytes} (hi : i < C.ctrMax) (hb : b.length = blockLen)
      (hc : C.enc a key (streamNonce pre i false) aad b = some c)
      (ht : Sealed C a key pre aad (i + 1) p cs) : Sealed C a key pre aad i (b ++ p) (c ++ cs)

/-- Blocks opened one after the other, the last of them possibly a final one. -/
inductive Opened (C : Crypto) (a : Algorithm) (key pre aad : Bytes) : Nat → Bytes → Bytes → Prop
  | nil (i : Nat) : Opened C a key pre aad i [] []
  | last {i : Nat} {p c : Bytes} (hi : i ≤ C.ctrMax) (hc : c.length < blockLen + tagLen)
      (hd : C.dec a key (streamNonce pre i true) aad c = some p) : Opened C a key pre aad i p c
  | next {i : Nat} {b p c cs : Bytes} (hi : i < C.ctrMax) (hc : c.length = blockLen + tagLen)
      (hd : C.dec a key (streamNonce pre i false) aad c = some b)
      (ht : Opened C a key pre aad (i + 1) p cs) : Opened C a key pre aad i (b ++ p) (c ++ cs)

section
variable {C : Crypto} {a : Algorithm} {key pre aad : Bytes}

theorem Sealed.length (hC : C.Lawful) {i : Nat} {p c : Bytes} (h : Sealed C a key pre aad i p c) :
    c.length = p.length + tagLen * (p.length / blockLen + 1) := by
  induction h with
  | last hi hp hc =>
    rw [hC.enc_len _ _ _ _ _ _ hc, Nat.div_eq_of_lt hp]; rfl
  | @next i b p c cs hi hb hc ht ih =>
    rw [List.length_append, List.length_append, ih, hC.enc_len _ _ _ _ _ _ hc, hb,
      Nat.add_div_left _ blockLen_pos]
    simp only [tagLen]; omega

theorem Sealed.counter {i : Nat} {p c : Bytes} (h : Sealed C a key pre aad i p c) :
    i + p.length / blockLen ≤ C.ctrMax := by
  induction h with
  | last hi hp hc => rw [Nat.div_eq_of_lt hp]; omega
  | @next i b p c cs hi hb hc ht ih =>
    rw [List.length_append, hb, Nat.add_comm blockLen, Nat.add_div_right _ blockLen_pos]; omega

theorem Sealed.unique {i : Nat} {p c c' : Bytes} (h : Sealed C a key pre aad i p c)
    (h' : Sealed C a key pre aad i p c') : c = c' := by
  induction h generalizing c' with
  | last hi hp hc =>
    cases h' with
    | last _ _ hc' => rw [hc] at hc'; exact Option.some.inj hc'
    | next _ hb _ _ => simp at hp; omega
  | @next i b p c cs hi hb hc ht ih =>
    generalize hbp : b ++ p = bp at h'
    cases h' with
    | last _ hp _ => subst hbp; simp at hp; omega
    | @next _ b' p' c'' cs' _ hb' hc' ht' =>
      obtain ⟨rfl, rfl⟩ := List.append_inj hbp (by omega)
      rw [hc] at hc'
      rw [Option.some.inj hc', ih ht']

theorem Sealed.exists (hC : ∀ n m, n.length = pre.length + 4 → m.length ≤ blockLen →
      (C.enc a key n aad m).isSome) :
    ∀ (n i : Nat) (p : Bytes), p.length / blockLen = n → i + n ≤ C.ctrMax →
      ∃ c, Sealed C a key pre aad i p c := by
  have hnl : ∀ i l, (streamNonce pre i l).length = pre.length + 4 := by simp [streamNonce, le32]
  intro n
  induction n with
  | zero =>
    intro i p hp hi
    have hlt : p.length < blockLen := by
      rcases Nat.div_eq_zero_iff.1 hp with h | h
      · exact absurd h (by decide)
      · exact h
    obtain ⟨c, hc⟩ := Option.isSome_iff_exists.1 (hC (streamNonce pre i true) p (hnl _ _) (by omega))
    exact ⟨c, .last (by omega) hlt hc⟩
  | succ n ih =>
    intro i p hp hi
    have hge : blockLen ≤ p.length := by
      apply Nat.le_of_not_lt; intro hlt; rw [Nat.div_eq_of_lt hlt] at hp; omega
    have htl : (p.take blockLen).length = blockLen := by simp; omega
    obtain ⟨c, hc⟩ := Option.isSome_iff_exists.1 (hC (streamNonce pre i false) (p.take blockLen) (hnl _ _) (by omega))
    obtain ⟨cs, hcs⟩ := ih (i + 1) (p.drop blockLen) (by
      rw [List.length_drop]
      have := Nat.add_div_right (p.length - blockLen) blockLen_pos
      rw [Nat.sub_add_cancel hge, hp] at this
      omega) (by omega)
    have := Sealed.next (by omega) htl hc hcs
    rw [List.take_append_drop] at this
    exact ⟨_, this⟩

theorem Sealed.opened (hC : C.Lawful) {i : Nat} {p c : Bytes} (h : Sealed C a key pre aad i p c) :
    Opened C a key pre aad i p c := by
  induction h with
  | last hi hp hc =>
    exact .last hi (by rw [hC.enc_len _ _ _ _ _ _ hc]; simp [tagLen]; omega) (hC.dec_enc _ _ _ _ _ _ hc)
  | next hi hb hc ht ih =>
    exact .next hi (by rw [hC.enc_len _ _ _ _ _ _ hc, hb]; rfl) (hC.dec_enc _ _ _ _ _ _ hc) ih

/-- The nonces of `n` blocks starting at counter `i`. -/
def streamNonces (pre : Bytes) : Nat → Nat → List Bytes
  | _, 0 => []
  | i, n + 1 => streamNonce pre i (n = 0) :: streamNonces pre (i + 1) n

theorem Sealed.blocks {i : Nat} {p c : Bytes} (h : Sealed C a key pre aad i p c) :
    EncryptedBlocks C a key aad (streamNonces pre i (p.length / blockLen + 1)) p c := by
  induction h with
  | last hi hp hc =>
    rw [Nat.div_eq_of_lt hp]
    exact .last hp hc
  | @next i b p c cs hi hb hc ht ih =>
    rw [List.length_append, hb, Nat.add_comm blockLen, Nat.add_div_right _ blockLen_pos]
    exact .next hb hc ih

end

theorem le32_inj {m n : Nat} (hm : m < 2 ^ 32) (hn : n < 2 ^ 32) (h : le32 m = le32 n) : m = n := by
  simp only [le32, List.cons.injEq, and_true] at h
  obtain ⟨h0, h1, h2, h3⟩ := h
  have f : ∀ x y : Nat, UInt8.ofNat x = UInt8.ofNat y → x % 256 = y % 256 := by
    intro x y he
    have := congrArg UInt8.toNat he
    simpa using this
  have := f _ _ h0
  have := f _ _ h1
  have := f _ _ h2
  have := f _ _ h3
  omega

theorem streamNonce_inj {pre pre' : Bytes} {i j : Nat} {l l' : Bool} (hp : pre.length = pre'.length)
    (hi : i < 2 ^ 31) (hj : j < 2 ^ 31) (h : streamNonce pre i l = streamNonce pre' j l') :
    pre = pre' ∧ i = j ∧ l = l' := by
  obtain ⟨h1, h2⟩ := List.append_inj h hp
  have := le32_inj (by split <;> omega) (by split <;> omega) h2
  refine ⟨h1, ?_⟩
  cases l <;> cases l' <;> simp at this ⊢ <;> omega

theorem streamNonces_mem {pre : Bytes} : ∀ {n i : Nat} {x : Bytes}, x ∈ streamNonces pre i n →
    ∃ j, j < n ∧ x = streamNonce pre (i + j) (j + 1 = n) := by
  intro n
  induction n with
  | zero => intro i x h; simp [streamNonces] at h
  | succ n ih =>
    intro i x h
    simp only [streamNonces, List.mem_cons] at h
    rcases h with rfl | h
    · exact ⟨0, by omega, by simp⟩
    · obtain ⟨j, hj, rfl⟩ := ih h
      exact ⟨j + 1, by omega, by rw [show i + 1 + j = i + (j + 1) by omega]; simp⟩

theorem streamNonces_nodup (pre : Bytes) : ∀ (n i : Nat), i + n ≤ 2 ^ 31 → (streamNonces pre i n).Nodup := by
  intro n
  induction n with
  | zero => intro i _; simp [streamNonces]
  | succ n ih =>
    intro i hi
    simp only [streamNonces, List.nodup_cons]
    refine ⟨?_, ih (i + 1) (by omega)⟩
    intro hm
    obtain ⟨j, hj, he⟩ := streamNonces_mem hm
    have := (streamNonce_inj rfl (by omega) (by omega) he).2.1
    omega

/-! ### Encryption -/

/-- A read of less than a block that is not shorter than a block by a short transfer is the last one. -/
theorem read_whole {l : Bytes} {k : Nat} (hk : k ≤ BLOCK_SIZE) (hk0 : 0 < k) (hf : (l.take k).length ≠ BLOCK_SIZE) (hm : (l.take k).length % BLOCK_SIZE = 0) : (l.take k).length = l.length := by
  rw [List.length_take] at *
  have : 0 < BLOCK_SIZE := by decide
  have hlt : min k l.length < BLOCK_SIZE := by omega
  rw [Nat.mod_eq_of_lt hlt] at hm
  omega

/-- Every outcome of the encryption loop, under any schedule. -/
theorem encLoop_spec (C : Crypto) {rh wh : Nat} (hne : rh ≠ wh) (aad : Bytes) :
    ∀ (fuel : Nat) (s : Stream) (w : World), C.ctrMax ≤ s.position + fuel → (w.fd rh).ino ≠ (w.fd wh).ino →
    (∃ m c w', encLoop C rh wh aad fuel s w = (.ok (), w') ∧ m ≤ (w.rest rh).length ∧
      (NoShort w.sched ∨ m % BLOCK_SIZE = 0 → m = (w.rest rh).length) ∧
      Sealed C s.algorithm s.key s.pre aad s.position ((w.rest rh).take m) c ∧
      w'.core = ((w.adv rh m).put wh c).core) ∨
    (∃ e m out w', encLoop C rh wh aad fuel s w = (.err e, w') ∧
      w'.core = ((w.adv rh m).put wh out).core) := by
  intro fuel
  induction fuel with
  | zero =>
    intro s w hf hino
    unfold encLoop
    rcases read_spec rh BLOCK_SIZE w with ⟨k, w1, he, hk, hk0, hc⟩ | ⟨e, w1, he, hc⟩
    rotate_left
    · right
      rw [Prog.bind_err (Prog.mapErr_err he)]
      exact ⟨_, 0, [], w1, rfl, by rw [hc, World.put_nil_core]; simp⟩
    rw [Prog.bind_ok (Prog.mapErr_ok he)]
    by_cases hfull : ((w.rest rh).take k).length = BLOCK_SIZE
    · right
      rw [if_pos hfull]
      have hpos : s.encryptNext C aad ((w.rest rh).take k) = .err .crypt := by
        unfold Stream.encryptNext Stream.encAt
        split
        · rfl
        · rw [if_pos (by omega)]; rfl
      rw [hpos]
      exact ⟨_, _, [], w1, rfl, by rw [World.put_nil_core]; exact hc⟩
    · rw [if_neg hfull]
      have hread : (w.rest rh).take k = (w.rest rh).take ((w.rest rh).take k).length := by simp
      have hnosh : NoShort w.sched ∨ ((w.rest rh).take k).length % BLOCK_SIZE = 0 → ((w.rest rh).take k).length = (w.rest rh).length := by
        rintro (hs | hs)
        · have := read_noShort hs he
          rw [this] at hfull ⊢
          simp at hfull ⊢; omega
        · exact read_whole hk (hk0 (by decide)) hfull hs
      have hmk : ((w.rest rh).take k).length ≤ BLOCK_SIZE := by rw [List.length_take]; omega
      generalize hm : ((w.rest rh).take k).length = m at *
      have hmle : m ≤ (w.rest rh).length := by rw [← hm, List.length_take]; omega
      rw [hread]
      cases henc : s.encryptLast C aad ((w.rest rh).take m) with
      | abort x => unfold Stream.encryptLast Stream.encAt at henc; split at henc
                   · simp at henc
                   · cases hx : C.enc s.algorithm s.key (streamNonce s.pre s.position true) aad ((w.rest rh).take m) <;> simp [hx] at henc
      | err x =>
        right
        exact ⟨_, m, [], w1, rfl, by rw [World.put_nil_core]; exact hc⟩
      | ok c =>
        have hseal : Sealed C s.algorithm s.key s.pre aad s.position ((w.rest rh).take m) c := by
          unfold Stream.encryptLast Stream.encAt at henc
          split at henc
          · simp at henc
          · refine .last (by omega) ?_ (Res.ofOption_eq_ok.1 henc)
            have : ((w.rest rh).take m).length = m := by simp; omega
            rw [this, ← blockLen_eq]; omega
        rcases writeAll_spec wh c w1 with ⟨w2, he2, hc2⟩ | ⟨e, j, w2, _, he2, hc2⟩
        · left
          refine ⟨m, c, w2, ?_, hmle, hnosh, hseal, ?_⟩
          · show ((writeAll wh c).mapErr StreamErr.io) w1 = _
            exact Prog.mapErr_ok he2
          · rw [hc2]; exact World.put_core_congr _ _ hc
        · right
          refine ⟨.io e, m, c.take j, w2, ?_, ?_⟩
          · exact Prog.mapErr_err he2
          · rw [hc2]; exact World.put_core_congr _ _ hc
  | succ fuel ih =>
    intro s w hf hino
    unfold encLoop
    rcases read_spec rh BLOCK_SIZE w with ⟨k, w1, he, hk, hk0, hc⟩ | ⟨e, w1, he, hc⟩
    rotate_left
    · right
      rw [Prog.bind_err (Prog.mapErr_err he)]
      exact ⟨_, 0, [], w1, rfl, by rw [hc, World.put_nil_core]; simp⟩
    rw [Prog.bind_ok (Prog.mapErr_ok he)]
    have hread : (w.rest rh).take k = (w.rest rh).take ((w.rest rh).take k).length := by simp
    by_cases hfull : ((w.rest rh).take k).length = BLOCK_SIZE
    · rw [if_pos hfull]
      rw [hread, hfull]
      rw [hfull] at hc
      have hlen : BLOCK_SIZE ≤ (w.rest rh).length := by
        have := hfull; rw [List.length_take] at this; omega
      cases henc : s.encryptNext C aad ((w.rest rh).take BLOCK_SIZE) with
      | abort x => 
        unfold Stream.encryptNext Stream.encAt at henc; split at henc
        · simp at henc
        · split at henc
          · simp at henc
          · cases hx : C.enc s.algorithm s.key (streamNonce s.pre s.position false) aad ((w.rest rh).take BLOCK_SIZE) <;> simp [hx] at henc
      | err x =>
        right
        exact ⟨_, BLOCK_SIZE, [], w1, rfl, by rw [World.put_nil_core]; exact hc⟩
      | ok r =>
        obtain ⟨c, s'⟩ := r
        have hs' : s' = { s with position := s.position + 1 } ∧ s.position < C.ctrMax ∧
            C.enc s.algorithm s.key (streamNonce s.pre s.position false) aad ((w.rest rh).take BLOCK_SIZE) = some c := by
          unfold Stream.encryptNext Stream.encAt at henc
          split at henc
          · simp at henc
          · split at henc
            · simp at henc
            · rw [Res.bind_eq_ok] at henc
              obtain ⟨c', h1, h2⟩ := henc
              simp only [Res.pure_eq, Res.ok.injEq, Prod.mk.injEq] at h2
              obtain ⟨rfl, rfl⟩ := h2
              exact ⟨rfl, by omega, Res.ofOption_eq_ok.1 h1⟩
        obtain ⟨rfl, hlt, hcenc⟩ := hs'
        rcases writeAll_spec wh c w1 with ⟨w2, he2, hc2⟩ | ⟨e, j, w2, _, he2, hc2⟩
        rotate_left
        · right
          refine ⟨.io e, BLOCK_SIZE, c.take j, w2, ?_, ?_⟩
          · show ((writeAll wh c).mapErr StreamErr.io >>= _ : Prog StreamErr Unit) w1 = _
            rw [Prog.bind_err (Prog.mapErr_err he2)]
          · rw [hc2]; exact World.put_core_congr _ _ hc
        have hcore2 : w2.core = ((w.adv rh BLOCK_SIZE).put wh c).core := by
          rw [hc2]; exact World.put_core_congr _ _ hc
        have hrun : ∀ (f : Unit → Prog StreamErr Unit),
          (((writeAll wh c).mapErr StreamErr.io >>= f : Prog StreamErr Unit)) w1 = f () w2 := by
          intro f; rw [Prog.bind_ok (Prog.mapErr_ok he2)]
        have hfd2 := World.fd_of_core hcore2
        have hino2 : (w2.fd rh).ino ≠ (w2.fd wh).ino := by
          rw [hfd2]; simpa using hino
        have hrest2 : w2.rest rh = (w.rest rh).drop BLOCK_SIZE := by
          rw [World.rest_of_core hcore2, World.rest_put _ hne (by simpa using hino), World.rest_adv]
        have hsub : ∀ o ∈ w2.sched, o ∈ w.sched := by
          intro o ho
          have h1 := readSub rh BLOCK_SIZE w o
          rw [he] at h1
          have h2 := writeAllSub wh c w1 o
          rw [he2] at h2
          exact h1 (h2 ho)
        rcases ih { s with position := s.position + 1 } w2 (by simp; omega) hino2 with
          ⟨m, cs, w', hl, hm, hnosh, hseal, hcore⟩ | ⟨e, m, out, w', hl, hcore⟩
        · left
          rw [hrest2] at hm hnosh hseal
          refine ⟨BLOCK_SIZE + m, c ++ cs, w', ?_, ?_, ?_, ?_, ?_⟩
          · show ((writeAll wh c).mapErr StreamErr.io >>= _ : Prog StreamErr Unit) w1 = _
            rw [hrun]; exact hl
          · rw [List.length_drop] at hm; omega
          · intro hs
            have := hnosh (hs.imp (fun hs k hk => hs k (hsub _ hk)) fun hs => by rwa [Nat.add_mod_left] at hs)
            rw [List.length_drop] at this; omega
          · rw [List.take_add]
            exact .next hlt (by simp; rw [← blockLen_eq]; omega) hcenc hseal
          · rw [hcore]
            rw [World.put_core_congr _ _ (World.adv_core_congr rh m hcore2)]
            rw [World.put_core_congr _ _ (World.adv_put_core (w.adv rh BLOCK_SIZE) hne m c).symm]
            rw [World.put_put_core, World.adv_adv]
        · right
          refine ⟨e, BLOCK_SIZE + m, c ++ out, w', ?_, ?_⟩
          · show ((writeAll wh c).mapErr StreamErr.io >>= _ : Prog StreamErr Unit) w1 = _
            rw [hrun]; exact hl
          · rw [hcore]
            rw [World.put_core_congr _ _ (World.adv_core_congr rh m hcore2)]
            rw [World.put_core_congr _ _ (World.adv_put_core (w.adv rh BLOCK_SIZE) hne m c).symm]
            rw [World.put_put_core, World.adv_adv]
    · rw [if_neg hfull]
      have hnosh : NoShort w.sched ∨ ((w.rest rh).take k).length % BLOCK_SIZE = 0 → ((w.rest rh).take k).length = (w.rest rh).length := by
        rintro (hs | hs)
        · have := read_noShort hs he
          rw [this] at hfull ⊢
          simp at hfull ⊢; omega
        · exact read_whole hk (hk0 (by decide)) hfull hs
      have hmk : ((w.rest rh).take k).length ≤ BLOCK_SIZE := by rw [List.length_take]; omega
      generalize hm : ((w.rest rh).take k).length = m at *
      have hmle : m ≤ (w.rest rh).length := by rw [← hm, List.length_take]; omega
      rw [hread]
      cases henc : s.encryptLast C aad ((w.rest rh).take m) with
      | abort x => unfold Stream.encryptLast Stream.encAt at henc; split at henc
                   · simp at henc
                   · cases hx : C.enc s.algorithm s.key (streamNonce s.pre s.position true) aad ((w.rest rh).take m) <;> simp [hx] at henc
      | err x =>
        right
        exact ⟨_, m, [], w1, rfl, by rw [World.put_nil_core]; exact hc⟩
      | ok c =>
        have hseal : Sealed C s.algorithm s.key s.pre aad s.position ((w.rest rh).take m) c := by
          unfold Stream.encryptLast Stream.encAt at henc
          split at henc
          · simp at henc
          · refine .last (by omega) ?_ (Res.ofOption_eq_ok.1 henc)
            have : ((w.rest rh).take m).length = m := by simp; omega
            rw [this, ← blockLen_eq]; omega
        rcases writeAll_spec wh c w1 with ⟨w2, he2, hc2⟩ | ⟨e, j, w2, _, he2, hc2⟩
        · left
          refine ⟨m, c, w2, ?_, hmle, hnosh, hseal, ?_⟩
          · exact Prog.mapErr_ok he2
          · rw [hc2]; exact World.put_core_congr _ _ hc
        · right
          refine ⟨.io e, m, c.take j, w2, ?_, ?_⟩
          · exact Prog.mapErr_err he2
          · rw [hc2]; exact World.put_core_congr _ _ hc

theorem encTotal_pre {C : Crypto} {a : Algorithm} {key pre aad : Bytes} (hC : EncTotal C a key aad)
    (hp : pre.length = freshNonceLen a) :
    ∀ n m, n.length = pre.length + 4 → m.length ≤ blockLen → (C.enc a key n aad m).isSome := by
  intro n m hn hm
  refine hC n m ?_ hm
  rw [hn, hp]; cases a <;> rfl

/-- The encryption loop without faults: succeeds and appends the sealed body. -/
theorem encLoop_nil (C : Crypto) {rh wh : Nat} (hne : rh ≠ wh) (aad : Bytes) {alg : Algorithm} {key pre : Bytes}
    {i : Nat} {p c : Bytes} (hseal : Sealed C alg key pre aad i p c) :
    ∀ (fuel : Nat) (w : World), C.ctrMax ≤ i + fuel → (w.fd rh).ino ≠ (w.fd wh).ino → w.sched = [] →
      w.rest rh = p →
      ∃ w', encLoop C rh wh aad fuel { algorithm := alg, key, pre, position := i } w = (.ok (), w') ∧
        w'.core = ((w.adv rh p.length).put wh c).core ∧ w'.sched = [] := by
  induction hseal with
  | @last i p c hi hp hc =>
    intro fuel w hf hino hs hr
    have e1 := read_nil hs rh BLOCK_SIZE
    rw [hr, List.take_of_length_le (by rw [blockLen_eq]; omega)] at e1
    have hcl : (Stream.encryptLast C { algorithm := alg, key, pre, position := i } aad p) = .ok c := by
      simp only [Stream.encryptLast, Stream.encAt]
      rw [if_neg (by omega), hc]; rfl
    obtain ⟨w2, e2, hc2, hs2⟩ := writeAll_nil' (w := w.adv rh p.length) (by simpa using hs) wh c
    refine ⟨w2, ?_, hc2, hs2⟩
    unfold encLoop
    rw [Prog.bind_ok (Prog.mapErr_ok e1), if_neg (by rw [blockLen_eq]; omega), hcl]
    exact Prog.mapErr_ok e2
  | @next i b p c cs hi hb hc ht ih =>
    intro fuel w hf hino hs hr
    have e1 := read_nil hs rh BLOCK_SIZE
    rw [hr, blockLen_eq, ← hb, List.take_left] at e1
    have hcl : (Stream.encryptNext C { algorithm := alg, key, pre, position := i } aad b) =
        .ok (c, { algorithm := alg, key, pre, position := i + 1 }) := by
      simp only [Stream.encryptNext, Stream.encAt]
      rw [if_neg (by omega), if_neg (by omega), hc]; rfl
    obtain ⟨w2, e2, hc2, hs2⟩ := writeAll_nil' (w := w.adv rh b.length) (by simpa using hs) wh c
    cases fuel with
    | zero => omega
    | succ fuel =>
      have hino2 : (w2.fd rh).ino ≠ (w2.fd wh).ino := by
        rw [World.fd_of_core hc2]; simpa using hino
      have hrest2 : w2.rest rh = p := by
        rw [World.rest_of_core hc2, World.rest_put _ hne (by simpa using hino), World.rest_adv, hr]; simp
      obtain ⟨w3, e3, hc3, hs3⟩ := ih fuel w2 (by omega) hino2 hs2 hrest2
      refine ⟨w3, ?_, ?_, hs3⟩
      · unfold encLoop
        rw [blockLen_eq, ← hb]
        rw [Prog.bind_ok (Prog.mapErr_ok e1), if_pos rfl, hcl]
        show ((writeAll wh c).mapErr StreamErr.io >>= _ : Prog StreamErr Unit) _ = _
        rw [Prog.bind_ok (Prog.mapErr_ok e2)]
        exact e3
      · rw [hc3, World.put_core_congr _ _ (World.adv_core_congr rh p.length hc2),
          World.put_core_congr _ _ (World.adv_put_core (w.adv rh b.length) hne p.length c).symm,
          World.put_put_core, World.adv_adv, List.length_append]

/-! ### Decryption -/

/-- Every outcome of the decryption loop, under any schedule. -/
theorem decLoop_spec (C : Crypto) (hC : C.Lawful) {rh wh : Nat} (hne : rh ≠ wh) (aad : Bytes) :
    ∀ (fuel : Nat) (s : Stream) (w : World), C.ctrMax ≤ s.position + fuel → (w.fd rh).ino ≠ (w.fd wh).ino →
    (∃ m p w', decLoop C rh wh aad fuel s w = (.ok (), w') ∧ m ≤ (w.rest rh).length ∧
      (NoShort w.sched → m = (w.rest rh).length) ∧
      Sealed C s.algorithm s.key s.pre aad s.position p ((w.rest rh).take m) ∧
      w'.core = ((w.adv rh m).put wh p).core) ∨
    (∃ e m p c k w', decLoop C rh wh aad fuel s w = (.err e, w') ∧ c <+: w.rest rh ∧
      Opened C s.algorithm s.key s.pre aad s.position p c ∧
      w'.core = ((w.adv rh m).put wh (p.take k)).core) := by
  intro fuel
  induction fuel with
  | zero =>
    intro s w hf hino
    unfold decLoop
    rcases read_spec rh (BLOCK_SIZE + 16) w with ⟨k, w1, he, hk, hk0, hc⟩ | ⟨e, w1, he, hc⟩
    rotate_left
    · right
      rw [Prog.bind_err (Prog.mapErr_err he)]
      exact ⟨_, 0, [], [], 0, w1, rfl, List.nil_prefix, .nil _, by rw [hc, List.take_nil, World.put_nil_core]; simp⟩
    rw [Prog.bind_ok (Prog.mapErr_ok he)]
    by_cases hfull : ((w.rest rh).take k).length = BLOCK_SIZE + 16
    · right
      rw [if_pos hfull]
      have hpos : s.decryptNext C aad ((w.rest rh).take k) = .err .crypt := by
        unfold Stream.decryptNext Stream.decAt
        split
        · rfl
        · rw [if_pos (by omega)]; rfl
      rw [hpos]
      exact ⟨_, _, [], [], 0, w1, rfl, List.nil_prefix, .nil _,
        by rw [List.take_nil, World.put_nil_core]; exact hc⟩
    · rw [if_neg hfull]
      exact decTail hC s w w1 k he hc hk hfull
  | succ fuel ih =>
    intro s w hf hino
    unfold decLoop
    rcases read_spec rh (BLOCK_SIZE + 16) w with ⟨k, w1, he, hk, hk0, hc⟩ | ⟨e, w1, he, hc⟩
    rotate_left
    · right
      rw [Prog.bind_err (Prog.mapErr_err he)]
      exact ⟨_, 0, [], [], 0, w1, rfl, List.nil_prefix, .nil _, by rw [hc, List.take_nil, World.put_nil_core]; simp⟩
    rw [Prog.bind_ok (Prog.mapErr_ok he)]
    have hread : (w.rest rh).take k = (w.rest rh).take ((w.rest rh).take k).length := by simp
    by_cases hfull : ((w.rest rh).take k).length = BLOCK_SIZE + 16
    rotate_left
    · rw [if_neg hfull]
      exact decTail hC s w w1 k he hc hk hfull
    · rw [if_pos hfull]
      rw [hread, hfull]
      rw [hfull] at hc
      have hlen : BLOCK_SIZE + 16 ≤ (w.rest rh).length := by
        have := hfull; rw [List.length_take] at this; omega
      cases henc : s.decryptNext C aad ((w.rest rh).take (BLOCK_SIZE + 16)) with
      | abort x =>
        unfold Stream.decryptNext Stream.decAt at henc; split at henc
        · simp at henc
        · split at henc
          · simp at henc
          · cases hx : C.dec s.algorithm s.key (streamNonce s.pre s.position false) aad ((w.rest rh).take (BLOCK_SIZE + 16)) <;> simp [hx] at henc
      | err x =>
        right
        exact ⟨_, BLOCK_SIZE + 16, [], [], 0, w1, rfl, List.nil_prefix, .nil _,
          by rw [List.take_nil, World.put_nil_core]; exact hc⟩
      | ok r =>
        obtain ⟨p, s'⟩ := r
        have hs' : s' = { s with position := s.position + 1 } ∧ s.position < C.ctrMax ∧
            C.dec s.algorithm s.key (streamNonce s.pre s.position false) aad
              ((w.rest rh).take (BLOCK_SIZE + 16)) = some p := by
          unfold Stream.decryptNext Stream.decAt at henc
          split at henc
          · simp at henc
          · split at henc
            · simp at henc
            · rw [Res.bind_eq_ok] at henc
              obtain ⟨c', h1, h2⟩ := henc
              simp only [Res.pure_eq, Res.ok.injEq, Prod.mk.injEq] at h2
              obtain ⟨rfl, rfl⟩ := h2
              exact ⟨rfl, by omega, Res.ofOption_eq_ok.1 h1⟩
        obtain ⟨rfl, hlt, hcdec⟩ := hs'
        have hcenc := hC.enc_dec _ _ _ _ _ _ hcdec
        have hctl : ((w.rest rh).take (BLOCK_SIZE + 16)).length = blockLen + tagLen := by
          rw [List.length_take, Nat.min_eq_left hlen]; rfl
        have hpl : p.length = blockLen := by
          have := hC.enc_len _ _ _ _ _ _ hcenc
          rw [hctl] at this; simp only [tagLen] at this; omega
        rcases writeAll_spec wh p w1 with ⟨w2, he2, hc2⟩ | ⟨e, j, w2, _, he2, hc2⟩
        rotate_left
        · right
          have ho := Opened.next hlt hctl hcdec (.nil _)
          refine ⟨.io e, BLOCK_SIZE + 16, _, _, j, w2, ?_, ?_, ho, ?_⟩
          · show ((writeAll wh p).mapErr StreamErr.io >>= _ : Prog StreamErr Unit) w1 = _
            rw [Prog.bind_err (Prog.mapErr_err he2)]
          · rw [List.append_nil]; exact List.take_prefix _ _
          · rw [hc2, List.append_nil]; exact World.put_core_congr _ _ hc
        have hcore2 : w2.core = ((w.adv rh (BLOCK_SIZE + 16)).put wh p).core := by
          rw [hc2]; exact World.put_core_congr _ _ hc
        have hrun : ∀ (f : Unit → Prog StreamErr Unit),
          (((writeAll wh p).mapErr StreamErr.io >>= f : Prog StreamErr Unit)) w1 = f () w2 := by
          intro f; rw [Prog.bind_ok (Prog.mapErr_ok he2)]
        have hfd2 := World.fd_of_core hcore2
        have hino2 : (w2.fd rh).ino ≠ (w2.fd wh).ino := by
          rw [hfd2]; simpa using hino
        have hrest2 : w2.rest rh = (w.rest rh).drop (BLOCK_SIZE + 16) := by
          rw [World.rest_of_core hcore2, World.rest_put _ hne (by simpa using hino), World.rest_adv]
        have hsub : ∀ o ∈ w2.sched, o ∈ w.sched := by
          intro o ho
          have h1 := readSub rh (BLOCK_SIZE + 16) w o
          rw [he] at h1
          have h2 := writeAllSub wh p w1 o
          rw [he2] at h2
          exact h1 (h2 ho)
        rcases ih { s with position := s.position + 1 } w2 (by simp; omega) hino2 with
          ⟨m, ps, w', hl, hm, hnosh, hseal, hcore⟩ | ⟨e, m, ps, cs, j, w', hl, hpre, hop, hcore⟩
        · left
          rw [hrest2] at hm hnosh hseal
          refine ⟨BLOCK_SIZE + 16 + m, p ++ ps, w', ?_, ?_, ?_, ?_, ?_⟩
          · show ((writeAll wh p).mapErr StreamErr.io >>= _ : Prog StreamErr Unit) w1 = _
            rw [hrun]; exact hl
          · rw [List.length_drop] at hm; omega
          · intro hs
            have := hnosh (fun k hk => hs k (hsub _ hk))
            rw [List.length_drop] at this; omega
          · rw [List.take_add]
            exact .next hlt hpl hcenc hseal
          · rw [hcore]
            rw [World.put_core_congr _ _ (World.adv_core_congr rh m hcore2)]
            rw [World.put_core_congr _ _ (World.adv_put_core (w.adv rh (BLOCK_SIZE + 16)) hne m p).symm]
            rw [World.put_put_core, World.adv_adv]
        · right
          rw [hrest2] at hpre
          refine ⟨e, BLOCK_SIZE + 16 + m, p ++ ps, _, p.length + j, w', ?_, ?_, Opened.next hlt hctl hcdec hop, ?_⟩
          · show ((writeAll wh p).mapErr StreamErr.io >>= _ : Prog StreamErr Unit) w1 = _
            rw [hrun]; exact hl
          · obtain ⟨t, ht⟩ := hpre
            exact ⟨t, by rw [List.append_assoc, ht, List.take_append_drop]⟩
          · rw [hcore]
            rw [World.put_core_congr _ _ (World.adv_core_congr rh m hcore2)]
            rw [World.put_core_congr _ _ (World.adv_put_core (w.adv rh (BLOCK_SIZE + 16)) hne m p).symm]
            rw [World.put_put_core, World.adv_adv]
            have : (p ++ ps).take (p.length + j) = p ++ ps.take j := by
              rw [List.take_append, List.take_of_length_le (Nat.le_add_right _ _), Nat.add_sub_cancel_left]
            rw [this]
where
  decTail {C : Crypto} (hC : C.Lawful) {rh wh : Nat} {aad : Bytes} (s : Stream) (w w1 : World) (k : Nat)
      (he : read rh (BLOCK_SIZE + 16) w = (.ok ((w.rest rh).take k), w1))
      (hc : w1.core = (w.adv rh ((w.rest rh).take k).length).core) (hk : k ≤ BLOCK_SIZE + 16)
      (hfull : ((w.rest rh).take k).length ≠ BLOCK_SIZE + 16) :
      (∃ m p w', (do let p ← Prog.lift (s.decryptLast C aad ((w.rest rh).take k))
                     (writeAll wh p).mapErr StreamErr.io : Prog StreamErr Unit) w1 = (.ok (), w') ∧
        m ≤ (w.rest rh).length ∧ (NoShort w.sched → m = (w.rest rh).length) ∧
        Sealed C s.algorithm s.key s.pre aad s.position p ((w.rest rh).take m) ∧
        w'.core = ((w.adv rh m).put wh p).core) ∨
      (∃ e m p c j w', (do let p ← Prog.lift (s.decryptLast C aad ((w.rest rh).take k))
                           (writeAll wh p).mapErr StreamErr.io : Prog StreamErr Unit) w1 = (.err e, w') ∧
        c <+: w.rest rh ∧ Opened C s.algorithm s.key s.pre aad s.position p c ∧
        w'.core = ((w.adv rh m).put wh (p.take j)).core) := by
    have hread : (w.rest rh).take k = (w.rest rh).take ((w.rest rh).take k).length := by simp
    have hnosh : NoShort w.sched → ((w.rest rh).take k).length = (w.rest rh).length := by
      intro hs
      have := read_noShort hs he
      rw [this] at hfull ⊢
      simp at hfull ⊢; omega
    have hmk : ((w.rest rh).take k).length ≤ BLOCK_SIZE + 16 := by rw [List.length_take]; omega
    generalize hm : ((w.rest rh).take k).length = m at *
    have hmle : m ≤ (w.rest rh).length := by rw [← hm, List.length_take]; omega
    rw [hread]
    cases henc : s.decryptLast C aad ((w.rest rh).take m) with
    | abort x =>
      unfold Stream.decryptLast Stream.decAt at henc; split at henc
      · simp at henc
      · cases hx : C.dec s.algorithm s.key (streamNonce s.pre s.position true) aad ((w.rest rh).take m) <;> simp [hx] at henc
    | err x =>
      right
      exact ⟨_, m, [], [], 0, w1, rfl, List.nil_prefix, .nil _,
        by rw [List.take_nil, World.put_nil_core]; exact hc⟩
    | ok p =>
      have hdec : s.position ≤ C.ctrMax ∧
          C.dec s.algorithm s.key (streamNonce s.pre s.position true) aad ((w.rest rh).take m) = some p := by
        unfold Stream.decryptLast Stream.decAt at henc
        split at henc
        · simp at henc
        · exact ⟨by omega, Res.ofOption_eq_ok.1 henc⟩
      have henc' := hC.enc_dec _ _ _ _ _ _ hdec.2
      have htl : ((w.rest rh).take m).length = m := by simp; omega
      have hpl : p.length < blockLen := by
        have := hC.enc_len _ _ _ _ _ _ henc'
        rw [htl] at this
        rw [← blockLen_eq]; omega
      rcases writeAll_spec wh p w1 with ⟨w2, he2, hc2⟩ | ⟨e, j, w2, _, he2, hc2⟩
      · left
        refine ⟨m, p, w2, ?_, hmle, hnosh, .last hdec.1 hpl henc', ?_⟩
        · exact Prog.mapErr_ok he2
        · rw [hc2]; exact World.put_core_congr _ _ hc
      · right
        refine ⟨.io e, m, p, (w.rest rh).take m, j, w2, ?_, List.take_prefix _ _,
          .last hdec.1 (by rw [htl]; simp only [tagLen, ← blockLen_eq]; omega) hdec.2, ?_⟩
        · exact Prog.mapErr_err he2
        · rw [hc2]; exact World.put_core_congr _ _ hc

/-- The decryption loop without faults on a sealed body: succeeds and appends the plaintext. -/
theorem decLoop_nil (C : Crypto) (hC : C.Lawful) {rh wh : Nat} (hne : rh ≠ wh) (aad : Bytes) {alg : Algorithm}
    {key pre : Bytes} {i : Nat} {p c : Bytes} (hseal : Sealed C alg key pre aad i p c) :
    ∀ (fuel : Nat) (w : World), C.ctrMax ≤ i + fuel → (w.fd rh).ino ≠ (w.fd wh).ino → w.sched = [] →
      w.rest rh = c →
      ∃ w', decLoop C rh wh aad fuel { algorithm := alg, key, pre, position := i } w = (.ok (), w') ∧
        w'.core = ((w.adv rh c.length).put wh p).core ∧ w'.sched = [] := by
  induction hseal with
  | @last i p c hi hp hc =>
    intro fuel w hf hino hs hr
    have hcl := hC.enc_len _ _ _ _ _ _ hc
    have e1 := read_nil hs rh (BLOCK_SIZE + 16)
    rw [hr, List.take_of_length_le (by rw [blockLen_eq]; omega)] at e1
    have hcd : (Stream.decryptLast C { algorithm := alg, key, pre, position := i } aad c) = .ok p := by
      simp only [Stream.decryptLast, Stream.decAt]
      rw [if_neg (by omega), hC.dec_enc _ _ _ _ _ _ hc]; rfl
    obtain ⟨w2, e2, hc2, hs2⟩ := writeAll_nil' (w := w.adv rh c.length) (by simpa using hs) wh p
    refine ⟨w2, ?_, hc2, hs2⟩
    unfold decLoop
    rw [Prog.bind_ok (Prog.mapErr_ok e1), if_neg (by rw [blockLen_eq]; omega), hcd]
    exact Prog.mapErr_ok e2
  | @next i b p c cs hi hb hc ht ih =>
    intro fuel w hf hino hs hr
    have hcl := hC.enc_len _ _ _ _ _ _ hc
    have e1 := read_nil hs rh (BLOCK_SIZE + 16)
    rw [hr, blockLen_eq, ← hb, ← hcl, List.take_left] at e1
    have hcd : (Stream.decryptNext C { algorithm := alg, key, pre, position := i } aad c) =
        .ok (b, { algorithm := alg, key, pre, position := i + 1 }) := by
      simp only [Stream.decryptNext, Stream.decAt]
      rw [if_neg (by omega), if_neg (by omega), hC.dec_enc _ _ _ _ _ _ hc]; rfl
    obtain ⟨w2, e2, hc2, hs2⟩ := writeAll_nil' (w := w.adv rh c.length) (by simpa using hs) wh b
    cases fuel with
    | zero => omega
    | succ fuel =>
      have hino2 : (w2.fd rh).ino ≠ (w2.fd wh).ino := by
        rw [World.fd_of_core hc2]; simpa using hino
      have hrest2 : w2.rest rh = cs := by
        rw [World.rest_of_core hc2, World.rest_put _ hne (by simpa using hino), World.rest_adv, hr]; simp
      obtain ⟨w3, e3, hc3, hs3⟩ := ih fuel w2 (by omega) hino2 hs2 hrest2
      refine ⟨w3, ?_, ?_, hs3⟩
      · unfold decLoop
        rw [blockLen_eq, ← hb, ← hcl]
        rw [Prog.bind_ok (Prog.mapErr_ok e1), if_pos rfl, hcd]
        show ((writeAll wh b).mapErr StreamErr.io >>= _ : Prog StreamErr Unit) _ = _
        rw [Prog.bind_ok (Prog.mapErr_ok e2)]
        exact e3
      · rw [hc3, World.put_core_congr _ _ (World.adv_core_congr rh cs.length hc2),
          World.put_core_congr _ _ (World.adv_put_core (w.adv rh c.length) hne cs.length b).symm,
          World.put_put_core, World.adv_adv, List.length_append]

/-! ### `encrypt_file` and `decrypt_file` -/

theorem encryptFile_whole (C : Crypto) {rh wh : Nat} (hne : rh ≠ wh) (aad : Bytes) (s : Stream)
    (hs0 : s.position = 0) (w : World) (hino : (w.fd rh).ino ≠ (w.fd wh).ino) :
    (∃ m c w', encryptFile C s rh wh aad w = (.ok (), w') ∧ m ≤ (w.rest rh).length ∧
      (NoShort w.sched ∨ m % BLOCK_SIZE = 0 → m = (w.rest rh).length) ∧
      Sealed C s.algorithm s.key s.pre aad 0 ((w.rest rh).take m) c ∧
      w'.core = ((w.adv rh m).put wh c).core) ∨
    (∃ e m out w', encryptFile C s rh wh aad w = (.err e, w') ∧
      w'.core = ((w.adv rh m).put wh out).core) := by
  unfold encryptFile
  rcases encLoop_spec C hne aad C.ctrMax s w (by omega) hino with
    ⟨m, c, w1, he, hm, hn, hseal, hc⟩ | ⟨e, m, out, w1, he, hc⟩
  · rw [Prog.bind_ok he]
    rw [hs0] at hseal
    rcases flush_spec wh w1 with ⟨w2, he2, hc2⟩ | ⟨e, w2, he2, hc2⟩
    · exact .inl ⟨m, c, w2, Prog.mapErr_ok he2, hm, hn, hseal, by rw [hc2, hc]⟩
    · exact .inr ⟨_, m, c, w2, Prog.mapErr_err he2, by rw [hc2, hc]⟩
  · rw [Prog.bind_err he]
    exact .inr ⟨e, m, out, w1, rfl, hc⟩

theorem encryptFile_spec (C : Crypto) {rh wh : Nat} (hne : rh ≠ wh) (aad : Bytes) (s : Stream)
    (hs0 : s.position = 0) (w : World) (hino : (w.fd rh).ino ≠ (w.fd wh).ino) :
    (∃ m c w', encryptFile C s rh wh aad w = (.ok (), w') ∧ m ≤ (w.rest rh).length ∧
      (NoShort w.sched → m = (w.rest rh).length) ∧
      Sealed C s.algorithm s.key s.pre aad 0 ((w.rest rh).take m) c ∧
      w'.core = ((w.adv rh m).put wh c).core) ∨
    (∃ e m out w', encryptFile C s rh wh aad w = (.err e, w') ∧
      w'.core = ((w.adv rh m).put wh out).core) := by
  rcases encryptFile_whole C hne aad s hs0 w hino with ⟨m, c, w', he, hm, hn, hs, hc⟩ | h
  · exact .inl ⟨m, c, w', he, hm, fun h => hn (.inl h), hs, hc⟩
  · exact .inr h

theorem decryptFile_spec (C : Crypto) (hC : C.Lawful) {rh wh : Nat} (hne : rh ≠ wh) (aad : Bytes) (s : Stream)
    (hs0 : s.position = 0) (w : World) (hino : (w.fd rh).ino ≠ (w.fd wh).ino) :
    (∃ m p w', decryptFile C s rh wh aad w = (.ok (), w') ∧ m ≤ (w.rest rh).length ∧
      (NoShort w.sched → m = (w.rest rh).length) ∧
      Sealed C s.algorithm s.key s.pre aad 0 p ((w.rest rh).take m) ∧
      w'.core = ((w.adv rh m).put wh p).core) ∨
    (∃ e m p c k w', decryptFile C s rh wh aad w = (.err e, w') ∧ c <+: w.rest rh ∧
      Opened C s.algorithm s.key s.pre aad 0 p c ∧
      w'.core = ((w.adv rh m).put wh (p.take k)).core) := by
  unfold decryptFile
  rcases decLoop_spec C hC hne aad C.ctrMax s w (by omega) hino with
    ⟨m, p, w1, he, hm, hn, hseal, hc⟩ | ⟨e, m, p, c, k, w1, he, hpre, hop, hc⟩
  · rw [Prog.bind_ok he]
    rw [hs0] at hseal
    rcases flush_spec wh w1 with ⟨w2, he2, hc2⟩ | ⟨e, w2, he2, hc2⟩
    · exact .inl ⟨m, p, w2, Prog.mapErr_ok he2, hm, hn, hseal, by rw [hc2, hc]⟩
    · exact .inr ⟨_, m, p, _, p.length, w2, Prog.mapErr_err he2, List.take_prefix m _, hseal.opened hC,
        by rw [hc2, hc, List.take_length]⟩
  · rw [Prog.bind_err he]
    rw [hs0] at hop
    exact .inr ⟨e, m, p, c, k, w1, rfl, hpre, hop, hc⟩

theorem encryptFile_nil (C : Crypto) {rh wh : Nat} (hne : rh ≠ wh) (aad : Bytes) {s : Stream} (hs0 : s.position = 0)
    {w : World} {c : Bytes} (hseal : Sealed C s.algorithm s.key s.pre aad 0 (w.rest rh) c)
    (hino : (w.fd rh).ino ≠ (w.fd wh).ino) (hs : w.sched = []) :
    ∃ w', encryptFile C s rh wh aad w = (.ok (), w') ∧
      w'.core = ((w.adv rh (w.rest rh).length).put wh c).core ∧ w'.sched = [] := by
  obtain ⟨w1, e1, hc1, hs1⟩ := encLoop_nil C hne aad hseal C.ctrMax w (by omega) hino hs rfl
  refine ⟨w1, ?_, hc1, hs1⟩
  unfold encryptFile
  rcases s with ⟨_, _, _, _⟩
  simp only at hs0
  subst hs0
  rw [Prog.bind_ok e1]
  exact Prog.mapErr_ok (flush_nil hs1 wh)

theorem decryptFile_nil (C : Crypto) (hC : C.Lawful) {rh wh : Nat} (hne : rh ≠ wh) (aad : Bytes) {s : Stream}
    (hs0 : s.position = 0) {w : World} {p : Bytes}
    (hseal : Sealed C s.algorithm s.key s.pre aad 0 p (w.rest rh))
    (hino : (w.fd rh).ino ≠ (w.fd wh).ino) (hs : w.sched = []) :
    ∃ w', decryptFile C s rh wh aad w = (.ok (), w') ∧
      w'.core = ((w.adv rh (w.rest rh).length).put wh p).core ∧ w'.sched = [] := by
  obtain ⟨w1, e1, hc1, hs1⟩ := decLoop_nil C hC hne aad hseal C.ctrMax w (by omega) hino hs rfl
  refine ⟨w1, ?_, hc1, hs1⟩
  unfold decryptFile
  rcases s with ⟨_, _, _, _⟩
  simp only at hs0
  subst hs0
  rw [Prog.bind_ok e1]
  exact Prog.mapErr_ok (flush_nil hs1 wh)

/-! ### Corollaries used by the property theorems -/

theorem streamNonces_eq (pre : Bytes) : ∀ n i, streamNonces pre i (n + 1) =
    (List.range' i n).map (fun j => blockNonce pre j false) ++ [blockNonce pre (i + n) true] := by
  intro n
  induction n with
  | zero => intro i; simp [streamNonces, streamNonce_eq]
  | succ n ih =>
    intro i
    rw [streamNonces, ih (i + 1), List.range'_succ]
    simp [streamNonce_eq, show i + 1 + n = i + (n + 1) by omega]

theorem streamNonces_body (pre : Bytes) (n : Nat) : streamNonces pre 0 (n + 1) = bodyNonces pre n := by
  rw [streamNonces_eq, bodyNonces, List.range_eq_range']; simp

theorem Copied.of_core {rh wh : Nat} (hne : rh ≠ wh) {w w' : World} {n : Nat} {bs : Bytes}
    (h : w'.core = ((w.adv rh n).put wh bs).core) : Copied rh wh w w' n bs where
  read := by rw [World.fd_of_core h, World.put_fd_ne _ _ hne]; simp
  write := by rw [World.fd_of_core h]; simp [World.adv_fd_ne _ _ (Ne.symm hne)]
  content := by
    rw [World.file_of_core h]
    have := World.put_file_same (w.adv rh n) wh bs
    rw [World.adv_ino] at this
    rw [this]; simp [World.adv_fd_ne _ _ (Ne.symm hne)]
  files := by intro i hi; rw [World.file_of_core h, World.put_file_ne _ _ (by simpa using hi)]; rfl
  fds := by
    intro i h1 h2
    rw [World.fd_of_core h, World.put_fd_ne _ _ h2, World.adv_fd_ne _ _ h1]
  dir := by rw [World.dir_of_core h]; rfl

section
variable {C : Crypto} {a : Algorithm} {key pre aad : Bytes}

theorem chunk_last {p : Bytes} {i : Nat} (hi : i = p.length / blockLen) : chunk p i = p.drop (i * blockLen) := by
  rw [chunk, List.take_of_length_le]
  rw [List.length_drop]
  subst hi
  have := Nat.div_add_mod p.length blockLen
  have h2 := Nat.mod_lt p.length blockLen_pos
  rw [Nat.mul_comm (p.length / blockLen) blockLen]
  omega

theorem chunk_append {p : Bytes} {i : Nat} : chunk p i ++ p.drop ((i + 1) * blockLen) = p.drop (i * blockLen) := by
  rw [chunk, Nat.succ_mul, ← List.drop_drop, List.take_append_drop]

theorem Opened.genuine {p ct : Bytes} (hn : NoForgery C a key pre aad p ct) {i : Nat} {q c : Bytes}
    (h : Opened C a key pre aad i q c) (hc : c <+: ct.drop (i * (blockLen + tagLen))) :
    q <+: p.drop (i * blockLen) := by
  induction h with
  | nil i => exact List.nil_prefix
  | @last i q c hi hl hd =>
    have := hn i c q (by omega) hc (by omega) (by rw [← streamNonce_eq]; simpa [hl] using hd)
    rw [decide_eq_true hl] at this
    obtain ⟨rfl, h⟩ := this
    simp at h
    rw [chunk_last h]
    exact List.prefix_refl _
  | @next i b q c cs hi hl hd ht ih =>
    have hlt : ¬ c.length < blockLen + tagLen := by omega
    have := hn i c b (by omega) ((List.prefix_append _ _).trans hc) (by omega) (by rw [← streamNonce_eq]; simpa [hlt] using hd)
    rw [this.1, ← chunk_append (p := p) (i := i)]
    rw [List.prefix_append_right_inj]
    apply ih
    obtain ⟨t, ht⟩ := hc
    refine ⟨t, ?_⟩
    rw [Nat.succ_mul, ← List.drop_drop, ← ht, ← hl, List.append_assoc, List.drop_left]

theorem Sealed.genuine (hC : C.Lawful) {p ct : Bytes} (hn : NoForgery C a key pre aad p ct) {i : Nat} {q c : Bytes}
    (h : Sealed C a key pre aad i q c) (hc : c <+: ct.drop (i * (blockLen + tagLen))) :
    q = p.drop (i * blockLen) := by
  induction h with
  | @last i q c hi hl he =>
    have hcl : c.length < blockLen + tagLen := by rw [hC.enc_len _ _ _ _ _ _ he]; simp [tagLen]; omega
    have := hn i c q (by omega) hc (by omega) (by rw [← streamNonce_eq]; simpa [hcl] using hC.dec_enc _ _ _ _ _ _ he)
    rw [decide_eq_true hcl] at this
    obtain ⟨rfl, h⟩ := this
    simp at h
    exact chunk_last h
  | @next i b q c cs hi hb he ht ih =>
    have hcl : c.length = blockLen + tagLen := by rw [hC.enc_len _ _ _ _ _ _ he, hb]; rfl
    have hlt : ¬ c.length < blockLen + tagLen := by omega
    have := hn i c b (by omega) ((List.prefix_append _ _).trans hc) (by omega)
      (by rw [← streamNonce_eq]; simpa [hlt] using hC.dec_enc _ _ _ _ _ _ he)
    rw [this.1, ← chunk_append (p := p) (i := i)]
    congr 1
    apply ih
    obtain ⟨t, ht⟩ := hc
    refine ⟨t, ?_⟩
    rw [Nat.succ_mul, ← List.drop_drop, ← ht, ← hcl, List.append_assoc, List.drop_left]

theorem Sealed.genuineFull (hC : C.Lawful) {p ct : Bytes} (hn : NoForgeryFull C a key pre aad p ct) {i : Nat}
    {q c : Bytes} (h : Sealed C a key pre aad i q c) (hc : c = ct.drop (i * (blockLen + tagLen))) :
    q = p.drop (i * blockLen) := by
  induction h with
  | @last i q c hi hl he =>
    have hcl : c.length < blockLen + tagLen := by rw [hC.enc_len _ _ _ _ _ _ he]; simp [tagLen]; omega
    have := hn i c q (by omega) (by rw [← hc, List.take_of_length_le (by omega)])
      (by rw [← streamNonce_eq]; simpa [hcl] using hC.dec_enc _ _ _ _ _ _ he)
    rw [decide_eq_true hcl] at this
    obtain ⟨rfl, h⟩ := this
    simp at h
    exact chunk_last h
  | @next i b q c cs hi hb he ht ih =>
    have hcl : c.length = blockLen + tagLen := by rw [hC.enc_len _ _ _ _ _ _ he, hb]; rfl
    have hlt : ¬ c.length < blockLen + tagLen := by omega
    have := hn i c b (by omega) (by rw [← hc, ← hcl, List.take_left])
      (by rw [← streamNonce_eq]; simpa [hlt] using hC.dec_enc _ _ _ _ _ _ he)
    rw [this.1, ← chunk_append (p := p) (i := i)]
    congr 1
    apply ih
    rw [Nat.succ_mul, ← List.drop_drop, ← hc, ← hcl, List.drop_left]

theorem _root_.Volaris.Spec.EncryptedBlocks.sealed {ns : List Bytes} {p c : Bytes}
    (h : EncryptedBlocks C a key aad ns p c) : ∀ {i : Nat}, ns = streamNonces pre i (p.length / blockLen + 1) →
      i + p.length / blockLen ≤ C.ctrMax → Sealed C a key pre aad i p c := by
  induction h with
  | @last n p c hp hc =>
    intro i hn hi
    rw [Nat.div_eq_of_lt hp] at hn hi
    simp only [streamNonces, List.cons.injEq, and_true] at hn
    subst hn
    exact .last (by omega) hp hc
  | @next n b p c cs ns hb hc ht ih =>
    intro i hn hi
    rw [List.length_append, hb, Nat.add_div_left _ blockLen_pos] at hn hi
    rw [streamNonces] at hn
    simp only [List.cons.injEq] at hn
    obtain ⟨rfl, rfl⟩ := hn
    refine .next ?_ hb hc (ih rfl ?_) <;> generalize p.length / blockLen = q at hi <;> omega

theorem Sealed.blockCount (hC : C.Lawful) {i : Nat} {p c : Bytes} (h : Sealed C a key pre aad i p c) :
    c.length / (blockLen + tagLen) = p.length / blockLen := by
  have hl := h.length hC
  have h1 := Nat.div_add_mod p.length blockLen
  have h2 := Nat.mod_lt p.length blockLen_pos
  generalize p.length / blockLen = q at *
  generalize p.length % blockLen = r at *
  have : c.length = (r + tagLen) + (blockLen + tagLen) * q := by
    rw [hl, ← h1, Nat.mul_add, Nat.add_mul]; omega
  rw [this, Nat.add_mul_div_left _ _ (by simp [blockLen, tagLen]), Nat.div_eq_of_lt (by simp only [tagLen]; omega)]
  omega

end

theorem read_full {w : World} {s : List Io} (hs : w.sched = .full :: s) (h n : Nat) :
    read h n w = (.ok ((w.rest h).take n), { w.adv h ((w.rest h).take n).length with sched := s }) := by
  unfold read World.pop; rw [hs]; rfl

theorem read_short {w : World} {s : List Io} {k : Nat} (hs : w.sched = .short k :: s) (h n : Nat) :
    read h n w = (.ok ((w.rest h).take (min n (max 1 k))),
      { w.adv h ((w.rest h).take (min n (max 1 k))).length with sched := s }) := by
  unfold read World.pop; rw [hs]; rfl

theorem writeAll_full {w : World} {s : List Io} (hs : w.sched = .full :: s) (h : Nat) {bs : Bytes} (hb : bs ≠ []) :
    writeAll h bs w = (.ok (), { w.put h bs with sched := s }) := by
  unfold writeAll; rw [hs, writeLoop, if_neg hb]

/-- With the schedule "full calls, then one short read" the loop stops after the short read. -/
theorem encLoop_short (C : Crypto) (hC : C.Lawful) {rh wh : Nat} (hne : rh ≠ wh) (aad : Bytes) {alg : Algorithm}
    {key pre : Bytes} {i : Nat} {p c : Bytes} (hseal : Sealed C alg key pre aad i p c) :
    ∀ (fuel : Nat) (w : World) (t : Bytes), C.ctrMax ≤ i + fuel → (w.fd rh).ino ≠ (w.fd wh).ino →
      w.sched = List.replicate (2 * (p.length / blockLen)) .full ++ [.short (p.length % blockLen)] →
      0 < p.length % blockLen → w.rest rh = p ++ t →
      ∃ w', encLoop C rh wh aad fuel { algorithm := alg, key, pre, position := i } w = (.ok (), w') ∧
        w'.core = ((w.adv rh p.length).put wh c).core ∧ w'.sched = [] := by
  induction hseal with
  | @last i p c hi hp hc =>
    intro fuel w t hf hino hs h0 hr
    rw [Nat.div_eq_of_lt hp, Nat.mod_eq_of_lt hp] at hs
    rw [Nat.mod_eq_of_lt hp] at h0
    have e1 := read_short hs rh BLOCK_SIZE
    have hmin : min BLOCK_SIZE (max 1 p.length) = p.length := by rw [blockLen_eq]; omega
    rw [hr, hmin, List.take_left] at e1
    have hcl : (Stream.encryptLast C { algorithm := alg, key, pre, position := i } aad p) = .ok c := by
      simp only [Stream.encryptLast, Stream.encAt]
      rw [if_neg (by omega), hc]; rfl
    obtain ⟨w2, e2, hc2, hs2⟩ := writeAll_nil' (w := { w.adv rh p.length with sched := [] }) rfl wh c
    refine ⟨w2, ?_, hc2, hs2⟩
    unfold encLoop
    rw [Prog.bind_ok (Prog.mapErr_ok e1), if_neg (by rw [blockLen_eq]; omega), hcl]
    exact Prog.mapErr_ok e2
  | @next i b p c cs hi hb hc ht ih =>
    intro fuel w t hf hino hs h0 hr
    rw [List.length_append, hb, Nat.add_div_left _ blockLen_pos, Nat.add_mod_left] at hs
    rw [List.length_append, hb, Nat.add_mod_left] at h0
    have hs' : w.sched = .full :: .full :: (List.replicate (2 * (p.length / blockLen)) .full
        ++ [.short (p.length % blockLen)]) := by
      rw [hs, Nat.mul_succ]; rfl
    obtain ⟨S, hS⟩ : ∃ S : List Io, S = List.replicate (2 * (p.length / blockLen)) .full
        ++ [.short (p.length % blockLen)] := ⟨_, rfl⟩
    rw [← hS] at hs'
    have e1 := read_full hs' rh BLOCK_SIZE
    rw [hr, blockLen_eq, ← hb, List.append_assoc, List.take_left] at e1
    have hcl : (Stream.encryptNext C { algorithm := alg, key, pre, position := i } aad b) =
        .ok (c, { algorithm := alg, key, pre, position := i + 1 }) := by
      simp only [Stream.encryptNext, Stream.encAt]
      rw [if_neg (by omega), if_neg (by omega), hc]; rfl
    have hcne : c ≠ [] := by
      intro h; have := hC.enc_len _ _ _ _ _ _ hc; rw [h] at this; simp at this
    have e2 := writeAll_full (w := { w.adv rh b.length with sched := .full :: S }) rfl wh hcne
    cases fuel with
    | zero => omega
    | succ fuel =>
      obtain ⟨w3, e3, hc3, hs3⟩ := ih fuel { ({ w.adv rh b.length with sched := .full :: S } : World).put wh c with sched := S } t (by omega)
        (by simpa using hino) hS h0 (by
          show ((w.adv rh b.length).put wh c).rest rh = _
          rw [World.rest_put _ hne (by simpa using hino), World.rest_adv, hr]; simp)
      refine ⟨w3, ?_, ?_, hs3⟩
      · unfold encLoop
        rw [blockLen_eq, ← hb]
        rw [Prog.bind_ok (Prog.mapErr_ok e1), if_pos rfl, hcl]
        show ((writeAll wh c).mapErr StreamErr.io >>= _ : Prog StreamErr Unit) _ = _
        rw [Prog.bind_ok (Prog.mapErr_ok e2)]
        exact e3
      · rw [hc3]
        show ((((w.adv rh b.length).put wh c).adv rh p.length).put wh cs).core = _
        rw [World.put_core_congr _ _ (World.adv_put_core (w.adv rh b.length) hne p.length c).symm,
          World.put_put_core, World.adv_adv, List.length_append]

theorem encryptFile_short (C : Crypto) (hC : C.Lawful) {rh wh : Nat} (hne : rh ≠ wh) (aad : Bytes) {s : Stream}
    (hs0 : s.position = 0) {w : World} {p t c : Bytes} (hseal : Sealed C s.algorithm s.key s.pre aad 0 p c)
    (hino : (w.fd rh).ino ≠ (w.fd wh).ino) (h0 : 0 < p.length % blockLen) (hr : w.rest rh = p ++ t)
    (hs : w.sched = List.replicate (2 * (p.length / blockLen)) .full ++ [.short (p.length % blockLen)]) :
    ∃ w', encryptFile C s rh wh aad w = (.ok (), w') ∧
      w'.core = ((w.adv rh p.length).put wh c).core ∧ w'.sched = [] := by
  obtain ⟨w1, e1, hc1, hs1⟩ := encLoop_short C hC hne aad hseal C.ctrMax w t (by omega) hino hs h0 hr
  refine ⟨w1, ?_, hc1, hs1⟩
  unfold encryptFile
  rcases s with ⟨_, _, _, _⟩
  simp only at hs0
  subst hs0
  rw [Prog.bind_ok e1]
  exact Prog.mapErr_ok (flush_nil hs1 wh)

end Volaris
