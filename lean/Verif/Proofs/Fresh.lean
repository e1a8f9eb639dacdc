import Verif.Spec.Fresh
import Verif.Proofs.Shrinks
import Verif.Proofs.KeyFiles
import Verif.Proofs.EndToEnd
/-!
# The random source only moves forward
-/
namespace Volaris
open Spec

theorem Spec.Used.refl (w : World) : Used 0 w w := fun i => by rw [Nat.zero_add]

theorem Spec.Used.of_rng {w w' : World} (h : w'.rng = w.rng) : Used 0 w w' := fun i => by rw [h, Nat.zero_add]

theorem Spec.Used.trans {m n : Nat} {w w1 w2 : World} (h1 : Used m w w1) (h2 : Used n w1 w2) : Used (m + n) w w2 := fun i => by
  rw [h2, h1, Nat.add_assoc]

theorem Spec.Used.tape {m : Nat} {w w' : World} (h : Used m w w') (i n : Nat) : tape w' i n = tape w (m + i) n := by
  simp only [Spec.tape, h _, Nat.add_assoc]

/-- Every run of `x` uses up some part of the random source. -/
def Forward {ε α : Type} (x : Prog ε α) : Prop := ∀ w, ∃ n, Used n w (x w).2

namespace Forward
variable {ε ε' α β : Type}

theorem of_rng {x : Prog ε α} (h : ∀ w, (x w).2.rng = w.rng) : Forward x := fun w => ⟨0, .of_rng (h w)⟩

theorem lift (r : Res ε α) : Forward (Prog.lift r) := of_rng fun _ => rfl
theorem throw (e : ε) : Forward (Prog.throw e : Prog ε α) := of_rng fun _ => rfl
theorem panic : Forward (Prog.panic : Prog ε α) := of_rng fun _ => rfl
theorem pure (a : α) : Forward (Pure.pure a : Prog ε α) := of_rng fun _ => rfl

theorem bind {x : Prog ε α} {f : α → Prog ε β} (hx : Forward x) (hf : ∀ a, Forward (f a)) : Forward (x >>= f) := by
  intro w
  have h1 := hx w
  rw [Prog.bind_run]
  revert h1
  rcases x w with ⟨r, w'⟩
  rintro ⟨n, h1⟩
  cases r with
  | ok a => obtain ⟨m, h2⟩ := hf a w'; exact ⟨_, h1.trans h2⟩
  | err e => exact ⟨n, h1⟩
  | abort a => exact ⟨n, h1⟩

theorem mapErr {x : Prog ε α} (f : ε → ε') (hx : Forward x) : Forward (x.mapErr f) := by
  intro w
  have h1 := hx w
  rw [Prog.mapErr_run]
  revert h1
  rcases x w with ⟨r, w'⟩
  cases r <;> exact id

theorem ite {c : Prop} [Decidable c] {x y : Prog ε α} (hx : Forward x) (hy : Forward y) :
    Forward (if c then x else y) := by split <;> assumption

theorem genBytes (n : Nat) : Forward (Volaris.genBytes n : Prog ε Bytes) := fun w =>
  ⟨n, fun i => by simp only [Volaris.genBytes, Nat.add_comm]⟩

theorem pop (w : World) : w.pop.2.rng = w.rng := by
  unfold World.pop; split <;> rfl

theorem read (h n : Nat) : Forward (Volaris.read h n) := of_rng fun w => by
  have := pop w
  unfold Volaris.read
  revert this
  rcases w.pop with ⟨o, w1⟩
  intro this
  cases o <;> exact this

theorem write (h : Nat) (bs : Bytes) : Forward (Volaris.write h bs) := of_rng fun w => by
  have := pop w
  unfold Volaris.write
  revert this
  rcases w.pop with ⟨o, w1⟩
  intro this
  cases o <;> exact this

theorem seekStart (h p : Nat) : Forward (Volaris.seekStart h p) := of_rng fun w => by
  have := pop w
  unfold Volaris.seekStart
  revert this
  rcases w.pop with ⟨o, w1⟩
  intro this
  cases o <;> exact this

theorem rewind (h : Nat) : Forward (Volaris.rewind h) := seekStart h 0

theorem seekCur (h : Nat) (d : Int) : Forward (Volaris.seekCur h d) := of_rng fun w => by
  have := pop w
  unfold Volaris.seekCur
  revert this
  rcases w.pop with ⟨o, w1⟩
  intro this
  cases o <;> (try exact this) <;> (dsimp only; split <;> exact this)

theorem flush (h : Nat) : Forward (Volaris.flush h) := of_rng fun w => by
  have := pop w
  unfold Volaris.flush
  revert this
  rcases w.pop with ⟨o, w1⟩
  intro this
  cases o <;> exact this

theorem readLoop (h : Nat) (s : List Io) : ∀ (n : Nat) (acc : Bytes) (w : World),
    (Volaris.readLoop h s n acc w).2.rng = w.rng := by
  induction s with
  | nil => intro n acc w; rfl
  | cons o s ih =>
    intro n acc w
    simp only [Volaris.readLoop]
    split
    · rfl
    · cases o with
      | full => dsimp only; split; · rfl
                · exact ih _ _ _
      | short k => dsimp only; split; · rfl
                   · exact ih _ _ _
      | intr => exact ih _ _ _
      | fail => rfl

theorem writeLoop (h : Nat) (s : List Io) : ∀ (bs : Bytes) (w : World),
    (Volaris.writeLoop h s bs w).2.rng = w.rng := by
  induction s with
  | nil => intro bs w; simp only [Volaris.writeLoop]; split <;> rfl
  | cons o s ih =>
    intro bs w
    simp only [Volaris.writeLoop]
    split
    · rfl
    · cases o with
      | full => rfl
      | short k => dsimp only; split; · rfl
                   · exact ih _ _
      | intr => exact ih _ _
      | fail => rfl

theorem readUpTo (h n : Nat) : Forward (Volaris.readUpTo h n) := of_rng fun w => readLoop h w.sched n [] w
theorem writeAll (h : Nat) (bs : Bytes) : Forward (Volaris.writeAll h bs) := of_rng fun w => writeLoop h w.sched bs w
theorem readExact (h n : Nat) : Forward (Volaris.readExact h n) :=
  bind (readUpTo h n) fun _ => ite (pure _) (throw _)
theorem readToEnd (h : Nat) : Forward (Volaris.readToEnd h) := fun w => readUpTo h _ w

theorem deserialize (h : Nat) : Forward (Volaris.deserialize h) := by
  unfold Volaris.deserialize
  refine bind (mapErr _ (readExact _ _)) fun b => bind (mapErr _ (seekCur _ _)) fun _ => ?_
  split
  · exact throw _
  · exact bind (mapErr _ (readExact _ _)) fun _ => lift _

theorem encLoop (C : Crypto) (rh wh : Nat) (aad : Bytes) : ∀ fuel s, Forward (Volaris.encLoop C rh wh aad fuel s) := by
  intro fuel
  induction fuel with
  | zero =>
    intro s
    unfold Volaris.encLoop
    exact bind (mapErr _ (read _ _)) fun b => ite
      (bind (lift _) fun ⟨c, s⟩ => bind (mapErr _ (writeAll _ _)) fun _ => lift _)
      (bind (lift _) fun c => mapErr _ (writeAll _ _))
  | succ fuel ih =>
    intro s
    unfold Volaris.encLoop
    exact bind (mapErr _ (read _ _)) fun b => ite
      (bind (lift _) fun ⟨c, s⟩ => bind (mapErr _ (writeAll _ _)) fun _ => ih _)
      (bind (lift _) fun c => mapErr _ (writeAll _ _))

theorem decLoop (C : Crypto) (rh wh : Nat) (aad : Bytes) : ∀ fuel s, Forward (Volaris.decLoop C rh wh aad fuel s) := by
  intro fuel
  induction fuel with
  | zero =>
    intro s
    unfold Volaris.decLoop
    exact bind (mapErr _ (read _ _)) fun b => ite
      (bind (lift _) fun ⟨c, s⟩ => bind (mapErr _ (writeAll _ _)) fun _ => lift _)
      (bind (lift _) fun c => mapErr _ (writeAll _ _))
  | succ fuel ih =>
    intro s
    unfold Volaris.decLoop
    exact bind (mapErr _ (read _ _)) fun b => ite
      (bind (lift _) fun ⟨c, s⟩ => bind (mapErr _ (writeAll _ _)) fun _ => ih _)
      (bind (lift _) fun c => mapErr _ (writeAll _ _))

theorem encryptFile (C : Crypto) (s : Stream) (rh wh : Nat) (aad : Bytes) : Forward (Volaris.encryptFile C s rh wh aad) := by
  unfold Volaris.encryptFile
  exact bind (fun w => encLoop C rh wh aad _ _ w) fun _ => mapErr _ (flush _)

theorem decryptFile (C : Crypto) (s : Stream) (rh wh : Nat) (aad : Bytes) : Forward (Volaris.decryptFile C s rh wh aad) := by
  unfold Volaris.decryptFile
  exact bind (fun w => decLoop C rh wh aad _ _ w) fun _ => mapErr _ (flush _)

theorem encrypt (C : Crypto) (req : Encrypt.Request) : Forward (Encrypt.execute C req) := by
  unfold Encrypt.execute
  refine .bind ?_ fun ⟨hd, s⟩ => .bind (.mapErr _ (.rewind _)) fun _ => .bind ?_ fun _ =>
    .bind (.lift _) fun _ => .bind (.mapErr _ (.rewind _)) fun _ => .mapErr _ (.encryptFile _ _ _ _ _)
  · unfold Encrypt.prepare
    refine .bind (.genBytes _) fun _ => .bind (.lift _) fun _ => .bind (.lift _) fun _ => .bind (.genBytes _) fun _ =>
      .bind (.genBytes _) fun _ => .bind (.lift _) fun _ => .bind (.genBytes _) fun _ => .bind (.lift _) fun _ => .pure _
  · unfold Encrypt.writeHeader
    split
    · exact .bind (.lift _) fun _ => .bind (.mapErr _ (.write _ _)) fun _ => .pure _
    · exact .bind (.mapErr _ (.rewind _)) fun _ => .bind (.lift _) fun _ => .bind (.mapErr _ (.write _ _)) fun _ => .pure _

theorem decrypt (C : Crypto) (req : Decrypt.Request) : Forward (Decrypt.execute C req) := by
  unfold Decrypt.execute
  refine .bind ?_ ?_
  · unfold Decrypt.getHeader
    split
    · refine .bind (.mapErr _ (.deserialize _)) fun ⟨hd, aad⟩ => .bind (.mapErr _ (.readUpTo _ _)) fun _ => ?_
      dsimp only
      split
      · exact .bind (.mapErr _ (.rewind _)) fun _ => .pure _
      · exact .pure _
    · exact .mapErr _ (.deserialize _)
  · rintro ⟨hd, aad⟩
    dsimp only
    unfold Decrypt.body
    split
    · exact .bind (.mapErr _ (.readToEnd _)) fun _ => .bind (.lift _) fun _ => .bind (.lift _) fun _ =>
        .bind (.lift _) fun _ => .mapErr _ (.writeAll _ _)
    · exact .bind (.lift _) fun _ => .bind (.lift _) fun _ => .mapErr _ (.decryptFile _ _ _ _ _)

theorem load (h : Nat) : Forward (KeyOps.load h) := by
  unfold KeyOps.load
  refine .bind (.mapErr _ (.deserialize _)) fun ⟨hd, aad⟩ => .ite (.throw _) (.bind (.mapErr _ (.seekCur _ _)) fun _ => ?_)
  split
  · exact .panic
  · exact .pure _

theorem store (h : Nat) (hd : Header) (ks : List Keyslot) : Forward (KeyOps.store h hd ks) := by
  unfold KeyOps.store Header.write
  exact .mapErr _ (.bind (.lift _) fun _ => .bind (.mapErr _ (.write _ _)) fun _ => .pure _)

theorem add (C : Crypto) (req : KeyOps.NewKeyRequest) : Forward (KeyOps.add C req) := by
  unfold KeyOps.add
  exact .bind (load _) fun ⟨hd, ks⟩ => .bind (.lift _) fun ⟨mk, i⟩ => .ite (.throw _) (.bind (.genBytes _) fun _ =>
    .bind (.genBytes _) fun _ => .bind (.lift _) fun _ => .bind (.lift _) fun _ => store _ _ _)

theorem change (C : Crypto) (req : KeyOps.NewKeyRequest) : Forward (KeyOps.change C req) := by
  unfold KeyOps.change
  exact .bind (load _) fun ⟨hd, ks⟩ => .bind (.lift _) fun ⟨mk, i⟩ => .bind (.genBytes _) fun _ => .bind (.lift _) fun _ =>
    .bind (.genBytes _) fun _ => .bind (.lift _) fun _ => .ite (store _ _ _) .panic

theorem delete (C : Crypto) (h : Nat) (pw : Bytes) : Forward (KeyOps.delete C h pw) := by
  unfold KeyOps.delete
  exact .bind (load _) fun ⟨hd, ks⟩ => .bind (.lift _) fun ⟨mk, i⟩ => .ite (store _ _ _) .panic

theorem verify (C : Crypto) (h : Nat) (pw : Bytes) : Forward (KeyOps.verify C h pw) := by
  unfold KeyOps.verify
  refine .bind (.mapErr _ (.deserialize _)) fun ⟨hd, aad⟩ => .ite (.throw _) ?_
  split
  · exact .panic
  · exact .bind (.lift _) fun _ => .pure _

theorem onFile (C : Crypto) (h : Nat) (c : KeyCmd) (w : World) : ∃ n, Used n w (c.onFile C h w).2 := by
  cases c with
  | add old new hash => exact add C _ (w.setPos h 0)
  | change old new hash => exact change C _ (w.setPos h 0)
  | delete pw => exact delete C h pw (w.setPos h 0)
  | verify pw => exact verify C h pw (w.setPos h 0)

end Forward

theorem Spec.Later.used {C : Crypto} {w v : World} (h : Later C w v) : ∃ n, Used n w v := by
  induction h with
  | refl => exact ⟨0, .refl _⟩
  | other _ e ih => obtain ⟨n, ih⟩ := ih; exact ⟨_, ih.trans (.of_rng e)⟩
  | encrypt req _ ih => obtain ⟨n, ih⟩ := ih; obtain ⟨m, h⟩ := Forward.encrypt C req _; exact ⟨_, ih.trans h⟩
  | decrypt req _ ih => obtain ⟨n, ih⟩ := ih; obtain ⟨m, h⟩ := Forward.decrypt C req _; exact ⟨_, ih.trans h⟩
  | key f c _ ih => obtain ⟨n, ih⟩ := ih; obtain ⟨m, h⟩ := Forward.onFile C f c _; exact ⟨_, ih.trans h⟩

theorem used_of_draw {w w' : World} {n : Nat} (h : w'.rng = (w.draw n).rng) : Used n w w' := fun i => by
  rw [h]; simp only [World.draw, Nat.add_comm]

/-- The random bytes of a successful encryption. -/
theorem encrypt_used {C : Crypto} (hC : C.Lawful) {req : Encrypt.Request} {w w' : World} (hne : ApartHandles req w)
    (hok : Encrypt.execute C req w = (.ok (), w')) : Used (fileDraw req.headerType) w w' := by
  apply used_of_draw
  cases hh : req.headerWriter with
  | none =>
    obtain ⟨_, _, _, _, _, _, hc⟩ := encrypt_embedded_ok hC req hh hne.handles.1 hne.files hok
    rw [World.rng_of_core hc]; rfl
  | some hw =>
    obtain ⟨_, _, _, _, _, _, hc⟩ := encrypt_detached_ok hC req hh hne.handles.1 hne.files (hne.header hw hh).1 hok
    rw [World.rng_of_core hc]; rfl

theorem Encrypted.minted {C : Crypto} (hC : C.Lawful) {req : Encrypt.Request} {w : World} {full : Prop}
    {hb aad p c : Bytes} {k : Nat} (h : Encrypted C req w full hb aad p c k) (tail : Bytes) :
    Minted C req (hb ++ tail) (tape w 0 16) (tape w 16 32) (tape w 48 (nonceLength req.headerType.algorithm .memoryMode))
      (tape w (48 + nonceLength req.headerType.algorithm .memoryMode) (nonceLength req.headerType.algorithm req.headerType.mode)) := by
  obtain ⟨hk, ek, hto, hec, hel, hser, ha, hseal⟩ := h.slot
  obtain ⟨hb', aad', hser', ha', hlen, hi⟩ := freshHeader_bytes (w := w) hto hel h.version
  rw [hser] at hser'; cases hser'
  have hop := freshSlot_opens hC hto hec
  refine ⟨_, aad', _, hi tail, rfl, rfl, rfl, ?_, ?_, ?_⟩
  · split <;> rfl
  · split <;> rfl
  · intro hv
    split
    · next h4 =>
      have hh : req.hashingAlgorithm = .blake3Balloon 4 := by
        rcases hv with hv | hv
        · rw [h4] at hv; simp at hv
        · exact hv
      have : ({ freshSlot req w ek with hashAlgorithm := .blake3Balloon 4 } : Keyslot) = freshSlot req w ek := by
        rw [← hh]; rfl
      rw [this]; exact hop
    · exact hop

theorem writeRng (h : Nat) (bs : Bytes) (w : World) : (write h bs w).2.rng = w.rng := by
  have := Forward.pop w
  unfold Volaris.write
  revert this
  rcases w.pop with ⟨o, w1⟩
  intro this
  cases o <;> exact this

theorem storeRng (h : Nat) (hd : Header) (ks : List Keyslot) (w : World) : (KeyOps.store h hd ks w).2.rng = w.rng := by
  unfold KeyOps.store Header.write
  rw [Prog.mapErr_run, Prog.bind_run]
  simp only [Prog.lift_run]
  cases Header.serialize { hd with keyslots := some ks } with
  | ok b =>
    dsimp only
    rw [Prog.bind_run, Prog.mapErr_run]
    have := writeRng h b w
    revert this
    rcases write h b w with ⟨r, w1⟩
    cases r <;> exact id
  | err e => rfl
  | abort a => rfl

open KeyOps in
theorem add_used {C : Crypto} (hC : C.Lawful) {req : NewKeyRequest} {w w' : World} {hd : Header} {ks : List Keyslot} {aad : Bytes}
    (hf : KeyFile (w.rest req.handle) hd ks aad) (hok : add C req w = (.ok (), w')) :
    Used (16 + nonceLength hd.headerType.algorithm .memoryMode) w w' := by
  have hsz := isHeader_sized hf.header
  have hks := hsz.2 ks hf.slots
  rcases load_cases req.handle w with ⟨hd', aad', ks', w1, hload, hi, hv, hk, hc1, hsh⟩ | ⟨e, w1, p, hload, _⟩
  · obtain ⟨rfl, rfl⟩ := isHeader_unique hf.header hi
    rw [hf.slots] at hk; cases hk
    rcases add_loaded hC hload hks.2 with ⟨e, he, _⟩ | ⟨mk, i, hidx, ⟨_, he⟩ | ⟨hne, ⟨e, n, he, _⟩ | ⟨k, hk, he⟩⟩⟩
    · rw [he] at hok; simp at hok
    · rw [he] at hok; simp at hok
    · rw [he] at hok; simp at hok
    · rw [he] at hok
      have h := storeRng req.handle hd (ks ++ [k]) (w1.draw (16 + nonceLength hd.headerType.algorithm .memoryMode))
      rw [hok] at h
      apply used_of_draw
      rw [show w'.rng = _ from h]
      simp only [World.draw, World.rng_of_core hc1]
  · have : add C req w = (.err e, w1) := by unfold add; rw [Prog.bind_err hload]
    rw [this] at hok; simp at hok

open KeyOps in
theorem change_used {C : Crypto} (hC : C.Lawful) {req : NewKeyRequest} {w w' : World} {hd : Header} {ks : List Keyslot} {aad : Bytes}
    (hf : KeyFile (w.rest req.handle) hd ks aad) (hok : change C req w = (.ok (), w')) :
    Used (16 + nonceLength hd.headerType.algorithm .memoryMode) w w' := by
  have hsz := isHeader_sized hf.header
  have hks := hsz.2 ks hf.slots
  rcases load_cases req.handle w with ⟨hd', aad', ks', w1, hload, hi, hv, hk, hc1, hsh⟩ | ⟨e, w1, p, hload, _⟩
  · obtain ⟨rfl, rfl⟩ := isHeader_unique hf.header hi
    rw [hf.slots] at hk; cases hk
    rcases change_loaded hC hload hks.2 with ⟨e, he, _⟩ | ⟨mk, i, hidx, ⟨e, n, he, _⟩ | ⟨k, hk, he⟩⟩
    · rw [he] at hok; simp at hok
    · rw [he] at hok; simp at hok
    · rw [he] at hok
      have h := storeRng req.handle hd (ks.set i k) (w1.draw (16 + nonceLength hd.headerType.algorithm .memoryMode))
      rw [hok] at h
      apply used_of_draw
      rw [show w'.rng = _ from h]
      simp only [World.draw, World.rng_of_core hc1]
  · have : change C req w = (.err e, w1) := by unfold change; rw [Prog.bind_err hload]
    rw [this] at hok; simp at hok

end Volaris
