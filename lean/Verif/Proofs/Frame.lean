import Verif.Spec.Frame
import Verif.Proofs.Stream
namespace Volaris
open Spec

namespace Spec.Touches
variable {R W R' W' : List Nat} {w w' w'' : World}

theorem refl (R W : List Nat) (w : World) : Touches R W w w :=
  ⟨fun _ _ => rfl, fun _ => rfl, fun _ _ _ => rfl, rfl, rfl, rfl, rfl, rfl, rfl, rfl⟩

theorem trans (h1 : Touches R W w w') (h2 : Touches R W w' w'') : Touches R W w w'' where
  files := by
    intro i hi
    rw [h2.files i (by intro h hh; rw [h1.inos]; exact hi h hh), h1.files i hi]
  inos := by intro h; rw [h2.inos, h1.inos]
  fds := by intro h a b; rw [h2.fds h a b, h1.fds h a b]
  dir := by rw [h2.dir, h1.dir]
  nextIno := by rw [h2.nextIno, h1.nextIno]
  nextFd := by rw [h2.nextFd, h1.nextFd]
  stdin := by rw [h2.stdin, h1.stdin]
  tty := by rw [h2.tty, h1.tty]
  env := by rw [h2.env, h1.env]
  out := by rw [h2.out, h1.out]

theorem mono (h : Touches R W w w') (hr : R ⊆ R') (hw : W ⊆ W') : Touches R' W' w w' where
  files := by intro i hi; exact h.files i fun x hx => hi x (hw hx)
  inos := h.inos
  fds := by intro x a b; exact h.fds x (fun hx => a (hr hx)) (fun hx => b (hw hx))
  dir := h.dir
  nextIno := h.nextIno
  nextFd := h.nextFd
  stdin := h.stdin
  tty := h.tty
  env := h.env
  out := h.out

theorem of_core (h : w'.core = w.core) : Touches R W w w' where
  files := by intro i _; rw [World.file_of_core h]
  inos := by intro i; rw [World.fd_of_core h]
  fds := by intro i _ _; rw [World.fd_of_core h]
  dir := World.dir_of_core h
  nextIno := World.nextIno_of_core h
  nextFd := World.nextFd_of_core h
  stdin := World.stdin_of_core h
  tty := World.tty_of_core h
  env := World.env_of_core h
  out := World.out_of_core h

theorem setPos {h p : Nat} (hh : h ∈ R ∨ h ∈ W) : Touches R W w (w.setPos h p) where
  files := by intro i _; rfl
  inos := by simp
  fds := by
    intro i a b
    rw [World.setPos_fd_ne]
    rintro rfl
    rcases hh with hh | hh
    · exact a hh
    · exact b hh
  dir := rfl
  nextIno := rfl
  nextFd := rfl
  stdin := rfl
  tty := rfl
  env := rfl
  out := rfl

theorem adv {h n : Nat} (hh : h ∈ R ∨ h ∈ W) : Touches R W w (w.adv h n) := setPos hh

theorem put {h : Nat} {bs : Bytes} (hh : h ∈ W) : Touches R W w (w.put h bs) where
  files := by intro i hi; exact World.put_file_ne _ _ (Ne.symm (hi h hh))
  inos := by simp
  fds := by
    intro i a b
    rw [World.put_fd_ne]
    rintro rfl
    exact b hh
  dir := rfl
  nextIno := rfl
  nextFd := rfl
  stdin := rfl
  tty := rfl
  env := rfl
  out := rfl

theorem core_right {v : World} (h : Touches R W w w') (hc : v.core = w'.core) : Touches R W w v :=
  h.trans (of_core hc)

end Spec.Touches

/-! ### Combinators -/

namespace Spec.Within
variable {R W R' W' : List Nat} {ε ε' α β : Type}

theorem mono {x : Prog ε α} (h : Within R W x) (hr : R ⊆ R') (hw : W ⊆ W') : Within R' W' x :=
  fun w => (h w).mono hr hw

theorem lift (r : Res ε α) : Within R W (Prog.lift r) := fun w => .refl _ _ w
theorem throw (e : ε) : Within R W (Prog.throw e : Prog ε α) := fun w => .refl _ _ w
theorem panic : Within R W (Prog.panic : Prog ε α) := fun w => .refl _ _ w
theorem pure (a : α) : Within R W (Pure.pure a : Prog ε α) := fun w => .refl _ _ w

theorem bind {x : Prog ε α} {f : α → Prog ε β} (hx : Within R W x) (hf : ∀ a, Within R W (f a)) :
    Within R W (x >>= f) := by
  intro w
  have h1 := hx w
  rw [Prog.bind_run]
  revert h1
  rcases x w with ⟨r, w'⟩
  intro h1
  cases r with
  | ok a => exact h1.trans (hf a w')
  | err e => exact h1
  | abort a => exact h1

theorem mapErr {x : Prog ε α} (f : ε → ε') (hx : Within R W x) : Within R W (x.mapErr f) := by
  intro w
  have h1 := hx w
  rw [Prog.mapErr_run]
  revert h1
  rcases x w with ⟨r, w'⟩
  cases r <;> exact id

theorem attempt {x : Prog ε α} (hx : Within R W x) : Within R W (x.attempt : Prog ε' _) := by
  intro w
  have h1 := hx w
  unfold Prog.attempt
  revert h1
  rcases x w with ⟨r, w'⟩
  cases r <;> exact id

theorem genBytes (n : Nat) : Within R W (Volaris.genBytes n : Prog ε Bytes) :=
  fun _ => ⟨fun _ _ => rfl, fun _ => rfl, fun _ _ _ => rfl, rfl, rfl, rfl, rfl, rfl, rfl, rfl⟩

theorem read {h : Nat} (n : Nat) (hh : h ∈ R ∨ h ∈ W) : Within R W (Volaris.read h n) := by
  intro w
  rcases read_spec h n w with ⟨k, w1, he, _, _, hc⟩ | ⟨e, w1, he, hc⟩ <;> rw [he]
  · exact (Touches.adv hh).core_right hc
  · exact .of_core hc

theorem readUpTo {h : Nat} (n : Nat) (hh : h ∈ R ∨ h ∈ W) : Within R W (Volaris.readUpTo h n) := by
  intro w
  rcases readUpTo_spec h n w with ⟨s', he⟩ | ⟨k, s', _, he⟩ <;> rw [he]
  · exact (Touches.adv hh).core_right rfl
  · exact (Touches.adv hh).core_right rfl

theorem write {h : Nat} (bs : Bytes) (hh : h ∈ W) : Within R W (Volaris.write h bs) := by
  intro w
  rcases write_spec h bs w with ⟨k, w1, he, hc⟩ | ⟨e, w1, he, hc⟩ <;> rw [he]
  · exact (Touches.put hh).core_right hc
  · exact .of_core hc

theorem writeAll {h : Nat} (bs : Bytes) (hh : h ∈ W) : Within R W (Volaris.writeAll h bs) := by
  intro w
  rcases writeAll_spec h bs w with ⟨w1, he, hc⟩ | ⟨e, k, w1, _, he, hc⟩ <;> rw [he]
  · exact (Touches.put hh).core_right hc
  · exact (Touches.put hh).core_right hc

theorem seekStart {h : Nat} (p : Nat) (hh : h ∈ R ∨ h ∈ W) : Within R W (Volaris.seekStart h p) := by
  intro w
  rcases seekStart_spec h p w with ⟨w1, he, hc⟩ | ⟨e, w1, he, hc⟩ <;> rw [he]
  · exact (Touches.setPos hh).core_right hc
  · exact .of_core hc

theorem rewind {h : Nat} (hh : h ∈ R ∨ h ∈ W) : Within R W (Volaris.rewind h) := seekStart 0 hh

theorem seekCur {h : Nat} (d : Int) (hh : h ∈ R ∨ h ∈ W) : Within R W (Volaris.seekCur h d) := by
  intro w
  rcases seekCur_spec h d w with ⟨w1, he, _, hc⟩ | ⟨e, w1, he, hc⟩ <;> rw [he]
  · exact (Touches.setPos hh).core_right hc
  · exact .of_core hc

theorem flush (h : Nat) : Within R W (Volaris.flush h) := by
  intro w
  rcases flush_spec h w with ⟨w1, he, hc⟩ | ⟨e, w1, he, hc⟩ <;> rw [he] <;> exact .of_core hc

theorem ite {c : Prop} [Decidable c] {x y : Prog ε α} (hx : Within R W x) (hy : Within R W y) :
    Within R W (if c then x else y) := by split <;> assumption

theorem readExact {h : Nat} (n : Nat) (hh : h ∈ R ∨ h ∈ W) : Within R W (Volaris.readExact h n) :=
  bind (readUpTo n hh) fun _ => ite (pure _) (throw _)

theorem readToEnd {h : Nat} (hh : h ∈ R ∨ h ∈ W) : Within R W (Volaris.readToEnd h) :=
  fun w => readUpTo _ hh w

theorem deserialize {h : Nat} (hh : h ∈ R ∨ h ∈ W) : Within R W (Volaris.deserialize h) := by
  intro w
  rcases deserialize_cases h w with ⟨_, _, w1, he, _, hc⟩ | ⟨_, w1, _, he, hc⟩ <;> rw [he]
  · exact (Touches.setPos hh).core_right hc
  · exact (Touches.setPos hh).core_right hc

theorem encLoop (C : Crypto) {rh wh : Nat} (aad : Bytes) (hr : rh ∈ R ∨ rh ∈ W) (hw : wh ∈ W) :
    ∀ fuel s, Within R W (Volaris.encLoop C rh wh aad fuel s) := by
  intro fuel
  induction fuel with
  | zero =>
    intro s
    unfold Volaris.encLoop
    exact bind (mapErr _ (read _ hr)) fun b => ite
      (bind (lift _) fun ⟨c, s⟩ => bind (mapErr _ (writeAll _ hw)) fun _ => lift _)
      (bind (lift _) fun c => mapErr _ (writeAll _ hw))
  | succ fuel ih =>
    intro s
    unfold Volaris.encLoop
    exact bind (mapErr _ (read _ hr)) fun b => ite
      (bind (lift _) fun ⟨c, s⟩ => bind (mapErr _ (writeAll _ hw)) fun _ => ih _)
      (bind (lift _) fun c => mapErr _ (writeAll _ hw))

theorem decLoop (C : Crypto) {rh wh : Nat} (aad : Bytes) (hr : rh ∈ R ∨ rh ∈ W) (hw : wh ∈ W) :
    ∀ fuel s, Within R W (Volaris.decLoop C rh wh aad fuel s) := by
  intro fuel
  induction fuel with
  | zero =>
    intro s
    unfold Volaris.decLoop
    exact bind (mapErr _ (read _ hr)) fun b => ite
      (bind (lift _) fun ⟨c, s⟩ => bind (mapErr _ (writeAll _ hw)) fun _ => lift _)
      (bind (lift _) fun c => mapErr _ (writeAll _ hw))
  | succ fuel ih =>
    intro s
    unfold Volaris.decLoop
    exact bind (mapErr _ (read _ hr)) fun b => ite
      (bind (lift _) fun ⟨c, s⟩ => bind (mapErr _ (writeAll _ hw)) fun _ => ih _)
      (bind (lift _) fun c => mapErr _ (writeAll _ hw))

theorem encryptFile (C : Crypto) (s : Stream) {rh wh : Nat} (aad : Bytes) (hr : rh ∈ R ∨ rh ∈ W) (hw : wh ∈ W) :
    Within R W (Volaris.encryptFile C s rh wh aad) :=
  bind (encLoop C aad hr hw _ _) fun _ => mapErr _ (flush _)

theorem decryptFile (C : Crypto) (s : Stream) {rh wh : Nat} (aad : Bytes) (hr : rh ∈ R ∨ rh ∈ W) (hw : wh ∈ W) :
    Within R W (Volaris.decryptFile C s rh wh aad) :=
  bind (decLoop C aad hr hw _ _) fun _ => mapErr _ (flush _)

end Spec.Within

/-! ### Programs that return -/

/-- A pure computation that does not panic. -/
def Res.Returns {ε α : Type} (r : Res ε α) : Prop := ∀ a, r ≠ .abort a

namespace Res
variable {ε ε' α β : Type}
theorem Returns.ok (a : α) : (Res.ok a : Res ε α).Returns := by intro _ h; simp at h
theorem Returns.err (e : ε) : (Res.err e : Res ε α).Returns := by intro _ h; simp at h
theorem Returns.ofOption (e : ε) (x : Option α) : (Res.ofOption e x).Returns := by
  cases x
  · exact .err _
  · exact .ok _
theorem Returns.mapErr {r : Res ε α} (f : ε → ε') (h : r.Returns) : (r.mapErr f).Returns := by
  intro a; cases r with
  | ok a => simp
  | err e => simp
  | abort x => exact absurd rfl (h x)
theorem Returns.bind {r : Res ε α} {f : α → Res ε β} (h : r.Returns) (hf : ∀ a, (f a).Returns) : (r >>= f).Returns := by
  intro a; cases r with
  | ok x => exact hf x a
  | err e => simp
  | abort x => exact absurd rfl (h x)
theorem Returns.ite {c : Prop} [Decidable c] {x y : Res ε α} (hx : x.Returns) (hy : y.Returns) :
    (if c then x else y).Returns := by split <;> assumption
end Res

namespace Spec.Returns
variable {ε ε' α β : Type}
theorem lift {r : Res ε α} (h : r.Returns) : Returns (Prog.lift r) := fun _ a => h a
theorem throw (e : ε) : Returns (Prog.throw e : Prog ε α) := by intro _ _ h; simp at h
theorem pure (a : α) : Returns (Pure.pure a : Prog ε α) := by intro _ _ h; simp at h

theorem bind {x : Prog ε α} {f : α → Prog ε β} (hx : Returns x) (hf : ∀ a, Returns (f a)) : Returns (x >>= f) := by
  intro w a
  have h1 := hx w
  rw [Prog.bind_run]
  revert h1
  rcases x w with ⟨r, w'⟩
  intro h1
  cases r with
  | ok y => exact hf y w' a
  | err e => simp
  | abort y => exact absurd rfl (h1 y)

/-- Like `bind`, when the continuation is only safe for values the first program can return. -/
theorem bind_of {x : Prog ε α} {f : α → Prog ε β} (P : α → Prop) (hx : Returns x)
    (hP : ∀ w a w', x w = (.ok a, w') → P a) (hf : ∀ a, P a → Returns (f a)) : Returns (x >>= f) := by
  intro w a
  have h1 := hx w
  have h2 := hP w
  rw [Prog.bind_run]
  revert h1 h2
  rcases x w with ⟨r, w'⟩
  intro h1 h2
  cases r with
  | ok y => exact hf y (h2 _ _ rfl) w' a
  | err e => simp
  | abort y => exact absurd rfl (h1 y)

theorem mapErr {x : Prog ε α} (f : ε → ε') (hx : Returns x) : Returns (x.mapErr f) := by
  intro w a
  have h1 := hx w
  rw [Prog.mapErr_run]
  revert h1
  rcases x w with ⟨r, w'⟩
  cases r with
  | ok y => intro _; simp
  | err e => intro _; simp
  | abort y => intro h; exact absurd rfl (h y)

theorem ite {c : Prop} [Decidable c] {x y : Prog ε α} (hx : Returns x) (hy : Returns y) :
    Returns (if c then x else y) := by split <;> assumption

theorem genBytes (n : Nat) : Returns (Volaris.genBytes n : Prog ε Bytes) := by intro _ _ h; simp at h

theorem read (h n : Nat) : Returns (Volaris.read h n) := by
  intro w a
  rcases read_spec h n w with ⟨k, w1, he, _, _, hc⟩ | ⟨e, w1, he, hc⟩ <;> rw [he] <;> simp
theorem readUpTo (h n : Nat) : Returns (Volaris.readUpTo h n) := by
  intro w a
  rcases readUpTo_spec h n w with ⟨s', he⟩ | ⟨k, s', _, he⟩ <;> rw [he] <;> simp
theorem write (h : Nat) (bs : Bytes) : Returns (Volaris.write h bs) := by
  intro w a
  rcases write_spec h bs w with ⟨k, w1, he, hc⟩ | ⟨e, w1, he, hc⟩ <;> rw [he] <;> simp
theorem writeAll (h : Nat) (bs : Bytes) : Returns (Volaris.writeAll h bs) := by
  intro w a
  rcases writeAll_spec h bs w with ⟨w1, he, hc⟩ | ⟨e, k, w1, _, he, hc⟩ <;> rw [he] <;> simp
theorem seekStart (h p : Nat) : Returns (Volaris.seekStart h p) := by
  intro w a
  rcases seekStart_spec h p w with ⟨w1, he, hc⟩ | ⟨e, w1, he, hc⟩ <;> rw [he] <;> simp
theorem rewind (h : Nat) : Returns (Volaris.rewind h) := seekStart h 0
theorem seekCur (h : Nat) (d : Int) : Returns (Volaris.seekCur h d) := by
  intro w a
  rcases seekCur_spec h d w with ⟨w1, he, _, hc⟩ | ⟨e, w1, he, hc⟩ <;> rw [he] <;> simp
theorem flush (h : Nat) : Returns (Volaris.flush h) := by
  intro w a
  rcases flush_spec h w with ⟨w1, he, hc⟩ | ⟨e, w1, he, hc⟩ <;> rw [he] <;> simp
theorem readExact (h n : Nat) : Returns (Volaris.readExact h n) :=
  bind (readUpTo h n) fun _ => ite (pure _) (throw _)
theorem readToEnd (h : Nat) : Returns (Volaris.readToEnd h) := fun w => readUpTo h _ w
theorem deserialize (h : Nat) : Returns (Volaris.deserialize h) := by
  intro w a
  rcases deserialize_cases h w with ⟨_, _, w1, he, _, hc⟩ | ⟨_, w1, _, he, hc⟩ <;> rw [he] <;> simp

theorem encAt (C : Crypto) (s : Stream) (l : Bool) (aad m : Bytes) : (s.encAt C l aad m).Returns :=
  .ite (.err _) (.ofOption _ _)
theorem decAt (C : Crypto) (s : Stream) (l : Bool) (aad m : Bytes) : (s.decAt C l aad m).Returns :=
  .ite (.err _) (.ofOption _ _)
theorem encryptNext (C : Crypto) (s : Stream) (aad m : Bytes) : (s.encryptNext C aad m).Returns :=
  .ite (.err _) (.bind (encAt _ _ _ _ _) fun _ => .ok _)
theorem decryptNext (C : Crypto) (s : Stream) (aad m : Bytes) : (s.decryptNext C aad m).Returns :=
  .ite (.err _) (.bind (decAt _ _ _ _ _) fun _ => .ok _)

theorem encLoop (C : Crypto) (rh wh : Nat) (aad : Bytes) :
    ∀ fuel s, C.ctrMax ≤ s.position + fuel → Returns (Volaris.encLoop C rh wh aad fuel s) := by
  intro fuel
  induction fuel with
  | zero =>
    intro s hs
    unfold Volaris.encLoop
    refine bind (mapErr _ (read _ _)) fun b => ite ?_ (bind (lift (encAt _ _ _ _ _)) fun c => mapErr _ (writeAll _ _))
    intro w a
    have : ∃ e, s.encryptNext C aad b = .err e := by
      unfold Stream.encryptNext Stream.encAt
      by_cases h : s.position = C.ctrMax
      · exact ⟨_, if_pos h⟩
      · rw [if_neg h, if_pos (by omega)]; exact ⟨_, rfl⟩
    obtain ⟨e, he⟩ := this
    rw [he]
    simp [Prog.bind_run]
  | succ fuel ih =>
    intro s hs
    unfold Volaris.encLoop
    refine bind (mapErr _ (read _ _)) fun b => ite ?_ (bind (lift (encAt _ _ _ _ _)) fun c => mapErr _ (writeAll _ _))
    refine bind_of (fun r => r.2.position = s.position + 1) (lift (encryptNext _ _ _ _)) ?_ ?_
    · intro w ⟨c, s'⟩ w' h
      simp only [Prog.lift_run, Prod.mk.injEq] at h
      have h := h.1
      unfold Stream.encryptNext at h
      split at h
      · simp at h
      · rw [Res.bind_eq_ok] at h
        obtain ⟨_, _, h2⟩ := h
        simp only [Res.pure_eq, Res.ok.injEq, Prod.mk.injEq] at h2
        rw [← h2.2]
    · intro ⟨c, s'⟩ hp
      exact bind (mapErr _ (writeAll _ _)) fun _ => ih _ (by simp only at hp; omega)

theorem decLoop (C : Crypto) (rh wh : Nat) (aad : Bytes) :
    ∀ fuel s, C.ctrMax ≤ s.position + fuel → Returns (Volaris.decLoop C rh wh aad fuel s) := by
  intro fuel
  induction fuel with
  | zero =>
    intro s hs
    unfold Volaris.decLoop
    refine bind (mapErr _ (read _ _)) fun b => ite ?_ (bind (lift (decAt _ _ _ _ _)) fun c => mapErr _ (writeAll _ _))
    intro w a
    have : ∃ e, s.decryptNext C aad b = .err e := by
      unfold Stream.decryptNext Stream.decAt
      by_cases h : s.position = C.ctrMax
      · exact ⟨_, if_pos h⟩
      · rw [if_neg h, if_pos (by omega)]; exact ⟨_, rfl⟩
    obtain ⟨e, he⟩ := this
    rw [he]
    simp [Prog.bind_run]
  | succ fuel ih =>
    intro s hs
    unfold Volaris.decLoop
    refine bind (mapErr _ (read _ _)) fun b => ite ?_ (bind (lift (decAt _ _ _ _ _)) fun c => mapErr _ (writeAll _ _))
    refine bind_of (fun r => r.2.position = s.position + 1) (lift (decryptNext _ _ _ _)) ?_ ?_
    · intro w ⟨c, s'⟩ w' h
      simp only [Prog.lift_run, Prod.mk.injEq] at h
      have h := h.1
      unfold Stream.decryptNext at h
      split at h
      · simp at h
      · rw [Res.bind_eq_ok] at h
        obtain ⟨_, _, h2⟩ := h
        simp only [Res.pure_eq, Res.ok.injEq, Prod.mk.injEq] at h2
        rw [← h2.2]
    · intro ⟨c, s'⟩ hp
      exact bind (mapErr _ (writeAll _ _)) fun _ => ih _ (by simp only at hp; omega)

theorem encryptFile (C : Crypto) (s : Stream) (rh wh : Nat) (aad : Bytes) : Returns (Volaris.encryptFile C s rh wh aad) :=
  bind (encLoop C rh wh aad _ _ (by omega)) fun _ => mapErr _ (flush _)
theorem decryptFile (C : Crypto) (s : Stream) (rh wh : Nat) (aad : Bytes) : Returns (Volaris.decryptFile C s rh wh aad) :=
  bind (decLoop C rh wh aad _ _ (by omega)) fun _ => mapErr _ (flush _)

end Spec.Returns
end Volaris
