import Verif.Proofs.Tools
import Verif.Proofs.Log
import Verif.Spec.Example
/-!
# Properties of hashing and overwriting files
-/
namespace Volaris.Props
open Spec

/-! ### C35 -/

/-- **C35.** Hashing a file gives the digest of its whole content, wherever the handle stood, and changes no file.  Without faults it succeeds; under every schedule
it returns a result or an error; and as long as transfers are not short, a result is the right one. -/
theorem C35_hash {σ : Type} (H : HashCmd.Hasher σ) (digest : Bytes → String) (hH : Computes H digest) (h : Nat) (w : World) :
    (w.sched = [] → ∃ w', HashCmd.execute H h w = (.ok (digest (w.file (w.fd h).ino)), w')) ∧
    (∀ d w', HashCmd.execute H h w = (.ok d, w') → (∀ k, Io.short k ∉ w.sched) → d = digest (w.file (w.fd h).ino)) ∧
    (∀ a, (HashCmd.execute H h w).1 ≠ .abort a) ∧
    Touches [h] [] w (HashCmd.execute H h w).2 ∧ SameFiles w (HashCmd.execute H h w).2 := by
  rcases HashCmd.execute_cases H h w with ⟨ps, w', he, hp, hns, ht⟩ | ⟨e, w', he, hs, ht⟩
  · rw [he, hH ps]
    refine ⟨?_, ?_, by simp, ht, funext fun i => ht.files i (by simp), ht.dir⟩
    · intro hsn
      refine ⟨w', ?_⟩
      rw [hns (by rw [hsn]; intro k hk; cases hk)]; rfl
    · intro d w'' hd hs
      obtain ⟨hd, -⟩ := Prod.mk.inj hd
      rw [← Res.ok.inj hd, hns hs]; rfl
  · rw [he]
    refine ⟨fun h => absurd h hs, by intro d w'' hd; simp at hd, by simp, ht, funext fun i => ht.files i (by simp), ht.dir⟩

/-- A hasher for the examples: collect the message, then print it. -/
def exHasher : HashCmd.Hasher Bytes := ⟨[], (· ++ ·), fun bs => toString bs⟩

theorem exHasher_computes : Computes exHasher (fun bs => toString bs) := by
  intro ps
  have : ∀ (ps : List Bytes) (a : Bytes), ps.foldl exHasher.write a = a ++ ps.flatten := by
    intro ps
    induction ps with
    | nil => intro a; simp
    | cons p ps ih => intro a; rw [List.foldl_cons, ih]; simp [exHasher]
  rw [this]; rfl

example : ∃ w', HashCmd.execute exHasher 0 ((Example.world1 [4, 5, 6]).setPos 0 2) = (.ok (toString ([4, 5, 6] : Bytes)), w') :=
  (C35_hash exHasher _ exHasher_computes 0 ((Example.world1 [4, 5, 6]).setPos 0 2)).1 rfl

/-- **C35 fails with short reads.**  For every file and every `n` less than a block there is an execution, without any error, that returns the digest of the first
`n` bytes only. -/
theorem C35_short_read {σ : Type} (H : HashCmd.Hasher σ) (digest : Bytes → String) (hH : Computes H digest) (content : Bytes) (n : Nat)
    (hn : 0 < n) (hn' : n < BLOCK_SIZE) :
    ∃ w w', w.sched = [.full, .short n] ∧ w.file (w.fd 0).ino = content ∧
      HashCmd.execute H 0 w = (.ok (digest (content.take n)), w') := by
  refine ⟨{ Example.world1 content with sched := [.full, .short n] },
    ((Example.world1 content).setPos 0 0).adv 0 (content.take n).length, rfl, rfl, ?_⟩
  unfold HashCmd.execute
  have e1 : rewind 0 { Example.world1 content with sched := [.full, .short n] } =
      (.ok (), { (Example.world1 content).setPos 0 0 with sched := [.short n] }) := rfl
  rw [Prog.bind_ok (Prog.mapErr_ok e1)]
  have e2 : read 0 BLOCK_SIZE { (Example.world1 content).setPos 0 0 with sched := [.short n] } =
      (.ok (content.take n), ((Example.world1 content).setPos 0 0).adv 0 (content.take n).length) := by
    unfold read World.pop
    simp only
    rw [show min BLOCK_SIZE (max 1 n) = n by omega]
    rfl
  have hlen : (content.take n).length ≠ BLOCK_SIZE := by rw [List.length_take]; omega
  have e3 : HashCmd.hashAll H 0 { (Example.world1 content).setPos 0 0 with sched := [.short n] } =
      (.ok (H.write H.init (content.take n)), ((Example.world1 content).setPos 0 0).adv 0 (content.take n).length) := by
    unfold HashCmd.hashAll HashCmd.loop
    rw [Prog.bind_ok (Prog.mapErr_ok e2)]
    simp only [hlen, ne_eq, not_false_eq_true, if_true]
    rfl
  rw [Prog.bind_ok e3]
  have := hH [content.take n]
  simp only [List.foldl_cons, List.foldl_nil, List.flatten_cons, List.flatten_nil, List.append_nil] at this
  rw [this]; rfl

example : (1 : Nat) < BLOCK_SIZE := by decide

/-! ### C36 -/

/-- **C36.** Overwriting a file with the length it has (whatever the number of passes): without faults it succeeds; under every schedule, when it
succeeds the file consists of zeros only and has the same length; when it fails, at most a prefix has been zeroed — or, if the handle had
been left elsewhere, nothing; no other file is touched. -/
theorem C36_overwrite (h : Nat) (passes : Int) (w : World) :
    let content := w.file (w.fd h).ino
    let run := Overwrite.execute h content.length passes
    (w.sched = [] → ∃ w', run w = (.ok (), w')) ∧
    (∀ w', run w = (.ok (), w') → w'.file (w.fd h).ino = List.replicate content.length 0) ∧
    (∀ e w', run w = (.err e, w') → ∃ k ≤ content.length, w'.file (w.fd h).ino = List.replicate k 0 ++ content.drop k) ∧
    (∀ a, (run w).1 ≠ .abort a) ∧ Touches [] [h] w (run w).2 := by
  intro content run
  have hfile : ∀ p k (w' : World), w'.core = ((w.setPos h p).put h (zeros k)).core → (k = 0 ∨ p = 0) →
      w'.file (w.fd h).ino = List.replicate k 0 ++ content.drop k := by
    intro p k w' hc hk
    rw [World.file_of_core hc]
    have := World.put_file_same (w.setPos h p) h (zeros k)
    simp only [World.setPos_fd_same, World.setPos_file] at this
    rw [this]
    rcases hk with rfl | rfl
    · rw [show zeros 0 = [] from rfl, writeAt_nil]; rfl
    · rw [writeAt_zero, zeros_length]; rfl
  have htouch : ∀ p k (w' : World), w'.core = ((w.setPos h p).put h (zeros k)).core → Touches [] [h] w w' :=
    fun p k w' hc => ((Touches.setPos (by simp)).trans (.put (by simp))).core_right hc
  rcases Overwrite.execute_cases h content.length passes w with ⟨w', he, hc⟩ | ⟨e, k, w', he, hs, hk, p, hc, hkp⟩
  · simp only [show run w = (.ok (), w') from he]
    refine ⟨fun _ => ⟨w', rfl⟩, ?_, by simp, by simp, htouch _ _ _ hc⟩
    rintro w'' h
    obtain ⟨-, rfl⟩ := Prod.mk.inj h
    rw [hfile _ _ _ hc (.inr rfl), List.drop_length, List.append_nil]
  · simp only [show run w = (.err e, w') from he]
    refine ⟨fun h => absurd h hs, by simp, ?_, by simp, htouch _ _ _ hc⟩
    rintro e' w'' h
    obtain ⟨-, rfl⟩ := Prod.mk.inj h
    exact ⟨k, hk, hfile _ _ _ hc hkp⟩

/-- **C36.** With another length `cap`, exactly the first `cap` bytes are zeroed, and the file grows if it was shorter. -/
theorem C36_overwrite_cap (h cap : Nat) (passes : Int) (w w' : World) (hok : Overwrite.execute h cap passes w = (.ok (), w')) :
    w'.file (w.fd h).ino = List.replicate cap 0 ++ (w.file (w.fd h).ino).drop cap := by
  rcases Overwrite.execute_cases h cap passes w with ⟨w2, he, hc⟩ | ⟨e, k, w2, he, _⟩
  · rw [hok] at he
    obtain ⟨-, rfl⟩ := Prod.mk.inj he
    rw [World.file_of_core hc]
    have := World.put_file_same (w.setPos h 0) h (zeros cap)
    simp only [World.setPos_fd_same, World.setPos_file] at this
    rw [this, writeAt_zero, zeros_length]; rfl
  · rw [hok] at he; simp at he

example : ∃ w', Overwrite.execute 0 3 2 (Example.world1 [4, 5, 6]) = (.ok (), w') ∧ w'.file 0 = [0, 0, 0] := by
  obtain ⟨w', h⟩ := (C36_overwrite 0 2 (Example.world1 [4, 5, 6])).1 rfl
  exact ⟨w', h, (C36_overwrite 0 2 (Example.world1 [4, 5, 6])).2.1 w' h⟩

/-! ### C37 -/

/-- **C37 fails.**  Whatever the number of passes and the length, every byte that `overwrite` ever writes is zero, and it takes nothing from the random generator:
the passes that are to write random data write nothing. -/
theorem C37_no_random_data (h cap : Nat) (passes : Int) :
    OnlyDoes (fun e => ∃ i off bs, e = .write i off bs ∧ ∀ b ∈ bs, b = 0) (Overwrite.execute h cap passes) ∧
    ∀ w, (Overwrite.execute h cap passes w).2.rng = w.rng := by
  constructor
  · unfold Overwrite.execute
    have hp : ∀ n, OnlyDoes (fun e => ∃ i off bs, e = .write i off bs ∧ ∀ b ∈ bs, b = 0) (Overwrite.passes h cap n) := by
      intro n
      induction n with
      | zero => exact .pure _
      | succ n ih =>
        unfold Overwrite.passes
        refine .bind (.mapErr _ (.rewind _)) fun _ => .bind ?_ fun _ => .bind (.mapErr _ (.flush _)) fun _ => ih
        exact .of_same fun w => by rw [Overwrite.writeBlocks_run]
    refine .bind (hp _) fun _ => .bind (.mapErr _ (.rewind _)) fun _ => .bind (.mapErr _ (.writeAll _ _ ?_)) fun _ => .mapErr _ (.flush _)
    intro i off a b
    refine ⟨i, off, _, rfl, ?_⟩
    intro x hx
    exact (List.mem_replicate.1 (List.mem_of_mem_drop (List.mem_of_mem_take hx))).2
  · intro w
    rcases Overwrite.execute_cases h cap passes w with ⟨w2, he, hc⟩ | ⟨e, k, w2, he, _, _, p, hc, _⟩
    · rw [he]; exact (World.rng_of_core hc).trans rfl
    · rw [he]; exact (World.rng_of_core hc).trans rfl

/-- **C37 fails.**  Without faults the only data written in any number of passes is one run of zeros over the file. -/
theorem C37_single_zero_write (h cap : Nat) (passes : Int) (w : World) (hs : w.sched = []) (hcap : 0 < cap) :
    (Overwrite.execute h cap passes w).2.log = .write (w.fd h).ino 0 (List.replicate cap 0) :: w.log := by
  have hp : ∀ n (w : World), w.sched = [] → ∃ p, Overwrite.passes h cap n w = (.ok (), w.setPos h p) := by
    intro n
    induction n with
    | zero => intro w _; exact ⟨(w.fd h).pos, by rw [World.setPos_self]; rfl⟩
    | succ n ih =>
      intro w hs
      unfold Overwrite.passes
      rw [Prog.bind_ok (Prog.mapErr_ok (rewind_nil hs h)), Prog.bind_ok (Overwrite.writeBlocks_run h _ _),
        Prog.bind_ok (Prog.mapErr_ok (flush_nil (by simpa using hs) h))]
      obtain ⟨p, hp⟩ := ih (w.setPos h 0) (by simpa using hs)
      exact ⟨p, by rw [hp, World.setPos_setPos]⟩
  obtain ⟨p, hp⟩ := hp passes.toNat w hs
  unfold Overwrite.execute
  have hne : List.replicate cap (0 : UInt8) ≠ [] := by
    intro h; have := congrArg List.length h; rw [List.length_replicate] at this; simp at this; omega
  rw [Prog.bind_ok hp, Prog.bind_ok (Prog.mapErr_ok (rewind_nil (by simpa using hs) h)), World.setPos_setPos,
    Prog.bind_ok (Prog.mapErr_ok (writeAll_nil (by simpa using hs) h hne)), Prog.mapErr_ok (flush_nil (by simpa using hs) h)]
  simp [World.put]

example : (Overwrite.execute 0 3 5 (Example.world1 [4, 5, 6])).2.log = [.write 0 0 [0, 0, 0]] :=
  C37_single_zero_write 0 3 5 (Example.world1 [4, 5, 6]) rfl (by decide)

end Volaris.Props
