import Verif.Proofs.EraseDir
import Verif.Proofs.Temp
import Verif.Proofs.EraseCmd
/-!
# Programs that at most remove entries

Erasing never adds or changes an entry of the directory tree; a tree stays a tree when everything below a directory has been removed.
-/
namespace Volaris
open Thr Spec

/-- From `w` to `w'` entries may have disappeared; no file has been created. -/
structure Pruned (w w' : World) : Prop where
  dir : w'.dir.Sublist w.dir
  nextIno : w'.nextIno = w.nextIno
  stdin : w'.stdin <:+ w.stdin
  sched : w'.sched <:+ w.sched

namespace Pruned
variable {w w' w'' : World}

theorem refl (w : World) : Pruned w w := ⟨.refl _, rfl, List.suffix_refl _, List.suffix_refl _⟩
theorem trans (h : Pruned w w') (g : Pruned w' w'') : Pruned w w'' :=
  ⟨g.dir.trans h.dir, g.nextIno.trans h.nextIno, g.stdin.trans h.stdin, g.sched.trans h.sched⟩

theorem of_sched (w : World) {s : List Io} (h : s <:+ w.sched) : Pruned w { w with sched := s } := ⟨.refl _, rfl, List.suffix_refl _, h⟩

theorem looked {n : Nat} (h : Looked n w w') : Pruned w w' := ⟨by rw [h.dir]; exact .refl _, h.nextIno, h.stdin, h.sched⟩

theorem removed (w : World) (q : Path) : Pruned w (w.removed q) := ⟨List.filter_sublist, rfl, List.suffix_refl _, List.suffix_refl _⟩

end Pruned

/-- Such a program. -/
def Prunes {ε α : Type} (x : Prog ε α) : Prop := ∀ w, Pruned w (x w).2

namespace Prunes
variable {ε ε' α β : Type}

theorem pure (a : α) : Prunes (Pure.pure a : Prog ε α) := fun w => .refl w
theorem throw (e : ε) : Prunes (Prog.throw e : Prog ε α) := fun w => .refl w
theorem lift (r : Res ε α) : Prunes (Prog.lift r) := fun w => by cases r <;> exact .refl w

theorem bind {x : Prog ε α} {f : α → Prog ε β} (hx : Prunes x) (hf : ∀ a, Prunes (f a)) : Prunes (x >>= f) := by
  intro w
  have h1 := hx w
  rw [Prog.bind_run]
  rcases he : x w with ⟨r, w1⟩
  rw [he] at h1
  cases r with
  | ok a => exact h1.trans (hf a w1)
  | err e => exact h1
  | abort a => exact h1

theorem mapErr (f : ε → ε') {x : Prog ε α} (hx : Prunes x) : Prunes (x.mapErr f) := by
  intro w
  have h1 := hx w
  rw [Prog.mapErr_run]
  rcases he : x w with ⟨r, w1⟩
  rw [he] at h1
  cases r <;> exact h1

theorem ite {c : Prop} [Decidable c] {x y : Prog ε α} (hx : Prunes x) (hy : Prunes y) : Prunes (if c then x else y) := by
  split
  · exact hx
  · exact hy

theorem within {R W : List Nat} {x : Prog ε α} (hx : Within R W x) (hs : Shrinks x) : Prunes x := fun w =>
  ⟨by rw [(hx w).dir]; exact .refl _, (hx w).nextIno, by rw [(hx w).stdin]; exact List.suffix_refl _, hs w⟩

theorem looks {P : Nat → α → Prop} {x : Prog ε α} (hx : ∀ n, Looks n (P n) x) : Prunes x := fun w => .looked (hx w.nextFd w (Nat.le_refl _)).1

theorem genBytes (n : Nat) : Prunes (Volaris.genBytes n : Prog ε Bytes) := fun _ => ⟨.refl _, rfl, List.suffix_refl _, List.suffix_refl _⟩

theorem sys : Prunes Volaris.sys := fun w => by
  rcases sys_cases w with ⟨s, hs, he⟩ | ⟨s, e, hs, hn, he⟩ <;> rw [he] <;> exact .of_sched w hs

theorem openTrunc (p : PathBuf) : Prunes (Volaris.openTrunc p) := fun w => by
  rcases openTrunc_any p w with ⟨q, i, s, hs, -, -, he⟩ | ⟨e, s, hs, he⟩ <;> rw [he]
  · exact ⟨.refl _, rfl, List.suffix_refl _, hs⟩
  · exact .of_sched w hs

theorem fileLen (h : Nat) : Prunes (Volaris.fileLen h) := .bind .sys fun _ => fun w => .refl w

theorem setLen0 (h : Nat) : Prunes (Volaris.setLen0 h) := fun w => by
  rcases setLen0_cases h w with ⟨s, hs, he⟩ | ⟨s, e, hs, hn, he⟩ <;> rw [he]
  · exact ⟨.refl _, rfl, List.suffix_refl _, hs⟩
  · exact .of_sched w hs

theorem unlink (p : PathBuf) : Prunes (Volaris.unlink p) := fun w => by
  rcases Unpack.unlink_any p w with ⟨q, i, s, hs, -, -, he⟩ | ⟨e, s, hs, he⟩ <;> rw [he]
  · exact (Pruned.of_sched w hs).trans (.removed _ q)
  · exact .of_sched w hs

theorem rewind (h : Nat) : Prunes (Volaris.rewind h) := .within (R := [h]) (W := []) (.rewind (.inl (by simp))) (.rewind h)
theorem flush (h : Nat) : Prunes (Volaris.flush h) := .within (R := []) (W := []) (.flush h) (.flush h)
theorem writeAll (h : Nat) (bs : Bytes) : Prunes (Volaris.writeAll h bs) := .within (R := []) (W := [h]) (.writeAll bs (by simp)) (.writeAll h bs)

theorem dropEntry (q : Path) : Prunes (Storage.dropEntry q) := by
  intro w
  unfold Storage.dropEntry
  split
  · exact .removed w q
  · split
    · exact .refl w
    · exact .removed w q
  · exact .refl w

theorem removeEntries : ∀ qs : List Path, Prunes (Storage.removeEntries qs)
  | [] => .pure ()
  | q :: qs => .bind .sys fun _ => .bind (dropEntry q) fun _ => removeEntries qs

theorem rmTree (p : PathBuf) : Prunes (Storage.rmTree p) := by
  intro w
  unfold Storage.rmTree
  split
  · split
    · exact removeEntries _ w
    · exact .refl w
  · exact .refl w

theorem readEntries : ∀ ps : List PathBuf, Prunes (Storage.readEntries ps)
  | [] => .pure _
  | p :: ps => .bind (.mapErr _ .sys) fun _ => .bind (.looks fun _ => Looks.readFile p) fun _ => .bind (readEntries ps) fun _ => .pure _

end Prunes

/-! ### Threads -/

/-- Every step of the thread at most removes entries. -/
def ThrPrunes {ε α : Type} (t : Thr ε α) : Prop := ∀ w, RG (fun _ _ => True) Pruned (fun _ _ => True) t w

namespace ThrPrunes
variable {ε ε' α β : Type}

theorem pure (a : α) : ThrPrunes (Pure.pure a : Thr ε α) := fun _ => RG.pure fun _ _ => trivial
theorem atom {x : Prog ε α} (hx : Prunes x) : ThrPrunes (Thr.atom x) := fun _ => RG.atom fun w1 _ => ⟨hx w1, fun _ _ => trivial⟩
theorem bind {t : Thr ε α} {f : α → Thr ε β} (ht : ThrPrunes t) (hf : ∀ a, ThrPrunes (f a)) : ThrPrunes (t >>= f) := fun w =>
  RG.bind (fun _ => trivial) (ht w) (fun a w' _ => hf a w') (fun _ _ _ => trivial) (fun _ _ _ => trivial)
theorem mapErr (f : ε → ε') {t : Thr ε α} (ht : ThrPrunes t) : ThrPrunes (t.mapErr f) := fun w => RG.mapErr (ht w) fun _ _ _ => trivial

theorem writeBlocks (h : Nat) : ∀ bs : List Nat, ThrPrunes (Erase.writeBlocks h bs)
  | [] => .pure ()
  | _ :: bs => .bind (.atom (.genBytes 0)) fun _ => .bind (.atom (.mapErr _ (.writeAll h _))) fun _ => writeBlocks h bs

theorem passes (h cap : Nat) : ∀ n : Nat, ThrPrunes (Erase.passes h cap n)
  | 0 => .pure ()
  | n + 1 => .bind (.atom (.mapErr _ (.rewind h))) fun _ => .bind (writeBlocks h _) fun _ => .bind (.atom (.mapErr _ (.flush h))) fun _ => passes h cap n

theorem thread (p : PathBuf) (n : Int) : ThrPrunes (Erase.thread p n) :=
  .bind (.atom (.mapErr _ (.openTrunc p))) fun h => .bind (.atom (.mapErr _ (.fileLen h))) fun cap =>
    .bind (.mapErr _ (.bind (passes h cap _) fun _ => .bind (.atom (.mapErr _ (.rewind h))) fun _ => .bind (.atom (.mapErr _ (.writeAll h _))) fun _ =>
      .atom (.mapErr _ (.flush h)))) fun _ =>
    .mapErr _ (.bind (.atom (.mapErr _ (.setLen0 h))) fun _ => .bind (.atom (.mapErr _ (.flush h))) fun _ => .atom (.mapErr _ (.unlink p)))

/-- Any interleaving of such threads. -/
theorem spawnJoin (order : List Nat) (ts : List (Thr ε Unit)) (h : ∀ t ∈ ts, ThrPrunes t) : Prunes (Volaris.spawnJoin order ts) := by
  intro w
  obtain ⟨is, r, -, he⟩ := spawnJoin_cases order ts w
  rw [he]
  have := (interleave_RG (R := fun _ _ _ => True) (G := fun _ => Pruned) (Q := fun _ _ _ => True) (fun _ _ _ _ _ _ => trivial) (fun _ _ => trivial) ts.length
    (fun _ _ _ _ _ _ _ _ => trivial) is ts w rfl (fun i t ht => h t (List.mem_of_getElem? ht) w)).2
  exact Star.of_closed Pruned.refl (fun {a b c} h ⟨_, _, g⟩ => h.trans g) this

end ThrPrunes

namespace Overwrite

theorem writeBlocks_shrinks (h : Nat) : ∀ bs : List Nat, Shrinks (writeBlocks h bs)
  | [] => .pure ()
  | _ :: bs => .bind (.genBytes 0) fun _ => .bind (.mapErr _ (.writeAll h _)) fun _ => writeBlocks_shrinks h bs

theorem passes_shrinks (h cap : Nat) : ∀ n : Nat, Shrinks (passes h cap n)
  | 0 => .pure ()
  | n + 1 => .bind (.mapErr _ (.rewind h)) fun _ => .bind (writeBlocks_shrinks h _) fun _ => .bind (.mapErr _ (.flush h)) fun _ => passes_shrinks h cap n

theorem execute_shrinks (h cap : Nat) (n : Int) : Shrinks (execute h cap n) :=
  .bind (passes_shrinks h cap _) fun _ => .bind (.mapErr _ (.rewind h)) fun _ => .bind (.mapErr _ (.writeAll h _)) fun _ => .mapErr _ (.flush h)

end Overwrite

namespace Prunes

theorem eraseDir (order : List Nat) (e : Storage.Entry) (n : Int) : Prunes (EraseDir.execute order e n) := by
  unfold EraseDir.execute
  refine .ite (.throw _) (.bind (.mapErr _ ?_) fun files => .bind (ThrPrunes.spawnJoin _ _ fun t ht => ?_) fun _ => .mapErr _ (.ite (.throw _) (.mapErr _ (.rmTree _))))
  · exact .ite (.throw _) fun w => readEntries _ w
  · obtain ⟨f, -, rfl⟩ := List.mem_map.1 ht
    exact .mapErr _ (.thread _ _)

theorem erase (p : PathBuf) (n : Int) : Prunes (Erase.execute p n) := by
  unfold Erase.execute
  refine .bind (.mapErr _ (.bind (.mapErr _ (.openTrunc p)) fun _ => .pure _)) fun file => .bind (.mapErr _ (.bind (.lift _) fun h => .mapErr _ (.fileLen h))) fun cap =>
    .bind (.lift _) fun h => .bind (.mapErr _ (.within (R := []) (W := [h]) (Unpack.overwrite_within h cap n) (Overwrite.execute_shrinks h cap n))) fun _ => .mapErr _ (.bind ?_ fun _ => .mapErr _ (.unlink _))
  cases file with
  | file p h => exact .bind (.mapErr _ (.setLen0 h)) fun _ => .mapErr _ (.flush h)
  | dir p => exact .pure _

end Prunes

namespace Cli
variable {σ : Type}

theorem secureErase_prunes (s : Sys σ) (input : List Char) (n : Int) (force : ForceMode) : Prunes (secureErase s input n force) := by
  unfold secureErase
  refine .bind (.looks fun m => readInput_looks m _) fun e => .ite (.bind (fun w => ?_) fun b => .ite (.mapErr _ (.eraseDir _ _ _)) fun w => .refl w) (.mapErr _ (.erase _ _))
  cases force with
  | forced => exact .refl w
  | prompt =>
    rcases getAnswer_cases _ false w with ⟨b, rest, sc, h1, h2, h3, h4⟩ | ⟨e, rest, sc, o, h1, h2, h3, h4⟩ <;> rw [h3] <;> exact ⟨.refl _, rfl, h1, h2⟩

end Cli

/-- A tree without one of its directories and what is below is a tree. -/
theorem Spec.TreeOk.cut {w w' : World} (ht : TreeOk w) (hp : Pruned w w') {T : Path} (hgone : ∀ x, T <+: x → x ≠ [] → w'.look x = none)
    (hout : ∀ x, ¬ T <+: x → w'.look x = w.look x) : TreeOk w' := by
  refine ⟨(hp.dir.map _).nodup ht.distinct, fun k n hk => ?_⟩
  obtain ⟨h1, h2⟩ := ht.parents k n (hp.dir.subset hk)
  refine ⟨h1, ?_⟩
  have hT : ¬ T <+: k := by
    intro h
    have h3 := hgone k h h1
    have h4 : (w'.look k).isSome := World.look_isSome_of_mem hk
    rw [h3] at h4; cases h4
  rw [hout _ fun h => hT (h.trans (List.dropLast_prefix k))]
  exact h2

end Volaris
