import Verif.Proofs.PackFaults
import Verif.Proofs.TreeOk
/-!
# Programs that keep the directory tree a tree
-/
namespace Volaris
open Spec

/-- A program that keeps trees. -/
def KeepsTree {ε α : Type} (x : Prog ε α) : Prop := Pack.Keeps TreeOk x

namespace KeepsTree
variable {ε ε' α β : Type}

theorem bind {x : Prog ε α} {f : α → Prog ε β} (hx : KeepsTree x) (hf : ∀ a, KeepsTree (f a)) : KeepsTree (x >>= f) := Pack.Keeps.bind hx hf

theorem pure (a : α) : KeepsTree (Pure.pure a : Prog ε α) := fun _ h => h
theorem lift (r : Res ε α) : KeepsTree (Prog.lift r) := fun _ h => by cases r <;> exact h

theorem mapErr (f : ε → ε') {x : Prog ε α} (hx : KeepsTree x) : KeepsTree (x.mapErr f) := by
  intro w h
  have := hx w h
  rw [Prog.mapErr_run]
  rcases he : x w with ⟨r, w1⟩
  rw [he] at this
  cases r <;> exact this

theorem attempt {x : Prog ε α} (hx : KeepsTree x) : KeepsTree (Prog.attempt x : Prog ε' _) := fun w h => by
  rw [Pack.attempt_snd]; exact hx w h

theorem within {R W : List Nat} {x : Prog ε α} (hx : Within R W x) : KeepsTree x := fun w h => h.congr (hx w).dir

theorem createFile (p : PathBuf) : KeepsTree (Storage.createFile p) := by
  refine .bind (.mapErr _ fun w h => ?_) fun _ => .pure _
  rcases openNew_cases p w with ⟨q, s, hs, hr, hl, hd, he⟩ | ⟨e, s, hs, he, -⟩
  · rw [he]; exact h.created hl hd w.nextIno rfl
  · rw [he]; exact TreeOk.congr (w := w) rfl h

theorem writeFile (p : PathBuf) : KeepsTree (Storage.writeFile p) := by
  refine .bind (.mapErr _ fun w h => ?_) fun _ => .pure _
  rcases openTrunc_any p w with ⟨q, i, s, hs, hr, hl, he⟩ | ⟨e, s, hs, he⟩ <;> rw [he] <;> exact TreeOk.congr (w := w) rfl h

theorem createTempFile (tmp : PathBuf) : KeepsTree (Storage.createTempFile tmp) := by
  refine .bind (fun w h => ?_) fun _ => .createFile _
  rw [genBytes_draw]
  exact TreeOk.congr (w := w) rfl h

theorem removeFile (p : PathBuf) (t : Nat) : KeepsTree (Storage.removeFile (.file p t)) := by
  refine .bind (fun w h => ?_) fun _ => .mapErr _ fun w h => ?_
  · rcases Unpack.emptyFile_cases p t w with ⟨s, -, he⟩ | ⟨e, s, -, -, he | he⟩ <;> rw [he] <;> exact TreeOk.congr (w := w) rfl h
  · rcases Unpack.unlink_any p w with ⟨q, i, s, hs, hr, hl, he⟩ | ⟨e, s, hs, he⟩ <;> rw [Storage.Entry.path, he]
    · exact TreeOk.removed (w := { w with sched := s }) (TreeOk.congr (w := w) rfl h) hl
    · exact TreeOk.congr (w := w) rfl h

theorem pack (C : Crypto) (z : Zip) (tmp : PathBuf) (req : Pack.Request) : KeepsTree (Pack.execute C z tmp req) := by
  intro w h
  have h1 := KeepsTree.createTempFile tmp w h
  rcases Unpack.createTempFile_cases tmp w with ⟨s0, -, -, -, he0⟩ | ⟨s0, -, he0, -⟩
  · unfold Pack.execute
    rw [Prog.bind_ok (Prog.mapErr_ok he0)]
    rw [he0] at h1
    refine KeepsTree.bind (.lift _) (fun t => ?_) _ h1
    refine .bind (.within (Pack.writeArchive_within (R := Pack.handles req.compressFiles) (W := [t]) z _ (fun _ h => h) (by simp))) fun _ =>
      .bind (.mapErr _ (.within (Pack.fileLen_within [] [] _))) fun _ => .bind (.attempt (.mapErr _ (.within (encrypt_within C _)))) fun _ =>
      .bind (.attempt (.within (Unpack.overwrite_within t _ 2))) fun _ => .bind (.attempt (.removeFile _ _)) fun _ => .lift _
  · unfold Pack.execute
    rw [Prog.bind_err (Prog.mapErr_err he0)]
    rw [he0] at h1
    exact h1

end KeepsTree

namespace Cli

theorem openOutput_tree (p : PathBuf) : KeepsTree (openOutput p) := by
  refine .mapErr _ fun w h => ?_
  have h1 := KeepsTree.createFile p w h
  unfold Unpack.orElse
  rcases he : Storage.createFile p w with ⟨r, w1⟩
  rw [he] at h1
  cases r with
  | ok a => exact h1
  | err e => exact KeepsTree.writeFile p w1 h1
  | abort a => exact h1

end Cli
end Volaris
