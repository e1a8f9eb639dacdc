import Verif.Spec.Storage
import Verif.Spec.Example
/-!
# A concrete disk for the non-vacuity examples
-/
namespace Volaris.Example
open Spec

/-- A small disk: `a/x`, `a/b/y`, `z`; the files 0, 1 and 2. -/
def disk (sched : List Io) : World :=
  { world1 [1, 2, 3] with
    dir := [([['a'], ['b'], ['y']], .file 1), ([['a'], ['b']], .dir), ([['a'], ['x']], .file 0), ([['a']], .dir), ([['z']], .file 2)]
    sched := sched }

theorem disk_ok (s : List Io) : TreeOk (disk s) := by
  refine ⟨by show ([[['a'], ['b'], ['y']], [['a'], ['b']], [['a'], ['x']], [['a']], [['z']]] : List Path).Nodup; decide, ?_⟩
  intro k n h
  have h : (k, n) ∈ ([([['a'], ['b'], ['y']], .file 1), ([['a'], ['b']], .dir), ([['a'], ['x']], .file 0), ([['a']], .dir), ([['z']], .file 2)] : List (Path × Node)) := h
  simp only [List.mem_cons, Prod.mk.injEq, List.not_mem_nil, or_false] at h
  rcases h with ⟨rfl, rfl⟩ | ⟨rfl, rfl⟩ | ⟨rfl, rfl⟩ | ⟨rfl, rfl⟩ | ⟨rfl, rfl⟩ <;> exact ⟨by decide, rfl⟩

end Volaris.Example
