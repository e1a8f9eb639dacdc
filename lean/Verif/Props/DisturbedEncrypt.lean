import Verif.Proofs.DisturbedEncrypt
import Verif.Props.Disturbed
import Verif.Props.DisturbedDecrypt
/-!
# C103: encryption while other programs change the disk
-/
namespace Volaris.Props
open Volaris.Spec Volaris.Cli Volaris.Example
variable {σ : Type}

/-- **C103.** A file is encrypted, and before each step of the command other programs have changed the disk in any way they like: they rename files, change the input while it is read, or write to the output themselves.  If reads and writes are not cut
short, then what the command writes is a header and then, in order, a body, to the files with the names of the header file (the output, if there is none) and of the output, which it has emptied; it writes to no other file, empties no other, and removes no name before it begins to erase.  It reports success, and begins to erase the input, only when header and body together are an encrypted file that
opens, with the secret that was supplied, to something every block of which was in the input, at its place, at some time. -/
theorem C103_sealed (s : Sys σ) (input output : List Char) (params : CryptoParams) (algorithm : Algorithm) (self : World) (ds : List Disk) (hC : s.C.Lawful) (hns : ∀ k, Io.short k ∉ self.sched) :
    Seals (params.header ≠ none) (params.erase ≠ .ignoreFile) ((Proc.after ds ⟨self, (Job.encrypt input output params algorithm).steps s⟩).rest = .done (.ok ()))
      (Leads self s.cwd output) (Leads self s.cwd (params.header.getD output)) (Captures s self ds input params.key)
      (Proc.among ds ⟨self, (Job.encrypt input output params algorithm).steps s⟩) :=
  Dist.Obs.seals (fun _ _ _ h => h) ds [] (fun _ h => h) (by simp) (by simp) (Dist.obs_encryptMode hC hns)

/-- **C103, an input that is left alone.** If the file has the same content `x` on all these disks, then what was captured is `x`. -/
theorem C103_unchanged (ds : List Disk) (i : Nat) (p x : Bytes) (h : SeenIn ds i p) (hx : ∀ d ∈ ds, d.file i = x) : p = x := Dist.seen_unchanged h hx

/-- **C103, the output at the end.** If nobody else touches the output, it holds exactly the header, if it goes there, and the body. -/
theorem C103_content (o : Nat) (hb c : Bytes) (first : Disk × Disk) (steps : List (Disk × Disk)) (h : Lays o hb.length c steps) (h0 : first.2.file o = hb) (ha : Alone o (first :: steps)) :
    ((first :: steps).getLast (by simp)).2.file o = hb ++ c := by
  have go : ∀ (pos : Nat) (q : Bytes) (steps : List (Disk × Disk)), Lays o pos q steps → ∀ (first : Disk × Disk) (x : Bytes), first.2.file o = x → x.length = pos → Alone o (first :: steps) →
      ((first :: steps).getLast (by simp)).2.file o = x ++ q := by
    intro pos q steps h
    induction h with
    | nil => intro first x h0 _ _; simpa using h0
    | @idle pos q d d' rest hf _ ih =>
      intro first x h0 hl ha
      rw [List.getLast_cons (by simp)]
      exact ih (d, d') x (by simp only; rw [hf, ha.1]; exact h0) hl ha.2
    | @put pos b q d d' rest hb _ _ ih =>
      intro first x h0 hl ha
      rw [List.getLast_cons (by simp), ← List.append_assoc]
      refine ih (d, d') (x ++ b) ?_ (by simp [hl]) ha.2
      have e : d.file o = x := ha.1.trans h0
      simp only [hb, e]
      unfold writeAt
      split
      · next h => rw [h]; simp
      · simp [← hl]
  exact go hb.length c steps h first hb h0 rfl ha

/-! ### An example: the input is changed while it is encrypted -/

/-- Another program writes something else to file 0. -/
def exScribble (d : Disk) : Disk := { d with file := fun i => if i = 0 then [9, 9] else d.file i }

/-- The disks that `exLone` finds if `x`, which was `[1, 2, 3]`, is changed before step `n`. -/
def exChanged (n : Nat) : List Disk :=
  (List.range n).map (fun k => ((startAll [exLone] (exShared [1, 2, 3])).run (List.replicate k 0)).disk) ++
    (List.range (25 - n)).map fun k =>
      let m := (startAll [exLone] (exShared [1, 2, 3])).run (List.replicate n 0)
      ((⟨exScribble m.disk, m.procs⟩ : Machine).run (List.replicate k 0)).disk

/-- What the program has written to `o` at last, after the header. -/
def exBody (ds : List Disk) : Bytes := ((Proc.among ds ⟨exLone.self, exLone.cmd.steps exLone.s⟩).getLast?.map fun st => (st.2.file 3).drop 416).getD []

def exSucceeds (ds : List Disk) : Bool := match (Proc.after ds ⟨exLone.self, exLone.cmd.steps exLone.s⟩).rest with | .done (.ok _) => true | _ => false

/-- C103 is not vacuous: `x` is changed while it is encrypted, once before and once after it is read; the command ends with success and erases it, and the output opens to what was read. -/
example : exLone.s.C.Lawful ∧ (∀ k, Io.short k ∉ exLone.self.sched) ∧ exErasing.erase ≠ .ignoreFile ∧
    exSucceeds (exChanged 7) = true ∧ (exBody (exChanged 7)).take 2 = [9, 9] ∧ (exBody (exChanged 7)).length = 18 ∧
    exSucceeds (exChanged 13) = true ∧ (exBody (exChanged 13)).take 3 = [1, 2, 3] ∧ (exBody (exChanged 13)).length = 19 ∧
    (Proc.among (exChanged 13) ⟨exLone.self, exLone.cmd.steps exLone.s⟩).any (fun st => st.1.file 0 == [9, 9] && st.2.file 0 == []) = true :=
  ⟨Example.toy_lawful _ (by decide), by simp [exLone, exSelf, exWorld, disk, World.on], by simp [exErasing], by decide +kernel, by decide +kernel, by decide +kernel, by decide +kernel, by decide +kernel, by decide +kernel, by decide +kernel⟩

/-- The other program renames `x` in the meantime. -/
example : exSucceeds exFound = true ∧ (exBody exFound).take 3 = [1, 2, 3] := ⟨by decide +kernel, by decide +kernel⟩

/-- `x` is encrypted to `o`, the header goes to `h`, and `x` is erased. -/
def exAside : Started Bytes := ⟨exSys, .encrypt ['x'] ['o'] { exErasing with header := some ['h'] } .aes256Gcm, exSelf [1, 2, 3] []⟩

/-- C103 with a detached header: 416 bytes go to `h` and the sealed block to `o`; nobody else does anything. -/
example : Ended ((startAll [exAside] (exShared [1, 2, 3])).run (List.replicate 100 0)) 0 (.ok ()) [] ∧
    (((startAll [exAside] (exShared [1, 2, 3])).run (List.replicate 100 0)).disk.file 3).length = 19 ∧ (((startAll [exAside] (exShared [1, 2, 3])).run (List.replicate 100 0)).disk.file 4).length = 416 :=
  ⟨exEnd_ok (by decide +kernel), by decide +kernel, by decide +kernel⟩

end Volaris.Props
