import Verif.Proofs.CrashCmd
import Verif.Props.PackCmd
import Verif.Proofs.CmdOk
/-!
# From the moments of a run to runs with faults
-/
namespace Volaris
open Spec Crashes
variable {ε α β : Type}

theorem Prog.bind_assoc {γ : Type} (x : Prog ε α) (f : α → Prog ε β) (g : β → Prog ε γ) : (x >>= f) >>= g = x >>= fun a => f a >>= g := by
  funext w
  simp only [Prog.bind_run]
  rcases x w with ⟨_ | _ | _, _⟩ <;> rfl

theorem Prog.pure_bind (a : α) (f : α → Prog ε β) : (Pure.pure a : Prog ε α) >>= f = f a := rfl

theorem Prog.throw_bind (e : ε) (f : α → Prog ε β) : (Prog.throw e : Prog ε α) >>= f = Prog.throw e := rfl

theorem withSched_dir (w : World) (s : List Io) : (w.withSched s).dir = w.dir := rfl
theorem withSched_look (w : World) (s : List Io) (q : Path) : (w.withSched s).look q = w.look q := World.look_congr rfl q

theorem disk_file {v v' : World} (h : v'.disk = v.disk) : v'.file = v.file := congrArg Disk.file h
theorem disk_dir {v v' : World} (h : v'.disk = v.disk) : v'.dir = v.dir := congrArg Disk.dir h
theorem disk_nextIno {v v' : World} (h : v'.disk = v.disk) : v'.nextIno = v.nextIno := congrArg Disk.nextIno h

/-- The disk at a moment of a run is the disk at the end of a run with other faults. -/
theorem Crashes.stopped {x : Prog ε α} (hx : Crashes x) {w v : World} (h : StoppedAt x w v) :
    ∃ s r, ∃ w' : World, x (w.withSched s) = (r, w') ∧ v.disk = w'.disk := by
  obtain ⟨es, hc, hm⟩ := h
  obtain ⟨es', hc', _, h'⟩ := (hx w).log
  have : es = es' := by
    have := hc.symm.trans hc'
    exact List.reverse_inj.1 (List.append_cancel_right this)
  subst this
  obtain ⟨s, r, w', hd, hr⟩ := h' _ hm
  have := hr []
  rw [List.append_nil] at this
  exact ⟨s, r, _, this, hd.symm⟩

/-- Being stopped in a sequence of two programs: in the first, or in the second after the first has succeeded. -/
theorem Crashes.stopped_bind {x : Prog ε α} {f : α → Prog ε β} (hx : Crashes x) (hf : ∀ a, Crashes (f a)) {w v : World} (h : StoppedAt (x >>= f) w v) :
    StoppedAt x w v ∨ ∃ a u, x w = (.ok a, u) ∧ StoppedAt (f a) u v := by
  obtain ⟨es, hc, hm⟩ := h
  obtain ⟨es1, hc1, hd1, -⟩ := (hx w).log
  unfold Calls at hc hc1
  rw [Prog.bind_run] at hc
  rcases hxw : x w with ⟨_ | _ | _, u⟩ <;> rw [hxw] at hc hc1 hd1 <;> dsimp only at hc hc1 hd1
  · rename_i a
    obtain ⟨es2, hc2, hd2, -⟩ := (hf a u).log
    unfold Calls at hc2
    have : es = es1 ++ es2 := by
      rw [hc1] at hc2
      have := hc.symm.trans hc2
      rw [← List.append_assoc] at this
      have := List.append_cancel_right this
      rw [← List.reverse_append] at this
      exact List.reverse_inj.1 this
    subst this
    rcases hm.append with hm | hm
    · exact .inl ⟨es1, by unfold Calls; rw [hxw]; exact hc1, hm⟩
    · exact .inr ⟨a, u, rfl, es2, hc2, by rw [hd1]; exact hm⟩
  all_goals exact .inl ⟨es, by unfold Calls; rw [hxw]; exact hc, hm⟩

namespace Cli
variable {σ : Type}

theorem leads_disk {v v' : World} (h : v'.disk = v.disk) {p : PathBuf} {q : Path} {i : Nat} (hl : LeadsToFile v p q i) : LeadsToFile v' p q i := leads_congr (disk_dir h) hl

theorem preserves_disk {C : Crypto} {cwd : Path} {output : List Char} {header : Option (List Char)} {secret p : Bytes} {q : Path} {i : Nat} {v v' : World} (h : v'.disk = v.disk)
    (hp : Preserves C cwd output header secret p q i v) : Preserves C cwd output header secret p q i v' := by
  obtain ⟨qo, j, h1, h2, h3, h4⟩ := hp
  refine ⟨qo, j, leads_disk h h1, h2, h3, ?_⟩
  cases header with
  | none => rw [disk_file h]; exact h4
  | some hd =>
    obtain ⟨qh, k, g1, g2, g3, g4⟩ := h4
    exact ⟨qh, k, leads_disk h g1, g2, g3, by rw [disk_file h]; exact g4⟩

theorem restores_disk {C : Crypto} {cwd : Path} {output : List Char} {header : Option (List Char)} {secret p : Bytes} {q : Path} {i : Nat} {w v v' : World} (h : v'.disk = v.disk)
    (hp : Restores C cwd output header secret p q i w v) : Restores C cwd output header secret p q i w v' := by
  obtain ⟨qo, j, h1, h2, h3, h4⟩ := hp
  refine ⟨qo, j, leads_disk h h1, h2, h3, ?_⟩
  cases header with
  | none => rw [disk_file h]; exact h4
  | some hd => rw [disk_file h]; exact h4

theorem changes_disk {T : Path → Prop} {E : Path → Nat → Prop} {w v v' : World} (h : v'.disk = v.disk) (hc : Changes T E w v) : Changes T E w v' := by
  obtain ⟨h1, h2⟩ := hc
  have hl : ∀ q, v'.look q = v.look q := fun q => World.look_congr (disk_dir h) q
  exact ⟨fun q => by rw [hl]; exact h1 q, fun j hj => by rw [disk_file h]; exact h2 j hj⟩

theorem occupied_withSched (w : World) (s : List Io) (p : PathBuf) : Occupied (w.withSched s) p ↔ Occupied w p := occupied_congr (withSched_dir w s)

theorem mayWrite_withSched (f : ForceMode) (w : World) (s : List Io) (p : PathBuf) : MayWrite f (w.withSched s) p ↔ MayWrite f w p := by
  unfold MayWrite; rw [occupied_withSched]; rfl

theorem targets_withSched (cwd : Path) (output : List Char) (params : CryptoParams) (w : World) (s : List Io) : Targets cwd output params (w.withSched s) = Targets cwd output params w := by
  funext q
  unfold Targets
  simp only [mayWrite_withSched, resolve_withSched]

theorem outputPlace_withSched (cwd : Path) (f : ForceMode) (output : List Char) (w : World) (s : List Io) : OutputPlace cwd f output (w.withSched s) = OutputPlace cwd f output w := by
  funext q
  unfold OutputPlace
  simp only [mayWrite_withSched, resolve_withSched]

theorem leads_withSched (w : World) (s : List Io) (p : PathBuf) (q : Path) (i : Nat) : LeadsToFile (w.withSched s) p q i ↔ LeadsToFile w p q i :=
  ⟨fun h => leads_congr (withSched_dir w s).symm h, fun h => leads_congr (withSched_dir w s) h⟩

/-- The encrypt command is the encrypt command without erasing, followed by the erasing. -/
theorem encryptMode_split (s : Sys σ) (input output : List Char) (params : CryptoParams) (a : Algorithm) :
    encryptMode s input output params a = (encryptMode s input output { params with erase := .ignoreFile } a >>= fun _ => eraseIf s params.erase params.force input) := by
  have e : ∀ b : Unit → Prog Error Unit, eraseIf s .ignoreFile params.force input >>= b = b () := fun b => rfl
  unfold encryptMode
  by_cases h : input = output
  · rw [if_pos h, if_pos h]; rfl
  · rw [if_neg h, if_neg h]
    simp only [Prog.bind_assoc, e]
    rfl

/-- The decrypt command is the decrypt command without erasing, followed by the erasing. -/
theorem decryptMode_split (s : Sys σ) (input output : List Char) (params : CryptoParams) :
    decryptMode s input output params = (decryptMode s input output { params with erase := .ignoreFile } >>= fun _ => eraseIf s params.erase params.force input) := by
  have e : ∀ b : Unit → Prog Error Unit, eraseIf s .ignoreFile params.force input >>= b = b () := fun b => rfl
  unfold decryptMode
  by_cases h : input = output
  · rw [if_pos h, if_pos h]; rfl
  · rw [if_neg h, if_neg h]
    simp only [Prog.bind_assoc, e]

/-- The pack command is the pack command without erasing, followed by the erasing. -/
theorem packMode_split (s : Sys σ) (inputs : List (List Char)) (output : List Char) (params : CryptoParams) (a : Algorithm) :
    packMode s inputs output ⟨true⟩ params a = (packMode s inputs output ⟨false⟩ params a >>= fun _ => eraseInputs s params.force inputs) := by
  unfold packMode
  by_cases h : inputs.any (· = output) = true
  · rw [if_pos h, if_pos h]; rfl
  · rw [if_neg h, if_neg h]
    simp only [Prog.bind_assoc]
    congr 1
    funext b
    cases b
    · simp only [Prog.bind_assoc, Bool.false_eq_true, if_false]
      rfl
    · rfl

end Cli
end Volaris
