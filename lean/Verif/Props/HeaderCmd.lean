import Verif.Proofs.HeaderCmd
import Verif.Props.Commands
import Verif.Props.HeaderOps
/-!
# Properties of the commands `header dump`, `header strip` and `header restore`
-/
namespace Volaris.Props
open Spec Cli
variable {σ : Type}

/-! ### C65 -/

/-- **C65.** `header dump`, however it ends, changes nothing but what is at the output path, and that only if nothing was there or the user consented.  If it succeeds (no short transfers, output apart
from input), the input starts with a header of version 3, 4 or 5 and is unchanged, and the output is such a header alone and reads as the same one; if the header was written by the program, it is
the very bytes. -/
theorem C65_dump (s : Sys σ) (input output : List Char) (force : ForceMode) (w w' : World) (r : Res Error Unit) (hrun : headerDump s input output force w = (r, w')) :
    Changes (OutputPlace s.cwd force output w) (fun _ _ => False) w w' ∧
    (r = .ok () → (∀ k, Io.short k ∉ w.sched) → Allocated w → Apart w (toPath s.cwd input) (toPath s.cwd output) →
      ∃ c hd aad H aad', ContentAt w (toPath s.cwd input) c ∧ ContentAt w' (toPath s.cwd input) c ∧ IsHeader c hd aad ∧
        WrittenHeader hd.headerType.version H ∧ IsHeader H hd aad' ∧ ContentAt w' (toPath s.cwd output) H ∧
        ∀ v H0 body, WrittenHeader v H0 → c = H0 ++ body → H = H0) := by
  obtain ⟨h1, h2⟩ := wp_run (x := headerDump s input output force) (headerDump_wp s input output force w) hrun
  refine ⟨h1.changes, fun hr hns hal hap => ?_⟩
  obtain ⟨q, i, qo, j, hd, aad, H, hl, hlo, hji, hi, hH, hfj, hfi⟩ := h2 hr hns hal hap
  obtain ⟨H', g1, g2, aad', g3⟩ := hi.rewritten (by intro hv; simp [Header.serialize, hv] at hH) (by intro hv; simp [Header.serialize, hv] at hH)
  rw [hH] at g2
  cases g2
  refine ⟨w.file i, hd, aad, H, aad', ⟨q, i, hl, rfl⟩, ⟨q, i, h1.leads hl, hfi⟩, hi, g1, g3, ⟨qo, j, hlo, hfj⟩, fun v H0 body hw hc => ?_⟩
  obtain ⟨hd0, aad0, k1, _, k3, _⟩ := hw.reads
  rw [hc] at hi
  obtain ⟨rfl, -⟩ := isHeader_unique hi (k1 body)
  rw [hH] at k3
  cases k3
  rfl

/-- **C65.** Without faults `header dump` succeeds when the input starts with a header of version 3, 4 or 5, the output can be written, is apart from the input, and nothing is there or overwriting is
forced. -/
theorem C65_dump_succeeds (s : Sys σ) (input output : List Char) (force : ForceMode) (w : World) (c : Bytes) (hd : Header) (aad : Bytes) (hs : w.sched = [])
    (hc : ContentAt w (toPath s.cwd input) c) (hi : IsHeader c hd aad) (h1 : hd.headerType.version ≠ .v1) (h2 : hd.headerType.version ≠ .v2)
    (hh : CanHold w (toPath s.cwd output)) (hm : ¬ Occupied w (toPath s.cwd output) ∨ force = .forced) (hal : Allocated w)
    (hap : Apart w (toPath s.cwd input) (toPath s.cwd output)) : ∃ w', headerDump s input output force w = (.ok (), w') := by
  obtain ⟨q, i, hl, rfl⟩ := hc
  obtain ⟨H, _, hH, _⟩ := hi.rewritten h1 h2
  exact headerDump_nil s hs hl hi hH hh hm hal hap

/-- **C65.** `header strip` never aborts and changes nothing but the file it was given.  If it succeeds, that file starts with a header, and now with as many zeros; the rest is as it was.  If it fails,
nothing has changed or a beginning of the header has been zeroed.  Without faults it succeeds exactly when there is a header. -/
theorem C65_strip (s : Sys σ) (input : List Char) (w w' : World) (r : Res Error Unit) (hrun : headerStrip s input w = (r, w')) :
    (∀ a, r ≠ .abort a) ∧ OnlyEdits (toPath s.cwd input) w w' ∧
    (r = .ok () → ∃ c hd aad, ContentAt w (toPath s.cwd input) c ∧ IsHeader c hd aad ∧
      ContentAt w' (toPath s.cwd input) (List.replicate (headerSize hd.headerType.version) 0 ++ c.drop (headerSize hd.headerType.version))) ∧
    (r ≠ .ok () → SameFiles w w' ∨ ∃ c hd aad k, ContentAt w (toPath s.cwd input) c ∧ IsHeader c hd aad ∧ k ≤ headerSize hd.headerType.version ∧
      ContentAt w' (toPath s.cwd input) (List.replicate k 0 ++ c.drop k)) ∧
    (w.sched = [] → (r = .ok () ↔ ∃ c hd aad, ContentAt w (toPath s.cwd input) c ∧ IsHeader c hd aad) ∧ (r ≠ .ok () → SameFiles w w')) := by
  have hle : ∀ {q i}, w'.dir = w.dir → LeadsToFile w (toPath s.cwd input) q i → LeadsToFile w' (toPath s.cwd input) q i := fun hd h =>
    ⟨by rw [World.resolve_congr hd]; exact h.resolve, by rw [World.look_congr hd]; exact h.look⟩
  rcases headerStrip_cases s input w with ⟨q, i, hd, aad, w2, he, hl, hi, hed, hsu, _, hf⟩ | ⟨q, i, hd, aad, k, w2, e, he, hl, hi, hed, hk, hsn, hf⟩ | ⟨e, w2, he, hsame, hor⟩
  all_goals
    rw [hrun] at he
    cases he
  · refine ⟨fun a h => (nomatch h), hed, fun _ => ⟨_, hd, aad, ⟨q, i, hl, rfl⟩, hi, q, i, hle hed.dir hl, hf⟩, fun h => absurd rfl h, fun _ => ⟨⟨fun _ => ⟨_, hd, aad, ⟨q, i, hl, rfl⟩, hi⟩, fun _ => rfl⟩, fun h => absurd rfl h⟩⟩
  · refine ⟨fun a h => (nomatch h), hed, fun h => (nomatch h), fun _ => .inr ⟨_, hd, aad, k, ⟨q, i, hl, rfl⟩, hi, hk, q, i, hle hed.dir hl, hf⟩, fun hs => absurd hs hsn⟩
  · refine ⟨fun a h => (nomatch h), .of_same hsame.2 hsame.1, fun h => (nomatch h), fun _ => .inl hsame, fun hs => ⟨⟨fun h => (nomatch h), ?_⟩, fun _ => hsame⟩⟩
    rintro ⟨c, hd, aad, ⟨q, i, hl, rfl⟩, hi⟩
    rcases hor with h | h
    · exact absurd hs h
    · exact absurd hi (h q i hd aad hl)

/-- **C65.** `header restore` never aborts and changes nothing but the file it was given as output, and that only if it succeeds.  If it succeeds (no short transfers), the header file starts with a
header of version 3, 4 or 5, the bytes of the output that it covers were all zero, and the output now starts with a header that reads as that one; the rest of it is as it was.  Without faults it
succeeds exactly when there is such a header and those bytes are zero. -/
theorem C65_restore (s : Sys σ) (input output : List Char) (w w' : World) (r : Res Error Unit) (hrun : headerRestore s input output w = (r, w')) :
    (∀ a, r ≠ .abort a) ∧ OnlyEdits (toPath s.cwd output) w w' ∧ (r ≠ .ok () → SameFiles w w') ∧
    (r = .ok () → (∀ k, Io.short k ∉ w.sched) → ∃ c c0 hd aad H aad', ContentAt w (toPath s.cwd input) c ∧ ContentAt w (toPath s.cwd output) c0 ∧ IsHeader c hd aad ∧
      (∀ b ∈ c0.take (headerSize hd.headerType.version), b = 0) ∧ WrittenHeader hd.headerType.version H ∧ IsHeader H hd aad' ∧
      ContentAt w' (toPath s.cwd output) (H ++ c0.drop (headerSize hd.headerType.version)) ∧ ∀ v H0 body, WrittenHeader v H0 → c = H0 ++ body → H = H0) ∧
    (w.sched = [] → (r = .ok () ↔ ∃ c c0 hd aad, ContentAt w (toPath s.cwd input) c ∧ ContentAt w (toPath s.cwd output) c0 ∧ IsHeader c hd aad ∧
      hd.headerType.version ≠ .v1 ∧ hd.headerType.version ≠ .v2 ∧ ∀ b ∈ c0.take (headerSize hd.headerType.version), b = 0)) := by
  have hle : ∀ {q i}, w'.dir = w.dir → LeadsToFile w (toPath s.cwd output) q i → LeadsToFile w' (toPath s.cwd output) q i := fun hd h =>
    ⟨by rw [World.resolve_congr hd]; exact h.resolve, by rw [World.look_congr hd]; exact h.look⟩
  rcases headerRestore_cases s input output w with ⟨q, i, qo, j, hd, aad, H, k, n, w2, he, hl, hlo, hi, hH, hed, hsu, _, hf, hn, hz, hns⟩ | ⟨e, w2, he, hsame, hor⟩
  all_goals
    rw [hrun] at he
    cases he
  · have hv1 : hd.headerType.version ≠ .v1 := by intro hv; simp [Header.serialize, hv] at hH
    have hv2 : hd.headerType.version ≠ .v2 := by intro hv; simp [Header.serialize, hv] at hH
    obtain ⟨H', g1, g2, aad', g3⟩ := hi.rewritten hv1 hv2
    rw [hH] at g2
    cases g2
    obtain ⟨_, _, _, _, _, hlen⟩ := g1.reads
    refine ⟨fun a h => (nomatch h), hed, fun h => absurd rfl h, fun _ h => ?_, fun hs => ⟨fun _ => ?_, fun _ => rfl⟩⟩
    · obtain ⟨rfl, e2⟩ := hns h
      rw [hlen] at e2
      refine ⟨_, _, hd, aad, H, aad', ⟨q, i, hl, rfl⟩, ⟨qo, j, hlo, rfl⟩, hi, hz, g1, g3, ⟨qo, j, hle hed.dir hlo, e2⟩, fun v H0 body hw hc => ?_⟩
      obtain ⟨hd0, aad0, k1, _, k3, _⟩ := hw.reads
      rw [hc] at hi
      obtain ⟨rfl, -⟩ := isHeader_unique hi (k1 body)
      rw [hH] at k3
      cases k3
      rfl
    · obtain ⟨rfl, _⟩ := hns (by rw [hs]; simp)
      exact ⟨_, _, hd, aad, ⟨q, i, hl, rfl⟩, ⟨qo, j, hlo, rfl⟩, hi, hv1, hv2, hz⟩
  · refine ⟨fun a h => (nomatch h), .of_same hsame.2 hsame.1, fun _ => hsame, fun h => (nomatch h), fun hs => ⟨fun h => (nomatch h), ?_⟩⟩
    rintro ⟨c, c0, hd, aad, ⟨q, i, hl, rfl⟩, ⟨qo, j, hlo, rfl⟩, hi, h1, h2, h3⟩
    rcases hor hs q i qo j hd aad hl hlo hi with h | h | ⟨b, hb, h⟩
    · exact absurd h h1
    · exact absurd h h2
    · exact absurd (h3 b hb) h

/-- Dump the header of `input` to `output`, strip it, and restore it. -/
def dumpStripRestoreCmds (s : Sys σ) (input output : List Char) (force : ForceMode) : Prog Error Unit := do
  headerDump s input output force
  headerStrip s input
  headerRestore s output input

/-- **C65.** The three commands one after the other, without faults, on a file with a header that the program wrote: afterwards the file is as it was and the output is the header; nothing else
has changed. -/
theorem C65_cycle (s : Sys σ) (input output : List Char) (force : ForceMode) (w : World) (v : HeaderVersion) (H body : Bytes) (hw : WrittenHeader v H) (hs : w.sched = [])
    (hc : ContentAt w (toPath s.cwd input) (H ++ body)) (hh : CanHold w (toPath s.cwd output)) (hm : ¬ Occupied w (toPath s.cwd output) ∨ force = .forced) (hal : Allocated w)
    (hap : Apart w (toPath s.cwd input) (toPath s.cwd output)) :
    ∃ w', dumpStripRestoreCmds s input output force w = (.ok (), w') ∧ ContentAt w' (toPath s.cwd input) (H ++ body) ∧ ContentAt w' (toPath s.cwd output) H ∧
      Changes (OutputPlace s.cwd force output w) (fun _ _ => False) w w' := by
  obtain ⟨q, i, hl, hfi⟩ := hc
  obtain ⟨hd, aad, hi, hv, hser, hlen⟩ := hw.reads
  subst hv
  have hns : ∀ k, Io.short k ∉ w.sched := by rw [hs]; simp
  obtain ⟨w1, e1⟩ := headerDump_nil s (output := output) (force := force) hs hl (by rw [hfi]; exact hi body) hser hh hm hal hap
  obtain ⟨t1, h1⟩ := wp_run (x := headerDump s input output force) (headerDump_wp s input output force w) e1
  obtain ⟨q', i', qo, j, hd', aad', H', hl', hlo, hji, hi', hH', hfj1, hfi1⟩ := h1 rfl hns hal hap
  obtain ⟨rfl, rfl⟩ := leads_unique hl' hl
  rw [hfi] at hi'
  obtain ⟨rfl, -⟩ := isHeader_unique hi' (hi body)
  rw [hser] at hH'
  cases hH'
  have hs1 : w1.sched = [] := by have := t1.sched; rwa [hs, List.suffix_nil] at this
  have hl1 := t1.leads hl
  -- strip
  rcases headerStrip_cases s input w1 with ⟨q2, i2, hd2, aad2, w2, e2, hl2, hi2, hed2, hsu2, _, hf2⟩ | ⟨_, _, _, _, _, _, _, _, _, _, _, _, hx, _⟩ | ⟨_, _, _, _, hx⟩
  · obtain ⟨rfl, rfl⟩ := leads_unique hl2 hl1
    rw [hfi1, hfi] at hi2 hf2
    obtain ⟨rfl, -⟩ := isHeader_unique hi2 (hi body)
    have hz2 : w2.file i2 = List.replicate H.length 0 ++ body := by rw [hf2, ← hlen, List.drop_left]
    have hs2 : w2.sched = [] := by rwa [hs1, List.suffix_nil] at hsu2
    have hle2 : ∀ {p q i}, LeadsToFile w1 p q i → LeadsToFile w2 p q i := fun h =>
      ⟨by rw [World.resolve_congr hed2.dir]; exact h.resolve, by rw [World.look_congr hed2.dir]; exact h.look⟩
    have hj2 : w2.file j = H := by
      rw [hed2.files j (fun q3 h => hji (leads_unique h hl1).2), hfj1]
    -- restore
    rcases headerRestore_cases s output input w2 with ⟨q3, j3, q4, i4, hd3, aad3, H3, k, n, w3, e3, hl3, hl4, hi3, hH3, hed3, _, _, _, _, _, hns3⟩ | ⟨e, w3, e3, _, hx⟩
    · obtain ⟨rfl, rfl⟩ := leads_unique hl3 (hle2 hlo)
      obtain ⟨rfl, rfl⟩ := leads_unique hl4 (hle2 hl1)
      rw [hj2] at hi3
      have hi0 := hi []
      rw [List.append_nil] at hi0
      obtain ⟨rfl, -⟩ := isHeader_unique hi3 hi0
      rw [hser] at hH3
      cases hH3
      obtain ⟨_, hf3⟩ := hns3 (by rw [hs2]; simp)
      rw [hz2, List.drop_left' (by simp)] at hf3
      have hle3 : ∀ {p q i}, LeadsToFile w2 p q i → LeadsToFile w3 p q i := fun h =>
        ⟨by rw [World.resolve_congr hed3.dir]; exact h.resolve, by rw [World.look_congr hed3.dir]; exact h.look⟩
      have hoth : ∀ k, k ≠ i4 → w3.file k = w1.file k := fun k hk => by
        rw [hed3.files k (fun q5 h => hk (leads_unique h (hle2 hl1)).2), hed2.files k (fun q5 h => hk (leads_unique h hl1).2)]
      refine ⟨w3, ?_, ⟨q4, i4, hle3 (hle2 hl1), hf3⟩, ⟨q3, j3, hle3 (hle2 hlo), ?_⟩, ?_⟩
      · unfold dumpStripRestoreCmds
        rw [Prog.bind_ok e1, Prog.bind_ok e2]
        exact e3
      · rw [hoth j3 hji, hfj1]
      · have hall : w3.file = w1.file := funext fun k => by
          by_cases hk : k = i4
          · subst hk; rw [hf3, hfi1, hfi]
          · exact hoth k hk
        have hdir : w3.dir = w1.dir := hed3.dir.trans hed2.dir
        have hch : Changes (OutputPlace s.cwd force output w) (fun _ _ => False) w w1 := t1.changes
        exact ⟨fun q => by rw [World.look_congr hdir]; exact hch.look q, fun k hk => by rw [hall]; exact hch.files k hk⟩
    · exfalso
      have hi0 := hi []
      rw [List.append_nil] at hi0
      rcases hx hs2 qo j q2 i2 _ _ (hle2 hlo) (hle2 hl1) (by rw [hj2]; exact hi0) with h | h | ⟨b, hb, h⟩
      · simp [Header.serialize, h] at hser
      · simp [Header.serialize, h] at hser
      · rw [hz2, ← hlen, List.take_left' (by simp)] at hb
        exact h (List.mem_replicate.1 hb).2
  · exact absurd hs1 hx
  · exfalso
    rcases hx with h | h
    · exact h hs1
    · exact h q' i' _ _ hl1 (by rw [hfi1, hfi]; exact hi body)

/-! ### Non-vacuity -/

/-- The disk of the examples, with a file with a header at `z`. -/
def exHeaderWorld (sched : List Io) : World := { Example.disk sched with file := fun i => if i = 2 then exH ++ [1, 2, 3] else [1, 2, 3] }

/-- The hypotheses of `C65_dump_succeeds` and `C65_cycle` are met: the output `o` is not there. -/
theorem exHeader_ready : ContentAt (exHeaderWorld []) (toPath exSys.cwd ['z']) (exH ++ [1, 2, 3]) ∧ CanHold (exHeaderWorld []) (toPath exSys.cwd ['o']) ∧
    ¬ Occupied (exHeaderWorld []) (toPath exSys.cwd ['o']) ∧ Allocated (exHeaderWorld []) ∧ Apart (exHeaderWorld []) (toPath exSys.cwd ['z']) (toPath exSys.cwd ['o']) := by
  refine ⟨⟨[['z']], 2, ⟨rfl, rfl⟩, rfl⟩, ⟨[['o']], rfl, .inr ⟨rfl, rfl⟩⟩, ?_, (exSeparate [] []).allocated, ?_⟩
  · rintro ⟨q, n, h1, h2⟩
    cases h1
    cases h2
  · exact apart_of (q := [['z']]) (q' := [['o']]) (i := 2) ⟨rfl, rfl⟩ rfl (by decide) (by simp [show (exHeaderWorld []).look [['o']] = none from rfl])

/-- The commands of the examples: dump the header of `z` to `o`; dump it to `a/x`, where a file is; dump what is not a header; strip and restore. -/
def exDump (sched : List Io) : Res Error Unit × World := headerDump exSys ['z'] ['o'] .prompt (exHeaderWorld sched)
def exDumpForced : Res Error Unit × World := headerDump exSys ['z'] ['a', '/', 'x'] .forced (exHeaderWorld [])
def exStrip (sched : List Io) : Res Error Unit × World := headerStrip exSys ['z'] (exHeaderWorld sched)

example : ∃ w', exDump [] = (.ok (), w') ∧ w'.file 1000 = exH := ⟨_, run_of_fst (by decide +kernel), by decide +kernel⟩
example : ∃ w', exDumpForced = (.ok (), w') ∧ w'.file 0 = exH := ⟨_, run_of_fst (by decide +kernel), by decide +kernel⟩
example : ∃ w', exStrip [] = (.ok (), w') ∧ w'.file 2 = List.replicate 416 0 ++ [1, 2, 3] := ⟨_, run_of_fst (by decide +kernel), by decide +kernel⟩
example : (exStrip [.full, .full, .fail]).1.isOk = false := by decide +kernel

example : ∃ w', dumpStripRestoreCmds exSys ['z'] ['o'] .prompt (exHeaderWorld []) = (.ok (), w') ∧ ContentAt w' (toPath exSys.cwd ['z']) (exH ++ [1, 2, 3]) := by
  obtain ⟨h1, h2, h3, h4, h5⟩ := exHeader_ready
  obtain ⟨w', g1, g2, _⟩ := C65_cycle exSys ['z'] ['o'] .prompt (exHeaderWorld []) .v5 exH [1, 2, 3] exH_written rfl h1 h2 (.inl h3) h4 h5
  exact ⟨w', g1, g2⟩

/-- The hypotheses of `C65_restore`: there is a header file, and the output starts with zeros. -/
def exRestoreWorld : World := { Example.disk [] with file := fun i => if i = 2 then exH else List.replicate 420 0 }
def exRestore : Res Error Unit × World := headerRestore exSys ['z'] ['a', '/', 'x'] exRestoreWorld
example : ∃ w', exRestore = (.ok (), w') ∧ w'.file 0 = exH ++ [0, 0, 0, 0] := ⟨_, run_of_fst (by decide +kernel), by decide +kernel⟩

end Volaris.Props
