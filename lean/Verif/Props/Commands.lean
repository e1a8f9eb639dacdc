import Verif.Proofs.KeyCmd
import Verif.Proofs.Printed
import Verif.Props.Keys
import Verif.Props.Tools
import Verif.Props.Cli
/-!
# C62–C64: the hash command, header details and the key commands
-/
namespace Volaris.Props
open Spec Cli
variable {σ : Type}

/-! ### C62 -/

/-- **C62.** The hash command changes nothing, never panics, and needs every one of its arguments to be a file (and, without faults, nothing else).  As long as no transfer is short, the k-th result is
the digest of the whole content of the k-th file. -/
theorem C62_hash (s : Sys σ) (digest : Bytes → String) (hH : Computes s.H digest) (files : List (List Char)) (w : World) :
    (∀ a, (hashStream s files w).1 ≠ .abort a) ∧ SameFiles w (hashStream s files w).2 ∧
    (∀ ds w', hashStream s files w = (.ok ds, w') → ds.length = files.length ∧ (∀ f ∈ files, ∃ c, ContentAt w (toPath s.cwd f) c) ∧
      ((∀ k, Io.short k ∉ w.sched) → ∀ (k : Nat) f d, files[k]? = some f → ds[k]? = some d → ∃ c, ContentAt w (toPath s.cwd f) c ∧ d = digest c)) ∧
    (w.sched = [] → (∀ f ∈ files, ∃ c, ContentAt w (toPath s.cwd f) c) → ∃ ds w', hashStream s files w = (.ok ds, w')) := by
  have hlk := (hashStream_looks s w.nextFd files w (Nat.le_refl _)).1
  rcases hashStream_cases s digest hH files w with ⟨ds, w', he, h1, h2, h3⟩ | ⟨e, w', he, h1⟩
  · rw [he] at hlk
    rw [he]
    refine ⟨by simp, ⟨hlk.file, hlk.dir⟩, ?_, fun _ _ => ⟨ds, w', rfl⟩⟩
    intro ds' w'' e
    cases e
    exact ⟨h1, h2, h3⟩
  · rw [he] at hlk
    rw [he]
    refine ⟨by simp, ⟨hlk.file, hlk.dir⟩, ?_, ?_⟩
    · intro ds' w'' e
      cases e
    · intro h0 hall
      rcases h1 with h1 | ⟨f, hf, h1⟩
      · exact absurd h0 h1
      · obtain ⟨c, hc⟩ := hall f hf
        exact absurd hc (h1 c)

/-- **C62, the screen.** Under every schedule of faults and however the hash command ends: what it has printed are lines `[+] name: digest` for its first arguments, in order, as many as it returns digests
if it succeeds, that is all of them, and fewer if it fails.  As long as no transfer is short, each shows the digest of the whole content of the file it names. -/
theorem C62_printed (s : Sys σ) (digest : Bytes → String) (hH : Computes s.H digest) (files : List (List Char)) (w w' : World) (r : Res Error (List String)) (he : hashStream s files w = (r, w')) :
    ∃ shown : List String, Prints ((files.zip shown).map fun fd => digestLine fd.1 fd.2) w w' ∧ shown.length ≤ files.length ∧
      (∀ ds, r = .ok ds → ds = shown ∧ shown.length = files.length) ∧ (∀ e, r = .err e → shown.length < files.length) ∧
      ((∀ k, Io.short k ∉ w.sched) → ∀ (k : Nat) f d, files[k]? = some f → shown[k]? = some d → ∃ c, ContentAt w (toPath s.cwd f) c ∧ d = digest c) := by
  obtain ⟨ds, h1, h2, h3, h4, h5⟩ := hashStream_prints s digest hH files w
  rw [he] at h2 h3 h4
  exact ⟨ds, h2, h1, h3, h4, h5⟩

/-- Hash `z` and `a/x`. -/
def exHash (w : World) : Res Error (List String) × World := hashStream exSys [['z'], ['a', '/', 'x']] w

/-- Both are files: two digests.  A directory, or a read that fails: an error. -/
example : Computes exSys.H (fun c => toString c) ∧ (exHash (exWorld [] [])).1.isOk = true ∧ ContentAt (exWorld [] []) (toPath exSys.cwd ['z']) [1, 2, 3] ∧
    (hashStream exSys [['a']] (exWorld [] [])).1.isOk = false ∧ (exHash (exWorld [] [.full, .full, .fail])).1.isOk = false :=
  ⟨exHasher_computes, by decide +kernel, ⟨[['z']], 2, ⟨rfl, rfl⟩, rfl⟩, by decide +kernel, by decide +kernel⟩

/-- The second of three arguments is a directory: one line. -/
example : (hashStream exSys [['z'], ['a'], ['a', '/', 'x']] (exWorld [] [])).1 = .err .openFile ∧
    (hashStream exSys [['z'], ['a'], ['a', '/', 'x']] (exWorld [] [])).2.out = [⟨0, 0, 0, digestLine ['z'] (toString ([1, 2, 3] : Bytes))⟩] := by decide +kernel

/-! ### C63 -/

/-- The small disk with an encrypted file at `z`; `typed` is what is typed. -/
def exKeyWorld (typed : List Bytes) (sched : List Io) : World := { Example.disk sched with file := fun i => if i = 2 then exFile else [1, 2, 3], tty := typed }

/-- **C63.** `header details` changes nothing and never panics, whatever the file contains.  What it shows is what the header at the start of the file says; without faults it succeeds exactly when
there is one. -/
theorem C63_details (s : Sys σ) (input : List Char) (w : World) :
    (∀ a, (headerDetails s input w).1 ≠ .abort a) ∧ SameFiles w (headerDetails s input w).2 ∧
    (∀ ls w', headerDetails s input w = (.ok ls, w') →
      ∃ c hd aad, ContentAt w (toPath s.cwd input) c ∧ IsHeader c hd aad ∧ Describes hd aad ls) ∧
    (w.sched = [] → ((∃ ls w', headerDetails s input w = (.ok ls, w')) ↔ ∃ c hd aad, ContentAt w (toPath s.cwd input) c ∧ IsHeader c hd aad)) := by
  rcases headerDetails_cases s input w with ⟨ls, w', he, hS, q, i, hd, aad, hl, hi, hd'⟩ | ⟨e, w', he, hS, hw⟩
  · rw [he]
    refine ⟨by simp, ⟨hS.file, hS.dir⟩, ?_, fun _ => ⟨fun _ => ⟨_, hd, aad, ⟨q, i, hl, rfl⟩, hi⟩, fun _ => ⟨ls, w', rfl⟩⟩⟩
    intro ls' w'' e
    cases e
    exact ⟨_, hd, aad, ⟨q, i, hl, rfl⟩, hi, hd'⟩
  · rw [he]
    refine ⟨by simp, ⟨hS.file, hS.dir⟩, (by intro _ _ e; cases e), fun h0 => ⟨(by rintro ⟨_, _, e⟩; cases e), ?_⟩⟩
    rintro ⟨c, hd, aad, ⟨q, i, hl, rfl⟩, hi⟩
    rcases hw with hw | hw
    · exact absurd h0 hw
    · exact absurd hi (hw q i hl hd aad)

/-- **C63, the screen.** Under every schedule of faults: if `header details` succeeds then the lines that describe the header are what it has printed, in order, and if it fails it has printed nothing. -/
theorem C63_printed (s : Sys σ) (input : List Char) (w w' : World) (r : Res Error (List String)) (he : headerDetails s input w = (r, w')) :
    (∃ c hd aad ls, ContentAt w (toPath s.cwd input) c ∧ IsHeader c hd aad ∧ Describes hd aad ls ∧ r = .ok ls ∧ Prints (ls.map String.toList) w w') ∨ ((∃ e, r = .err e) ∧ w'.out = w.out) := by
  rcases headerDetails_prints s input w with ⟨ls, h1, h2⟩ | ⟨e, h1, h2⟩
  · obtain ⟨c, hd, aad, g1, g2, g3⟩ := (C63_details s input w).2.2.1 ls w' (by rw [he] at h1; rw [he, ← h1])
    rw [he] at h1 h2
    exact .inl ⟨c, hd, aad, ls, g1, g2, g3, h1, h2⟩
  · rw [he] at h1 h2
    exact .inr ⟨⟨e, h1⟩, h2⟩

def exDetails (input : List Char) (w : World) : Res Error (List String) × World := headerDetails exSys input w

/-- The encrypted file has a header, the other file has none. -/
example : (exDetails ['z'] (exKeyWorld [] [])).1.isOk = true ∧ IsHeader ((exKeyWorld [] []).file 2) exHeader (ex19Aad (List.replicate 8 1)) ∧
    ContentAt (exKeyWorld [] []) (toPath exSys.cwd ['z']) exFile ∧ (exDetails ['a', '/', 'x'] (exKeyWorld [] [])).1.isOk = false :=
  ⟨by decide +kernel, exFile_key.header, ⟨[['z']], 2, ⟨rfl, rfl⟩, rfl⟩, by decide +kernel⟩

/-- Ten lines are printed about the file with a header, none about the other. -/
example : (exDetails ['z'] (exKeyWorld [] [])).2.out.length = 10 ∧ (exDetails ['a', '/', 'x'] (exKeyWorld [] [])).2.out = [] := by decide +kernel

/-! ### C64 -/

/-- The file after a key command: only header bytes differ. -/
theorem replaced_file {h i : Nat} {v w' : World} {c content' : Bytes} (hr : v.rest h = c) (hfd : v.fd h = { ino := i, pos := 0 })
    (hrep : HeaderReplaced h v w' content') : w'.file i = content' ∧ (w'.file i).drop 416 = c.drop 416 ∧ (w'.file i).length = c.length := by
  have h1 := hrep.now
  rw [World.data, hrep.touches.inos h, hfd] at h1
  rw [List.drop_zero] at h1
  refine ⟨h1, ?_, ?_⟩
  · rw [h1, hrep.body, hr]
  · rw [h1, hrep.length, hr]

/-- **C64.** `key add`, however it ends, changes nothing but the file it was given, and leaves that alone unless it succeeds.  If it succeeds (no short transfers), the present and the new secret are the
ones supplied, the file has got one more keyslot, which the new secret opens to the data key that the present one recovers, and everything behind the header is as it was. -/
theorem C64_add (s : Sys σ) (hC : s.C.Lawful) (input : List Char) (params : KeyManipulationParams) (w w' : World) (r : Res Error Unit)
    (hrun : keyAdd s input params w = (r, w')) :
    OnlyEdits (toPath s.cwd input) w w' ∧ (r ≠ .ok () → w'.file = w.file) ∧
    (r = .ok () → (∀ k, Io.short k ∉ w.sched) → ∃ q i old new, LeadsToFile w (toPath s.cwd input) q i ∧
      SuppliesBoth s.words s.cwd params.keyOld params.keyNew w old new ∧
      ∀ hd ks aad, KeyFile (w.file i) hd ks aad → ∃ mk k hd', KeyFile (w'.file i) hd' (ks ++ [k]) aad ∧
        (w'.file i).drop 416 = (w.file i).drop 416 ∧ (w'.file i).length = (w.file i).length ∧
        Recovers s.C old hd mk ∧ Opens s.C hd.headerType.algorithm new k mk ∧
        ∀ pw p, DecryptsTo s.C pw (w.file i) p → DecryptsTo s.C pw (w'.file i) p) := by
  have hwp := keyTwo_wp s input params.keyOld params.keyNew "[i] Please enter your old key below" "[i] Please enter your new key below"
    (op := fun o n h => KeyOps.add s.C { handle := h, hashAlgorithm := params.hashingAlgorithm, rawKeyOld := o, rawKeyNew := n })
    (fun o n => ⟨fun h => KeyOps.add_within s.C { handle := h, hashAlgorithm := params.hashingAlgorithm, rawKeyOld := o, rawKeyNew := n }, fun h w => add_safe hC _ w⟩) w
  obtain ⟨h1, h2, h3⟩ := wp_run (x := keyAdd s input params) hwp hrun
  refine ⟨h1, h2, fun hr hns => ?_⟩
  obtain ⟨q, i, hd0, aad0, old, new, v, hl, hi, hv, hsup, hop, hrest, hfile, hfd, hsch⟩ := h3 hr
  refine ⟨q, i, old, new, hl, hsup, fun hd ks aad hf => ?_⟩
  obtain ⟨mk, k, content', hd', g1, g2, g3, g4, g5, g6, g7, _⟩ := C21_add s.C hC _ v w' hd ks aad (by rw [hrest]; exact hf)
    (fun k hk => hns k (hsch.subset hk)) hop
  obtain ⟨e1, e2, e3⟩ := replaced_file hrest hfd g1
  refine ⟨mk, k, hd', by rw [e1]; exact g2, e2, e3, g5, g6, fun pw p hp => ?_⟩
  rw [e1]
  exact g7 pw p (by rw [hrest]; exact hp)

/-- **C64.** `key change`, likewise: the keyslot that the present secret opens is replaced by one that the new secret opens to the same data key; the others stay. -/
theorem C64_change (s : Sys σ) (hC : s.C.Lawful) (input : List Char) (params : KeyManipulationParams) (w w' : World) (r : Res Error Unit)
    (hrun : keyChange s input params w = (r, w')) :
    OnlyEdits (toPath s.cwd input) w w' ∧ (r ≠ .ok () → w'.file = w.file) ∧
    (r = .ok () → (∀ k, Io.short k ∉ w.sched) → ∃ q i old new, LeadsToFile w (toPath s.cwd input) q i ∧
      SuppliesBoth s.words s.cwd params.keyOld params.keyNew w old new ∧
      ∀ hd ks aad, KeyFile (w.file i) hd ks aad → ∃ before k0 after mk k hd', ks = before ++ k0 :: after ∧
        Opens s.C hd.headerType.algorithm old k0 mk ∧ OpensNone s.C hd.headerType.algorithm old before ∧
        KeyFile (w'.file i) hd' (before ++ k :: after) aad ∧ (w'.file i).drop 416 = (w.file i).drop 416 ∧ (w'.file i).length = (w.file i).length ∧
        Opens s.C hd.headerType.algorithm new k mk ∧
        (∀ p, DecryptsTo s.C old (w.file i) p → OnlyOpens s.C hd.headerType.algorithm new before mk → DecryptsTo s.C new (w'.file i) p) ∧
        (OpensNone s.C hd.headerType.algorithm old (k :: after) → Refuses s.C old (w'.file i))) := by
  have hwp := keyTwo_wp s input params.keyOld params.keyNew "[i] Please enter your old key below" "[i] Please enter your new key below"
    (op := fun o n h => KeyOps.change s.C { handle := h, hashAlgorithm := params.hashingAlgorithm, rawKeyOld := o, rawKeyNew := n })
    (fun o n => ⟨fun h => KeyOps.change_within s.C { handle := h, hashAlgorithm := params.hashingAlgorithm, rawKeyOld := o, rawKeyNew := n }, fun h w => change_safe hC _ w⟩) w
  obtain ⟨h1, h2, h3⟩ := wp_run (x := keyChange s input params) hwp hrun
  refine ⟨h1, h2, fun hr hns => ?_⟩
  obtain ⟨q, i, hd0, aad0, old, new, v, hl, hi, hv, hsup, hop, hrest, hfile, hfd, hsch⟩ := h3 hr
  refine ⟨q, i, old, new, hl, hsup, fun hd ks aad hf => ?_⟩
  obtain ⟨before, k0, after, mk, k, content', hd', g1, g2, g3, g4, g5, g6, g7, g8, g9, g10, g11⟩ := C22_change s.C hC _ v w' hd ks aad
    (by rw [hrest]; exact hf) (fun k hk => hns k (hsch.subset hk)) hop
  obtain ⟨e1, e2, e3⟩ := replaced_file hrest hfd g4
  refine ⟨before, k0, after, mk, k, hd', g1, g2, g3, by rw [e1]; exact g5, e2, e3, g8, fun p hp ho => ?_, fun ho => ?_⟩
  · rw [e1]; exact g9 p (by rw [hrest]; exact hp) ho
  · rw [e1]; exact g11 ho

/-- **C64.** `key delete`, likewise: the keyslot that the secret opens is gone, the others stay. -/
theorem C64_delete (s : Sys σ) (hC : s.C.Lawful) (input : List Char) (key : Key) (w w' : World) (r : Res Error Unit)
    (hrun : keyDelete s input key w = (r, w')) :
    OnlyEdits (toPath s.cwd input) w w' ∧ (r ≠ .ok () → w'.file = w.file) ∧
    (r = .ok () → (∀ k, Io.short k ∉ w.sched) → ∃ q i pw, LeadsToFile w (toPath s.cwd input) q i ∧
      pw ≠ [] ∧ Supplies s.words s.cwd .direct key w pw ∧
      ∀ hd ks aad, KeyFile (w.file i) hd ks aad → ∃ before k0 after mk hd', ks = before ++ k0 :: after ∧
        Opens s.C hd.headerType.algorithm pw k0 mk ∧ OpensNone s.C hd.headerType.algorithm pw before ∧
        KeyFile (w'.file i) hd' (before ++ after) aad ∧ (w'.file i).drop 416 = (w.file i).drop 416 ∧ (w'.file i).length = (w.file i).length ∧
        ∀ pw', OpensNone s.C hd.headerType.algorithm pw' (before ++ after) → Refuses s.C pw' (w'.file i)) := by
  have hwp := keyOne_wp s input key "[i] Please enter your key below" (op := fun o h => KeyOps.delete s.C h o)
    (fun o => ⟨fun h => KeyOps.delete_within s.C h _, fun h w => delete_safe hC h _ w⟩) w
  obtain ⟨h1, h2, h3⟩ := wp_run (x := keyDelete s input key) hwp hrun
  refine ⟨h1, h2, fun hr hns => ?_⟩
  obtain ⟨q, i, hd0, aad0, old, v, hl, hi, hv, hne, hsup, hop, hrest, hfile, hfd, hsch⟩ := h3 hr
  refine ⟨q, i, old, hl, hne, hsup, fun hd ks aad hf => ?_⟩
  obtain ⟨before, k0, after, mk, content', hd', g1, g2, g3, g4, g5, g6, g7, g8, g9, g10⟩ := C23_delete s.C hC _ _ v w' hd ks aad
    (by rw [hrest]; exact hf) (fun k hk => hns k (hsch.subset hk)) hop
  obtain ⟨e1, e2, e3⟩ := replaced_file hrest hfd g4
  refine ⟨before, k0, after, mk, hd', g1, g2, g3, by rw [e1]; exact g5, e2, e3, fun pw' ho => ?_⟩
  rw [e1]; exact g9 pw' ho

/-- **C64.** `key verify` changes nothing; it says yes only if the secret supplied recovers a data key (that is not all zero) from the header of the file. -/
theorem C64_verify (s : Sys σ) (hC : s.C.Lawful) (input : List Char) (key : Key) (w w' : World) (r : Res Error Unit)
    (hrun : keyVerify s input key w = (r, w')) :
    SameFiles w w' ∧ (r = .ok () → ∃ q i pw hd aad mk, LeadsToFile w (toPath s.cwd input) q i ∧ pw ≠ [] ∧ Supplies s.words s.cwd .direct key w pw ∧
      IsHeader (w.file i) hd aad ∧ Recovers s.C pw hd mk ∧ mk ≠ List.replicate 32 0) := by
  have hmem : ∀ o, Edits fun h => KeyOps.verify s.C h o := fun o =>
    ⟨fun h w => by
      rcases verify_cases (C := s.C) h o w with ⟨hd, aad, ks, w', p, hi, hv, hk, hc, he⟩ | ⟨e, w', p, he, hc⟩ <;> simp only [he]
      · exact (Touches.setPos (by simp)).core_right hc
      · exact (Touches.setPos (by simp)).core_right hc,
     fun h w => by
      obtain ⟨r, w', he, hr, h1, h2⟩ := verify_safe hC h o w
      rw [he]
      rcases hr with rfl | ⟨e, rfl⟩
      · exact .inl ⟨_, _, rfl⟩
      · exact .inr ⟨e, w', rfl, h1, h2⟩⟩
  obtain ⟨h1, h2, h3⟩ := wp_run (x := keyVerify s input key) (keyOne_wp s input key "[i] Please enter your key below" hmem w) hrun
  by_cases hr : r = .ok ()
  · obtain ⟨q, i, hd0, aad0, pw, v, hl, hi, hv, hne, hsup, hop, hrest, hfile, hfd, hsch⟩ := h3 hr
    obtain ⟨r', v', he', _, hf', hd'⟩ := verify_safe hC w.nextFd pw v
    have hop' : KeyOps.verify s.C w.nextFd pw v = (.ok (), w') := hop
    rw [hop'] at he'
    cases he'
    refine ⟨⟨hf'.trans hfile, h1.dir⟩, fun _ => ?_⟩
    rcases verify_cases (C := s.C) w.nextFd pw v with ⟨hd, aad, ks, w1, p, hi1, hv1, hk1, hc1, he1⟩ | ⟨e, w1, p, he1, hc1⟩
    · rw [hop'] at he1
      have hks := (isHeader_sized hi1).2 ks hk1
      rcases withIndex_cases hC pw hks.2 with ⟨mk', b, k', af, g1, g2, g3, g4, g5, g6⟩ | ⟨g1, _⟩ | ⟨g1, _⟩
      · rw [hrest] at hi1
        refine ⟨q, i, pw, hd, aad, mk', hl, hne, hsup, hi1, ?_, g6⟩
        simp only [Recovers, hv1]
        exact ⟨b, k', af, by rw [hk1, g2], g3, g4⟩
      · rw [g1] at he1; cases he1
      · rw [g1] at he1; cases he1
    · rw [hop'] at he1; cases he1
  · exact ⟨⟨h2 hr, h1.dir⟩, fun h => absurd h hr⟩

/-- **C64.** Whatever the schedule, a file that does not start with a header of version 5 (an older file, any other file, no file) is refused by all four commands with an error before any secret is asked
for or any random byte is drawn, and nothing is changed. -/
theorem C64_not_v5 (s : Sys σ) (input : List Char) (params : KeyManipulationParams) (key : Key) (w : World)
    (hno : ∀ q i hd aad, LeadsToFile w (toPath s.cwd input) q i → IsHeader (w.file i) hd aad → hd.headerType.version ≠ .v5) :
    ∀ cmd ∈ [keyAdd s input params, keyChange s input params, keyDelete s input key, keyVerify s input key],
      ∃ e w', cmd w = (.err e, w') ∧ SameFiles w w' ∧ w'.tty = w.tty ∧ w'.stdin = w.stdin ∧ w'.rng = w.rng := by
  obtain ⟨e, w', h1, hS⟩ := openV5_refuses hno
  have hfin : SameFiles w w' ∧ w'.tty = w.tty ∧ w'.stdin = w.stdin ∧ w'.rng = w.rng := ⟨⟨hS.file, hS.dir⟩, hS.tty, hS.stdin, hS.rng⟩
  intro cmd hcmd
  simp only [List.mem_cons, List.not_mem_nil, or_false] at hcmd
  rcases hcmd with rfl | rfl | rfl | rfl
  · exact ⟨e, w', Prog.bind_err h1, hfin⟩
  · exact ⟨e, w', Prog.bind_err h1, hfin⟩
  · exact ⟨e, w', Prog.bind_err h1, hfin⟩
  · exact ⟨e, w', Prog.bind_err h1, hfin⟩

/-- **C64.** They do succeed: without faults, on a file with keyslots, with the right password typed (and the new one typed twice), `key add` (if there is room), `key change`, `key delete` and `key verify`
all return `Ok`. -/
theorem C64_succeed (s : Sys σ) (hC : s.C.Lawful) (input : List Char) (h : HashingAlgorithm) (w : World) (q : Path) (i : Nat)
    (hd : Header) (ks : List Keyslot) (aad mk old new : Bytes) (rest : List Bytes) (hs : w.sched = [])
    (hl : LeadsToFile w (toPath s.cwd input) q i) (hf : KeyFile (w.file i) hd ks aad) (ht : w.tty = old :: new :: new :: rest)
    (hold : old ≠ []) (hnew : new ≠ []) (hw : HashWorks s.C old ks) (hr : Recovers s.C old hd mk) (hmk : mk ≠ List.replicate 32 0)
    (hp : PrimitivesWork s.C hd.headerType.algorithm h new) :
    (ks.length < 4 → ∃ w', keyAdd s input { hashingAlgorithm := h, keyOld := .user, keyNew := .user } w = (.ok (), w')) ∧
    (∃ w', keyChange s input { hashingAlgorithm := h, keyOld := .user, keyNew := .user } w = (.ok (), w')) ∧
    (∃ w', keyDelete s input .user w = (.ok (), w')) ∧ (∃ w', keyVerify s input .user w = (.ok (), w')) := by
  obtain ⟨w1, h1, hS, hs1, hrest⟩ := openV5_nil hs hl hf.header hf.v5
  have e0 : ∀ (line : String) (v : World), announce .user line v = (.ok (), v.said line.toList) := fun _ _ => rfl
  have e1 : ∀ o, getSecret s.words s.cwd .user .direct { w1 with out := o } = (.ok old, { w1 with tty := new :: new :: rest, out := o }) := fun o =>
    getSecret_typed (words := s.words) (cwd := s.cwd) (w := { w1 with out := o }) (x := old) hs1 hold (hS.tty.trans ht)
  have e2 : ∀ o, getSecret s.words s.cwd .user .validate { w1 with tty := new :: new :: rest, out := o } = (.ok new, { w1 with tty := rest, out := o }) := fun o =>
    getSecret_confirmed (words := s.words) (cwd := s.cwd) (w := { w1 with tty := new :: new :: rest, out := o }) hs1 hnew rfl
  have hrest2 : ∀ t o, ({ w1 with tty := t, out := o } : World).rest w.nextFd = w.file i := fun t o => hrest
  refine ⟨fun h4 => ?_, ?_, ?_, ?_⟩
  · obtain ⟨w', he⟩ := C21_add_succeeds s.C hC { handle := w.nextFd, hashAlgorithm := h, rawKeyOld := old, rawKeyNew := new } ({ w1 with tty := rest, out := ((({ w1.said "[i] Please enter your old key below".toList with tty := new :: new :: rest } : World).said "[i] Please enter your new key below".toList).out) } : World) hd ks aad mk hs1
      (by rw [hrest2]; exact hf) hw hr hmk h4 hp
    refine ⟨w', ?_⟩
    unfold keyAdd
    rw [Prog.bind_ok h1, Prog.bind_ok (e0 _ _)]
    exact (Prog.bind_ok (e1 _)).trans ((Prog.bind_ok (e0 _ _)).trans ((Prog.bind_ok (e2 _)).trans (Prog.mapErr_ok he)))
  · obtain ⟨w', he⟩ := C22_change_succeeds s.C hC { handle := w.nextFd, hashAlgorithm := h, rawKeyOld := old, rawKeyNew := new } ({ w1 with tty := rest, out := ((({ w1.said "[i] Please enter your old key below".toList with tty := new :: new :: rest } : World).said "[i] Please enter your new key below".toList).out) } : World) hd ks aad mk hs1
      (by rw [hrest2]; exact hf) hw hr hmk hp
    refine ⟨w', ?_⟩
    unfold keyChange
    rw [Prog.bind_ok h1, Prog.bind_ok (e0 _ _)]
    exact (Prog.bind_ok (e1 _)).trans ((Prog.bind_ok (e0 _ _)).trans ((Prog.bind_ok (e2 _)).trans (Prog.mapErr_ok he)))
  · obtain ⟨w', he⟩ := C23_delete_succeeds s.C hC w.nextFd old ({ w1 with tty := new :: new :: rest, out := ((w1.said "[i] Please enter your key below".toList).out) } : World) hd ks aad mk hs1 (by rw [hrest2]; exact hf) hw hr hmk
    refine ⟨w', ?_⟩
    unfold keyDelete
    rw [Prog.bind_ok h1, Prog.bind_ok (e0 _ _)]
    exact (Prog.bind_ok (e1 _)).trans (Prog.mapErr_ok he)
  · have he := (C26_verify s.C hC w.nextFd old ({ w1 with tty := new :: new :: rest, out := ((w1.said "[i] Please enter your key below".toList).out) } : World) hd ks aad hs1 (by rw [hrest2]; exact hf.header) hf.v5 hf.slots hw).1.2 ⟨mk, hr, hmk⟩
    refine ⟨(KeyOps.verify s.C w.nextFd old ({ w1 with tty := new :: new :: rest, out := ((w1.said "[i] Please enter your key below".toList).out) } : World)).2, ?_⟩
    unfold keyVerify
    rw [Prog.bind_ok h1, Prog.bind_ok (e0 _ _)]
    exact (Prog.bind_ok (e1 _)).trans (Prog.mapErr_ok (Prod.ext he rfl))

/-- What the key commands do to the encrypted file `z`, with the password typed and the new one typed twice. -/
def exKeyParams : KeyManipulationParams := { hashingAlgorithm := .blake3Balloon 5, keyOld := .user, keyNew := .user }
def exTyped : List Bytes := [[112, 119], [9, 9], [9, 9]]
def exKeyAdd (typed : List Bytes) (sched : List Io) : Res Error Unit × World := keyAdd exSys ['z'] exKeyParams (exKeyWorld typed sched)
def exKeyChange (typed : List Bytes) (sched : List Io) : Res Error Unit × World := keyChange exSys ['z'] exKeyParams (exKeyWorld typed sched)
def exKeyDelete (typed : List Bytes) (sched : List Io) : Res Error Unit × World := keyDelete exSys ['z'] .user (exKeyWorld typed sched)
def exKeyVerify (typed : List Bytes) (sched : List Io) : Res Error Unit × World := keyVerify exSys ['z'] .user (exKeyWorld typed sched)

/-- The hypotheses of `C64_add`, `C64_change`, `C64_delete`, `C64_verify` are met, and the file does change. -/
example : exSys.C.Lawful ∧ (∃ w', exKeyAdd exTyped [] = (.ok (), w')) ∧ (∃ w', exKeyChange exTyped [] = (.ok (), w')) ∧ (∃ w', exKeyDelete exTyped [] = (.ok (), w')) ∧
    (∃ w', exKeyVerify exTyped [] = (.ok (), w')) ∧ (∀ k, Io.short k ∉ (exKeyWorld exTyped []).sched) ∧
    KeyFile ((exKeyWorld exTyped []).file 2) exHeader [ex19Slot] (ex19Aad (List.replicate 8 1)) ∧ LeadsToFile (exKeyWorld exTyped []) (toPath exSys.cwd ['z']) [['z']] 2 ∧
    (exKeyAdd exTyped []).2.file 2 ≠ exFile ∧ (exKeyChange exTyped []).2.file 2 ≠ exFile ∧ (exKeyDelete exTyped []).2.file 2 ≠ exFile :=
  ⟨Example.toy_lawful _ (by decide), ⟨_, run_of_fst (by decide +kernel)⟩, ⟨_, run_of_fst (by decide +kernel)⟩, ⟨_, run_of_fst (by decide +kernel)⟩, ⟨_, run_of_fst (by decide +kernel)⟩,
    by simp [exKeyWorld, Example.disk], exFile_key, ⟨rfl, rfl⟩, by decide +kernel, by decide +kernel, by decide +kernel⟩

/-- A wrong password, and a fault: refused. -/
example : (exKeyAdd [[1], [9, 9], [9, 9]] []).1.isOk = false ∧ (exKeyDelete [[1]] []).1.isOk = false ∧ (exKeyVerify [[1]] []).1.isOk = false ∧
    (exKeyChange exTyped [.full, .full, .fail]).1.isOk = false := by decide +kernel

/-- The hypothesis of `C64_not_v5`: the file `a/x` has no header. -/
example : ∀ q i hd aad, LeadsToFile (exKeyWorld exTyped []) (toPath exSys.cwd ['a', '/', 'x']) q i → IsHeader ((exKeyWorld exTyped []).file i) hd aad → hd.headerType.version ≠ .v5 := by
  intro q i hd aad hl hi
  obtain ⟨rfl, rfl⟩ := leads_unique hl (q' := [['a'], ['x']]) (i' := 0) ⟨rfl, rfl⟩
  have h := hi.size
  revert h
  cases hd.headerType.version <;> decide

/-- The hypotheses of `C64_succeed`. -/
example : HashWorks exSys.C [112, 119] [ex19Slot] ∧ Recovers exSys.C [112, 119] exHeader (List.replicate 32 5) ∧
    PrimitivesWork exSys.C exHeader.headerType.algorithm (.blake3Balloon 5) [9, 9] ∧ (exKeyWorld exTyped []).tty = [112, 119] :: [9, 9] :: [9, 9] :: [] :=
  ⟨fun k hk => by rw [List.mem_singleton.1 hk]; exact ⟨_, _, rfl, rfl⟩, exFile_key.recovers.2 ⟨[], ex19Slot, [], rfl, ex19_opens, by simp [OpensNone]⟩, toy_works _ _ _ (by decide), rfl⟩

end Volaris.Props
