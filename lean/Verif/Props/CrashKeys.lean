import Verif.Props.Crash
import Verif.Props.Torn
/-!
# Key and header commands that are stopped in the middle
-/
namespace Volaris.Props
open Spec Cli
variable {σ : Type}

theorem supplies_withSched {words : List (List Char)} {cwd : Path} {state : PasswordState} {key : Key} {w : World} {x : Bytes} (s : List Io)
    (h : Supplies words cwd state key (w.withSched s) x) : Supplies words cwd state key w x := by
  cases key with
  | keyfile path =>
    unfold Supplies at h ⊢
    dsimp only at h ⊢
    split at h
    · rw [if_pos (by assumption)]; exact h
    · rw [if_neg (by assumption)]
      obtain ⟨q, i, h1, h2⟩ := h
      exact ⟨q, i, (leads_withSched w s _ _ _).1 h1, h2⟩
  | env => exact h
  | generate n => exact h
  | user => cases state <;> exact h

theorem onlyEdits_disk {p : PathBuf} {w v w' : World} {s : List Io} (hd : v.disk = w'.disk) (h : OnlyEdits p (w.withSched s) w') : OnlyEdits p w v := by
  refine ⟨(disk_dir hd).trans h.dir, fun j hj => ?_⟩
  rw [disk_file hd]
  exact h.files j fun q hq => hj q ((leads_withSched w s _ _ _).1 hq)

/-! ### C75 -/

theorem drop_layout {c : Bytes} {hd : Header} {ks : List Keyslot} {aad body : Bytes} (hf : WrittenV5 c hd ks aad body) : c.drop 416 = body := by
  have hks := (isHeader_sized hf.file.header).2 ks hf.file.slots
  have hlen := bytesV5_length (isHeader_sized hf.file.header).1 hks.1 hks.2
  rw [written_bytes hf, ← hlen, List.drop_left]

/-- What a key command that gets the present and a new secret has done at any moment. -/
theorem keyTwo_stopped (s : Sys σ) (input : List Char) (keyOld keyNew : Key) (line line' : String) {op : Bytes → Bytes → Nat → Prog KeyOps.Error Unit}
    (hop : ∀ o n, Edits (op o n)) {cmd : Prog Error Unit} (hcmd : cmd = (do
        let handle ← openV5 s input
        announce keyOld line
        let rawKeyOld ← getSecret s.words s.cwd keyOld .direct
        announce keyNew line'
        let rawKeyNew ← getSecret s.words s.cwd keyNew .validate
        (op rawKeyOld rawKeyNew handle).mapErr .key : Prog Error Unit)) (hcr : Crashes cmd) {w v : World} {q : Path} {i : Nat}
    (hl : LeadsToFile w (toPath s.cwd input) q i) (hv : StoppedAt cmd w v) :
    OnlyEdits (toPath s.cwd input) w v ∧ (v.file = w.file ∨ ∃ h old new, ∃ u u' : World, Supplies s.words s.cwd .direct keyOld w old ∧
      op old new h u = (.ok (), u') ∧ u.rest h = w.file i ∧ u.fd h = { ino := i, pos := 0 } ∧ v.file = u'.file) := by
  obtain ⟨sc, r, w', he, hd⟩ := hcr.stopped hv
  subst hcmd
  obtain ⟨h1, h2, h3⟩ := wp_run (keyTwo_wp s input keyOld keyNew line line' hop (w.withSched sc)) he
  refine ⟨onlyEdits_disk hd h1, ?_⟩
  by_cases hr : r = .ok ()
  · obtain ⟨q', i', hd0, aad0, old, new, u, hl', hi, hv, hsup, hop, hrest, hfile, hfd, hsch⟩ := h3 hr
    obtain ⟨rfl, rfl⟩ := leads_unique hl ((leads_withSched w sc _ _ _).1 hl')
    exact .inr ⟨_, old, new, u, w', supplies_withSched sc hsup.2.2.1, hop, hrest, hfd, disk_file hd⟩
  · exact .inl ((disk_file hd).trans (h2 hr))

/-- **C75.** Stop `key change` at any moment, whatever has failed before: no file is touched but the one given, everything behind its header is as it was, and either the file is unchanged or its header
still reads and holds every keyslot but one that the present secret opens; every password of these still decrypts the file. -/
theorem C75_change (s : Sys σ) (hC : s.C.Lawful) (input : List Char) (params : KeyManipulationParams) (w v : World) (q : Path) (i : Nat) (hd : Header) (ks : List Keyslot) (aad body mk p : Bytes)
    (hl : LeadsToFile w (toPath s.cwd input) q i) (hf : WrittenV5 (w.file i) hd ks aad body) (hb : BodyOf s.C hd mk aad p body) (hv : StoppedAt (keyChange s input params) w v) :
    OnlyEdits (toPath s.cwd input) w v ∧ (v.file i).length = (w.file i).length ∧ (v.file i).drop 416 = body ∧
    (v.file i = w.file i ∨ ∃ old before k0 after, Supplies s.words s.cwd .direct params.keyOld w old ∧ ks = before ++ k0 :: after ∧ (∃ m, Opens s.C hd.headerType.algorithm old k0 m) ∧
      Survives hd aad (before ++ after) (v.file i) ∧
      ∀ pw, (∃ k ∈ before ++ after, ∃ m, Opens s.C hd.headerType.algorithm pw k m) →
        (∀ hd' ks', KeyFile (v.file i) hd' ks' aad → OnlyOpens s.C hd.headerType.algorithm pw ks' mk) → DecryptsTo s.C pw (v.file i) p) := by
  obtain ⟨h1, h2⟩ := keyTwo_stopped s input params.keyOld params.keyNew "[i] Please enter your old key below" "[i] Please enter your new key below"
    (op := fun o n h => KeyOps.change s.C { handle := h, hashAlgorithm := params.hashingAlgorithm, rawKeyOld := o, rawKeyNew := n })
    (fun o n => ⟨fun h => KeyOps.change_within s.C { handle := h, hashAlgorithm := params.hashingAlgorithm, rawKeyOld := o, rawKeyNew := n }, fun h w => change_safe hC _ w⟩)
    rfl (keyChange_crashes s input params) hl hv
  have hbody : (w.file i).drop 416 = body := drop_layout hf
  refine ⟨h1, ?_⟩
  rcases h2 with h2 | ⟨h, old, new, u, u', hsup, hop, hrest, hfd, h2⟩
  · rw [h2]; exact ⟨rfl, hbody, .inl rfl⟩
  · obtain ⟨-, g⟩ := C56_interrupted_change s.C hC _ u u' _ hd ks aad body mk p (by show WrittenV5 (u.rest h) _ _ _ _; rw [hrest]; exact hf) hb hop
    obtain ⟨before, k0, after, content', g1, g2, g3, g4, g5⟩ := g rfl
    obtain ⟨e1, e2, e3⟩ := replaced_file hrest hfd g3
    rw [← e1, ← h2] at g4 g5
    rw [← h2] at e2 e3
    exact ⟨e3, e2.trans hbody, .inr ⟨old, before, k0, after, hsup, g1, g2, g4, g5⟩⟩

/-- **C75.** `key add`, likewise: at any moment the file is the old one with a beginning of the new header written over it, in which one keyslot is added.  Unless exactly one byte of that keyslot has arrived,
the header reads, it holds every old keyslot, and every password of these still decrypts the file. -/
theorem C75_add_partial (s : Sys σ) (hC : s.C.Lawful) (input : List Char) (params : KeyManipulationParams) (w v : World) (q : Path) (i : Nat) (hd : Header) (ks : List Keyslot) (aad body mk p : Bytes)
    (hl : LeadsToFile w (toPath s.cwd input) q i) (hf : WrittenV5 (w.file i) hd ks aad body) (hb : BodyOf s.C hd mk aad p body) (hv : StoppedAt (keyAdd s input params) w v) :
    OnlyEdits (toPath s.cwd input) w v ∧ (v.file i).length = (w.file i).length ∧ (v.file i).drop 416 = body ∧
    (v.file i = w.file i ∨ ∃ k j, SlotOk hd.headerType.algorithm k ∧ ks.length < 4 ∧ v.file i = torn (layoutV5 hd.headerType hd.nonce (ks ++ [k])) (w.file i) j ∧
      (j ≠ 32 + 96 * ks.length + 1 → Survives hd aad ks (v.file i) ∧
      ∀ pw, (∃ k ∈ ks, ∃ m, Opens s.C hd.headerType.algorithm pw k m) →
        (∀ hd' ks', KeyFile (v.file i) hd' ks' aad → OnlyOpens s.C hd.headerType.algorithm pw ks' mk) → DecryptsTo s.C pw (v.file i) p)) := by
  obtain ⟨h1, h2⟩ := keyTwo_stopped s input params.keyOld params.keyNew "[i] Please enter your old key below" "[i] Please enter your new key below"
    (op := fun o n h => KeyOps.add s.C { handle := h, hashAlgorithm := params.hashingAlgorithm, rawKeyOld := o, rawKeyNew := n })
    (fun o n => ⟨fun h => KeyOps.add_within s.C { handle := h, hashAlgorithm := params.hashingAlgorithm, rawKeyOld := o, rawKeyNew := n }, fun h w => add_safe hC _ w⟩)
    rfl (keyAdd_crashes s input params) hl hv
  have hbody : (w.file i).drop 416 = body := drop_layout hf
  refine ⟨h1, ?_⟩
  rcases h2 with h2 | ⟨h, old, new, u, u', hsup, hop, hrest, hfd, h2⟩
  · rw [h2]; exact ⟨rfl, hbody, .inl rfl⟩
  · obtain ⟨k, j, g1, g2, g3, g4⟩ := (C28_runs s.C hC _ h [] u u' hd ks aad body).1 (by show WrittenV5 (u.rest h) _ _ _ _; rw [hrest]; exact hf) hop
    obtain ⟨e1, e2, e3⟩ := replaced_file hrest hfd g4
    rw [← h2] at e1 e2 e3
    dsimp only at e1
    rw [hrest] at e1
    refine ⟨e3, e2.trans hbody, .inr ⟨k, j, g1, g3, e1, fun hj => ?_⟩⟩
    have hs := C28_add_partial (w.file i) hd ks k aad body hf g3 g1 j g2 hj
    rw [← e1] at hs
    exact ⟨hs, fun pw ho hon => C28_surviving_keys s.C hC hd aad body mk p _ pw ks hs (e2.trans hbody) hb ho hon⟩

/-- **C75.** `key delete`, likewise: one keyslot that the secret opens is taken out.  If the encrypted key in the last keyslot has no byte 0xDF in one of the places where the reader could look for a keyslot, then the
header reads at every moment, it holds every other keyslot, and every password of these still decrypts the file. -/
theorem C75_delete_partial (s : Sys σ) (hC : s.C.Lawful) (input : List Char) (key : Key) (w v : World) (q : Path) (i : Nat) (hd : Header) (ks : List Keyslot) (aad body mk p : Bytes)
    (hl : LeadsToFile w (toPath s.cwd input) q i) (hf : WrittenV5 (w.file i) hd ks aad body) (hb : BodyOf s.C hd mk aad p body) (hv : StoppedAt (keyDelete s input key) w v) :
    OnlyEdits (toPath s.cwd input) w v ∧ (v.file i).length = (w.file i).length ∧ (v.file i).drop 416 = body ∧
    (v.file i = w.file i ∨ ∃ before k0 after j, ks = before ++ k0 :: after ∧ v.file i = torn (layoutV5 hd.headerType hd.nonce (before ++ after)) (w.file i) j ∧
      ((∀ n, 1 ≤ n → n ≤ 4 - ks.length → ∀ k, ks.getLast? = some k → k.encryptedKey[2 * n - 2]? ≠ some 0xDF) → Survives hd aad (before ++ after) (v.file i) ∧
      ∀ pw, (∃ k ∈ before ++ after, ∃ m, Opens s.C hd.headerType.algorithm pw k m) →
        (∀ hd' ks', KeyFile (v.file i) hd' ks' aad → OnlyOpens s.C hd.headerType.algorithm pw ks' mk) → DecryptsTo s.C pw (v.file i) p)) := by
  obtain ⟨sc, r, w', he, hdk⟩ := (keyDelete_crashes s input key).stopped hv
  obtain ⟨h1, h2, h3⟩ := wp_run (x := keyDelete s input key) (keyOne_wp s input key "[i] Please enter your key below" (op := fun o h => KeyOps.delete s.C h o)
    (fun o => ⟨fun h => KeyOps.delete_within s.C h _, fun h w => delete_safe hC h _ w⟩) (w.withSched sc)) he
  have hbody : (w.file i).drop 416 = body := drop_layout hf
  refine ⟨onlyEdits_disk hdk h1, ?_⟩
  rw [disk_file hdk]
  by_cases hr : r = .ok ()
  · obtain ⟨q', i', hd0, aad0, old, u, hl', hi, hv, hne, hsup, hop, hrest, hfile, hfd, hsch⟩ := h3 hr
    obtain ⟨rfl, rfl⟩ := leads_unique hl ((leads_withSched w sc _ _ _).1 hl')
    replace hrest : u.rest w.nextFd = w.file i := hrest
    obtain ⟨before, k0, after, j, g1, g2, g3⟩ := (C28_runs s.C hC ⟨0, [], [], .argon2id 1⟩ w.nextFd old u w' hd ks aad body).2.2 (by rw [hrest]; exact hf) hop
    obtain ⟨e1, e2, e3⟩ := replaced_file hrest hfd g3
    rw [hrest] at e1
    refine ⟨e3, e2.trans hbody, .inr ⟨before, k0, after, j, g1, e1, fun hdf => ?_⟩⟩
    subst g1
    have hs := C28_delete_partial (w.file i) hd before after k0 aad body hf j g2 (fun n hn1 hn2 => hdf n hn1 hn2 _ (by
      rw [List.getLast?_append, List.getLast?_eq_some_getLast (List.cons_ne_nil _ _)]; rfl))
    rw [← e1] at hs
    exact ⟨hs, fun pw ho hon => C28_surviving_keys s.C hC hd aad body mk p _ pw _ hs (e2.trans hbody) hb ho hon⟩
  · have : w'.file = w.file := h2 hr
    rw [this]
    exact ⟨rfl, hbody, .inl rfl⟩

/-- The encrypted file `z` while a password is added. -/
def exAddStopped (k j : Nat) : World := stopped (keyAdd exSys ['z'] exKeyParams) (exKeyWorld exTyped []) k j
def exChangeStopped (k j : Nat) : World := stopped (keyChange exSys ['z'] exKeyParams) (exKeyWorld exTyped []) k j
def exDeleteStopped (k j : Nat) : World := stopped (keyDelete exSys ['z'] .user) (exKeyWorld exTyped []) k j

theorem exKeyWorld_written (typed : List Bytes) (sched : List Io) : WrittenV5 ((exKeyWorld typed sched).file 2) exHeader [ex19Slot] (ex19Aad (List.replicate 8 1)) ex19Body :=
  ⟨exFile_key, show exFile = _ by decide +kernel⟩

/-- **C75 is false of `key add`:** there is a moment at which no password opens the file any more. -/
theorem C75_add_false : ∃ w v : World, ∃ q i hd ks aad body mk p pw, LeadsToFile w (toPath exSys.cwd ['z']) q i ∧ WrittenV5 (w.file i) hd ks aad body ∧ BodyOf exSys.C hd mk aad p body ∧
    (∃ k ∈ ks, Opens exSys.C hd.headerType.algorithm pw k mk) ∧ w.sched = [] ∧
    StoppedAt (keyAdd exSys ['z'] exKeyParams) w v ∧ ∀ pw, Refuses exSys.C pw (v.file i) := by
  refine ⟨exKeyWorld exTyped [], exAddStopped 0 129, [['z']], 2, exHeader, [ex19Slot], ex19Aad (List.replicate 8 1), ex19Body, List.replicate 32 5, [1, 2, 3], [112, 119], ⟨rfl, rfl⟩, exKeyWorld_written _ _,
    ⟨by decide, .last (by decide) (by decide +kernel)⟩, ⟨ex19Slot, by simp, ?_⟩, rfl, stopped_at _ _ _ _ rfl, ?_⟩
  · exact ex19_opens
  · have : (exAddStopped 0 129).file 2 = torn (layoutV5 exHeader.headerType exHeader.nonce ([ex19Slot] ++ [ex19Slot])) ((exKeyWorld exTyped []).file 2) (32 + 96 * [ex19Slot].length + 1) := by decide +kernel
    rw [this]
    exact C28_add_one_byte exSys.C (Example.toy_lawful _ (by decide)) _ _ _ _ _ _ (exKeyWorld_written exTyped []) (by decide) ⟨by decide, rfl, rfl, by decide⟩

/-- The decrypt command with the password `pw` on the disk of `v`. -/
def exOpenedWith (pw : Bytes) (v : World) : Res Cli.Error Unit := (decryptMode exSys ['z'] ['o'] exParams { v with env := some pw }).1

/-- **C75, the password that is changed.** `C75_change` says nothing about the password that is being changed, and rightly: there is a moment at which neither the old nor the new one opens the file, although the old
one does before and the new one afterwards.  If it is the only password of the file, the data key is lost. -/
theorem C75_change_window : ∃ w v v' : World, w.sched = [] ∧ StoppedAt (keyChange exSys ['z'] exKeyParams) w v ∧ StoppedAt (keyChange exSys ['z'] exKeyParams) w v' ∧
    exOpenedWith [112, 119] w = .ok () ∧ exOpenedWith [112, 119] v ≠ .ok () ∧ exOpenedWith [9, 9] v ≠ .ok () ∧ exOpenedWith [9, 9] v' = .ok () :=
  ⟨exKeyWorld exTyped [], exChangeStopped 0 80, exChangeStopped 1 0, rfl, stopped_at _ _ _ _ rfl, stopped_at _ _ _ _ rfl, by decide +kernel, by decide +kernel, by decide +kernel, by decide +kernel⟩

/-- The hypotheses of `C75_change`, `C75_add_partial` and `C75_delete_partial`, with half-written headers. -/
example : LeadsToFile (exKeyWorld exTyped []) (toPath exSys.cwd ['z']) [['z']] 2 ∧ WrittenV5 ((exKeyWorld exTyped []).file 2) exHeader [ex19Slot] (ex19Aad (List.replicate 8 1)) ex19Body ∧
    BodyOf exSys.C exHeader (List.replicate 32 5) (ex19Aad (List.replicate 8 1)) [1, 2, 3] ex19Body ∧
    StoppedAt (keyAdd exSys ['z'] exKeyParams) (exKeyWorld exTyped []) (exAddStopped 0 150) ∧ StoppedAt (keyChange exSys ['z'] exKeyParams) (exKeyWorld exTyped []) (exChangeStopped 0 100) ∧
    StoppedAt (keyDelete exSys ['z'] .user) (exKeyWorld exTyped []) (exDeleteStopped 0 100) ∧
    (exAddStopped 0 150).file 2 ≠ exFile ∧ (exAddStopped 0 150).file 2 ≠ (exAddStopped 1 0).file 2 ∧ exOpenedWith [112, 119] (exAddStopped 0 150) = .ok () ∧
    (exDeleteStopped 0 100).file 2 ≠ exFile ∧ (exDeleteStopped 0 100).file 2 ≠ (exDeleteStopped 1 0).file 2 :=
  ⟨⟨rfl, rfl⟩, exKeyWorld_written _ _, ⟨by decide, .last (by decide) (by decide +kernel)⟩, stopped_at _ _ _ _ rfl, stopped_at _ _ _ _ rfl, stopped_at _ _ _ _ rfl, by decide +kernel, by decide +kernel,
    by decide +kernel, by decide +kernel, by decide +kernel⟩

/-! ### C76 -/

theorem contentAt_disk {v w' : World} {p : PathBuf} {c : Bytes} (hd : v.disk = w'.disk) (h : ContentAt w' p c) : ContentAt v p c := by
  obtain ⟨q, i, h1, h2⟩ := h
  exact ⟨q, i, leads_disk hd h1, by rw [disk_file hd]; exact h2⟩

theorem contentAt_withSched {w : World} {p : PathBuf} {c : Bytes} (s : List Io) (h : ContentAt (w.withSched s) p c) : ContentAt w p c := by
  obtain ⟨q, i, h1, h2⟩ := h
  exact ⟨q, i, (leads_withSched w s _ _ _).1 h1, h2⟩

/-- **C76.** Stop `header strip` at any moment: no file is touched but the one given, and that one is unchanged or starts with a header of which a beginning has become zero; everything behind the header is as it was. -/
theorem C76_strip (s : Sys σ) (input : List Char) (w v : World) (hv : StoppedAt (headerStrip s input) w v) :
    OnlyEdits (toPath s.cwd input) w v ∧ (v.file = w.file ∨ ∃ c hd aad k, ContentAt w (toPath s.cwd input) c ∧ IsHeader c hd aad ∧ k ≤ headerSize hd.headerType.version ∧
      ContentAt v (toPath s.cwd input) (List.replicate k 0 ++ c.drop k)) := by
  obtain ⟨sc, r, w', he, hd⟩ := (headerStrip_crashes s input).stopped hv
  obtain ⟨_, h1, h2, h3, _⟩ := C65_strip s input _ _ r he
  refine ⟨onlyEdits_disk hd h1, ?_⟩
  by_cases hr : r = .ok ()
  · obtain ⟨c, h, aad, g1, g2, g3⟩ := h2 hr
    exact .inr ⟨c, h, aad, _, contentAt_withSched sc g1, g2, Nat.le_refl _, contentAt_disk hd g3⟩
  · rcases h3 hr with h3 | ⟨c, h, aad, k, g1, g2, g3, g4⟩
    · exact .inl ((disk_file hd).trans h3.1)
    · exact .inr ⟨c, h, aad, k, contentAt_withSched sc g1, g2, g3, contentAt_disk hd g4⟩

/-- **C76.** Stop `header restore` at any moment: no file is touched but the output, and that one is unchanged or it starts with a beginning of the header from the header file; everything behind the header is as it was. -/
theorem C76_restore (s : Sys σ) (input output : List Char) (w v : World) (hv : StoppedAt (headerRestore s input output) w v) :
    OnlyEdits (toPath s.cwd output) w v ∧ (v.file = w.file ∨ ∃ c c0 hd aad H aad' k, ContentAt w (toPath s.cwd input) c ∧ ContentAt w (toPath s.cwd output) c0 ∧ IsHeader c hd aad ∧
      WrittenHeader hd.headerType.version H ∧ IsHeader H hd aad' ∧ k ≤ H.length ∧ ContentAt v (toPath s.cwd output) (H.take k ++ c0.drop k)) := by
  obtain ⟨sc, r, w', he, hdk⟩ := (headerRestore_crashes s input output).stopped hv
  rcases headerRestore_cases s input output (w.withSched sc) with ⟨q, i, qo, j, hd, aad, H, k, n, w2, he2, hl, hlo, hi, hH, hed, hsu, _, hf, hn, hz, hns⟩ | ⟨e, w2, he2, hsame, hor⟩
  all_goals
    rw [he] at he2
    cases he2
  · refine ⟨onlyEdits_disk hdk hed, .inr ?_⟩
    have hv1 : hd.headerType.version ≠ .v1 := by intro hv; simp [Header.serialize, hv] at hH
    have hv2 : hd.headerType.version ≠ .v2 := by intro hv; simp [Header.serialize, hv] at hH
    obtain ⟨H', g1, g2, aad', g3⟩ := hi.rewritten hv1 hv2
    rw [hH] at g2
    cases g2
    refine ⟨_, _, hd, aad, H, aad', (H.take k).length, contentAt_withSched sc ⟨q, i, hl, rfl⟩, contentAt_withSched sc ⟨qo, j, hlo, rfl⟩, hi, g1, g3, by rw [List.length_take]; omega, contentAt_disk hdk ⟨qo, j, ?_, ?_⟩⟩
    · exact ⟨by rw [World.resolve_congr hed.dir]; exact hlo.resolve, by rw [World.look_congr hed.dir]; exact hlo.look⟩
    · rw [hf]
      congr 1
      rw [List.length_take]
      rcases Nat.le_total k H.length with h | h
      · rw [Nat.min_eq_left h]
      · rw [Nat.min_eq_right h, List.take_length, List.take_of_length_le h]
  · exact ⟨onlyEdits_disk hdk (.of_same hsame.2 hsame.1), .inl ((disk_file hdk).trans hsame.1)⟩

/-- **C76.** Stop `header dump` at any moment: nothing is touched but what is at the output path, and that only if nothing was there or the user consented; an input apart from it is as it was. -/
theorem C76_dump (s : Sys σ) (input output : List Char) (force : ForceMode) (w v : World) (hv : StoppedAt (headerDump s input output force) w v) :
    Changes (OutputPlace s.cwd force output w) (fun _ _ => False) w v ∧
    (Allocated w → Apart w (toPath s.cwd input) (toPath s.cwd output) → ∀ c, ContentAt w (toPath s.cwd input) c → ContentAt v (toPath s.cwd input) c) := by
  obtain ⟨sc, r, w', he, hd⟩ := (headerDump_crashes s input output force).stopped hv
  obtain ⟨h1, _⟩ := wp_run (x := headerDump s input output force) (headerDump_wp s input output force (w.withSched sc)) he
  have h2 : Changes (OutputPlace s.cwd force output (w.withSched sc)) (fun _ _ => False) (w.withSched sc) w' := h1.changes
  rw [outputPlace_withSched] at h2
  refine ⟨changes_disk hd ⟨h2.look, h2.files⟩, fun hal hap c hc => ?_⟩
  obtain ⟨q, i, hl, rfl⟩ := hc
  refine contentAt_disk hd ⟨q, i, h1.leads ((leads_withSched w sc _ _ _).2 hl), ?_⟩
  exact output_kept (w := w.withSched sc) (fun q i h => hal q i h) h1 (apart_congr (withSched_dir w sc) hap) ((leads_withSched w sc _ _ _).2 hl)

/-- **C76, an interrupted strip cannot be repeated.** A file whose header is partly zero is refused by `header strip` under every schedule; and `header restore` refuses it as long as a byte of the header is left. -/
theorem C76_stuck (s : Sys σ) (file dumped : List Char) (v : World) (c : Bytes) (k : Nat) (hk : 1 ≤ k) (hc : ContentAt v (toPath s.cwd file) (List.replicate k 0 ++ c.drop k)) :
    (∀ r v', headerStrip s file v = (r, v') → r ≠ .ok () ∧ SameFiles v v') ∧
    ((∀ k, Io.short k ∉ v.sched) → (∀ d hd aad, ContentAt v (toPath s.cwd dumped) d → IsHeader d hd aad → ∃ b ∈ (c.take (headerSize hd.headerType.version)).drop k, b ≠ 0) →
      ∀ r v', headerRestore s dumped file v = (r, v') → r ≠ .ok () ∧ SameFiles v v') := by
  have huniq : ∀ c', ContentAt v (toPath s.cwd file) c' → c' = List.replicate k 0 ++ c.drop k := by
    rintro _ ⟨q', i', h1, rfl⟩
    obtain ⟨q, i, h2, h3⟩ := hc
    obtain ⟨-, rfl⟩ := leads_unique h1 h2
    exact h3
  have hno : ∀ hd aad, ¬ IsHeader (List.replicate k 0 ++ c.drop k) hd aad := by
    intro hd aad h
    have := congrArg List.head? h.tag
    obtain ⟨k, rfl⟩ : ∃ n, k = n + 1 := ⟨k - 1, by omega⟩
    cases hv : hd.headerType.version <;> simp [slice, List.replicate_succ, versionCode, hv] at this
  refine ⟨fun r v' he => ?_, fun hns hb r v' he => ?_⟩
  · obtain ⟨_, _, h1, h2, _⟩ := C65_strip s file v v' r he
    have hr : r ≠ .ok () := by
      intro hr
      obtain ⟨c', hd, aad, g1, g2, _⟩ := h1 hr
      rw [huniq c' g1] at g2
      exact hno hd aad g2
    refine ⟨hr, ?_⟩
    rcases h2 hr with h | ⟨c', hd, aad, _, g1, g2, _⟩
    · exact h
    · rw [huniq c' g1] at g2
      exact absurd g2 (hno hd aad)
  · obtain ⟨_, _, h1, h2, _⟩ := C65_restore s dumped file v v' r he
    have hr : r ≠ .ok () := by
      intro hr
      obtain ⟨d, c0, hd, aad, H, aad', g1, g2, g3, g4, _⟩ := h2 hr hns
      rw [huniq c0 g2] at g4
      obtain ⟨b, hb1, hb2⟩ := hb d hd aad g1 g3
      refine hb2 (g4 b ?_)
      rw [List.take_append, List.mem_append]
      right
      rw [List.length_replicate, ← List.drop_take]
      exact hb1
    exact ⟨hr, h1 hr⟩

/-- A header file `h` beside the encrypted file `z`. -/
def exDumpedWorld : World := { (headerDump exSys ['z'] ['h'] .prompt (exKeyWorld [] [])).2 with log := [], env := some [112, 119] }

/-- `header strip` of `z`, stopped. -/
def exStripStopped (k j : Nat) : World := stopped (headerStrip exSys ['z']) exDumpedWorld k j
def exWithHeader : CryptoParams := { exParams with header := some ['h'] }

/-- **C76 is false if it is to say that the program can go on where it was stopped:** there is a moment of `header strip` after which `header strip` and `header restore` (from the dumped header) refuse the file and
neither the file alone nor the file with the dumped header decrypts, although the file alone did before, and the file with the dumped header does when the strip is complete. -/
theorem C76_strip_false : ∃ w v v' : World, w.sched = [] ∧ StoppedAt (headerStrip exSys ['z']) w v ∧ StoppedAt (headerStrip exSys ['z']) w v' ∧
    (decryptMode exSys ['z'] ['o'] exParams w).1 = .ok () ∧ (decryptMode exSys ['z'] ['o'] exWithHeader v').1 = .ok () ∧ (headerRestore exSys ['h'] ['z'] v').1 = .ok () ∧
    (headerStrip exSys ['z'] v).1 ≠ .ok () ∧ (headerRestore exSys ['h'] ['z'] v).1 ≠ .ok () ∧ (decryptMode exSys ['z'] ['o'] exParams v).1 ≠ .ok () ∧
    (decryptMode exSys ['z'] ['o'] exWithHeader v).1 ≠ .ok () :=
  ⟨exDumpedWorld, exStripStopped 0 100, exStripStopped 1 0, by decide +kernel, stopped_at _ _ _ _ rfl, stopped_at _ _ _ _ rfl, by decide +kernel, by decide +kernel, by decide +kernel, by decide +kernel, by decide +kernel,
    by decide +kernel, by decide +kernel⟩

theorem exStripStopped_leads {n : List Char} {i : Nat} (h : LeadsToFile { Example.disk [] with dir := ([['h']], .file 1000) :: (Example.disk []).dir } (toPath exSys.cwd n) [n] i) :
    LeadsToFile (exStripStopped 0 100) (toPath exSys.cwd n) [n] i := by
  have hd : (exStripStopped 0 100).dir = ([['h']], .file 1000) :: (Example.disk []).dir := by decide +kernel
  exact ⟨(World.resolve_congr (w := { Example.disk [] with dir := ([['h']], .file 1000) :: (Example.disk []).dir }) hd _).trans h.resolve, (World.look_congr (w := { Example.disk [] with dir := ([['h']], .file 1000) :: (Example.disk []).dir }) hd _).trans h.look⟩

/-- The hypotheses of `C76_stuck` at that moment; and moments of the other two commands. -/
example : ContentAt (exStripStopped 0 100) (toPath exSys.cwd ['z']) (List.replicate 100 0 ++ exFile.drop 100) ∧ ContentAt (exStripStopped 0 100) (toPath exSys.cwd ['h']) (exFile.take 416) ∧
    (∃ b ∈ (exFile.take 416).drop 100, b ≠ 0) ∧ (∀ k, Io.short k ∉ (exStripStopped 0 100).sched) ∧
    StoppedAt (headerRestore exSys ['h'] ['z']) { exStripStopped 1 0 with log := [] } (stopped (headerRestore exSys ['h'] ['z']) { exStripStopped 1 0 with log := [] } 0 200) ∧
    (stopped (headerRestore exSys ['h'] ['z']) { exStripStopped 1 0 with log := [] } 0 200).file 2 = exFile.take 200 ++ (List.replicate 216 0 ++ exFile.drop 416) ∧
    StoppedAt (headerDump exSys ['z'] ['h'] .prompt) (exKeyWorld [] []) (stopped (headerDump exSys ['z'] ['h'] .prompt) (exKeyWorld [] []) 1 5) ∧
    (stopped (headerDump exSys ['z'] ['h'] .prompt) (exKeyWorld [] []) 1 5).file 1000 = exFile.take 5 :=
  ⟨⟨[['z']], 2, exStripStopped_leads ⟨rfl, rfl⟩, by decide +kernel⟩, ⟨[['h']], 1000, exStripStopped_leads ⟨rfl, rfl⟩, by decide +kernel⟩, by decide +kernel,
    by rw [show (exStripStopped 0 100).sched = [] by decide +kernel]; simp, stopped_at _ _ _ _ rfl, by decide +kernel, stopped_at _ _ _ _ rfl, by decide +kernel⟩

end Volaris.Props
