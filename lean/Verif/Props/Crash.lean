import Verif.Proofs.CrashSafe
import Verif.Props.UnpackCmd
import Verif.Props.HeaderCmd
/-!
# C71–C74: stopping the tool at any moment
-/
namespace Volaris.Props
open Spec Cli
variable {σ : Type}

/-- The commands that change anything. -/
def Changing (s : Sys σ) (cmd : Prog Error Unit) : Prop :=
  (∃ input output params a, cmd = encryptMode s input output params a) ∨ (∃ input output params, cmd = decryptMode s input output params) ∨
  (∃ inputs output pp params a, cmd = packMode s inputs output pp params a) ∨ (∃ input output verbose params, cmd = unpackMode s input output verbose params) ∨
  (∃ input passes force, cmd = secureErase s input passes force) ∨ (∃ input params, cmd = keyAdd s input params) ∨ (∃ input params, cmd = keyChange s input params) ∨
  (∃ input key, cmd = keyDelete s input key) ∨ (∃ input output force, cmd = headerDump s input output force) ∨ (∃ input output, cmd = headerRestore s input output) ∨
  ∃ input, cmd = headerStrip s input

theorem Changing.crashes {s : Sys σ} {cmd : Prog Error Unit} (h : Changing s cmd) : Crashes cmd := by
  rcases h with ⟨_, _, _, _, rfl⟩ | ⟨_, _, _, rfl⟩ | ⟨_, _, _, _, _, rfl⟩ | ⟨_, _, _, _, rfl⟩ | ⟨_, _, _, rfl⟩ | ⟨_, _, rfl⟩ | ⟨_, _, rfl⟩ | ⟨_, _, rfl⟩ | ⟨_, _, _, rfl⟩ | ⟨_, _, rfl⟩ | ⟨_, rfl⟩
  · exact encryptMode_crashes _ _ _ _ _
  · exact decryptMode_crashes _ _ _ _
  · exact packMode_crashes _ _ _ _ _ _
  · exact unpackMode_crashes _ _ _ _ _
  · exact secureErase_crashes _ _ _ _
  · exact keyAdd_crashes _ _ _
  · exact keyChange_crashes _ _ _
  · exact keyDelete_crashes _ _ _
  · exact headerDump_crashes _ _ _ _
  · exact headerRestore_crashes _ _ _
  · exact headerStrip_crashes _ _

/-! ### Concrete moments -/

/-- A machine with this disk. -/
def onDisk (w : World) (d : Disk) : World := { w with file := d.file, nextIno := d.nextIno, dir := d.dir }

/-- The disk after the first `k` calls and, if the next one is a write, `j` bytes of it. -/
def diskAt (es : List Ev) (k j : Nat) (d : Disk) : Disk :=
  match es[k]? with
  | some (.write i off bs) => effect (.write i off (bs.take j)) (effects (es.take k) d)
  | _ => effects (es.take k) d

theorem moment_diskAt (es : List Ev) (k j : Nat) (d : Disk) : Moment es d (diskAt es k j d) := by
  have h0 : Moment es d (effects (es.take k) d) := by
    have := (Moment.finish (es.take k) d).left (b := es.drop k)
    rwa [List.take_append_drop] at this
  unfold diskAt
  split
  · rename_i i off bs h
    obtain ⟨hk, he⟩ := List.getElem?_eq_some_iff.1 h
    have hd : es.drop k = Ev.write i off bs :: es.drop (k + 1) := by rw [← he]; exact (List.drop_eq_getElem_cons hk)
    have := Moment.right (a := es.take k) (b := es.drop k) (d := d) (d' := effect (.write i off (bs.take j)) (effects (es.take k) d)) (by
      rw [hd]; exact .inr (.inl ⟨j, rfl⟩))
    rwa [List.take_append_drop] at this
  · exact h0

/-- The machine stopped after `k` calls and `j` bytes of the next one. -/
def stopped {ε α : Type} (x : Prog ε α) (w : World) (k j : Nat) : World := onDisk w (diskAt (x w).2.log.reverse k j w.disk)

theorem stopped_at {ε α : Type} (x : Prog ε α) (w : World) (k j : Nat) (h : w.log = []) : StoppedAt x w (stopped x w k j) :=
  ⟨(x w).2.log.reverse, by unfold Calls; rw [h, List.reverse_reverse, List.append_nil], moment_diskAt _ _ _ _⟩

/-! ### C71 -/

/-- **C71, the moments are all there are.** Whatever a command does to the disk it does by the calls in the log: their effects, one after the other, lead from the disk before to the disk after. -/
theorem C71_complete (s : Sys σ) (cmd : Prog Error Unit) (h : Changing s cmd) (w : World) : ∃ es, Calls cmd w es ∧ (cmd w).2.disk = effects es w.disk := by
  obtain ⟨es, h1, h2, _⟩ := (h.crashes w).log
  exact ⟨es, h1, h2⟩

/-- **C71, a kill is a fault.** Whatever a command has left on the disk when it is stopped, it could have left there by running to its end on a machine where calls fail. -/
theorem C71_faults (s : Sys σ) (cmd : Prog Error Unit) (h : Changing s cmd) (w v : World) (hv : StoppedAt cmd w v) :
    ∃ sched r, ∃ w' : World, cmd { w with sched := sched } = (r, w') ∧ v.disk = w'.disk := h.crashes.stopped hv

theorem separate_withSched {cwd : Path} {input output : List Char} {header : Option (List Char)} {w : World} (s : List Io) (h : Separate cwd input output header w) :
    Separate cwd input output header (w.withSched s) :=
  ⟨fun q i hl => h.allocated q i hl, apart_congr (withSched_dir w s) h.out, fun hd e => ⟨apart_congr (withSched_dir w s) (h.hdr hd e).1, apart_congr (withSched_dir w s) (h.hdr hd e).2⟩⟩

theorem outputApart_withSched {cwd : Path} {input output : List Char} {header : Option (List Char)} {w : World} (s : List Io) (h : OutputApart cwd input output header w) :
    OutputApart cwd input output header (w.withSched s) :=
  ⟨fun q i hl => h.allocated q i hl, apart_congr (withSched_dir w s) h.inp, fun hd e => apart_congr (withSched_dir w s) (h.hdr hd e)⟩

/-- Without erasing the input is kept, whatever fails. -/
theorem encrypt_kept (s : Sys σ) (input output : List Char) (params : CryptoParams) (a : Algorithm) (w w' : World) (r : Res Cli.Error Unit) (q : Path) (i : Nat)
    (hm : params.erase = .ignoreFile) (hsep : Separate s.cwd input output params.header w) (hin : LeadsToFile w (toPath s.cwd input) q i)
    (he : encryptMode s input output params a w = (r, w')) : LeadsToFile w' (toPath s.cwd input) q i ∧ w'.file i = w.file i := by
  have hkeep : ∀ v, Trail (Targets s.cwd output params w) w v → v.file i = w.file i := by
    intro v ht
    refine ht.kept (hsep.allocated q i hin.look) ?_
    rintro x (⟨_, hx⟩ | ⟨hd, hhd, _, hx⟩) hl
    · exact hsep.out.2 q x i hin ⟨hx, hl⟩
    · exact (hsep.hdr hd hhd).1.2 q x i hin ⟨hx, hl⟩
  rcases encryptMode_cases s input output params a w he with ⟨h, _⟩ | ⟨u, q', i', secret, ht, hq, hsup, hp, h⟩
  · exact ⟨h.leads hin, hkeep _ h⟩
  · rcases h with ⟨_, _, rfl⟩ | ⟨⟨n, hn⟩, _⟩ | ⟨n, _, hn, _⟩
    · exact ⟨ht.leads hin, hkeep _ ht⟩
    · rw [hm] at hn; cases hn
    · rw [hm] at hn; cases hn

/-- **C71.** Stop the encrypt command at any moment, also in the middle of a write, whatever the user has typed and whatever calls have failed before (without short transfers): if input, output and
header file are different files, then the input is where it was with its content, or it was to be erased and the output (with the header file) decrypts to its content with the secret that the key
source supplied. -/
theorem C71_encrypt (s : Sys σ) (hC : s.C.Lawful) (input output : List Char) (params : CryptoParams) (a : Algorithm) (w v : World) (q : Path) (i : Nat)
    (hns : ∀ k, Io.short k ∉ w.sched) (hsep : Separate s.cwd input output params.header w) (hin : LeadsToFile w (toPath s.cwd input) q i)
    (hv : StoppedAt (encryptMode s input output params a) w v) :
    (LeadsToFile v (toPath s.cwd input) q i ∧ v.file i = w.file i) ∨
    (params.erase ≠ .ignoreFile ∧ ∃ secret, SuppliedTo s .validate params.key w secret ∧ Preserves s.C s.cwd output params.header secret (w.file i) q i v) := by
  rw [encryptMode_split] at hv
  rcases Crashes.stopped_bind (encryptMode_crashes _ _ _ _ _) (fun _ => eraseIf_crashes _ _ _ _) hv with hv | ⟨_, u, hu, hv⟩
  · obtain ⟨sc, r, w', he, hd⟩ := (encryptMode_crashes _ _ _ _ _).stopped hv
    obtain ⟨h1, h2⟩ := encrypt_kept s input output { params with erase := .ignoreFile } a _ _ r q i rfl (separate_withSched sc hsep) ((leads_withSched w sc _ _ _).2 hin) he
    exact .inl ⟨leads_disk hd h1, by rw [disk_file hd]; exact h2⟩
  · obtain ⟨q', i', secret, g1, g2, g3, g4⟩ := C48_success s hC input output { params with erase := .ignoreFile } a w u hns hsep hu
    rw [if_pos rfl] at g4
    obtain ⟨rfl, rfl⟩ := leads_unique hin g1
    obtain ⟨sc, r, w', he, hd⟩ := (eraseIf_crashes _ _ _ _).stopped hv
    by_cases hm : params.erase = .ignoreFile
    · rw [hm] at he
      obtain rfl : u.withSched sc = w' := congrArg Prod.snd he
      exact .inl ⟨leads_disk hd ((leads_withSched u sc _ _ _).2 g4.1), by rw [disk_file hd]; exact g4.2⟩
    · have hwp := eraseIf_wp s params.erase params.force input (u := u.withSched sc) (q := q) (i := i) ((leads_withSched u sc _ _ _).2 g4.1)
      unfold wp at hwp
      rw [he] at hwp
      exact .inr ⟨hm, secret, g2, preserves_disk hd (Cli.Preserves.erased (preserves_disk (World.withSched_disk u sc) g3) hwp)⟩

/-- **C71, what is touched.** At any moment of the encrypt command, under every schedule: a new file is at the output or header path, an existing file has other content only if it is there and the user
consented, or if it is the input and is to be erased; and nothing but such an input is gone. -/
theorem C71_encrypt_frame (s : Sys σ) (input output : List Char) (params : CryptoParams) (a : Algorithm) (w v : World) (hv : StoppedAt (encryptMode s input output params a) w v) :
    Changes (Targets s.cwd output params w) (fun q i => params.erase ≠ .ignoreFile ∧ LeadsToFile w (toPath s.cwd input) q i) w v := by
  obtain ⟨sc, r, w', he, hd⟩ := (encryptMode_crashes _ _ _ _ _).stopped hv
  have := C46_encrypt s input output params a _ _ r he
  rw [targets_withSched] at this
  simp only [leads_withSched] at this
  exact changes_disk hd ⟨this.look, this.files⟩

/-- The erasing encrypt command, stopped in the middle of writing the output (the input is still there), and when the input has been emptied (the output is complete). -/
def exStopped (k j : Nat) : World := stopped (encryptMode exSys ['z'] ['o'] exErasing .aes256Gcm) (exWorld [] []) k j

example : StoppedAt (encryptMode exSys ['z'] ['o'] exErasing .aes256Gcm) (exWorld [] []) (exStopped 2 7) ∧ (exStopped 2 7).look [['z']] = some (.file 2) ∧
    (exStopped 2 7).file 2 = [1, 2, 3] ∧ ((exStopped 2 7).file 1000).length = 423 ∧
    (exStopped 4 0).look [['z']] = some (.file 2) ∧ (exStopped 4 0).file 2 = [] ∧ ((exStopped 4 0).file 1000).length = 435 ∧ (exStopped 9 0).look [['z']] = none :=
  ⟨stopped_at _ _ _ _ rfl, by decide +kernel, by decide +kernel, by decide +kernel, by decide +kernel, by decide +kernel, by decide +kernel, by decide +kernel⟩

/-! ### C72 -/

/-- **C72.** The decrypt command, stopped at any moment: the encrypted input is where it was with its content, or it was to be erased and the output holds exactly its plaintext. -/
theorem C72_decrypt (s : Sys σ) (hC : s.C.Lawful) (input output : List Char) (params : CryptoParams) (w v : World) (q : Path) (i : Nat)
    (hns : ∀ k, Io.short k ∉ w.sched) (hsep : OutputApart s.cwd input output params.header w) (hin : LeadsToFile w (toPath s.cwd input) q i)
    (hv : StoppedAt (decryptMode s input output params) w v) :
    (LeadsToFile v (toPath s.cwd input) q i ∧ v.file i = w.file i) ∨
    (params.erase ≠ .ignoreFile ∧ ∃ secret, SuppliedTo s .direct params.key w secret ∧ Restores s.C s.cwd output params.header secret (w.file i) q i w v) := by
  have kept : ∀ (w w' : World) (r : Res Cli.Error Unit), OutputApart s.cwd input output params.header w → LeadsToFile w (toPath s.cwd input) q i →
      decryptMode s input output { params with erase := .ignoreFile } w = (r, w') → LeadsToFile w' (toPath s.cwd input) q i ∧ w'.file i = w.file i := by
    intro w w' r hsep hin he
    have hkeep : ∀ v, Trail (OutputPlace s.cwd params.force output w) w v → v.file i = w.file i := fun v ht => output_kept hsep.allocated ht hsep.inp hin
    rcases decryptMode_cases s input output _ w he with ⟨h, _⟩ | ⟨u, q', i', secret, ht, hq, hsup, hp, h⟩
    · exact ⟨h.leads hin, hkeep _ h⟩
    · rcases h with ⟨_, _, rfl⟩ | ⟨⟨n, hn⟩, _⟩ | ⟨n, _, hn, _⟩
      · exact ⟨ht.leads hin, hkeep _ ht⟩
      · cases hn
      · cases hn
  rw [decryptMode_split] at hv
  rcases Crashes.stopped_bind (decryptMode_crashes _ _ _ _) (fun _ => eraseIf_crashes _ _ _ _) hv with hv | ⟨_, u, hu, hv⟩
  · obtain ⟨sc, r, w', he, hd⟩ := (decryptMode_crashes _ _ _ _).stopped hv
    obtain ⟨h1, h2⟩ := kept _ _ r (outputApart_withSched sc hsep) ((leads_withSched w sc _ _ _).2 hin) he
    exact .inl ⟨leads_disk hd h1, by rw [disk_file hd]; exact h2⟩
  · obtain ⟨q', i', secret, g1, g2, g3⟩ := C59_success s hC input output { params with erase := .ignoreFile } w u hns hsep hu
    have g4 := kept w u _ hsep hin hu
    obtain ⟨rfl, rfl⟩ := leads_unique hin g1
    obtain ⟨sc, r, w', he, hd⟩ := (eraseIf_crashes _ _ _ _).stopped hv
    by_cases hm : params.erase = .ignoreFile
    · rw [hm] at he
      obtain rfl : u.withSched sc = w' := congrArg Prod.snd he
      exact .inl ⟨leads_disk hd ((leads_withSched u sc _ _ _).2 g4.1), by rw [disk_file hd]; exact g4.2⟩
    · have hwp := eraseIf_wp s params.erase params.force input (u := u.withSched sc) (q := q) (i := i) ((leads_withSched u sc _ _ _).2 g4.1)
      unfold wp at hwp
      rw [he] at hwp
      exact .inr ⟨hm, secret, g2, restores_disk hd (Cli.Restores.erased (restores_disk (World.withSched_disk u sc) g3) hwp)⟩

/-- **C72, what is touched.** At any moment of the decrypt command only the output path, with the user's consent if something was there, and an input to be erased are touched. -/
theorem C72_decrypt_frame (s : Sys σ) (input output : List Char) (params : CryptoParams) (w v : World) (hv : StoppedAt (decryptMode s input output params) w v) :
    Changes (OutputPlace s.cwd params.force output w) (fun q i => params.erase ≠ .ignoreFile ∧ LeadsToFile w (toPath s.cwd input) q i) w v := by
  obtain ⟨sc, r, w', he, hd⟩ := (decryptMode_crashes _ _ _ _).stopped hv
  have := C46_decrypt s input output params _ _ r he
  rw [outputPlace_withSched] at this
  simp only [leads_withSched] at this
  exact changes_disk hd ⟨this.look, this.files⟩

/-- A decrypt command that erases the encrypted file, stopped when the plaintext is half there and when the encrypted file is empty. -/
def exDecStopped (k j : Nat) : World := stopped (decryptMode exSys ['z'] ['o'] exErasing) (exArchiveWorld [] [⟨['x'], [9]⟩]) k j

example : StoppedAt (decryptMode exSys ['z'] ['o'] exErasing) (exArchiveWorld [] [⟨['x'], [9]⟩]) (exDecStopped 1 2) ∧ (exDecStopped 1 2).file 1000 = [1, 0] ∧
    (exDecStopped 1 2).file 2 = exSealed (Example.toyZip.encode [⟨['x'], [9]⟩]) ∧ (exDecStopped 1 2).look [['z']] = some (.file 2) ∧
    (exDecStopped 3 0).file 2 = [] ∧ (exDecStopped 3 0).file 1000 = Example.toyZip.encode [⟨['x'], [9]⟩] :=
  ⟨stopped_at _ _ _ _ rfl, by decide +kernel, by decide +kernel, by decide +kernel, by decide +kernel, by decide +kernel⟩

/-! ### C73 -/

theorem treeOk_withSched {w : World} (s : List Io) (h : TreeOk w) : TreeOk (w.withSched s) := ⟨h.distinct, fun k n hk => ⟨(h.parents k n hk).1, (h.parents k n hk).2⟩⟩

theorem inSource_withSched (cwd : Path) (inputs : List (List Char)) (w : World) (s : List Io) : InSource cwd inputs (w.withSched s) = InSource cwd inputs w := by
  funext x
  refine propext ⟨?_, ?_⟩
  · rintro ⟨f, hf, T, hT, hx⟩
    exact ⟨f, hf, T, ⟨by rw [← Crashes.resolve_withSched w s]; exact hT.resolve, hT.look⟩, hx⟩
  · rintro ⟨f, hf, T, hT, hx⟩
    exact ⟨f, hf, T, ⟨by rw [Crashes.resolve_withSched]; exact hT.resolve, hT.look⟩, hx⟩

theorem beside_withSched {cwd : Path} {inputs : List (List Char)} {w : World} (s : List Io) {p : PathBuf} (h : Beside cwd inputs w p) : Beside cwd inputs (w.withSched s) p := by
  intro q hq
  rw [Crashes.resolve_withSched] at hq
  rw [inSource_withSched]
  exact h q hq

theorem outside_withSched {cwd : Path} {inputs : List (List Char)} {output : List Char} {header : Option (List Char)} {w : World} (s : List Io) (h : Outside cwd inputs output header w) :
    Outside cwd inputs output header (w.withSched s) :=
  ⟨fun q i hl => h.allocated q i hl, beside_withSched s h.out, fun hd e => ⟨beside_withSched s (h.hdr hd e).1, apart_congr (withSched_dir w s) (h.hdr hd e).2⟩⟩

theorem intact_disk {cwd : Path} {inputs : List (List Char)} {w v v' : World} (h : v'.disk = v.disk) (hi : Intact cwd inputs w v) : Intact cwd inputs w v' := by
  intro x hx n hn
  rw [World.look_congr (disk_dir h), disk_file h]
  exact hi x hx n hn

theorem keptAt_disk {cwd : Path} {inputs : List (List Char)} {p : PathBuf} {w v v' : World} {i : Nat} (h : v'.disk = v.disk) (hk : KeptAt cwd inputs p w v i) : KeptAt cwd inputs p w v' i := by
  obtain ⟨q, h1, h2, h3, h4⟩ := hk
  have hl : ∀ q, v'.look q = v.look q := fun q => World.look_congr (disk_dir h) q
  exact ⟨q, h1, h2, by rw [hl]; exact h3, fun x hx => by rw [hl]; exact h4 x hx⟩

theorem keeps_disk {C : Crypto} {cwd : Path} {inputs : List (List Char)} {output : List Char} {header : Option (List Char)} {secret p : Bytes} {w v v' : World} (h : v'.disk = v.disk)
    (hk : Spec.Keeps C cwd inputs output header secret p w v) : Spec.Keeps C cwd inputs output header secret p w v' := by
  obtain ⟨j, h1, h2⟩ := hk
  refine ⟨j, keptAt_disk h h1, ?_⟩
  cases header with
  | none => rw [disk_file h]; exact h2
  | some hd =>
    obtain ⟨k, h3, h4⟩ := h2
    exact ⟨k, keptAt_disk h h3, by rw [disk_file h]; exact h4⟩

/-- Without erasing the sources are kept, whatever fails. -/
theorem pack_kept (s : Sys σ) (inputs : List (List Char)) (output : List Char) (params : CryptoParams) (a : Algorithm) (w w' : World) (r : Res Error Unit)
    (ht : TreeOk w) (ho : Outside s.cwd inputs output params.header w) (he : packMode s inputs output ⟨false⟩ params a w = (r, w')) : Intact s.cwd inputs w w' := by
  rcases packMode_cases s inputs output ⟨false⟩ params a w w' r ht he with ⟨h, _⟩ | ⟨u, secret, h, hs, hA, ⟨_, _, rfl⟩ | ⟨h1, _⟩⟩
  · exact intact_of_trail ho h
  · exact intact_of_trail ho h
  · cases h1

/-- **C73.** The pack command, stopped at any moment, also in the middle of a write and in the middle of erasing a directory: everything below the inputs is as it was, or it was to be erased, the user agreed, and
the output (with the header file) decrypts, with the secret that the key source supplied, to an archive of every directory and of every file with its content. -/
theorem C73_pack (s : Sys σ) (hC : s.C.Lawful) (inputs : List (List Char)) (output : List Char) (pp : PackParams) (params : CryptoParams) (a : Algorithm) (w v : World)
    (hns : ∀ k, Io.short k ∉ w.sched) (ht : TreeOk w) (ho : Outside s.cwd inputs output params.header w) (hv : StoppedAt (packMode s inputs output pp params a) w v) :
    Intact s.cwd inputs w v ∨
    (pp.eraseSource = true ∧ EraseConsent params.force w ∧ ∃ secret l, SuppliedTo s .validate params.key w secret ∧ Archives s.cwd inputs w l ∧ Readable s.z l ∧
      Spec.Keeps s.C s.cwd inputs output params.header secret (s.z.encode l) w v) := by
  have first : StoppedAt (packMode s inputs output ⟨false⟩ params a) w v → Intact s.cwd inputs w v := by
    intro hv
    obtain ⟨sc, r, w', he, hd⟩ := (packMode_crashes _ _ _ _ _ _).stopped hv
    have := pack_kept s inputs output params a _ _ r (treeOk_withSched sc ht) (outside_withSched sc ho) he
    refine intact_disk hd fun x hx n hn => this x (by rw [inSource_withSched]; exact hx) n hn
  rcases pp with ⟨_ | _⟩
  · exact .inl (first hv)
  · rw [packMode_split] at hv
    rcases Crashes.stopped_bind (packMode_crashes _ _ _ _ _ _) (fun _ => eraseInputs_crashes _ _ _) hv with hv | ⟨_, u, hu, hv⟩
    · exact .inl (first hv)
    · have hwp := packMode_wp s inputs output ⟨false⟩ params a w ht
      unfold wp at hwp
      rw [hu] at hwp
      rcases hwp with ⟨_, h⟩ | ⟨u', secret, h1, h2, h3, h4, h5, h6⟩
      · exact absurd rfl h
      · cases h6
        obtain ⟨sc, r, w', he, hd⟩ := (eraseInputs_crashes _ _ _).stopped hv
        have hnf : ∀ f ∈ inputs, ∀ q i, ¬ LeadsToFile (u.withSched sc) (toPath s.cwd f) q i := by
          intro f hf q i hq
          have hq := (leads_withSched u sc _ _ _).1 hq
          obtain ⟨T, hT⟩ := h3 f hf
          have hr := (h1.resolves _ _).1 hq.resolve
          rw [hT.resolve] at hr; cases hr
          have := trail_dir h1 hT.look
          rw [hq.look] at this; cases this
        obtain ⟨r2, w2, e1, e2, e3, _⟩ := eraseInputs_cases s params.force inputs _ (treeOk_withSched sc h2) hnf
        rw [he] at e1
        cases e1
        by_cases hsame : SameFiles (u.withSched sc) w'
        · left
          refine intact_disk hd fun x hx n hn => ?_
          rw [World.look_congr hsame.2, hsame.1]
          exact intact_of_trail ho h1 x hx n hn
        · obtain ⟨l, hl, hr, hk⟩ := h5 hC hns ho
          refine .inr ⟨rfl, eraseConsent_trail h1 (e3 hsame), secret, l, h4, hl, hr, keeps_disk hd ?_⟩
          rw [inSource_withSched] at e2
          exact keeps_erased (keeps_disk (World.withSched_disk u sc) hk) (e2.mono fun x => (inSource_trail h1 x).1)

/-- The erasing pack command, stopped when the plaintext archive is in the temporary file (the sources are there, and so is the archive, in the clear), and stopped when the first source is empty (the archive is
complete and encrypted). -/
def exPackStopped (k j : Nat) : World := stopped (packMode exPackSys [['a']] ['o'] { eraseSource := true } exParams .aes256Gcm) (exWorld ["y\n"] []) k j

example : StoppedAt (packMode exPackSys [['a']] ['o'] { eraseSource := true } exParams .aes256Gcm) (exWorld ["y\n"] []) (exPackStopped 4 100) ∧
    Outside exPackSys.cwd [['a']] ['o'] exParams.header (exWorld ["y\n"] []) ∧ TreeOk (exWorld ["y\n"] []) ∧
    (exPackStopped 4 100).look [['a'], ['x']] = some (.file 0) ∧ (exPackStopped 4 100).file 0 = [1, 2, 3] ∧ ((exPackStopped 4 100).file 1000).length = 416 + 64 ∧ ((exPackStopped 4 100).file 1001).length = 48 ∧
    (exPackStopped 4 9).file 1000 ≠ (exPackStopped 5 0).file 1000 ∧ ((exPackStopped 4 9).file 1000).length = 425 ∧
    (exPackStopped 9 0).look [['a'], ['x']] = some (.file 0) ∧ (exPackStopped 9 0).file 1 = [] ∧ ((exPackStopped 9 0).file 1000).length = 480 :=
  ⟨stopped_at _ _ _ _ rfl, exPack_outside _ _, exWorld_tree _ _, by decide +kernel, by decide +kernel, by decide +kernel, by decide +kernel, by decide +kernel, by decide +kernel, by decide +kernel, by decide +kernel,
    by decide +kernel⟩

/-! ### C74 -/

/-- **C74.** The unpack command, stopped at any moment, whatever the archive contains and whatever the user answers: a path at which something has changed lies in the output directory, or is a
directory on the way to it that was missing, or a new file in the directory for temporary files; a file that has other content than before was in the output directory; and everything that was there
still is. -/
theorem C74_unpack (s : Sys σ) (input output : List Char) (verbose : Bool) (params : CryptoParams) (w v : World) (hst : w.look (toPath s.cwd output).start = some .dir)
    (hv : StoppedAt (unpackMode s input output verbose params) w v) :
    (∀ q, v.look q ≠ w.look q → (TempPlace s.tmp q ∧ w.look q = none) ∨ onPaper (toPath s.cwd output) <+: q ∨
      (OnTheWay (toPath s.cwd output) q ∧ w.look q = none ∧ v.look q = some .dir)) ∧
    (∀ j, j < w.nextIno → v.file j ≠ w.file j → ∃ q, onPaper (toPath s.cwd output) <+: q ∧ w.look q = some (.file j)) ∧
    (∀ q n, w.look q = some n → v.look q = some n) := by
  obtain ⟨sc, r, w', he, hd⟩ := (unpackMode_crashes _ _ _ _ _).stopped hv
  obtain ⟨h1, h2, h3⟩ := C69_inside s input output verbose params (w.withSched sc) _ r hst he
  have hl : ∀ q, v.look q = w'.look q := fun q => World.look_congr (disk_dir hd) q
  exact ⟨fun q hq => by rw [hl] at hq ⊢; exact h1 q hq, fun j hj hne => by rw [disk_file hd] at hne; exact h2 j hj hne, fun q n hq => by rw [hl]; exact h3 q n hq⟩


/-- The unpack command, stopped when the second of the two members is created and not written. -/
def exUnpackStopped (k j : Nat) : World :=
  stopped (unpackMode exSys ['z'] ['a'] false exParams) (exArchiveWorld ["n"] [⟨['x'], [9]⟩, ⟨['d', '/'], []⟩, ⟨['d', '/', 'f'], [8]⟩]) k j


example : StoppedAt (unpackMode exSys ['z'] ['a'] false exParams) (exArchiveWorld ["n"] [⟨['x'], [9]⟩, ⟨['d', '/'], []⟩, ⟨['d', '/', 'f'], [8]⟩]) (exUnpackStopped 4 0) ∧
    (exArchiveWorld ["n"] [⟨['x'], [9]⟩, ⟨['d', '/'], []⟩, ⟨['d', '/', 'f'], [8]⟩]).look (toPath exSys.cwd ['a']).start = some .dir ∧
    (exUnpackStopped 4 0).look [['a'], ['d'], ['f']] = some (.file 1001) ∧ (exUnpackStopped 4 0).file 1001 = [] ∧ (exUnpackStopped 5 0).file 1001 = [8] ∧ ((exUnpackStopped 4 0).file 1000).length = 22 :=
  ⟨stopped_at _ _ _ _ rfl, by decide +kernel, by decide +kernel, by decide +kernel, by decide +kernel, by decide +kernel⟩

end Volaris.Props
