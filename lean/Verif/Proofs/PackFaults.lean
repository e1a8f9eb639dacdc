import Verif.Proofs.Prunes
import Verif.Proofs.EncryptCmd
import Verif.Proofs.Pack
/-!
# Packing when calls may fail: what a successful run has written
-/
namespace Volaris.Pack
open Spec

/-- The state that packing ends in, under every schedule. -/
theorem execute_mid (C : Crypto) (z : Zip) (tmp : PathBuf) (req : Request) (w : World) :
    (∃ s, s <:+ w.sched ∧ w.resolve (tempPath tmp w) = .ok (onPaper (tempPath tmp w)) ∧ w.look (onPaper (tempPath tmp w)) = none ∧
      execute C z tmp req w = afterTemp C z req (tempPath tmp w) w.nextFd (Unpack.withTemp tmp w s) ∧
      Mid w (Unpack.withTemp tmp w s) (onPaper (tempPath tmp w)) (w.nextFd :: packWriters req) (execute C z tmp req w).2) ∨
    (∃ s, s <:+ w.sched ∧ execute C z tmp req w = (.err .createArchive, { w.draw 16 with sched := s })) := by
  rcases execute_split C z tmp req w with ⟨s, hss, hr, hl, he⟩ | ⟨s, hss, he, -⟩
  · refine .inl ⟨s, hss, hr, hl, he, ?_⟩
    rw [he]
    have hne : onPaper (tempPath tmp w) ≠ [] := by intro h; rw [h, World.look_nil] at hl; cases hl
    have h0 : Mid w (Unpack.withTemp tmp w s) (onPaper (tempPath tmp w)) (w.nextFd :: packWriters req) (Unpack.withTemp tmp w s) := by
      refine ⟨fun _ => rfl, fun _ _ => rfl, .inr ?_, fun _ _ => rfl, rfl, rfl, rfl, rfl, rfl⟩
      show ((({ w.draw 16 with sched := s } : World).created (onPaper (tempPath tmp w))).opened w.nextIno).look _ = _
      rw [World.look_opened, World.look_created, if_neg hne, if_pos rfl]
      rfl
    unfold afterTemp
    refine Keeps.bind (.within (R := handles req.compressFiles) (writeArchive_within z _ (fun _ h => h) List.mem_cons_self)) (fun _ => ?_) _ h0
    refine Keeps.bind (.within (R := []) (.mapErr _ (fileLen_within _ _ _))) fun cap => ?_
    refine Keeps.bind (.within (R := [w.nextFd]) (.attempt (.mapErr _ ?_))) fun er => ?_
    · refine within_mono (encrypt_within C (encryptRequest req w.nextFd)) (fun _ h => h) fun h hh => ?_
      rw [encryptRequest_writers] at hh
      exact List.mem_cons_of_mem _ hh
    refine Keeps.bind (.within (R := []) (.attempt ?_)) fun _ => ?_
    · exact within_mono (Unpack.overwrite_within w.nextFd cap 2) (fun _ h => h) fun h hh => by
        rw [List.mem_singleton.1 hh]; exact List.mem_cons_self
    refine Keeps.bind (fun u hu => ?_) fun _ => fun u hu => hu
    rw [attempt_snd]
    exact hu.removeFile List.mem_cons_self rfl
  · exact .inr ⟨s, hss, he⟩

theorem removeFile_shrinks (p : PathBuf) (t : Nat) : Shrinks (Storage.removeFile (.file p t)) := by
  unfold Storage.removeFile Storage.emptyFile
  refine .bind (.bind (.mapErr _ (.setLen0 t)) fun _ => .mapErr _ (.flush t)) fun _ => .mapErr _ fun w => ?_
  rcases Unpack.unlink_any p w with ⟨q, i, s, hs, hr, hl, he⟩ | ⟨e, s, hs, he⟩ <;> rw [Storage.Entry.path, he] <;> exact hs

theorem afterTemp_shrinks (C : Crypto) (z : Zip) (req : Request) (p : PathBuf) (t : Nat) : Shrinks (afterTemp C z req p t) := by
  unfold afterTemp
  refine .bind (writeArchive_shrinks z t _) fun _ => .bind (.mapErr _ ?_) fun cap => .bind (.attempt (.mapErr _ (.encrypt _ _))) fun er =>
    .bind (.attempt (Overwrite.execute_shrinks t cap 2)) fun _ => .bind (.attempt (removeFile_shrinks p t)) fun _ => .lift _
  unfold Storage.fileLen
  exact .bind (.lift _) fun _ => .mapErr _ (.fileLen _)

theorem execute_shrinks (C : Crypto) (z : Zip) (tmp : PathBuf) (req : Request) : Shrinks (execute C z tmp req) := by
  intro w
  rcases execute_split C z tmp req w with ⟨s, hss, -, -, he⟩ | ⟨s, hss, he, -⟩
  · rw [he]
    exact (afterTemp_shrinks C z req _ _ _).trans hss
  · rw [he]; exact hss

/-! ### The content, when there are no short transfers -/

theorem _root_.Volaris.NoShort.suffix {s s' : List Io} (h : NoShort s) (hs : s' <:+ s) : NoShort s' := fun k hk => h k (hs.subset hk)

theorem readFile_ok (h : Nat) : ∀ fuel got {w w' : World} {c : Bytes}, NoShort w.sched → readFile h fuel got w = (.ok c, w') → c = got ++ w.rest h := by
  intro fuel
  induction fuel with
  | zero =>
    intro got w w' c hns hx
    unfold readFile at hx
    rcases read_spec h BLOCK_SIZE w with ⟨k, w1, he, -, -, -⟩ | ⟨e, w1, he, -⟩
    · have hb := read_noShort hns he
      rw [Prog.bind_ok (Prog.mapErr_ok he)] at hx
      rcases sysRetry_cases w1 with ⟨s, hs, he2⟩ | ⟨s, e, hs, hn, he2⟩
      · rw [Prog.bind_ok (Prog.mapErr_ok he2)] at hx
        split at hx
        · next hl =>
          cases hx
          rw [hb] at hl ⊢
          rw [List.take_of_length_le (by rw [List.length_take] at hl; omega)]
        · cases hx
      · rw [Prog.bind_err (Prog.mapErr_err he2)] at hx; cases hx
    · rw [Prog.bind_err (Prog.mapErr_err he)] at hx; cases hx
  | succ fuel ih =>
    intro got w w' c hns hx
    unfold readFile at hx
    rcases read_spec h BLOCK_SIZE w with ⟨k, w1, he, -, -, hc⟩ | ⟨e, w1, he, -⟩
    · have hb := read_noShort hns he
      have hs1 : w1.sched <:+ w.sched := by have := Shrinks.read h BLOCK_SIZE w; rw [he] at this; exact this
      rw [Prog.bind_ok (Prog.mapErr_ok he)] at hx
      rcases sysRetry_cases w1 with ⟨s, hs, he2⟩ | ⟨s, e, hs, hn, he2⟩
      · rw [Prog.bind_ok (Prog.mapErr_ok he2)] at hx
        rw [hb] at hx
        split at hx
        · next hl =>
          cases hx
          rw [List.take_of_length_le (by rw [List.length_take] at hl; omega)]
        · next hl =>
          have hl := Classical.not_not.1 hl
          have := ih _ (hns.suffix (hs.trans hs1)) hx
          rw [this, List.append_assoc]
          congr 1
          have hr : ({ w1 with sched := s } : World).rest h = (w.adv h BLOCK_SIZE).rest h := by
            have := World.rest_of_core hc h
            rw [hb, hl] at this
            exact this
          rw [hr, World.rest_adv, List.take_append_drop]
      · rw [Prog.bind_err (Prog.mapErr_err he2)] at hx; cases hx
    · rw [Prog.bind_err (Prog.mapErr_err he)] at hx; cases hx

theorem mapErr_eq_ok {ε ε' α : Type} {x : Prog ε α} {f : ε → ε'} {w w' : World} {a : α} (h : (x.mapErr f) w = (.ok a, w')) : x w = (.ok a, w') := by
  rw [Prog.mapErr_run] at h
  rcases hx : x w with ⟨r, w1⟩
  rw [hx] at h
  cases r with
  | ok b => cases h; rfl
  | err e => cases h
  | abort b => cases h

theorem bind_eq_ok {ε α β : Type} {x : Prog ε α} {f : α → Prog ε β} {w w' : World} {b : β} (h : (x >>= f) w = (.ok b, w')) :
    ∃ a w1, x w = (.ok a, w1) ∧ f a w1 = (.ok b, w') := by
  rw [Prog.bind_run] at h
  rcases hx : x w with ⟨r, w1⟩
  rw [hx] at h
  cases r with
  | ok a => exact ⟨a, w1, rfl, h⟩
  | err e => cases h
  | abort a => cases h

theorem startEntry_ok {z : Zip} {done : List ZipEntry} {name : List Char} {w w' : World} (h : startEntry z done name w = (.ok (), w')) :
    (∃ s, s <:+ w.sched ∧ w' = { w with sched := s }) ∧ (Readable z done → ∀ c, Readable z (done ++ [{ name := name, content := c }])) := by
  unfold startEntry at h
  split at h
  · cases h
  · next hc =>
    have hc : name ∉ done.map (·.name) ∧ z.storable name = true := by
      simpa [List.contains_iff_mem] using hc
    have hr : Readable z done → ∀ c, Readable z (done ++ [{ name := name, content := c }]) := by
      rintro ⟨h1, h2⟩ c
      refine ⟨?_, fun e he => ?_⟩
      · rw [List.map_append]
        refine List.nodup_append.2 ⟨h1, by simp, fun a ha b hb => ?_⟩
        have hb : b = name := by simpa using hb
        rw [hb]
        rintro rfl
        exact hc.1 ha
      · rcases List.mem_append.1 he with he | he
        · exact h2 e he
        · rw [List.mem_singleton.1 he]; exact hc.2
    rcases sysRetry_cases w with ⟨s, hs, he2⟩ | ⟨s, e, hs, hn, he2⟩
    · rw [Prog.mapErr_ok he2] at h; cases h; exact ⟨⟨s, hs, rfl⟩, hr⟩
    · rw [Prog.mapErr_err he2] at h; cases h

theorem addEntry_ok {z : Zip} {done l : List ZipEntry} {f : Storage.Entry} {w w' : World} (hns : NoShort w.sched) (h : addEntry z done f w = (.ok l, w')) :
    l = done ++ [stored w f] ∧ (Readable z done → Readable z l) := by
  cases f with
  | dir p =>
    obtain ⟨a, w1, h1, h2⟩ := bind_eq_ok h
    obtain ⟨-, hr⟩ := startEntry_ok (mapErr_eq_ok h1)
    cases h2; exact ⟨rfl, fun h => hr h _⟩
  | file p x =>
    obtain ⟨a, w1, h1, h2⟩ := bind_eq_ok h
    obtain ⟨c, w2, h3, h4⟩ := bind_eq_ok h2
    obtain ⟨⟨s, hs, rfl⟩, hr⟩ := startEntry_ok (mapErr_eq_ok h1)
    have := readFile_ok x _ _ (w := { w with sched := s }) (hns.suffix hs) (mapErr_eq_ok h3)
    cases h4
    exact ⟨by rw [this]; rfl, fun h => hr h _⟩

theorem addAll_ok (z : Zip) : ∀ (fs : List Storage.Entry) (done : List ZipEntry) {l : List ZipEntry} {w w' : World}, NoShort w.sched → (handles fs).Nodup →
    addAll z fs done w = (.ok l, w') → l = done ++ fs.map (stored w) ∧ (Readable z done → Readable z l) := by
  intro fs
  induction fs with
  | nil => intro done l w w' _ _ h; cases h; simp
  | cons f fs ih =>
    intro done l w w' hns hnd hrun
    unfold addAll at hrun
    obtain ⟨l1, w1, h1, h2⟩ := bind_eq_ok hrun
    obtain ⟨hl1, hr1⟩ := addEntry_ok hns h1
    have ht : Touches (handles [f]) [] w w1 := by
      have := addEntry_within (R := handles [f]) (W := []) z done f (fun p h he => by subst he; simp [handles]) w
      rw [h1] at this; exact this
    have hsh : w1.sched <:+ w.sched := by have := addEntry_shrinks z done f w; rw [h1] at this; exact this
    have hsame : fs.map (stored w1) = fs.map (stored w) := by
      apply List.map_congr_left
      intro g hg
      cases g with
      | dir p => rfl
      | file p h =>
        show ({ name := _, content := w1.rest h } : ZipEntry) = { name := _, content := w.rest h }
        have hx : h ∉ handles [f] := by
          intro hm
          cases f with
          | dir p' => simp [handles] at hm
          | file p' h' =>
            have hm : h = h' := by simpa [handles] using hm
            subst hm
            have : (h :: handles fs).Nodup := hnd
            exact (List.nodup_cons.1 this).1 (mem_handles.2 ⟨p, hg⟩)
        unfold World.rest World.data
        rw [ht.fds h hx (by simp), ht.files _ (by simp)]
    obtain ⟨this, hr2⟩ := ih l1 (hns.suffix hsh) (by
      cases f with
      | dir p => exact hnd
      | file p h => exact (List.nodup_cons.1 (show (h :: handles fs).Nodup from hnd)).2) h2
    refine ⟨?_, fun h => hr2 (hr1 h)⟩
    rw [this, hl1, hsame]
    simp

theorem attempt_eq_ok {ε ε' α : Type} {x : Prog ε α} {w w' : World} {r : Res ε α} (h : (Prog.attempt x : Prog ε' _) w = (.ok r, w')) : x w = (r, w') := by
  unfold Prog.attempt at h
  rcases hx : x w with ⟨r1, w1⟩
  rw [hx] at h
  cases r1 with
  | ok a => cases h; rfl
  | err e => cases h; rfl
  | abort a => cases h

/-- A successful run once the temporary file is open: the archive has been encrypted, and the files other than the temporary one are as the encryption left them. -/
theorem afterTemp_ok {C : Crypto} {z : Zip} {req : Request} {p : PathBuf} {t : Nat} {v w' : World} (hns : NoShort v.sched) (hpos : (v.fd t).pos = 0) (hd : v.data t = [])
    (ht : t ∉ handles req.compressFiles) (hnd : (handles req.compressFiles).Nodup) (h : afterTemp C z req p t v = (.ok (), w')) :
    ∃ v2 v3, Touches (handles req.compressFiles) [t] v v2 ∧ NoShort v2.sched ∧ v2.data t = z.encode (req.compressFiles.map (stored v)) ∧
      Encrypt.execute C (encryptRequest req t) v2 = (.ok (), v3) ∧ (∀ j, j ≠ (v.fd t).ino → w'.file j = v3.file j) ∧ Readable z (req.compressFiles.map (stored v)) := by
  unfold afterTemp at h
  obtain ⟨_, v2, h1, h⟩ := bind_eq_ok h
  obtain ⟨cap, v2', h2, h⟩ := bind_eq_ok h
  obtain ⟨er, v3, h3, h⟩ := bind_eq_ok h
  obtain ⟨r4, v4, h4, h⟩ := bind_eq_ok h
  obtain ⟨r5, v5, h5, h⟩ := bind_eq_ok h
  have hw : Touches (handles req.compressFiles) [t] v v2 := by
    have := writeArchive_within (R := handles req.compressFiles) (W := [t]) z req.compressFiles (fun _ h => h) (List.mem_singleton.2 rfl) v
    rw [h1] at this; exact this
  have hs2 : v2.sched <:+ v.sched := by have := writeArchive_shrinks z t req.compressFiles v; rw [h1] at this; exact this
  have ⟨hdata, hread⟩ : v2.data t = z.encode (req.compressFiles.map (stored v)) ∧ Readable z (req.compressFiles.map (stored v)) := by
    unfold writeArchive at h1
    obtain ⟨ra, va, ha, h1⟩ := bind_eq_ok h1
    have ha := attempt_eq_ok ha
    have hta : Touches (handles req.compressFiles) [] v va := by
      have := addAll_within (R := handles req.compressFiles) (W := []) z req.compressFiles [] (fun _ h => h) v
      rw [ha] at this; exact this
    cases ra with
    | ok l =>
      obtain ⟨hl, hr⟩ := addAll_ok z _ _ hns hnd ha
      rw [List.nil_append] at hl
      subst hl
      refine ⟨?_, hr ⟨List.nodup_nil, by simp⟩⟩
      change ((writeAll t (z.encode (req.compressFiles.map (stored v)))).mapErr fun _ => Error.finishArchive) va = _ at h1
      rcases writeAll_spec t (z.encode (req.compressFiles.map (stored v))) va with ⟨u, hu, hc⟩ | ⟨e, k, u, _, hu, _⟩
      · rw [Prog.mapErr_ok hu] at h1
        cases h1
        rw [World.data_of_core hc]
        have hfd : va.fd t = v.fd t := hta.fds t ht (by simp)
        have h4 := World.put_file_same va t (z.encode (req.compressFiles.map (stored v)))
        rw [hfd, hpos, show va.file (v.fd t).ino = [] from (hta.files _ (by simp)).trans hd, writeAt_zero] at h4
        unfold World.data
        rw [show ((va.put t (z.encode (req.compressFiles.map (stored v)))).fd t).ino = (va.fd t).ino from by simp [World.put], hfd, h4]
        simp
      · rw [Prog.mapErr_err hu] at h1; cases h1
    | err x =>
      obtain ⟨e, l⟩ := x
      obtain ⟨_, _, _, h1⟩ := bind_eq_ok h1
      cases h1
    | abort a => cases h1
  have h2' := fileLen_within (handles req.compressFiles) [t] (.file p t) v2
  have hc2 : v2'.file = v2.file ∧ v2'.fd = v2.fd ∧ v2'.sched <:+ v2.sched := by
    have hx := mapErr_eq_ok h2
    unfold Storage.fileLen at hx
    obtain ⟨a, u, g1, g2⟩ := bind_eq_ok hx
    cases g1
    have g2 := mapErr_eq_ok g2
    unfold Volaris.fileLen at g2
    obtain ⟨a, u, g3, g4⟩ := bind_eq_ok g2
    rcases sys_cases v2 with ⟨s, hs, he⟩ | ⟨s, e, hs, hn, he⟩
    · rw [he] at g3; cases g3; cases g4; exact ⟨rfl, rfl, hs⟩
    · rw [he] at g3; cases g3
  rw [mapErr_eq_ok h2] at h2'
  have hw' : Touches (handles req.compressFiles) [t] v v2' := by
    refine ⟨fun i hi => ?_, fun h => ?_, fun h a b => ?_, h2'.dir.trans hw.dir, h2'.nextIno.trans hw.nextIno, h2'.nextFd.trans hw.nextFd, h2'.stdin.trans hw.stdin,
      h2'.tty.trans hw.tty, h2'.env.trans hw.env, h2'.out.trans hw.out⟩
    · rw [hc2.1]; exact hw.files i hi
    · rw [hc2.2.1]; exact hw.inos h
    · rw [hc2.2.1]; exact hw.fds h a b
  cases h
  have h3 := attempt_eq_ok h3
  have h3 := mapErr_eq_ok h3
  refine ⟨v2', v3, hw', hns.suffix (hc2.2.2.trans hs2), ?_, h3, fun j hj => ?_, hread⟩
  · unfold World.data; rw [hc2.1, hc2.2.1]; exact hdata
  · have e4 : v4.file j = v3.file j ∧ (v4.fd t).ino = (v3.fd t).ino := by
      have := Unpack.overwrite_within t cap 2 v3
      have hx := attempt_eq_ok h4
      rw [hx] at this
      have hi : (v3.fd t).ino = (v.fd t).ino := by
        have hen := encrypt_within C (encryptRequest req t) v2'
        rw [h3] at hen
        exact (hen.inos t).trans (hw'.inos t)
      refine ⟨this.files j ?_, this.inos t⟩
      intro x hx
      rw [List.mem_singleton.1 hx, hi]
      exact fun e => hj e.symm
    have hi : (v4.fd t).ino = (v.fd t).ino := by
      have hen := encrypt_within C (encryptRequest req t) v2'
      rw [h3] at hen
      exact e4.2.trans ((hen.inos t).trans (hw'.inos t))
    rw [← e4.1]
    have hx := attempt_eq_ok h5
    have key : (Storage.removeFile (.file p t) v4).2.file j = v4.file j := by
      unfold Storage.removeFile
      have hj' : j ≠ (v4.fd t).ino := by rw [hi]; exact hj
      have h1 : ∀ s, (({ v4 with sched := s } : World).truncated (v4.fd t).ino).file j = v4.file j := fun s => if_neg hj'
      rcases Unpack.emptyFile_cases p t v4 with ⟨s, -, he⟩ | ⟨e, s, -, -, he | he⟩
      · rw [Prog.bind_ok he]
        change (((unlink p).mapErr fun _ => Storage.Error.removeFile) _).2.file j = _
        rcases Unpack.unlink_any p (({ v4 with sched := s } : World).truncated (v4.fd t).ino) with ⟨q, i, s3, -, hr, hl, he3⟩ | ⟨e3, s3, -, he3⟩
        · rw [Prog.mapErr_ok he3]; exact h1 s
        · rw [Prog.mapErr_err he3]; exact h1 s
      · rw [Prog.bind_err he]; exact h1 s
      · rw [Prog.bind_err he]
    rw [hx] at key
    exact key

/-- What a successful run has written: an encryption of the archive of the files. -/
theorem execute_content {C : Crypto} {z : Zip} {tmp : PathBuf} {req : Request} {w w' : World} (hns : NoShort w.sched)
    (hop : ∀ h ∈ handles req.compressFiles, OpenHandle w h) (hnd : (handles req.compressFiles).Nodup) (hW : ∀ h ∈ packWriters req, OpenHandle w h)
    (h : execute C z tmp req w = (.ok (), w')) :
    ∃ v2 v3, NoShort v2.sched ∧ v2.data w.nextFd = z.encode (req.compressFiles.map (stored w)) ∧ (v2.fd w.nextFd).ino = w.nextIno ∧
      (∀ x ∈ packWriters req, (v2.fd x).ino = (w.fd x).ino ∧ v2.data x = w.data x ∧ w'.file (w.fd x).ino = v3.file (w.fd x).ino) ∧
      Encrypt.execute C (encryptRequest req w.nextFd) v2 = (.ok (), v3) ∧ Readable z (req.compressFiles.map (stored w)) := by
  rcases execute_split C z tmp req w with ⟨s, hss, hr, hl, he⟩ | ⟨s, hss, he, -⟩
  · rw [h] at he
    have hfd : ∀ x, (Unpack.withTemp tmp w s).fd x = if x = w.nextFd then { ino := w.nextIno, pos := 0 } else w.fd x := fun _ => rfl
    have hfile : ∀ j, (Unpack.withTemp tmp w s).file j = if j = w.nextIno then [] else w.file j := fun _ => rfl
    have hne : ∀ x, OpenHandle w x → (Unpack.withTemp tmp w s).fd x = w.fd x ∧ (Unpack.withTemp tmp w s).file (w.fd x).ino = w.file (w.fd x).ino := by
      intro x hx
      exact ⟨if_neg (Nat.ne_of_lt hx.1), if_neg (Nat.ne_of_lt hx.2)⟩
    have hsto : req.compressFiles.map (stored (Unpack.withTemp tmp w s)) = req.compressFiles.map (stored w) := by
      apply List.map_congr_left
      intro f hf
      cases f with
      | dir p => rfl
      | file p x =>
        obtain ⟨h1, h2⟩ := hne x (hop x (mem_handles.2 ⟨p, hf⟩))
        show ({ name := _, content := _ } : ZipEntry) = { name := _, content := _ }
        unfold World.rest World.data
        rw [h1, h2]
    have ht : w.nextFd ∉ handles req.compressFiles := fun hm => Nat.lt_irrefl _ (hop _ hm).1
    obtain ⟨v2, v3, h1, h2, h3, h4, h5, h6⟩ := afterTemp_ok (hns.suffix hss) (by rw [hfd, if_pos rfl])
      (by unfold World.data; rw [hfd, if_pos rfl]; exact if_pos rfl) ht hnd he.symm
    refine ⟨v2, v3, h2, by rw [h3, hsto], by rw [h1.inos, hfd, if_pos rfl], fun x hx => ?_, h4, by rw [← hsto]; exact h6⟩
    obtain ⟨g1, g2⟩ := hne x (hW x hx)
    have hi : (v2.fd x).ino = (w.fd x).ino := by rw [h1.inos, g1]
    have hnew : (w.fd x).ino ≠ w.nextIno := Nat.ne_of_lt (hW x hx).2
    refine ⟨hi, ?_, ?_⟩
    · unfold World.data
      rw [hi, h1.files _ ?_, g2]
      intro y hy
      rw [List.mem_singleton.1 hy, hfd, if_pos rfl]
      exact fun e => hnew e.symm
    · refine h5 _ ?_
      rw [hfd, if_pos rfl]
      exact hnew
  · rw [h] at he; cases he

end Volaris.Pack
