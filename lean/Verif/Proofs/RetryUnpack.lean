import Verif.Proofs.UnpackOver
import Verif.Proofs.RetryPack
import Verif.Props.Unpack
import Verif.Proofs.ConcLookMachine
/-!
# Unpacking that is killed and started again
-/
namespace Volaris.Unpack
open Volaris.Spec

/-- unpack.rs:63-168: what comes after the decryption. -/
def afterDecrypt (z : Zip) (order : List Nat) (req : Request) (tmpFile : Storage.Entry) (t : Nat) : Prog Error Unit := do
  let bufCapacity ← (Storage.fileLen tmpFile).mapErr .storage
  recover z order t req
  let _ ← Prog.attempt (Overwrite.execute t bufCapacity 1)
  let _ ← Prog.attempt (Storage.removeFile tmpFile)
  pure ()

theorem execute_split (C : Crypto) (z : Zip) (tmp : PathBuf) (order : List Nat) (req : Request) :
    execute C z tmp order req = (Storage.createTempFile tmp).mapErr .storage >>= fun tmpFile => Prog.lift (expectStream tmpFile) >>= fun t =>
      (Decrypt.execute C (decryptRequest req t)).mapErr .decrypt >>= fun _ => afterDecrypt z order req tmpFile t := rfl

theorem ran_mapErr {ε ε' α : Type} {x : Prog ε α} {f : ε → ε'} {w w' : World} {a : α} (h : (x.mapErr f) w = (.ok a, w')) : x w = (.ok a, w') := by
  rw [Prog.mapErr_run] at h
  rcases hx : x w with ⟨_ | _ | _, u⟩ <;> rw [hx] at h <;> cases h
  rfl

/-- What extraction may do, on the way. -/
def Partly (z : Zip) (out : PathBuf) (P : Bytes) (F : Path → Prop) (w w' : World) : Prop :=
  Extracts (fun _ => False) F w w' ∨ ∃ ms, z.decode P = some ms ∧ Extracts (DirMember out ms) (fun q => FileMember out ms q ∨ F q) w w'

theorem afterDecrypt_frame (z : Zip) (tmp : PathBuf) (order : List Nat) (req : Request) (hcb : OnlyTalks (ask req.onZipFile)) {w v' : World} (P : Bytes)
    (hst : v'.look req.outputDir.start = some .dir) (hl : w.look (onPaper (tempPath tmp w)) = none)
    (hx1 : ∀ {D F}, F (onPaper (tempPath tmp w)) → Extracts D F w v') (ht1 : HasTemp w v') (hP : v'.data w.nextFd = P) :
    ∃ r w', afterDecrypt z order req (.file (tempPath tmp w) w.nextFd) w.nextFd v' = (r, w') ∧ Partly z req.outputDir P (· = onPaper (tempPath tmp w)) w w' := by
  unfold afterDecrypt
  have hfl : ∀ v : World, (∃ s, s <:+ v.sched ∧ Storage.fileLen (.file (tempPath tmp w) w.nextFd) v = (.ok (v.data w.nextFd).length, { v with sched := s })) ∨
      (∃ s, s <:+ v.sched ∧ Storage.fileLen (.file (tempPath tmp w) w.nextFd) v = (.err .fileLen, { v with sched := s })) := by
    intro v
    have e2 : (Prog.lift (Storage.Entry.file (tempPath tmp w) w.nextFd).stream : Prog Storage.Error Nat) v = (.ok w.nextFd, v) := rfl
    unfold Storage.fileLen
    rw [Prog.bind_ok e2]
    rcases fileLen_cases w.nextFd v with ⟨s, hs, he⟩ | ⟨s, e, hs, hn, he⟩
    · exact .inl ⟨s, hs, Prog.mapErr_ok he⟩
    · exact .inr ⟨s, hs, Prog.mapErr_err he⟩
  rcases hfl v' with ⟨s2, hs2, he2⟩ | ⟨s2, hs2, he2⟩
  · rw [Prog.bind_ok (Prog.mapErr_ok he2)]
    have hx2 : ∀ {D F}, F (onPaper (tempPath tmp w)) → Extracts D F w { v' with sched := s2 } := fun {D F} hF => (hx1 (D := D) hF).trans (.of_sched v' s2)
    have ht2 : HasTemp w { v' with sched := s2 } := ht1.step (D := fun _ => False) (F := fun _ => False) (.of_sched v' s2)
    obtain ⟨r3, w3, he3, hrec⟩ := recover_frame z order w.nextFd req hcb { v' with sched := s2 } hst
    rcases hrec with ⟨hbad, hxr⟩ | ⟨ms, conv, hms, hask, hsub, heq, hxr⟩
    · have hx3 := (hx2 (D := fun _ => False) (F := (· = onPaper (tempPath tmp w))) rfl).trans (hxr.mono (fun _ h => h.elim) fun _ h => h.elim)
      cases r3 with
      | ok u => exact absurd rfl hbad
      | err x => rw [Prog.bind_err he3]; exact ⟨_, w3, rfl, .inl hx3⟩
      | abort x => rw [Prog.bind_abort he3]; exact ⟨_, w3, rfl, .inl hx3⟩
    · have hms : z.decode P = some ms := by rw [← hP]; exact hms
      have hx3 : Extracts (DirMember req.outputDir ms) (fun q => FileMember req.outputDir ms q ∨ q = onPaper (tempPath tmp w)) w w3 :=
        (hx2 (.inr rfl)).trans (hxr.mono (fun _ h => h.2) fun _ h => .inl h.2)
      have ht3 : HasTemp w w3 := ht2.step hxr
      cases r3 with
      | err x => rw [Prog.bind_err he3]; exact ⟨_, w3, rfl, .inr ⟨ms, hms, hx3⟩⟩
      | abort x => rw [Prog.bind_abort he3]; exact ⟨_, w3, rfl, .inr ⟨ms, hms, hx3⟩⟩
      | ok u =>
        rw [Prog.bind_ok he3]
        obtain ⟨r4, r5, w4, w5, he4, he5, hx5, -⟩ := cleanup_frame (p := tempPath tmp w) (v'.data w.nextFd).length 1 hx3 ht3 hl
        rw [Prog.bind_ok he4, Prog.bind_ok he5]
        exact ⟨_, w5, rfl, .inr ⟨ms, hms, hx5⟩⟩
  · rw [Prog.bind_err (Prog.mapErr_err he2)]
    exact ⟨_, _, rfl, .inl ((hx1 (F := (· = onPaper (tempPath tmp w))) rfl).trans (.of_sched v' s2))⟩

theorem afterDecrypt_crashes (z : Zip) (order : List Nat) (req : Request) (hcb : ∀ f, req.onZipFile = some f → ∀ p, Crashes (f p)) (e : Storage.Entry) (t : Nat) : Crashes (afterDecrypt z order req e t) := by
  unfold afterDecrypt
  crash
  exact Crashes.entities _ _ _ _ hcb _

theorem execute_stopped (C : Crypto) (z : Zip) (tmp : PathBuf) (order : List Nat) (req : Request) (hcb : OnlyTalks (ask req.onZipFile)) (hcr : ∀ f, req.onZipFile = some f → ∀ p, Crashes (f p)) {w y : World} (P : Bytes)
    (hst : w.look req.outputDir.start = some .dir) (hh : req.headerReader = none) (ho : OpenHandle w req.reader) (hs : ∀ k, Io.short k ∉ w.sched)
    (hP : OnlyDecryptsTo C req.rawKey (w.rest req.reader) P) (h : StoppedAt (execute C z tmp order req) w y) :
    ∃ y', y.disk = y'.disk ∧ Partly z req.outputDir P (fun q => q = onPaper (tempPath tmp w) ∧ w.look q = none) w y' := by
  rw [execute_split] at h
  have hwt : ∀ (sc s : List Io) {D F : Path → Prop}, w.look (onPaper (tempPath tmp w)) = none → F (onPaper (tempPath tmp w)) → Extracts D F w (withTemp tmp (w.withSched sc) s) := fun sc s {D F} hl hF =>
    (Extracts.of_eq (D := D) (F := F) (w := w) (w' := { w.draw 16 with sched := s }) rfl rfl rfl rfl rfl).trans (Extracts.created (w := { w.draw 16 with sched := s }) hF hl)
  have hcont : ∀ a, Crashes ((Prog.lift (expectStream a) : Prog Error Nat) >>= fun t => (Decrypt.execute C (decryptRequest req t)).mapErr Error.decrypt >>= fun _ => afterDecrypt z order req a t) := fun a =>
    .bind (.lift _) fun t => .bind (.mapErr _ (.decrypt _ _)) fun _ => afterDecrypt_crashes z order req hcr a t
  rcases Crashes.stopped_bind (.mapErr _ (.createTempFile _)) hcont h with h | ⟨a, u, hu, h⟩
  · obtain ⟨sc, r, w', he, hd⟩ := (Crashes.mapErr Error.storage (.createTempFile tmp)).stopped h
    rcases createTempFile_cases tmp (w.withSched sc) with ⟨s, -, -, hl, he'⟩ | ⟨s, -, he', -⟩
    · rw [Prog.mapErr_ok he'] at he
      cases he
      exact ⟨_, hd, .inl (hwt sc s hl ⟨rfl, hl⟩)⟩
    · rw [Prog.mapErr_err he'] at he
      cases he
      exact ⟨_, hd, .inl (.of_eq rfl rfl rfl rfl rfl)⟩
  · rcases createTempFile_cases tmp w with ⟨s, hsuf, -, hl, he'⟩ | ⟨s, -, he', -⟩
    · rw [Prog.mapErr_ok he'] at hu
      cases hu
      change StoppedAt ((Decrypt.execute C (decryptRequest req w.nextFd)).mapErr Error.decrypt >>= fun _ => afterDecrypt z order req (.file (tempPath tmp w) w.nextFd) w.nextFd) (withTemp tmp w s) y at h
      have hx0 : ∀ {D F}, F (onPaper (tempPath tmp w)) → Extracts D F w (withTemp tmp w s) := fun {D F} hF => hwt w.sched s hl hF
      have ht0 : HasTemp w (withTemp tmp w s) := ⟨by
        show (if w.nextFd = w.nextFd then ({ ino := w.nextIno, pos := 0 } : Fd) else w.fd w.nextFd).ino = w.nextIno
        rw [if_pos rfl], Nat.lt_succ_self _⟩
      rcases Crashes.stopped_bind (.mapErr _ (.decrypt _ _)) (fun _ => afterDecrypt_crashes z order req hcr _ _) h with h | ⟨_, v', hv', h⟩
      · obtain ⟨sc, r, w', he, hd⟩ := (Crashes.mapErr Error.decrypt (.decrypt _ _)).stopped h
        have hdec := decrypt_within C (decryptRequest req w.nextFd) ((withTemp tmp w s).withSched sc)
        have hw' : (Decrypt.execute C (decryptRequest req w.nextFd) ((withTemp tmp w s).withSched sc)).2 = w' := by
          rw [Prog.mapErr_eq] at he
          exact congrArg Prod.snd he
        rw [hw'] at hdec
        refine ⟨w', hd, .inl (((hx0 ⟨rfl, hl⟩).trans (Extracts.of_sched (withTemp tmp w s) sc)).touch (fun x hx => ?_) hdec)⟩
        have hx : x = w.nextFd := List.mem_singleton.1 hx
        rw [hx]
        exact .inl (Nat.le_of_eq ht0.ino.symm)
      · have hdec := decrypt_within C (decryptRequest req w.nextFd) (withTemp tmp w s)
        have hd : Decrypt.execute C (decryptRequest req w.nextFd) (withTemp tmp w s) = (.ok (), v') := by
          exact ran_mapErr hv'
        rw [hd] at hdec
        have hx1 : ∀ {D F}, F (onPaper (tempPath tmp w)) → Extracts D F w v' := fun {D F} hF => (hx0 (D := D) hF).touch (by
          intro x hx
          have hx : x = w.nextFd := List.mem_singleton.1 hx
          rw [hx]
          exact .inl (by rw [ht0.ino]; exact Nat.le_refl _)) hdec
        have ht1 := ht0.touch hdec
        have hdata : v'.data w.nextFd = P := by
          have hne : req.reader ≠ w.nextFd := Nat.ne_of_lt ho.1
          have hfd : (withTemp tmp w s).fd req.reader = w.fd req.reader := if_neg hne
          have hfd2 : (withTemp tmp w s).fd w.nextFd = { ino := w.nextIno, pos := 0 } := if_pos rfl
          have hfile : (withTemp tmp w s).file (w.fd req.reader).ino = w.file (w.fd req.reader).ino := if_neg (Nat.ne_of_lt ho.2)
          have hw := hP (decryptRequest req w.nextFd) (withTemp tmp w s) v' ⟨hh, rfl, hne, by
              show ((withTemp tmp w s).fd req.reader).ino ≠ ((withTemp tmp w s).fd w.nextFd).ino
              rw [hfd, hfd2]; exact Nat.ne_of_lt ho.2, by
              show ((withTemp tmp w s).file ((withTemp tmp w s).fd req.reader).ino).drop ((withTemp tmp w s).fd req.reader).pos = _
              rw [hfd, hfile]; rfl⟩
            (fun k hk => hs k (hsuf.subset hk)) hd
          have hc : v'.file ((withTemp tmp w s).fd w.nextFd).ino =
            writeAt ((withTemp tmp w s).file ((withTemp tmp w s).fd w.nextFd).ino) ((withTemp tmp w s).fd w.nextFd).pos P := hw.content
          rw [hfd2, show (withTemp tmp w s).file w.nextIno = [] from if_pos rfl] at hc
          have hc : v'.file w.nextIno = P := by rw [hc, writeAt_zero, List.drop_nil, List.append_nil]
          show v'.file (v'.fd w.nextFd).ino = P
          rw [ht1.ino, hc]
        obtain ⟨sc, r, w', he, hdk⟩ := (afterDecrypt_crashes z order req hcr _ _).stopped h
        obtain ⟨r2, w2, he2, hp⟩ := afterDecrypt_frame z tmp order req hcb (w := w) (v' := v'.withSched sc) P (by
            show v'.look _ = _
            exact (hx1 (D := fun _ => False) (F := (· = onPaper (tempPath tmp w))) rfl).keeps hst) hl
          (fun {D F} hF => (hx1 (D := D) hF).trans (Extracts.of_sched v' sc)) (ht1.step (D := fun _ => False) (F := fun _ => False) (.of_sched v' sc)) hdata
        rw [he] at he2
        cases he2
        refine ⟨w', hdk, ?_⟩
        rcases hp with hp | ⟨ms, h1, h2⟩
        · exact .inl (hp.mono (fun _ h => h) fun q hq => ⟨hq, hq ▸ hl⟩)
        · exact .inr ⟨ms, h1, h2.mono (fun _ h => h) fun q hq => hq.imp id fun hq => ⟨hq, hq ▸ hl⟩⟩
    · rw [Prog.mapErr_err he'] at hu
      cases hu

end Volaris.Unpack

namespace Volaris.Cli
open Volaris.Spec Volaris.Pack
variable {σ : Type}

theorem onZipFile_crash (force : ForceMode) (verbose : Bool) : ∀ f, some (onZipFile force verbose) = some f → ∀ p, Crashes (f p) := by
  intro f hf p
  cases hf
  exact onZipFile_crashes _ _ _

theorem looked_disk {n : Nat} {w v y : World} {sc : List Io} (h : Looked n (w.withSched sc) v) (hd : y.disk = v.disk) : y.disk = w.disk := by
  rw [hd]
  unfold World.disk
  rw [h.dir, h.file, h.nextIno]
  rfl

theorem stopped_mapErr {ε ε' α : Type} {x : Prog ε α} {f : ε → ε'} {w v : World} (h : StoppedAt (x.mapErr f) w v) : StoppedAt x w v := by
  obtain ⟨es, hc, hm⟩ := h
  refine ⟨es, ?_, hm⟩
  unfold Calls at hc ⊢
  rw [Prog.mapErr_eq] at hc
  exact hc

/-- subcommands/unpack.rs:33-81: what comes after the secret. -/
def unpackTail (s : Sys σ) (input output : List Char) (verbose : Bool) (params : CryptoParams) (inputFile : Storage.Entry) (rawKey : Bytes) : Prog Error Unit := do
  let reader ← streamOf inputFile
  (Unpack.execute s.C s.z s.tmp s.order
    { reader, headerReader := none, rawKey, outputDir := toPath s.cwd output,
      onZipFile := some (onZipFile params.force verbose) }).mapErr .unpack
  hashIf s params.hashMode input

theorem unpackMode_chain (s : Sys σ) (input output : List Char) (verbose : Bool) (params : CryptoParams) (hh : params.header = none) :
    unpackMode s input output verbose params = readInput (toPath s.cwd input) >>= fun f => getSecret s.words s.cwd params.key .direct >>= fun k => unpackTail s input output verbose params f k := by
  unfold unpackMode
  rw [hh]
  rfl

theorem unpackTail_crashes (s : Sys σ) (input output : List Char) (verbose : Bool) (params : CryptoParams) (f : Storage.Entry) (k : Bytes) : Crashes (unpackTail s input output verbose params f k) := by
  unfold unpackTail
  crash
  exact Crashes.entities _ _ _ _ (onZipFile_crash _ _) _

theorem readInput_crash (p : PathBuf) : Crashes (readInput p) := by crash
theorem getSecret_crash (ws : List (List Char)) (cwd : Path) (k : Key) (st : PasswordState) : Crashes (getSecret ws cwd k st) := by crash
theorem hashIf_crash (s : Sys σ) (m : HashMode) (input : List Char) : Crashes (hashIf s m input) := by crash

theorem unpackMode_stopped (s : Sys σ) (input output : List Char) (verbose : Bool) (params : CryptoParams) {w y : World} (P : Bytes) (q : Path) (i : Nat) (ha : Allocated w)
    (hst : w.look (toPath s.cwd output).start = some .dir) (hh : params.header = none) (hq : LeadsToFile w (toPath s.cwd input) q i) (hs : ∀ k, Io.short k ∉ w.sched)
    (hP : ∀ secret, Supplies s.words s.cwd .direct params.key w secret → OnlyDecryptsTo s.C secret (w.file i) P) (h : StoppedAt (unpackMode s input output verbose params) w y) :
    ∃ y', y.disk = y'.disk ∧ Unpack.Partly s.z (toPath s.cwd output) P (fun q => TempPlace s.tmp q ∧ w.look q = none) w y' := by
  rw [unpackMode_chain _ _ _ _ _ hh] at h
  rcases Crashes.stopped_bind (readInput_crash _) (fun f => .bind (getSecret_crash _ _ _ _) fun k => unpackTail_crashes s input output verbose params f k) h with h | ⟨f, u, hu, h⟩
  · obtain ⟨sc, r, w', he, hd⟩ := (readInput_crash _).stopped h
    have hl := (readInput_looks (w.withSched sc).nextFd (toPath s.cwd input) (w.withSched sc) (Nat.le_refl _)).1
    rw [he] at hl
    exact ⟨w, looked_disk (show Looked _ _ w' from hl) hd, .inl (.refl w)⟩
  · have hl := (readInput_looks w.nextFd (toPath s.cwd input) w (Nat.le_refl _)).1
    rw [hu] at hl
    replace hl : Looked w.nextFd w u := hl
    rcases readInput_cases (toPath s.cwd input) w with ⟨q', i', sc, hsc, hq', he⟩ | ⟨q', hq', he⟩ | ⟨e, sc, hsc, he, hor⟩
    · obtain ⟨rfl, rfl⟩ := LeadsToFile_unique hq hq'
      rw [he] at hu
      cases hu
      rcases Crashes.stopped_bind (getSecret_crash _ _ _ _) (fun k => unpackTail_crashes s input output verbose params _ k) h with h | ⟨k, v, hv, h⟩
      · obtain ⟨sc', r, w', he', hd⟩ := (getSecret_crash _ _ _ _).stopped h
        have hl2 := (getSecret_looks _ s.words s.cwd params.key .direct ((({ w with sched := sc } : World).opened i).withSched sc') (Nat.le_refl _)).1
        rw [he'] at hl2
        exact ⟨w, looked_disk (w := ({ w with sched := sc } : World).opened i) (show Looked _ _ w' from hl2) hd, .inl (.refl w)⟩
      · have hl2 := (getSecret_looks _ s.words s.cwd params.key .direct (({ w with sched := sc } : World).opened i) (Nat.le_refl _)).1
        rw [hv] at hl2
        replace hl2 : Looked (({ w with sched := sc } : World).opened i).nextFd (({ w with sched := sc } : World).opened i) v := hl2
        have hlv : Looked w.nextFd w v := hl.trans (hl2.mono (Nat.le_succ _))
        have hsup : Supplies s.words s.cwd .direct params.key w k := Supplies.congr (w := ({ w with sched := sc } : World).opened i) rfl rfl rfl rfl rfl rfl (getSecret_ok hv).2
        have hfd : v.fd w.nextFd = { ino := i, pos := 0 } := by
          rw [hl2.fds _ (Nat.lt_succ_self _)]; exact opened_fd { w with sched := sc } i
        have hlt : w.nextFd < v.nextFd := Nat.lt_of_lt_of_le (Nat.lt_succ_self _) hl2.nextFd
        have hrest : v.rest w.nextFd = w.file i := by
          show (v.file (v.fd w.nextFd).ino).drop (v.fd w.nextFd).pos = _
          rw [hfd, hlv.file]; rfl
        have hsv : v.look (toPath s.cwd output).start = some .dir := by rw [hlv.look]; exact hst
        have hov : OpenHandle v w.nextFd := ⟨hlt, by rw [hfd, hlv.nextIno]; exact ha _ _ hq.look⟩
        have hnv : ∀ k, Io.short k ∉ v.sched := fun k hk => hs k (hlv.sched.subset hk)
        have hPv : OnlyDecryptsTo s.C k (v.rest w.nextFd) P := by rw [hrest]; exact hP k hsup
        have hconv : ∀ {D F : Path → Prop} {y'}, Extracts D F v y' → Extracts D F w y' := fun h => (Looked.extracts hlv (Nat.le_refl _)).trans h
        change StoppedAt ((Unpack.execute s.C s.z s.tmp s.order
          { reader := w.nextFd, headerReader := none, rawKey := k, outputDir := toPath s.cwd output, onZipFile := some (onZipFile params.force verbose) }).mapErr Error.unpack >>= fun _ => hashIf s params.hashMode input) v y at h
        rcases Crashes.stopped_bind (.mapErr _ (.unpack _ _ _ _ _ (onZipFile_crash _ _))) (fun _ => hashIf_crash s params.hashMode input) h with h | ⟨_, v', hv', h⟩
        · obtain ⟨y', h1, h2⟩ := Unpack.execute_stopped s.C s.z s.tmp s.order _ (onZipFile_talks params.force verbose) (onZipFile_crash _ _) P hsv rfl hov hnv hPv (stopped_mapErr h)
          refine ⟨y', h1, ?_⟩
          have hF : ∀ q, q = onPaper (tempPath s.tmp v) ∧ v.look q = none → TempPlace s.tmp q ∧ w.look q = none := by
            rintro q ⟨rfl, hn⟩
            exact ⟨tempPlace _ _, by rw [← hlv.look]; exact hn⟩
          rcases h2 with h2 | ⟨ms, h2, h3⟩
          · exact .inl (hconv (h2.mono (fun _ h => h) hF))
          · exact .inr ⟨ms, h2, hconv (h3.mono (fun _ h => h) fun q hq => hq.imp id (hF q))⟩
        · obtain ⟨sc', r, w', he', hd⟩ := (hashIf_crash _ _ _).stopped h
          have hl3 := (hashIf_looks s _ params.hashMode input (v'.withSched sc') (Nat.le_refl _)).1
          rw [he'] at hl3
          have hdv := looked_disk (w := v') (show Looked _ _ w' from hl3) hd
          have hex := Unpack.ran_mapErr hv'
          rcases Props.C45_declined s.C s.z s.tmp s.order _ v v' _ P (onZipFile_talks params.force verbose) hsv rfl hov hnv hPv hex with ⟨h1, -⟩ | ⟨ms, conv, h1, -, -, -, h5, h6⟩
          · exact absurd rfl h1
          · refine ⟨v', hdv, .inr ⟨ms, h1, hconv (h6.mono (fun _ h => h.2) ?_)⟩⟩
            rintro x (h | rfl)
            · exact .inl h.2
            · exact .inr ⟨tempPlace _ _, by rw [← hlv.look]; exact h5⟩
    · have h1 := hq.resolve
      rw [hq'.resolve] at h1
      cases h1
      have := hq.look
      rw [hq'.look] at this
      cases this
    · rw [he] at hu
      cases hu

end Volaris.Cli
