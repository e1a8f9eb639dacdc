import Verif.Proofs.Retry
import Verif.Props.NoLoss
/-!
# C93: commands that are killed and started again
-/
namespace Volaris.Props
open Volaris.Spec Volaris.Cli Volaris.Example
variable {σ : Type}

/-- **C93, encrypting.** However often encrypting is started and killed, at whatever moments and with whatever passwords: when it is started once more, may overwrite and nothing fails, it succeeds, and the output decrypts with the secret of
that time to what the input held in the beginning; unless one of the attempts was to erase the input and had written the output completely, so that at the time it was killed the output decrypted to what the input held. -/
theorem C93_encrypt_partial (s : Sys σ) (hC : s.C.Lawful) (input output : List Char) (params : CryptoParams) (a : Algorithm) (w v : World) (q : Path) (i : Nat) (secret : Bytes)
    (hne : input ≠ output) (hin : LeadsToFile w (toPath s.cwd input) q i) (hsep : Separate s.cwd input output params.header w) (ho : CanHold w (toPath s.cwd output))
    (hh : ∀ hd, params.header = some hd → CanHold w (toPath s.cwd hd)) (hlim : (w.file i).length / 2 ^ 20 ≤ s.C.ctrMax)
    (hk : Killed (fun force => encryptMode s input output { params with force := force } a) w v)
    (hv : NextTime s .validate params.key secret v) (hp : PrimitivesWork s.C a params.hashingAlgorithm secret) :
    (∃ v', encryptMode s input output { params with force := .forced } a v = (.ok (), v') ∧ Spec.Encrypted s.C s.cwd output params.header secret (w.file i) v') ∨
    (params.erase ≠ .ignoreFile ∧ OneOfThem (fun force => encryptMode s input output { params with force := force } a) w v
      fun x u => ∃ secret', SuppliedTo s .validate params.key x secret' ∧ Preserves s.C s.cwd output params.header secret' (w.file i) q i u) := by
  have keep : ∀ x y : World, LeadsToFile x (toPath s.cwd input) q i → Separate s.cwd input output params.header x → After (AnyTarget s.cwd output params.header x) x y → y.file i = x.file i := by
    intro x y hin hsep h
    refine h.files i (hsep.allocated q i hin.look) ?_
    rintro z (hx | ⟨hd, hhd, hx⟩) hl
    · exact hsep.out.2 q z i hin ⟨hx, hl⟩
    · exact (hsep.hdr hd hhd).1.2 q z i hin ⟨hx, hl⟩
  have h := killed_after (cwd := s.cwd) (output := output) (header := params.header)
    (Q := fun x u => params.erase ≠ .ignoreFile ∧ ∃ secret', SuppliedTo s .validate params.key x secret' ∧ Preserves s.C s.cwd output params.header secret' (w.file i) q i u)
    (fun x => (LeadsToFile x (toPath s.cwd input) q i ∧ x.file i = w.file i) ∧ Separate s.cwd input output params.header x)
    (fun x y hi h => ⟨⟨h.leads hi.1.1, (keep x y hi.1.1 hi.2 h).trans hi.1.2⟩, h.separate hi.2⟩) (fun x hi => hi.2.allocated)
    (fun force x y hi hns hs => by
      rw [← hi.1.2]
      exact encrypt_killed s hC input output { params with force := force } a hns hi.2 hi.1.1 hs) hk ⟨⟨hin, rfl⟩, hsep⟩
  rcases h with h | ⟨f, x, u, h1, h2, h3, h4, h5⟩
  · left
    have hf := keep w v hin hsep h
    rw [← hf]
    exact C68_encrypt s hC input output { params with force := .forced } a secret q i v
      { faultless := hv.faultless, names := hne, source := h.leads hin, separate := h.separate hsep, target := h.canHold ho
        header := fun hd e => ⟨h.canHold (hh hd e), .inr rfl⟩
        key := ⟨hv.nonempty, v, .inl ⟨.inr rfl, rfl⟩, hv.supplied⟩, primitives := hp, size := by rw [hf]; exact hlim }
  · exact .inr ⟨h4, f, x, u, h1, h2, h3, h5⟩

/-- **C93, decrypting.** The same for decrypting a file that the secret opens. -/
theorem C93_decrypt_partial (s : Sys σ) (hC : s.C.Lawful) (input output : List Char) (params : CryptoParams) (w v : World) (q : Path) (i : Nat) (secret p : Bytes)
    (hne : input ≠ output) (hin : LeadsToFile w (toPath s.cwd input) q i) (hsep : OutputApart s.cwd input output params.header w) (ho : CanHold w (toPath s.cwd output))
    (hun : Unlocks s.C s.cwd params.header secret (w.file i) p w)
    (hk : Killed (fun force => decryptMode s input output { params with force := force }) w v) (hv : NextTime s .direct params.key secret v) :
    (∃ v', decryptMode s input output { params with force := .forced } v = (.ok (), v') ∧ ContentAt v' (toPath s.cwd output) p) ∨
    (params.erase ≠ .ignoreFile ∧ OneOfThem (fun force => decryptMode s input output { params with force := force }) w v
      fun x u => ∃ secret', SuppliedTo s .direct params.key x secret' ∧ Restores s.C s.cwd output params.header secret' (w.file i) q i x u) := by
  have keep : ∀ x y : World, OutputApart s.cwd input output params.header x → After (AnyTarget s.cwd output none x) x y → ∀ (path : PathBuf) (z : Path) (k : Nat), Apart x path (toPath s.cwd output) →
      LeadsToFile x path z k → y.file k = x.file k := by
    intro x y hsep h path z k ha hl
    refine h.files k (hsep.allocated z k hl.look) ?_
    rintro z' (hy | ⟨hd, hhd, hy⟩) hl'
    · exact ha.2 z z' k hl ⟨hy, hl'⟩
    · cases hhd
  have h := killed_after (cwd := s.cwd) (output := output) (header := none)
    (Q := fun x u => params.erase ≠ .ignoreFile ∧ ∃ secret', SuppliedTo s .direct params.key x secret' ∧ Restores s.C s.cwd output params.header secret' (w.file i) q i x u)
    (fun x => (LeadsToFile x (toPath s.cwd input) q i ∧ x.file i = w.file i) ∧ OutputApart s.cwd input output params.header x)
    (fun x y hi h => ⟨⟨h.leads hi.1.1, (keep x y hi.2 h _ q i hi.2.inp hi.1.1).trans hi.1.2⟩, h.outputApart hi.2⟩) (fun x hi => hi.2.allocated)
    (fun force x y hi hns hs => by
      rw [← hi.1.2]
      exact decrypt_killed s hC input output { params with force := force } hns hi.2 hi.1.1 hs) hk ⟨⟨hin, rfl⟩, hsep⟩
  rcases h with h | ⟨f, x, u, h1, h2, h3, h4, h5⟩
  · left
    refine C68_decrypt s input output { params with force := .forced } secret (w.file i) p v
      { faultless := hv.faultless, names := hne, source := ⟨q, i, h.leads hin, keep w v hsep h _ q i hsep.inp hin⟩, separate := h.outputApart hsep, target := h.canHold ho
        key := ⟨hv.nonempty, v, .inl ⟨.inr rfl, rfl⟩, hv.supplied⟩ } ?_
    unfold Unlocks at hun ⊢
    cases hh : params.header with
    | none => rw [hh] at hun; exact hun
    | some hd =>
      rw [hh] at hun
      obtain ⟨b, ⟨z, k, g1, rfl⟩, g2⟩ := hun
      exact ⟨_, ⟨z, k, h.leads g1, keep w v hsep h _ z k (hsep.hdr hd hh) g1⟩, g2⟩
  · exact .inr ⟨h4, f, x, u, h1, h2, h3, h5⟩

/-- The machine is started again: the disk is that of `v`, the rest is new, and the user will answer with these lines. -/
def restarted (w v : World) (lines : List String) : World := { w with file := v.file, dir := v.dir, nextIno := v.nextIno, stdin := lines }

theorem restarted_disk (w v : World) (lines : List String) : (restarted w v lines).disk = v.disk := rfl

theorem restarted_at {ε α : Type} {x : Prog ε α} {w v : World} (h : StoppedAt x w v) (lines : List String) : StoppedAt x w (restarted w v lines) := h

/-! ### The hypotheses can be met -/

/-- Encrypting `z` to `o` is killed in the middle of writing the output; ... -/
def exTwice1 : World := restarted (exWorld [] []) (stopped (exEncrypt ['z'] ['o'] { exErasing with force := .prompt }) (exWorld [] []) 1 7) ["y\n"]
/-- ... it is started again, overwrites that and is killed with even less written. -/
def exTwice2 : World := restarted (exWorld [] []) (stopped (exEncrypt ['z'] ['o'] { exErasing with force := .prompt }) exTwice1 1 5) []

theorem exTwice_first : StoppedAt (encryptMode exSys ['z'] ['o'] { exErasing with force := .prompt } .aes256Gcm) (exWorld [] []) exTwice1 := by
  unfold exTwice1
  exact restarted_at (stopped_at _ _ _ _ rfl) _

theorem exTwice_second : StoppedAt (encryptMode exSys ['z'] ['o'] { exErasing with force := .prompt } .aes256Gcm) exTwice1 exTwice2 := by
  have h : exTwice1.log = [] := rfl
  unfold exTwice2 exEncrypt
  generalize exTwice1 = x at h ⊢
  exact stopped_at _ x 1 5 h

theorem exTwice_killed : Killed (fun force => encryptMode exSys ['z'] ['o'] { exErasing with force := force } .aes256Gcm) (exWorld [] []) exTwice2 := by
  refine .again .prompt (by intro k h; cases h) exTwice_first (.again .prompt ?_ exTwice_second (.never rfl))
  intro k h
  rw [show exTwice1.sched = [] from rfl] at h
  cases h

theorem exTwice_next : NextTime exSys .validate exErasing.key [112, 119] exTwice2 := ⟨rfl, by decide, rfl⟩

/-- Both attempts left something of the output behind; the third one succeeds. -/
example : (exTwice1.file 1000).length = 7 ∧ (exTwice2.file 1000).length = 5 ∧ (exEncrypt ['z'] ['o'] { exErasing with force := .forced } exTwice2).1.isOk = true := by decide +kernel

example := C93_encrypt_partial exSys (Example.toy_lawful _ (by decide)) ['z'] ['o'] exErasing .aes256Gcm (exWorld [] []) exTwice2 [['z']] 2 [112, 119] (by decide) exEncryptReady.source exEncryptReady.separate exEncryptReady.target
  (fun hd h => by cases h) (by decide +kernel) exTwice_killed exTwice_next (toy_works _ _ _ (by decide))

/-! ### Why not always -/

/-- The line, run on the machine `w` without faults, is killed in `v`, where the content can still be found; run once more without faults, with the result `r`, it leaves no file that holds the content, not even encrypted or in an archive. -/
structure LostByRepeating (line : Invocation Bytes) (content : Bytes) (w v : World) (ok : Bool) : Prop where
  faultless : w.sched = [] ∧ v.sched = []
  before : ∃ q, HoldsAt line.sys.C line.sys.z [112, 119] content w.disk q
  lost : ∃ run, Cli.main line.sys line.debug line.argv = some run ∧ StoppedAt run w v ∧ (run v).1.isOk = ok ∧ ∀ q, ¬ HoldsAt line.sys.C line.sys.z [112, 119] content (run v).2.disk q
  between : ∃ q, HoldsAt line.sys.C line.sys.z [112, 119] content v.disk q

theorem lookDisk_mem {d : Disk} {q : Path} {i : Nat} (h : lookDisk d q = some (.file i)) : (q, Node.file i) ∈ d.dir := by
  unfold lookDisk at h
  split at h
  · cases h
  · obtain ⟨⟨k, n⟩, h1, h2⟩ := Option.map_eq_some_iff.1 h
    have h3 := List.find?_some h1
    simp only [decide_eq_true_eq] at h3
    cases h2; cases h3
    exact List.mem_of_find?_eq_some h1

/-- Something that is not the content, cannot be decrypted and is no archive. -/
theorem toy_barren {x p : Bytes} (h1 : x ≠ p) (h2 : (decryptAlone Example.toy [112, 119] x).1.isOk = false) (h3 : toyZip.decode x = none) : ¬ Unwraps Example.toy toyZip [112, 119] x p := by
  intro hu
  cases hu with
  | plain => exact h1 rfl
  | layer h _ =>
    obtain ⟨v, hv⟩ := toy_alone h
    rw [hv] at h2
    cases h2
  | member _ ha => rw [h3] at ha; cases ha

/-- An archive without it. -/
theorem toy_archive {x p : Bytes} {ms : List ZipMember} (h1 : x ≠ p) (h2 : (decryptAlone Example.toy [112, 119] x).1.isOk = false) (h3 : toyZip.decode x = some ms)
    (h4 : ∀ m ∈ ms, ¬ Unwraps Example.toy toyZip [112, 119] m.content p) : ¬ Unwraps Example.toy toyZip [112, 119] x p := by
  intro hu
  cases hu with
  | plain => exact h1 rfl
  | layer h _ =>
    obtain ⟨v, hv⟩ := toy_alone h
    rw [hv] at h2
    cases h2
  | member _ ha hm _ _ hy => rw [h3] at ha; cases ha; exact h4 _ hm hy

theorem toy_nothing : ¬ Unwraps Example.toy toyZip [112, 119] [] [1, 2, 3] := toy_archive (ms := []) (by decide) (by decide +kernel) (by decide +kernel) (by simp)

theorem exTreasure_good : GoodDisk exTreasure.disk := ⟨(Example.disk_ok []).distinct, (Example.disk_ok []).parents, (exSeparate [] []).allocated⟩
theorem exBuried_good : GoodDisk exBuried.disk := ⟨(Example.disk_ok []).distinct, (Example.disk_ok []).parents, (exSeparate [] []).allocated⟩

/-- Something that decrypts to something else. -/
theorem toy_layer {x y p : Bytes} (h1 : x ≠ p) (h2 : (decryptAlone Example.toy [112, 119] x).2.file 1 = y) (h3 : toyZip.decode x = none) (hy : ¬ Unwraps Example.toy toyZip [112, 119] y p) :
    ¬ Unwraps Example.toy toyZip [112, 119] x p := by
  intro hu
  cases hu with
  | plain => exact h1 rfl
  | layer h hu => rw [← decryptAlone_of h, h2] at hu; exact hy hu
  | member _ ha => rw [h3] at ha; cases ha

/-- `encrypt --argon=1 z o`, killed when the input is empty but has its name; then the same line again, and the user agrees to overwriting. -/
def exAgain1 : World := restarted exTreasure (stopped exEncryptRun exTreasure 4 0) ["y\n"]

theorem exTreasure_careful : Careful Example.toy toyZip [112, 119] (σ := Bytes) ⟨exSys, false, ["encrypt".toList, "--argon=1".toList, "z".toList, "o".toList]⟩ exTreasure where
  build := rfl
  crypto := rfl
  zip := rfl
  line := .file (.inl rfl) (.opt (o := ⟨"argon", none, false⟩) (v := ['1']) (by decide) .attached (.file (.inr (by decide)) (.file (.inr (by decide)) .nil))) ⟨by decide, .inl rfl⟩ .name rfl
    (by decide +kernel : exTreasure.env = some [112, 119]) (by
      rintro ⟨q, n, h1, h2⟩
      have h1 : exTreasure.resolve (toPath [] ['o']) = .ok q := h1
      rw [show exTreasure.resolve (toPath [] ['o']) = .ok [['o']] by rfl] at h1
      cases h1
      rw [show exTreasure.look [['o']] = none by decide +kernel] at h2
      cases h2)
  transfers := fun k h => by
    rw [show exTreasure.sched = [] by rfl] at h
    cases h

/-- **C93 is false when the input is erased.** `volaris encrypt z o` is killed between emptying the input and removing it.  The output is complete, but the input is still there; the same line, run again, encrypts the empty file and overwrites
the only copy. -/
theorem C93_encrypt_false : LostByRepeating ⟨exSys, false, ["encrypt".toList, "--argon=1".toList, "z".toList, "o".toList]⟩ [1, 2, 3] exTreasure exAgain1 true where
  faultless := ⟨rfl, rfl⟩
  before := ⟨[['z']], 2, by decide +kernel, .plain _⟩
  between := by
    have h : CarefulHistory Example.toy toyZip [112, 119] [1, 2, 3] _ exTreasure.disk (stopped exEncryptRun exTreasure 4 0).disk :=
      .killed exTreasure (stopped exEncryptRun exTreasure 4 0) exTreasure_careful (run := exEncryptRun) rfl (stopped_at _ _ _ _ rfl) (.nil _)
    obtain ⟨q, j, h1, h2⟩ := C83_no_loss Example.toy (Example.toy_lawful _ (by decide)) toyZip toyZip_lawful toyZip_own [112, 119] [1, 2, 3] (toy_refuses (by decide +kernel)) _ _ _ exTreasure_good h [['z']] 2 (by decide +kernel) rfl
    refine ⟨q, ?_⟩
    unfold exAgain1
    rw [restarted_disk]
    exact ⟨j, h1, h2⟩
  lost := by
    refine ⟨exEncryptRun, rfl, restarted_at (stopped_at _ _ _ _ rfl) _, by decide +kernel, ?_⟩
    rintro q ⟨i, h1, h2⟩
    have hm := lookDisk_mem h1
    have hd : (exEncryptRun exAgain1).2.disk.dir = [([['o']], .file 1000), ([['a'], ['b'], ['y']], .file 1), ([['a'], ['b']], .dir), ([['a'], ['x']], .file 0), ([['a']], .dir)] := by decide +kernel
    rw [hd] at hm
    simp only [List.mem_cons, Prod.mk.injEq, Node.file.injEq, reduceCtorEq, and_false, List.not_mem_nil, or_false, false_or] at hm
    rcases hm with ⟨rfl, rfl⟩ | ⟨rfl, rfl⟩ | ⟨rfl, rfl⟩
    · exact toy_layer (y := []) (by decide +kernel) (by decide +kernel) (by decide +kernel) toy_nothing h2
    · exact toy_barren (by decide +kernel) (by decide +kernel) (by decide +kernel) h2
    · exact toy_barren (by decide +kernel) (by decide +kernel) (by decide +kernel) h2

/-- The small disk where the file `z` is encrypted. -/
def exSealedWorld : World := { exWorld [] [] with file := fun i => if i = 2 then exSealed [1, 2, 3] else [7] }
def exDecryptRun : Prog Error (List String) := Cli.decrypt exSys { args := decryptArgs, given := [(.input, [['z']]), (.output, [['o']])] } >>= fun _ => pure []
/-- `decrypt z o`, killed when the input is empty but has its name. -/
def exAgain3 : World := restarted exSealedWorld (stopped exDecryptRun exSealedWorld 3 0) ["y\n"]

/-- **The same for decrypting.** The second run fails, but has emptied the output before. -/
theorem C93_decrypt_false : LostByRepeating ⟨exSys, false, ["decrypt".toList, "z".toList, "o".toList]⟩ [1, 2, 3] exSealedWorld exAgain3 false where
  faultless := ⟨rfl, rfl⟩
  before := ⟨[['z']], 2, by decide +kernel, .layer (exSealed_decrypts [1, 2, 3] (by decide)).1 (.plain _)⟩
  between := ⟨[['o']], 1000, by decide +kernel, by rw [show exAgain3.disk.file 1000 = [1, 2, 3] by decide +kernel]; exact .plain _⟩
  lost := by
    refine ⟨exDecryptRun, rfl, restarted_at (stopped_at _ _ _ _ rfl) _, by decide +kernel, ?_⟩
    rintro q ⟨i, h1, h2⟩
    have hm := lookDisk_mem h1
    have hd : (exDecryptRun exAgain3).2.disk.dir = [([['o']], .file 1000), ([['a'], ['b'], ['y']], .file 1), ([['a'], ['b']], .dir), ([['a'], ['x']], .file 0), ([['a']], .dir), ([['z']], .file 2)] := by decide +kernel
    rw [hd] at hm
    simp only [List.mem_cons, Prod.mk.injEq, Node.file.injEq, reduceCtorEq, and_false, List.not_mem_nil, or_false, false_or] at hm
    rcases hm with ⟨rfl, rfl⟩ | ⟨rfl, rfl⟩ | ⟨rfl, rfl⟩ | ⟨rfl, rfl⟩
    · rw [show (exDecryptRun exAgain3).2.disk.file 1000 = [] by decide +kernel] at h2
      exact toy_nothing h2
    · exact toy_barren (by decide +kernel) (by decide +kernel) (by decide +kernel) h2
    · exact toy_barren (by decide +kernel) (by decide +kernel) (by decide +kernel) h2
    · rw [show (exDecryptRun exAgain3).2.disk.file 2 = [] by decide +kernel] at h2
      exact toy_nothing h2

/-- Decrypting is killed when the first byte of the output is written. -/
def exTwice3 : World := restarted exSealedWorld (stopped (exDecrypt ['z'] ['o'] { exErasing with force := .prompt }) exSealedWorld 1 1) []

theorem exTwice3_first : StoppedAt (decryptMode exSys ['z'] ['o'] { exErasing with force := .prompt }) exSealedWorld exTwice3 := by
  unfold exTwice3
  exact restarted_at (stopped_at _ _ _ _ rfl) _

theorem exTwice3_killed : Killed (fun force => decryptMode exSys ['z'] ['o'] { exErasing with force := force }) exSealedWorld exTwice3 := by
  refine .again .prompt ?_ exTwice3_first (.never rfl)
  intro k h
  rw [show exSealedWorld.sched = [] from rfl] at h
  cases h

theorem exSealed_apart : OutputApart exSys.cwd ['z'] ['o'] none exSealedWorld :=
  ⟨(exSeparate [] []).allocated, apart_of (q := [['z']]) (q' := [['o']]) (i := 2) ⟨by rfl, by decide +kernel⟩ (by rfl) (by decide) (by decide +kernel), fun hd h => by cases h⟩

example : exTwice3.file 1000 = [1] ∧ (exDecrypt ['z'] ['o'] { exErasing with force := .forced } exTwice3).1.isOk = true := by decide +kernel

example := C93_decrypt_partial exSys (Example.toy_lawful _ (by decide)) ['z'] ['o'] exErasing exSealedWorld exTwice3 [['z']] 2 [112, 119] [1, 2, 3] (by decide) ⟨by rfl, by decide +kernel⟩ exSealed_apart
  ⟨[['o']], by rfl, .inr ⟨by decide +kernel, by decide +kernel⟩⟩ (exSealed_decrypts [1, 2, 3] (by decide)).1 exTwice3_killed ⟨rfl, by decide, rfl⟩

/-- `pack --erase=1 a o`, killed when the first file is gone and the second one is empty; then the same line again, and the user agrees to everything. -/
def exAgain5 : World := restarted exBuried (stopped exPackingRun exBuried 12 0) ["y\n", "y\n"]

theorem exBuried_careful : Careful Example.toy toyZip [112, 119] exPackLine exBuried where
  build := rfl
  crypto := rfl
  zip := rfl
  line := .pack (before := [("erase", ['1'])]) (after := []) (wb := ["--erase=1".toList]) (wa := []) (inputs := [['a']]) (output := ['o'])
    ⟨.opt (o := ⟨"erase", none, false⟩) (by decide) .attached .nil, by decide⟩ ⟨.nil, by simp⟩ (by simp) (by intro f hf; rw [List.mem_singleton.1 hf]; exact .inr (by decide)) (.inr (by decide)) ⟨by decide, .inl rfl⟩ .name rfl
    (by decide +kernel : exBuried.env = some [112, 119]) (by
      rintro ⟨q, n, h1, h2⟩
      have h1 : exBuried.resolve (toPath [] ['o']) = .ok q := h1
      cases h1
      cases h2) (by
      intro q hq
      have hq : exBuried.resolve (toPath [] ['o']) = .ok q := hq
      cases hq
      rintro ⟨f, hf, T, hT, hx⟩
      rw [List.mem_singleton] at hf
      subst hf
      have h2 : exBuried.resolve (toPath [] ['a']) = .ok T := hT.resolve
      cases h2
      exact absurd hx (by decide))
  transfers := fun k h => by
    have h : Io.short k ∈ exBuried.sched := h
    rw [show exBuried.sched = [] by decide +kernel] at h
    cases h

/-- **The same for packing.** The second run packs what is left of the directory and overwrites the only archive of what is gone. -/
theorem C93_pack_false : LostByRepeating exPackLine [1, 2, 3] exBuried exAgain5 true where
  faultless := ⟨rfl, rfl⟩
  before := ⟨[['a'], ['x']], 0, by decide +kernel, .plain _⟩
  between := by
    have h : CarefulHistory Example.toy toyZip [112, 119] [1, 2, 3] _ exBuried.disk (stopped exPackingRun exBuried 12 0).disk :=
      .killed exBuried (stopped exPackingRun exBuried 12 0) exBuried_careful exPacking_main (stopped_at _ _ _ _ rfl) (.nil _)
    obtain ⟨q, j, h1, h2⟩ := C83_no_loss Example.toy (Example.toy_lawful _ (by decide)) toyZip toyZip_lawful toyZip_own [112, 119] [1, 2, 3] (toy_refuses (by decide +kernel)) _ _ _ exBuried_good h [['a'], ['x']] 0 (by decide +kernel) rfl
    refine ⟨q, ?_⟩
    unfold exAgain5
    rw [restarted_disk]
    exact ⟨j, h1, h2⟩
  lost := by
    refine ⟨exPackingRun, exPacking_main, restarted_at (stopped_at _ _ _ _ rfl) _, by decide +kernel, ?_⟩
    rintro q ⟨i, h1, h2⟩
    have hm := lookDisk_mem h1
    have hd : (exPackingRun exAgain5).2.disk.dir = [([['o']], .file 1000), ([['z']], .file 2)] := by decide +kernel
    rw [hd] at hm
    simp only [List.mem_cons, Prod.mk.injEq, Node.file.injEq, List.not_mem_nil, or_false] at hm
    rcases hm with ⟨rfl, rfl⟩ | ⟨rfl, rfl⟩
    · refine toy_layer (y := toyZip.encode [⟨"a/".toList, []⟩, ⟨"a/b/".toList, []⟩, ⟨"a/x".toList, []⟩]) (by decide +kernel) (by decide +kernel) (by decide +kernel) ?_ h2
      refine toy_archive (ms := [⟨"a/".toList, true, [], true⟩, ⟨"a/b/".toList, true, [], true⟩, ⟨"a/x".toList, true, [], true⟩]) (by decide +kernel) (by decide +kernel) (by decide +kernel) ?_
      intro m hm
      simp only [List.mem_cons, List.not_mem_nil, or_false] at hm
      rcases hm with rfl | rfl | rfl <;> exact toy_nothing
    · exact toy_barren (by decide +kernel) (by decide +kernel) (by decide +kernel) h2

end Volaris.Props
