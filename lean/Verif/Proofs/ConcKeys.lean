import Verif.Proofs.ConcCmd
/-!
# The key and header commands, made by a process alone and among others
-/
namespace Volaris.Conc
open Volaris.Spec Volaris.Cli
variable {c : Cfg} {R : Nat → Nat → Prop} {a v : World} {ε ε' α β σ : Type}

theorem good_openFileW (hs : Sim c R a v) {p : PathBuf} {q : Path} (hl : Leads c p q) (hq : c.writes q) : Good c R (openFile p) (K a fun h w => Wr c h w) a v := by
  refine (good_sysRetry hs).bind fun _ a' v' R' hs' hk => ?_
  rcases hs'.at (c.sub q hq) with ⟨h1, h2⟩ | ⟨h1, h2⟩ | ⟨i, j, h1, h2, hr⟩
  · exact Good.of (r := .err .notFound) (by unfold openAt; rw [hs'.la hl]; simp only; rw [h1]) (by unfold openAt; rw [hs'.lv hl]; simp only; rw [h2]) hs' (.refl _) (.refl _) fun _ h => by cases h
  · exact Good.of (r := .err .other) (by unfold openAt; rw [hs'.la hl]; simp only; rw [h1]) (by unfold openAt; rw [hs'.lv hl]; simp only; rw [h2]) hs' (.refl _) (.refl _) fun _ h => by cases h
  · refine Good.of (r := .ok a'.nextFd) (by unfold openAt; rw [hs'.la hl]; simp only; rw [h1]) (by unfold openAt; rw [hs'.lv hl]; simp only; rw [h2, hs'.nextFd]) (hs'.opened hr) (.refl _) (.refl _) fun _ h => ?_
    cases h
    exact ⟨hk.1.trans (keeps_opened ..), hand_opened hs' i, q, hq, by
      show a'.look q = some (.file ((a'.opened i).fd a'.nextFd).ino); rw [opened_ino]; exact h1⟩

theorem safe_openFileW {p : PathBuf} {q : Path} (hl : Leads c p q) (hq : c.writes q) (f : IoErr → ε) : SafeK c (fun h w => Wr c h w) (Thr.atom ((openFile p).mapErr f)) a R :=
  .atom fun _ hs => (good_openFileW hs hl hq).mapErr

theorem Aside.announce (key : Key) (line : String) : Aside (Cli.announce key line) := by
  cases key with
  | user => exact .say _
  | _ => exact .pure _

theorem Aside.sayAll : ∀ ls, Aside (Cli.sayAll ls)
  | [] => .pure _
  | l :: ls => by unfold Cli.sayAll; exact (Aside.say _).bind fun _ => Aside.sayAll ls

theorem Aside.genSalt : Aside (Volaris.genSalt : Prog ε Bytes) := by unfold Volaris.genSalt; exact .genBytes _
theorem Aside.genNonce (alg : Algorithm) (m : Mode) : Aside (Volaris.genNonce alg m : Prog ε Bytes) := by unfold Volaris.genNonce; exact .genBytes _

theorem safe_headerWrite {h : Nat} (hw : Wr c h a) (hd : Header) : SafeK c (fun _ _ => True) (Steps.headerWrite hd h) a R := by
  unfold Steps.headerWrite
  exact SafeK.lift.bind fun b w R' k _ => (safe_write (hw.keeps k) _ _).bind fun _ w R' _ _ => .pure trivial

theorem safe_keyLoad {h : Nat} (hh : Hand c h a) : SafeK c (fun _ _ => True) (Steps.keyLoad h) a R := by
  unfold Steps.keyLoad
  refine (safe_deserialize hh).mapErr.bind fun x w R' k1 _ => ?_
  simp only
  split
  · exact Safe.err
  · refine SafeK.bind (Q := fun _ _ => True) (.atom fun v hs => (good_seekCur hs (hh.keeps k1) _).mapErr) fun _ w R' k2 _ => ?_
    split
    · exact Safe.abort
    · exact .pure trivial

theorem safe_keyStore {h : Nat} (hw : Wr c h a) (hd : Header) (ks : List Keyslot) : SafeK c (fun _ _ => True) (Steps.keyStore h hd ks) a R := by
  unfold Steps.keyStore; exact (safe_headerWrite hw _).mapErr

theorem safe_keyAddExecute (C : Crypto) {req : KeyOps.NewKeyRequest} (hw : Wr c req.handle a) : SafeK c (fun _ _ => True) (Steps.keyAddExecute C req) a R := by
  unfold Steps.keyAddExecute
  refine (safe_keyLoad hw.1).bind fun x w R' k1 _ => ?_
  refine SafeK.lift.bind fun y w R' k2 _ => ?_
  simp only
  split
  · exact Safe.err
  · refine (SafeK.aside .genSalt).bind fun salt w R' k3 _ => (SafeK.aside (.genNonce _ _)).bind fun nonce w R' k4 _ => ?_
    refine SafeK.lift.bind fun keyNew w R' k5 _ => SafeK.lift.bind fun ek w R' k6 _ => ?_
    exact safe_keyStore ((((((hw.keeps k1).keeps k2).keeps k3).keeps k4).keeps k5).keeps k6) _ _

theorem safe_keyChangeExecute (C : Crypto) {req : KeyOps.NewKeyRequest} (hw : Wr c req.handle a) : SafeK c (fun _ _ => True) (Steps.keyChangeExecute C req) a R := by
  unfold Steps.keyChangeExecute
  refine (safe_keyLoad hw.1).bind fun x w R' k1 _ => ?_
  refine SafeK.lift.bind fun y w R' k2 _ => ?_
  refine (SafeK.aside .genSalt).bind fun salt w R' k3 _ => SafeK.lift.bind fun keyNew w R' k4 _ => ?_
  refine (SafeK.aside (.genNonce _ _)).bind fun nonce w R' k5 _ => SafeK.lift.bind fun ek w R' k6 _ => ?_
  simp only
  split
  · exact safe_keyStore ((((((hw.keeps k1).keeps k2).keeps k3).keeps k4).keeps k5).keeps k6) _ _
  · exact Safe.abort

theorem safe_keyDeleteExecute (C : Crypto) {h : Nat} (hw : Wr c h a) (pw : Bytes) : SafeK c (fun _ _ => True) (Steps.keyDeleteExecute C h pw) a R := by
  unfold Steps.keyDeleteExecute
  refine (safe_keyLoad hw.1).bind fun x w R' k1 _ => ?_
  refine SafeK.lift.bind fun y w R' k2 _ => ?_
  simp only
  split
  · exact safe_keyStore ((hw.keeps k1).keeps k2) _ _
  · exact Safe.abort

theorem safe_keyVerifyExecute (C : Crypto) {h : Nat} (hh : Hand c h a) (pw : Bytes) : SafeK c (fun _ _ => True) (Steps.keyVerifyExecute C h pw) a R := by
  unfold Steps.keyVerifyExecute
  refine (safe_deserialize hh).mapErr.bind fun x w R' k1 _ => ?_
  simp only
  split
  · exact Safe.err
  · split
    · exact Safe.abort
    · exact SafeK.lift.bind fun _ w R' _ _ => .pure trivial

theorem safe_openV5W (s : Sys σ) {input : List Char} {q : Path} (hl : Leads c (toPath s.cwd input) q) (hq : c.writes q) : SafeK c (fun h w => Wr c h w) (Steps.openV5 s input) a R := by
  unfold Steps.openV5
  refine (safe_openFileW hl hq _).bind fun h w R' k1 hw => ?_
  refine (safe_deserialize hw.1).mapErr.bind fun x w R' k2 _ => ?_
  simp only
  split
  · exact Safe.err
  · exact (safe_rewind _ _).bind fun _ w R' k3 _ => .pure ((hw.keeps k2).keeps k3)

theorem safe_openV5 (s : Sys σ) {input : List Char} {q : Path} (hl : Leads c (toPath s.cwd input) q) (hq : c.uses q) : SafeK c (fun h w => Hand c h w) (Steps.openV5 s input) a R := by
  unfold Steps.openV5
  refine (safe_openFile hl hq _).bind fun h w R' k1 hw => ?_
  refine (safe_deserialize hw).mapErr.bind fun x w R' k2 _ => ?_
  simp only
  split
  · exact Safe.err
  · exact (safe_rewind _ _).bind fun _ w R' k3 _ => .pure ((hw.keeps k2).keeps k3)

theorem safe_keyAdd (s : Sys σ) {input : List Char} {params : KeyManipulationParams}
    (hu : ∀ n, n ∈ (Job.keyAdd input params).reads → ∃ q, Leads c (toPath s.cwd n) q ∧ c.uses q)
    (hw : ∀ n, n ∈ (Job.keyAdd input params).writes → ∃ q, Leads c (toPath s.cwd n) q ∧ c.writes q) : Safe c (fun _ _ => True) (Steps.keyAdd s input params) a R := by
  obtain ⟨q, hl, hq⟩ := hw input (by simp [Job.writes])
  refine Safe.mono (fun _ _ _ => trivial) (Q := K a fun _ _ => True) ?_
  unfold Steps.keyAdd
  refine (safe_openV5W s hl hq).bind fun h w R' _ hh => (SafeK.aside (.announce _ _)).bind fun _ w R' k2 _ => ?_
  refine (safe_getSecret (fun n hn => hu n (by simp [Job.reads, hn])) _).bind fun old w R' k3 _ => (SafeK.aside (.announce _ _)).bind fun _ w R' k4 _ => ?_
  refine (safe_getSecret (fun n hn => hu n (by simp [Job.reads, hn])) _).bind fun new w R' k5 _ => SafeK.mapErr ?_
  exact safe_keyAddExecute s.C ((((hh.keeps k2).keeps k3).keeps k4).keeps k5)

theorem safe_keyChange (s : Sys σ) {input : List Char} {params : KeyManipulationParams}
    (hu : ∀ n, n ∈ (Job.keyChange input params).reads → ∃ q, Leads c (toPath s.cwd n) q ∧ c.uses q)
    (hw : ∀ n, n ∈ (Job.keyChange input params).writes → ∃ q, Leads c (toPath s.cwd n) q ∧ c.writes q) : Safe c (fun _ _ => True) (Steps.keyChange s input params) a R := by
  obtain ⟨q, hl, hq⟩ := hw input (by simp [Job.writes])
  refine Safe.mono (fun _ _ _ => trivial) (Q := K a fun _ _ => True) ?_
  unfold Steps.keyChange
  refine (safe_openV5W s hl hq).bind fun h w R' _ hh => (SafeK.aside (.announce _ _)).bind fun _ w R' k2 _ => ?_
  refine (safe_getSecret (fun n hn => hu n (by simp [Job.reads, hn])) _).bind fun old w R' k3 _ => (SafeK.aside (.announce _ _)).bind fun _ w R' k4 _ => ?_
  refine (safe_getSecret (fun n hn => hu n (by simp [Job.reads, hn])) _).bind fun new w R' k5 _ => SafeK.mapErr ?_
  exact safe_keyChangeExecute s.C ((((hh.keeps k2).keeps k3).keeps k4).keeps k5)

theorem safe_keyDelete (s : Sys σ) {input : List Char} {key : Key}
    (hu : ∀ n, n ∈ (Job.keyDelete input key).reads → ∃ q, Leads c (toPath s.cwd n) q ∧ c.uses q)
    (hw : ∀ n, n ∈ (Job.keyDelete input key).writes → ∃ q, Leads c (toPath s.cwd n) q ∧ c.writes q) : Safe c (fun _ _ => True) (Steps.keyDelete s input key) a R := by
  obtain ⟨q, hl, hq⟩ := hw input (by simp [Job.writes])
  refine Safe.mono (fun _ _ _ => trivial) (Q := K a fun _ _ => True) ?_
  unfold Steps.keyDelete
  refine (safe_openV5W s hl hq).bind fun h w R' _ hh => (SafeK.aside (.announce _ _)).bind fun _ w R' k2 _ => ?_
  refine (safe_getSecret (fun n hn => hu n hn) _).bind fun old w R' k3 _ => SafeK.mapErr ?_
  exact safe_keyDeleteExecute s.C ((hh.keeps k2).keeps k3) _

theorem safe_keyVerify (s : Sys σ) {input : List Char} {key : Key}
    (hu : ∀ n, n ∈ (Job.keyVerify input key).reads → ∃ q, Leads c (toPath s.cwd n) q ∧ c.uses q) : Safe c (fun _ _ => True) (Steps.keyVerify s input key) a R := by
  obtain ⟨q, hl, hq⟩ := hu input (by simp [Job.reads])
  refine Safe.mono (fun _ _ _ => trivial) (Q := K a fun _ _ => True) ?_
  unfold Steps.keyVerify
  refine (safe_openV5 s hl hq).bind fun h w R' _ hh => (SafeK.aside (.announce _ _)).bind fun _ w R' k2 _ => ?_
  refine (safe_getSecret (fun n hn => hu n (by simp [Job.reads, hn])) _).bind fun old w R' k3 _ => SafeK.mapErr ?_
  exact safe_keyVerifyExecute s.C ((hh.keeps k2).keeps k3) _

theorem safe_dumpExecute {r w : Nat} (hr : Hand c r a) (hw : Wr c w a) : SafeK c (fun _ _ => True) (Steps.dumpExecute r w) a R := by
  unfold Steps.dumpExecute
  exact (safe_deserialize hr).mapErr.bind fun x w R' k _ => (safe_headerWrite (hw.keeps k) _).mapErr

theorem safe_restoreExecute {r w : Nat} (hr : Hand c r a) (hw : Wr c w a) : SafeK c (fun _ _ => True) (Steps.restoreExecute r w) a R := by
  unfold Steps.restoreExecute
  refine (safe_deserialize hr).mapErr.bind fun x w R' k _ => (safe_read (hw.1.keeps k) _ _).bind fun b w R' k2 _ => ?_
  simp only
  split
  · exact Safe.err
  · exact (safe_rewind _ _).bind fun _ w R' k3 _ => (safe_headerWrite (((hw.keeps k).keeps k2).keeps k3) _).mapErr

theorem safe_stripExecute {h : Nat} (hw : Wr c h a) : SafeK c (fun _ _ => True) (Steps.stripExecute h) a R := by
  unfold Steps.stripExecute
  exact (safe_deserialize hw.1).mapErr.bind fun x w R' k _ => (safe_rewind _ _).bind fun _ w R' k2 _ => safe_writeAll ((hw.keeps k).keeps k2) _ _

theorem safe_headerDetails (s : Sys σ) {input : List Char} {q : Path} (hl : Leads c (toPath s.cwd input) q) (hq : c.uses q) : SafeK c (fun _ _ => True) (Steps.headerDetails s input) a R := by
  unfold Steps.headerDetails
  refine (safe_openFile hl hq _).bind fun h w R' _ hh => (safe_deserialize hh).mapErr.bind fun x w R' _ _ => ?_
  simp only
  refine (SafeK.aside (.sayAll _)).bind fun _ w R' _ _ => SafeK.lift.bind fun rest w R' _ _ => ?_
  exact (SafeK.aside (.sayAll _)).bind fun _ w R' _ _ => .pure trivial

theorem safe_headerDump (s : Sys σ) {input output : List Char} {force : ForceMode}
    (hu : ∀ n, n ∈ (Job.headerDump input output force).reads → ∃ q, Leads c (toPath s.cwd n) q ∧ c.uses q)
    (hw : ∀ n, n ∈ (Job.headerDump input output force).writes → ∃ q, Leads c (toPath s.cwd n) q ∧ c.writes q) : Safe c (fun _ _ => True) (Steps.headerDump s input output force) a R := by
  obtain ⟨qo, hlo, hqo⟩ := hw output (by simp [Job.writes])
  obtain ⟨qi, hli, hqi⟩ := hu input (by simp [Job.reads])
  refine Safe.mono (fun _ _ _ => trivial) (Q := K a fun _ _ => True) ?_
  unfold Steps.headerDump
  refine (safe_readInput hli hqi).bind fun e w1 R1 k1 he => (safe_consent hlo (c.sub _ hqo) _).bind fun _ w2 R2 k2 _ => (safe_openOutput hlo hqo).bind fun o w3 R3 k3 ho => ?_
  obtain ⟨p', h', rfl, hw'⟩ := ho
  have he := (he.keeps k2).keeps k3
  cases e with
  | dir p => exact Safe.bind (Q := fun _ _ => False) Safe.err fun _ _ _ h => h.elim
  | file p h =>
    have hh := he.2 h rfl
    refine Safe.bind (Q := fun x y => x = h ∧ y = w3) (fun y hy => by cases hy; exact ⟨rfl, rfl⟩) fun x y R5 hxy => ?_
    obtain ⟨rfl, rfl⟩ := hxy
    refine Safe.bind (Q := fun x z => x = h' ∧ z = y) (fun y hy => by cases hy; exact ⟨rfl, rfl⟩) fun x z R6 hxy => ?_
    obtain ⟨rfl, rfl⟩ := hxy
    exact (safe_dumpExecute hh hw').mapErr.bind fun _ w R _ _ => (safe_flushFile _).mapErr

theorem safe_headerRestore (s : Sys σ) {input output : List Char}
    (hu : ∀ n, n ∈ (Job.headerRestore input output).reads → ∃ q, Leads c (toPath s.cwd n) q ∧ c.uses q)
    (hw : ∀ n, n ∈ (Job.headerRestore input output).writes → ∃ q, Leads c (toPath s.cwd n) q ∧ c.writes q) : Safe c (fun _ _ => True) (Steps.headerRestore s input output) a R := by
  obtain ⟨qo, hlo, hqo⟩ := hw output (by simp [Job.writes])
  obtain ⟨qi, hli, hqi⟩ := hu input (by simp [Job.reads])
  refine Safe.mono (fun _ _ _ => trivial) (Q := K a fun _ _ => True) ?_
  unfold Steps.headerRestore
  refine (safe_readInput hli hqi).bind fun e w1 R1 k1 he => (safe_openFileW hlo hqo _).bind fun o w3 R3 k3 hw' => ?_
  have he := he.keeps k3
  cases e with
  | dir p => exact Safe.bind (Q := fun _ _ => False) Safe.err fun _ _ _ h => h.elim
  | file p h =>
    have hh := he.2 h rfl
    refine Safe.bind (Q := fun x y => x = h ∧ y = w3) (fun y hy => by cases hy; exact ⟨rfl, rfl⟩) fun x y R5 hxy => ?_
    obtain ⟨rfl, rfl⟩ := hxy
    exact (safe_restoreExecute hh hw').mapErr

theorem safe_headerStrip (s : Sys σ) {input : List Char}
    (hw : ∀ n, n ∈ (Job.headerStrip input).writes → ∃ q, Leads c (toPath s.cwd n) q ∧ c.writes q) : Safe c (fun _ _ => True) (Steps.headerStrip s input) a R := by
  obtain ⟨q, hl, hq⟩ := hw input (by simp [Job.writes])
  refine Safe.mono (fun _ _ _ => trivial) (Q := K a fun _ _ => True) ?_
  unfold Steps.headerStrip
  exact (safe_openFileW hl hq _).bind fun h w R' _ hh => (safe_stripExecute hh).mapErr

end Volaris.Conc
