import Verif.Proofs.EndToEnd
import Verif.Props.Header
/-!
# C14 – C20, C53 – C55: whole-file encryption and decryption
-/
namespace Volaris.Props
open Spec

/-! ### C14 -/

/-- An encryption request as the examples use it. -/
def exRequest (t : HeaderType) (h : HashingAlgorithm) : Encrypt.Request :=
  { reader := 0, writer := 1, headerWriter := none, rawKey := [112, 119], headerType := t, hashingAlgorithm := h }

def exV5 : HeaderType := { version := .v5, algorithm := .aes256Gcm, mode := .streamMode }

theorem toy_works (a : Algorithm) (h : HashingAlgorithm) (pw : Bytes) (hh : h ∈ supportedHashes) :
    PrimitivesWork Example.toy a h pw where
  hash := by
    obtain ⟨f, hf⟩ := kdfParams_mem.1 hh
    exact ⟨f, hf, fun _ => rfl⟩
  enc := by intros; rfl

/-- **C14.** Without I/O faults, encrypting to a V5 file (stream mode, any algorithm, any supported hash, any password and random choices)
succeeds if the primitives do and the input fits the block counter, touches only the destination, and what is then in the destination
file decrypts with the same password to exactly the input.  The destination may be longer than zero, but not longer than what is
written. -/
theorem C14_encrypt_decrypt (C : Crypto) (hC : C.Lawful) (req : Encrypt.Request) (w : World)
    (hv : req.headerType.version = .v5) (hm : req.headerType.mode = .streamMode) (hh : req.headerWriter = none)
    (hne : req.reader ≠ req.writer) (hino : (w.fd req.reader).ino ≠ (w.fd req.writer).ino) (hs : w.sched = [])
    (hp : PrimitivesWork C req.headerType.algorithm req.hashingAlgorithm req.rawKey)
    (hlim : (w.data req.reader).length / 2 ^ 20 ≤ C.ctrMax)
    (hdest : (w.data req.writer).length ≤
      416 + (w.data req.reader).length + 16 * ((w.data req.reader).length / 2 ^ 20 + 1)) :
    ∃ w', Encrypt.execute C req w = (.ok (), w') ∧ Touches [req.reader] [req.writer] w w' ∧
      DecryptsTo C req.rawKey (w'.file (w.fd req.writer).ino) (w.data req.reader) := by
  obtain ⟨w', he, _⟩ := encrypt_nil hC req hne hs hino (by simp [hh]) (.inr hv) hm hp hlim
  refine ⟨w', he, ?_, ?_⟩
  · have := encrypt_within C req w
    rw [he] at this
    simpa [Encrypt.Request.writers, hh] using this
  · obtain ⟨hb, aad, c, k, henc, hcont⟩ := encrypt_embedded_content hC req hh hne hino (by simp [NoShort, hs]) he
    obtain ⟨hlen, hd, mk, ht, hi, hr, hbody⟩ := henc.fileOf hC (.inl hv)
    obtain ⟨_, _, _, _, _, _, _, hseal⟩ := henc.slot
    have hcl := hseal.length hC
    have : (w.data req.writer).drop (hb ++ c).length = [] := by
      apply List.drop_eq_nil_of_le
      rw [List.length_append, hlen, hcl, hv]
      exact Nat.le_trans hdest (by simp only [headerSize, blockLen, tagLen]; omega)
    rw [hcont, this, List.append_nil]
    apply Spec.FileOf.decrypts hC
    refine ⟨hd, aad, mk, hi c, hr, ?_⟩
    rw [ht, List.drop_left' hlen]
    exact hbody

example : ∃ w', Encrypt.execute Example.toy (exRequest exV5 (.argon2id 3))
    (Example.world fun i => if i = 0 then [1, 2, 3] else []) = (.ok (), w') ∧
    DecryptsTo Example.toy [112, 119] (w'.file 1) [1, 2, 3] := by
  obtain ⟨w', h, _, h2⟩ := C14_encrypt_decrypt Example.toy (Example.toy_lawful _ (by decide)) (exRequest exV5 (.argon2id 3))
    (Example.world fun i => if i = 0 then [1, 2, 3] else []) rfl rfl rfl (by decide) (by decide) rfl
    (toy_works _ _ _ (by decide)) (by decide) (by decide)
  exact ⟨w', h, h2⟩

/-- **C14.** Under every I/O schedule without short transfers (calls may fail or be interrupted): if encryption to V5, or to V4 with the
hash that V4 implies, reports success, then what is in the destination file decrypts with the same password to exactly the input, and
never to anything else. -/
theorem C14_success_means_decryptable (C : Crypto) (hC : C.Lawful) (req : Encrypt.Request) (w w' : World)
    (hv : req.headerType.version = .v5 ∨ req.hashingAlgorithm = .blake3Balloon 4) (hh : req.headerWriter = none)
    (hne : req.reader ≠ req.writer) (hino : (w.fd req.reader).ino ≠ (w.fd req.writer).ino)
    (hshort : ∀ k, Io.short k ∉ w.sched) (hdest : w.data req.writer = [])
    (hok : Encrypt.execute C req w = (.ok (), w')) :
    DecryptsTo C req.rawKey (w'.file (w.fd req.writer).ino) (w.data req.reader) ∧
    OnlyDecryptsTo C req.rawKey (w'.file (w.fd req.writer).ino) (w.data req.reader) := by
  obtain ⟨hb, aad, c, k, henc, hcont⟩ := encrypt_embedded_content hC req hh hne hino hshort hok
  obtain ⟨hlen, hd, mk, ht, hi, hr, hbody⟩ := henc.fileOf hC hv
  have hf : FileOf C req.rawKey (w'.file (w.fd req.writer).ino) (w.data req.reader) := by
    rw [hcont, hdest, List.drop_nil, List.append_nil]
    refine ⟨hd, aad, mk, hi c, hr, ?_⟩
    rw [ht, List.drop_left' hlen]
    exact hbody
  exact ⟨hf.decrypts hC, hf.only hC⟩

/-- The hypotheses with a schedule that has an interrupted call in it (`write_all` retries): success is reachable. -/
example : ∃ w', Encrypt.execute Example.toy (exRequest exV5 (.argon2id 3))
    { Example.world (fun i => if i = 0 then [1, 2, 3] else []) with sched := [.full, .full, .full, .full, .intr, .full] } =
      (.ok (), w') ∧ w'.sched = [] ∧ (w'.file 1).length = 435 :=
  ⟨(Encrypt.execute Example.toy (exRequest exV5 (.argon2id 3))
    { Example.world (fun i => if i = 0 then [1, 2, 3] else []) with sched := [.full, .full, .full, .full, .intr, .full] }).2,
   run_of_fst (by decide +kernel), by decide +kernel, by decide +kernel⟩

def exStale : World := Example.world (fun i => if i = 0 then [1, 2, 3] else List.replicate 440 7)

def exStaleReq : Decrypt.Request := { headerReader := none, reader := 0, writer := 1, rawKey := [112, 119] }

def exStaleResult : World := Example.world fun i =>
  if i = 0 then (Encrypt.execute Example.toy (exRequest exV5 (.argon2id 3)) exStale).2.file 1 else []

/-- **C14.** Why the length of an existing destination matters: nothing is truncated, so encrypting over a longer file leaves
its tail behind the ciphertext, and the result does not decrypt although encryption reported success. -/
theorem C14_longer_destination_fails :
    ∃ (C : Crypto) (req : Encrypt.Request) (w w' : World), C.Lawful ∧ req.headerType = exV5 ∧ req.headerWriter = none ∧
      (w.fd req.reader).ino ≠ (w.fd req.writer).ino ∧ w.sched = [] ∧
      Encrypt.execute C req w = (.ok (), w') ∧ ¬ DecryptsTo C req.rawKey (w'.file (w.fd req.writer).ino) (w.data req.reader) := by
  refine ⟨Example.toy, exRequest exV5 (.argon2id 3), exStale, (Encrypt.execute Example.toy (exRequest exV5 (.argon2id 3)) exStale).2,
    Example.toy_lawful _ (by decide), rfl, rfl, by decide, rfl, run_of_fst (by decide +kernel), ?_⟩
  intro h
  obtain ⟨v', he, _⟩ := h exStaleReq exStaleResult ⟨rfl, rfl, by decide, by decide,
    by simp only [World.rest, World.data, exStaleResult, Example.world, exStaleReq, if_true, List.drop_zero, exRequest, exStale]⟩ rfl
  have hne : (Decrypt.execute Example.toy exStaleReq exStaleResult).1.isOk = false := by decide +kernel
  rw [he] at hne
  simp [Res.isOk] at hne

/-! ### C10 for whole files -/

/-- **C10.** A successful encryption into an empty file (no short transfers) leaves exactly header, plaintext length and 16 bytes per
started block. -/
theorem C10_file_size (C : Crypto) (hC : C.Lawful) (req : Encrypt.Request) (w w' : World) (hh : req.headerWriter = none)
    (hne : req.reader ≠ req.writer) (hino : (w.fd req.reader).ino ≠ (w.fd req.writer).ino)
    (hshort : ∀ k, Io.short k ∉ w.sched) (hdest : w.data req.writer = [])
    (hok : Encrypt.execute C req w = (.ok (), w')) :
    (w'.file (w.fd req.writer).ino).length = headerSize req.headerType.version + (w.data req.reader).length
      + 16 * ((w.data req.reader).length / 2 ^ 20 + 1) := by
  obtain ⟨hb, aad, c, k, henc, hcont⟩ := encrypt_embedded_content hC req hh hne hino hshort hok
  obtain ⟨hk, ek, hto, _, hel, hser, _, hseal⟩ := henc.slot
  obtain ⟨hb', _, hser', _, hlen, _⟩ := freshHeader_bytes (w := w) hto hel henc.version
  rw [hser] at hser'; cases hser'
  rw [hcont, hdest, List.drop_nil, List.append_nil, List.length_append, hlen, hseal.length hC]
  simp only [blockLen, tagLen]; omega

/-! ### C15 -/

/-- **C15.** With the header written to a file of its own: encryption succeeds without faults, and header file and body file together
decrypt to the input, both when the body file is used as it is, provided the ciphertext does not start with a header-sized run of zeros,
and when it is preceded by such a run (as a stripped file is). -/
theorem C15_detached (C : Crypto) (hC : C.Lawful) (req : Encrypt.Request) (w : World) (hw : Nat)
    (hv : req.headerType.version = .v5 ∨ req.headerType.version = .v4 ∧ req.hashingAlgorithm = .blake3Balloon 4)
    (hm : req.headerType.mode = .streamMode) (hh : req.headerWriter = some hw)
    (hne : req.reader ≠ req.writer) (hhw : hw ≠ req.writer)
    (hino : (w.fd req.reader).ino ≠ (w.fd req.writer).ino) (hinoh : (w.fd req.reader).ino ≠ (w.fd hw).ino)
    (hinow : (w.fd hw).ino ≠ (w.fd req.writer).ino) (hs : w.sched = [])
    (hp : PrimitivesWork C req.headerType.algorithm req.hashingAlgorithm req.rawKey)
    (hlim : (w.data req.reader).length / 2 ^ 20 ≤ C.ctrMax)
    (hdest : w.data req.writer = []) (hdesth : w.data hw = []) :
    ∃ w', Encrypt.execute C req w = (.ok (), w') ∧ Touches [req.reader] [hw, req.writer] w w' ∧
      let header := w'.file (w.fd hw).ino
      let body := w'.file (w.fd req.writer).ino
      header.length = headerSize req.headerType.version ∧
      body.length = (w.data req.reader).length + 16 * ((w.data req.reader).length / 2 ^ 20 + 1) ∧
      DetachedDecryptsTo C req.rawKey header (List.replicate header.length 0 ++ body) (w.data req.reader) ∧
      ((∃ b ∈ body.take header.length, b ≠ 0) →
        DetachedDecryptsTo C req.rawKey header body (w.data req.reader)) ∧
      DecryptsTo C req.rawKey (header ++ body) (w.data req.reader) := by
  have hv45 : req.headerType.version = .v4 ∨ req.headerType.version = .v5 := hv.elim .inr fun h => .inl h.1
  obtain ⟨w', he, _⟩ := encrypt_nil hC req hne hs hino (by simp [hh, hinoh]) hv45 hm hp hlim
  refine ⟨w', he, ?_, ?_⟩
  · have := encrypt_within C req w
    rw [he] at this
    simpa [Encrypt.Request.writers, hh] using this
  · obtain ⟨hb, aad, c, k, henc, h1, h2⟩ := encrypt_detached_content hC req hh hne hhw hino hinoh hinow
      (by simp [NoShort, hs]) he
    rw [hdesth, List.drop_nil, List.append_nil] at h1
    rw [hdest, List.drop_nil, List.append_nil] at h2
    obtain ⟨hlen, hd, mk, ht, hi, hr, hbody⟩ := henc.fileOf hC (hv.imp id And.right)
    obtain ⟨_, _, _, _, _, _, _, hseal⟩ := henc.slot
    simp only [h1, h2]
    have hi0 : IsHeader hb hd aad := by simpa using hi []
    refine ⟨hlen, ?_, ?_, ?_, ?_⟩
    · rw [hseal.length hC]; simp only [blockLen, tagLen]
    · apply Spec.DetachedFileOf.decrypts hC
      refine ⟨hd, aad, mk, hi0, hr, ?_⟩
      rw [ht, ← hlen, detachedBody_zeros]; exact hbody
    · rintro ⟨b, hb1, hb2⟩
      apply Spec.DetachedFileOf.decrypts hC
      refine ⟨hd, aad, mk, hi0, hr, ?_⟩
      rw [ht, ← hlen, detachedBody, if_neg (fun h => hb2 (h b hb1))]; exact hbody
    · apply Spec.FileOf.decrypts hC
      refine ⟨hd, aad, mk, hi c, hr, ?_⟩
      rw [ht, List.drop_left' hlen]; exact hbody

example : ∃ w', Encrypt.execute Example.toy { exRequest exV5 (.argon2id 3) with headerWriter := some 2 }
    (Example.world fun i => if i = 0 then [1, 2, 3] else []) = (.ok (), w') ∧
    DetachedDecryptsTo Example.toy [112, 119] (w'.file 2) (List.replicate (w'.file 2).length 0 ++ w'.file 1) [1, 2, 3] := by
  obtain ⟨w', h, _, _, _, h2, _⟩ := C15_detached Example.toy (Example.toy_lawful _ (by decide))
    { exRequest exV5 (.argon2id 3) with headerWriter := some 2 }
    (Example.world fun i => if i = 0 then [1, 2, 3] else []) 2 (.inl rfl) rfl rfl (by decide) (by decide) (by decide)
    (by decide) (by decide) rfl (toy_works _ _ _ (by decide)) (by decide) rfl rfl
  exact ⟨w', h, h2⟩

/-- **C15.** The proviso is needed: detached decryption takes a header-sized run of zeros at the start of the content for a stripped
header, so if the genuine ciphertext starts like that, it is cut off. -/
theorem C15_zero_ciphertext (C : Crypto) (hC : C.Lawful) (pw hdr content p : Bytes) (h : Header) (aad mk : Bytes)
    (hi : IsHeader hdr h aad) (hr : Recovers C pw h mk)
    (hz : ∀ b ∈ content.take (headerSize h.headerType.version), b = 0)
    (hb : BodyOf C h mk aad p (content.drop (headerSize h.headerType.version))) :
    DetachedDecryptsTo C pw hdr content p := by
  apply Spec.DetachedFileOf.decrypts hC
  refine ⟨h, aad, mk, hi, hr, ?_⟩
  rw [detachedBody, if_pos hz]; exact hb

/-! ### C16 -/

/-- **C16.** V4 with BLAKE3-Balloon v4: encryption succeeds without faults and decryption with the same password gives the input back. -/
theorem C16_v4_balloon4 (C : Crypto) (hC : C.Lawful) (req : Encrypt.Request) (w : World)
    (hv : req.headerType.version = .v4) (hhash : req.hashingAlgorithm = .blake3Balloon 4)
    (hm : req.headerType.mode = .streamMode) (hh : req.headerWriter = none)
    (hne : req.reader ≠ req.writer) (hino : (w.fd req.reader).ino ≠ (w.fd req.writer).ino) (hs : w.sched = [])
    (hp : PrimitivesWork C req.headerType.algorithm req.hashingAlgorithm req.rawKey)
    (hlim : (w.data req.reader).length / 2 ^ 20 ≤ C.ctrMax) (hdest : w.data req.writer = []) :
    ∃ w', Encrypt.execute C req w = (.ok (), w') ∧ Touches [req.reader] [req.writer] w w' ∧
      DecryptsTo C req.rawKey (w'.file (w.fd req.writer).ino) (w.data req.reader) := by
  obtain ⟨w', he, _⟩ := encrypt_nil hC req hne hs hino (by simp [hh]) (.inl hv) hm hp hlim
  refine ⟨w', he, ?_, (C14_success_means_decryptable C hC req w w' (.inr hhash) hh hne hino (by simp [hs]) hdest he).1⟩
  have := encrypt_within C req w
  rw [he] at this
  simpa [Encrypt.Request.writers, hh] using this

/-- **C16.** V4 with any other hash: encryption still reports success, but the same password is refused, provided the V4 hash of the password
(which is what decryption uses) does not open the key that was sealed under the other hash, for the salt, key and nonce drawn from
the random tape. -/
theorem C16_v4_other_hash (C : Crypto) (hC : C.Lawful) (req : Encrypt.Request) (w : World)
    (hv : req.headerType.version = .v4) (hm : req.headerType.mode = .streamMode) (hh : req.headerWriter = none)
    (hne : req.reader ≠ req.writer) (hino : (w.fd req.reader).ino ≠ (w.fd req.writer).ino) (hs : w.sched = [])
    (hp : PrimitivesWork C req.headerType.algorithm req.hashingAlgorithm req.rawKey)
    (hlim : (w.data req.reader).length / 2 ^ 20 ≤ C.ctrMax) (hdest : w.data req.writer = [])
    (hdiff : ∀ hk hk' ek, HashesTo C req.hashingAlgorithm req.rawKey (tape w 0 16) hk →
      HashesTo C (.blake3Balloon 4) req.rawKey (tape w 0 16) hk' →
      C.enc req.headerType.algorithm hk (tape w 48 (nonceLength req.headerType.algorithm .memoryMode)) [] (tape w 16 32) = some ek →
      C.dec req.headerType.algorithm hk' (tape w 48 (nonceLength req.headerType.algorithm .memoryMode)) [] ek = none) :
    ∃ w', Encrypt.execute C req w = (.ok (), w') ∧ Refuses C req.rawKey (w'.file (w.fd req.writer).ino) := by
  obtain ⟨w', he, _⟩ := encrypt_nil hC req hne hs hino (by simp [hh]) (.inl hv) hm hp hlim
  refine ⟨w', he, ?_⟩
  obtain ⟨hb, aad, c, k, henc, hcont⟩ := encrypt_embedded_content hC req hh hne hino (by simp [NoShort, hs]) he
  rw [hcont, hdest, List.drop_nil, List.append_nil]
  obtain ⟨hk, ek, hto, hec, hel, hser, ha, hseal⟩ := henc.slot
  obtain ⟨hb', aad', hser', ha', hlen, hi⟩ := freshHeader_bytes (w := w) hto hel henc.version
  rw [hser] at hser'; cases hser'
  apply refuses_of hC
  intro hd aad2 mk n c' q hi' hr _ _
  obtain ⟨rfl, _⟩ := isHeader_unique hi' (hi c)
  simp only [Recovers, hv, if_true] at hr
  obtain ⟨k, ks, hks, hk', ho, hdec⟩ := hr
  simp only [Option.some.injEq, List.cons.injEq] at hks
  obtain ⟨rfl, _⟩ := hks
  simp only [freshSlot] at ho hdec
  rw [hdiff _ _ _ hto ho hec] at hdec
  simp at hdec

/-- Encrypted with argon2id v3 under a V4 header: reported as success, not decryptable with the same password. -/
example : ∃ w', Encrypt.execute Example.toy (exRequest { exV5 with version := .v4 } (.argon2id 3))
    (Example.world fun i => if i = 0 then [1, 2, 3] else []) = (.ok (), w') ∧ Refuses Example.toy [112, 119] (w'.file 1) := by
  refine C16_v4_other_hash Example.toy (Example.toy_lawful _ (by decide)) _ _ rfl rfl rfl (by decide) (by decide) rfl
    (toy_works _ _ _ (by decide)) (by decide) rfl ?_
  rintro hk hk' ek ⟨f, hf, h1⟩ ⟨f', hf', h2⟩ h3
  cases hf; cases hf'; cases h1; cases h2; cases h3
  decide +kernel

/-! ### C17 -/

/-- **C17.** Unsupported requests: memory mode, header versions 1 to 3, and hash identifiers without parameters.  Under every I/O schedule
`execute` does not return success and no file is changed. -/
theorem C17_unsupported (C : Crypto) (hC : C.Lawful) (req : Encrypt.Request)
    (hbad : req.headerType.mode = .memoryMode ∨ req.headerType.version = .v1 ∨ req.headerType.version = .v2 ∨
      req.headerType.version = .v3 ∨ req.hashingAlgorithm ∉ supportedHashes) (w : World) :
    (∀ w', Encrypt.execute C req w ≠ (.ok (), w')) ∧ (Encrypt.execute C req w).2.file = w.file := by
  unfold Encrypt.execute
  rcases prepare_eq C hC req w with ⟨hk, ek, hto, hec, hm, hel, hp⟩ | ⟨e, n, hp, _⟩
  · have hsup : req.hashingAlgorithm ∈ supportedHashes := by obtain ⟨f, hf, _⟩ := hto; exact kdfParams_mem.2 ⟨f, hf⟩
    have hser : ∀ hb, (freshHeader req w ek).serialize ≠ .ok hb := by
      intro hb h
      rcases freshHeader_serialize h with h4 | h5
      · rcases hbad with h | h | h | h | h
        · rw [hm] at h; simp at h
        all_goals first | (rw [h4] at h; simp at h) | exact absurd hsup h
      · rcases hbad with h | h | h | h | h
        · rw [hm] at h; simp at h
        all_goals first | (rw [h5] at h; simp at h) | exact absurd hsup h
    rw [Prog.bind_ok (show Encrypt.prepare C req w = (_, w.draw (drawn req)) from hp)]
    dsimp only
    have key : ∀ w2, (Encrypt.writeHeader req (freshHeader req w ek) w2).2.file = w2.file ∧
        ∀ w3, Encrypt.writeHeader req (freshHeader req w ek) w2 ≠ (.ok (), w3) := by
      have fin : ∀ (h : Nat) (w2 : World), ((do
          let bytes ← Prog.lift ((freshHeader req w ek).serialize.mapErr fun _ => Encrypt.Error.writeHeader)
          let _ ← (write h bytes).mapErr fun _ => Encrypt.Error.writeHeader
          pure () : Prog Encrypt.Error Unit) w2).2.file = w2.file ∧ ∀ w3, (do
          let bytes ← Prog.lift ((freshHeader req w ek).serialize.mapErr fun _ => Encrypt.Error.writeHeader)
          let _ ← (write h bytes).mapErr fun _ => Encrypt.Error.writeHeader
          pure () : Prog Encrypt.Error Unit) w2 ≠ (.ok (), w3) := by
        intro h w2
        cases hs : (freshHeader req w ek).serialize with
        | ok hb => exact absurd hs (hser hb)
        | err e => simp [Prog.bind_run]
        | abort a => simp [Prog.bind_run]
      intro w2
      unfold Encrypt.writeHeader
      cases hh : req.headerWriter with
      | none => exact fin _ _
      | some hw =>
        simp only
        rcases rewind_spec hw w2 with ⟨w3, e3, hc3⟩ | ⟨e, w3, e3, hc3⟩
        · rw [Prog.bind_ok (Prog.mapErr_ok e3)]
          obtain ⟨f1, f2⟩ := fin hw w3
          refine ⟨f1.trans ?_, f2⟩
          rw [World.file_of_core hc3]; rfl
        · rw [Prog.bind_err (Prog.mapErr_err e3)]
          exact ⟨World.file_of_core hc3, by simp⟩
    rcases rewind_spec req.writer (w.draw (drawn req)) with ⟨w2, e2, hc2⟩ | ⟨e, w2, e2, hc2⟩
    · rw [Prog.bind_ok (Prog.mapErr_ok e2)]
      obtain ⟨k1, k2⟩ := key w2
      have hf : w2.file = w.file := by rw [World.file_of_core hc2]; rfl
      rw [Prog.bind_run]
      rcases hx : Encrypt.writeHeader req (freshHeader req w ek) w2 with ⟨_ | _ | _, w3⟩
      · exact absurd hx (k2 w3)
      · rw [hx] at k1; exact ⟨by simp, k1.trans hf⟩
      · rw [hx] at k1; exact ⟨by simp, k1.trans hf⟩
    · rw [Prog.bind_err (Prog.mapErr_err e2)]
      refine ⟨by simp, ?_⟩
      rw [World.file_of_core hc2]; rfl
  · rw [Prog.bind_err hp]
    exact ⟨by simp, rfl⟩

/-- **C17.** Version 3 is not refused with an error: without faults, stream mode and a supported hash, it panics. -/
theorem C17_v3_panics (C : Crypto) (hC : C.Lawful) (req : Encrypt.Request) (w : World) (hs : w.sched = [])
    (hv : req.headerType.version = .v3) (hm : req.headerType.mode = .streamMode)
    (hp : PrimitivesWork C req.headerType.algorithm req.hashingAlgorithm req.rawKey) :
    (Encrypt.execute C req w).1 = .abort .panic := by
  unfold Encrypt.execute
  rcases prepare_eq C hC req w with ⟨hk, ek, hto, hec, hm, hel, hpr⟩ | ⟨e, n, hpr, hno⟩
  · rw [Prog.bind_ok hpr]
    dsimp only
    rw [Prog.bind_ok (Prog.mapErr_ok (rewind_nil (w := w.draw _) hs req.writer))]
    have hser : (freshHeader req w ek).serialize = .abort .panic := by
      simp [Header.serialize, freshHeader, hv, Header.serializeV3]
    unfold Encrypt.writeHeader
    cases hh : req.headerWriter with
    | none => simp [hser, Prog.bind_run]
    | some hw =>
      simp only [hser]
      rw [Prog.bind_run, Prog.bind_ok (Prog.mapErr_ok (rewind_nil (by simpa using hs) hw))]
      simp [Prog.bind_run]
  · exact absurd ⟨hm, fresh_exists hC req w hp⟩ hno

example : (Encrypt.execute Example.toy (exRequest { exV5 with version := .v3 } (.argon2id 3))
    (Example.world fun i => if i = 0 then [1, 2, 3] else [9])).1 = .abort .panic :=
  C17_v3_panics _ (Example.toy_lawful _ (by decide)) _ _ rfl rfl rfl (toy_works _ _ _ (by decide))

/-! ### C18 -/

/-- **C18.** A password that opens no keyslot of a V4 or V5 file is refused under every I/O schedule and the output is untouched. -/
theorem C18_wrong_password (C : Crypto) (hC : C.Lawful) (pw content : Bytes) (h : Header) (aad : Bytes) (ks : List Keyslot)
    (hi : IsHeader content h aad) (hk : h.keyslots = some ks)
    (hno : ∀ k ∈ ks, ∀ m, ¬ Opens C h.headerType.algorithm pw k m) : Refuses C pw content := by
  apply refuses_of hC
  intro hd aad' mk n c q hi' hr _ _
  obtain ⟨rfl, rfl⟩ := isHeader_unique hi hi'
  exact no_recovery hi hk hno _ hr

/-- **C18.** The same when the header is in a file of its own. -/
theorem C18_wrong_password_detached (C : Crypto) (hC : C.Lawful) (pw hdr content : Bytes) (h : Header) (aad : Bytes)
    (ks : List Keyslot) (hi : IsHeader hdr h aad) (hk : h.keyslots = some ks)
    (hno : ∀ k ∈ ks, ∀ m, ¬ Opens C h.headerType.algorithm pw k m) : DetachedRefuses C pw hdr content := by
  apply detachedRefuses_of hC
  intro hd aad' mk n c q hi' hr _ _
  obtain ⟨rfl, rfl⟩ := isHeader_unique hi hi'
  exact no_recovery hi hk hno _ hr

/-- **C18.** Versions 1 to 3 have no keyslots: the key is the hash of the password.  If that key opens nothing that can be presented first
(the whole body in memory mode, a first block in stream mode), the call fails and nothing is written. -/
theorem C18_wrong_password_legacy (C : Crypto) (hC : C.Lawful) (pw content : Bytes) (h : Header) (aad : Bytes)
    (hi : IsHeader content h aad)
    (hno : ∀ mk n c, Recovers C pw h mk → FirstCall h (content.drop (headerSize h.headerType.version)) n c →
      C.dec h.headerType.algorithm mk n aad c = none) : Refuses C pw content := by
  apply refuses_of hC
  intro hd aad' mk n c q hi' hr hf hdec
  obtain ⟨rfl, rfl⟩ := isHeader_unique hi hi'
  rw [hno mk n c hr hf] at hdec
  simp at hdec

/-- **C18.** Anything that does not start with a header is refused and nothing is written. -/
theorem C18_no_header (C : Crypto) (hC : C.Lawful) (pw content : Bytes) (hno : ∀ h aad, ¬ IsHeader content h aad) :
    Refuses C pw content :=
  refuses_of hC fun hd aad _ _ _ _ hi _ _ _ => hno hd aad hi

/-- A two-keyslot file and a password that opens neither slot. -/
example : ∃ (content : Bytes) (h : Header) (aad : Bytes) (ks : List Keyslot), IsHeader content h aad ∧ h.keyslots = some ks ∧
    ks.length = 2 ∧ ∀ k ∈ ks, ∀ m, ¬ Opens Example.toy h.headerType.algorithm [1, 2, 3] k m := by
  refine ⟨_, _, _, [Example.slotA, Example.slotB], bytesV5_isHeader (t := exV5) (nonce := List.replicate 8 1) rfl rfl (by decide) ?_ [],
    rfl, rfl, ?_⟩
  · intro k hk
    simp only [List.mem_cons, List.not_mem_nil, or_false] at hk
    rcases hk with rfl | rfl
    · exact Example.slotA_ok
    · exact Example.slotB_ok
  · intro k hk m
    simp only [List.mem_cons, List.not_mem_nil, or_false] at hk
    rcases hk with rfl | rfl
    all_goals
      rintro ⟨hk, ⟨f, hf, h1⟩, h2⟩
      cases hf; cases h1
      revert h2
      simp only [Example.toy]
      rw [show Example.toyDec _ _ _ _ = none by decide +kernel]
      simp

/-! ### C19 -/

/-- How many bytes at the start of the file are authenticated together with the body. -/
def authenticatedPrefix : HeaderVersion → Nat
  | .v1 => 0
  | .v2 => 0
  | .v3 => 64
  | .v4 => 48
  | .v5 => 32

/-- **C19.** Let `content` be an encrypted file with data key `mk` and plaintext `p`.  If in `content'` any of the first 32 bytes (V5), 48 bytes (V4) or
64 bytes (V3) is different, whatever else is different too, then decrypting `content'` with whatever password fails under every I/O
schedule and writes nothing, unless the AEAD was forged: unless something other than the encryptions made for `content` opens. -/
theorem C19_header_tampering (C : Crypto) (hC : C.Lawful) (pw content content' p : Bytes) (h : Header) (aad mk : Bytes)
    (hi : IsHeader content h aad)
    (hdiff : content'.take (authenticatedPrefix h.headerType.version) ≠ content.take (authenticatedPrefix h.headerType.version))
    (hnf : NoForgedStart C pw content' (BodySealing C h mk aad p)) : Refuses C pw content' := by
  apply refuses_of hC
  intro h' aad' mk' n c q hi' hr hf hdec
  have hmade := hnf _ _ _ _ _ _ hi' hr hf hdec
  obtain ⟨_, _, ha, _⟩ := hmade
  simp only at ha
  subst ha
  have h1 := hi.aad
  have h2 := hi'.aad
  have s1 := hi.size
  have s2 := hi'.size
  apply hdiff
  have hl : ∀ (bs : Bytes) n, n ≤ bs.length → (bs.take n).length = n := fun bs n h => by simp; omega
  revert h1 h2 s1 s2
  cases hv : h.headerType.version <;> cases hv' : h'.headerType.version <;>
    simp only [authenticatedPrefix, headerSize, slice, List.drop_zero, List.take_zero] <;> intro h1 h2 s1 s2 <;>
    try rfl
  all_goals
    have e := h1.symm.trans h2
    have el := congrArg List.length e
    simp only [List.length_append, List.length_nil, List.length_take, List.length_drop] at el
  any_goals (first | omega | exact e.symm)
  · exfalso
    revert el
    cases h'.headerType.algorithm <;> simp only [nonceLength] <;> omega
  · exfalso
    revert el
    cases h.headerType.algorithm <;> simp only [nonceLength] <;> omega
  · exact (List.append_inj e (by simp only [List.length_take]; omega)).1.symm

/-- The genuine file of the example (AES, V5, one slot) and the same with a changed nonce byte: nothing that decryption presents first
opens. -/
def ex19Slot : Keyslot where
  hashAlgorithm := .argon2id 3
  encryptedKey := List.replicate 32 5 ++ Example.toyTag (Example.toyKdf (.argon2id 262144 10 4) [112, 119] (List.replicate 16 9))
    (List.replicate 12 8) [] (List.replicate 32 5)
  nonce := List.replicate 12 8
  salt := List.replicate 16 9

def ex19Bytes (nonce : Bytes) : Bytes := bytesV5 exV5 nonce [ex19Slot]

def ex19Aad (nonce : Bytes) : Bytes := exV5.tag ++ nonce ++ zeros 18

def ex19Body : Bytes := [1, 2, 3] ++ Example.toyTag (List.replicate 32 5) (blockNonce (List.replicate 8 1) 0 true)
  (ex19Aad (List.replicate 8 1)) [1, 2, 3]

theorem ex19_isHeader (nonce tail : Bytes) (hn : nonce.length = 8) :
    IsHeader (ex19Bytes nonce ++ tail)
      { headerType := exV5, nonce := nonce, salt := some (zeros 16), keyslots := some [ex19Slot] } (ex19Aad nonce) := by
  refine bytesV5_isHeader (t := exV5) rfl hn (by decide) ?_ tail
  intro k hk
  simp only [List.mem_cons, List.not_mem_nil, or_false] at hk
  subst hk
  exact ⟨by decide, rfl, rfl, by decide⟩

theorem ex19_opens : Opens Example.toy .aes256Gcm [112, 119] ex19Slot (List.replicate 32 5) :=
  ⟨_, ⟨_, rfl, rfl⟩, by decide +kernel⟩

example : DecryptsTo Example.toy [112, 119] (ex19Bytes (List.replicate 8 1) ++ ex19Body) [1, 2, 3] ∧
    (ex19Bytes (2 :: List.replicate 7 1) ++ ex19Body).take 32 ≠ (ex19Bytes (List.replicate 8 1) ++ ex19Body).take 32 ∧
    NoForgedStart Example.toy [112, 119] (ex19Bytes (2 :: List.replicate 7 1) ++ ex19Body) (fun _ => False) := by
  refine ⟨?_, by decide +kernel, ?_⟩
  · apply Spec.FileOf.decrypts (Example.toy_lawful _ (by decide))
    refine ⟨_, _, List.replicate 32 5, ex19_isHeader _ _ rfl, ⟨[], _, [], rfl, ex19_opens, by simp⟩, ?_⟩
    refine ⟨by decide, .last (by decide) ?_⟩
    decide +kernel
  · intro h aad mk n c q hi hr hf hd
    obtain ⟨rfl, rfl⟩ := isHeader_unique hi (ex19_isHeader _ _ rfl)
    have hr' : Recovers Example.toy [112, 119]
      { headerType := exV5, nonce := 2 :: List.replicate 7 1, salt := some (zeros 16), keyslots := some [ex19Slot] }
      (List.replicate 32 5) := ⟨[], _, [], rfl, ex19_opens, by simp⟩
    have := hr.unique hr'; subst this
    obtain ⟨hpre, _, rfl⟩ := hf
    replace hpre : c <+: (ex19Bytes (2 :: List.replicate 7 1) ++ ex19Body).drop 416 := hpre
    rw [show (ex19Bytes (2 :: List.replicate 7 1) ++ ex19Body).drop 416 = ex19Body by decide +kernel] at hpre
    rw [List.prefix_iff_eq_take.1 hpre] at hd
    have hle : c.length < 20 := by
      have := hpre.length_le
      have e : ex19Body.length = 19 := by decide +kernel
      omega
    have key : ∀ k < 20, Example.toyDec (List.replicate 32 5) (blockNonce (2 :: List.replicate 7 1) 0
        (decide ((ex19Body.take k).length < blockLen + tagLen))) (ex19Aad (2 :: List.replicate 7 1)) (ex19Body.take k) = none := by
      decide +kernel
    have := key _ hle
    simp only [Example.toy] at hd
    rw [this] at hd
    simp at hd

/-! ### C20 -/

/-- **C20.** Decryption of a V5 file uses the key in the first keyslot that the password opens, at whatever position it is and whatever the other
slots contain. -/
theorem C20_first_opening_slot (C : Crypto) (hC : C.Lawful) (pw content p : Bytes) (h : Header) (aad mk : Bytes)
    (hi : IsHeader content h aad) (hv : h.headerType.version = .v5) (before after : List Keyslot) (k : Keyslot)
    (hk : h.keyslots = some (before ++ k :: after)) (hopen : Opens C h.headerType.algorithm pw k mk)
    (hfirst : ∀ k' ∈ before, ∀ m, ¬ Opens C h.headerType.algorithm pw k' m) :
    decryptMasterKey C pw h = .ok mk ∧
    (BodyOf C h mk aad p (content.drop 416) → DecryptsTo C pw content p) := by
  have hr : Recovers C pw h mk := by
    simp only [Recovers, hv]
    exact ⟨before, k, after, hk, hopen, hfirst⟩
  constructor
  · rcases decryptMasterKey_cases hC pw hi with ⟨mk', he, hr', _⟩ | ⟨e, _, hno⟩
    · rw [he, hr.unique hr']
    · exact absurd hr (hno mk)
  · intro hb
    apply Spec.FileOf.decrypts hC
    exact ⟨h, aad, mk, hi, hr, by rw [hv]; exact hb⟩

/-- **C20.** If the keyslots all hold the data key of the body (as in every file this program writes), any password that opens any one of them
decrypts the file. -/
theorem C20_any_slot (C : Crypto) (hC : C.Lawful) (pw content p : Bytes) (h : Header) (aad mk : Bytes) (ks : List Keyslot)
    (hi : IsHeader content h aad) (hv : h.headerType.version = .v5) (hk : h.keyslots = some ks)
    (hsame : ∀ k ∈ ks, ∀ m, Opens C h.headerType.algorithm pw k m → m = mk)
    (hopen : ∃ k ∈ ks, ∃ m, Opens C h.headerType.algorithm pw k m)
    (hb : BodyOf C h mk aad p (content.drop 416)) : DecryptsTo C pw content p := by
  rcases decryptMasterKey_cases hC pw hi with ⟨mk', he, hr, _⟩ | ⟨e, _, hno⟩
  · have hr0 := hr
    simp only [Recovers, hv] at hr
    obtain ⟨b, k, a, e, o, f⟩ := hr
    rw [hk] at e; cases e
    have hm := hsame k (by simp) _ o
    subst hm
    apply Spec.FileOf.decrypts hC
    exact ⟨h, aad, mk', hi, hr0, by rw [hv]; exact hb⟩
  · exfalso
    obtain ⟨k, hm, m, o⟩ := hopen
    obtain ⟨b, k', a, e, ⟨m', o'⟩, f⟩ := exists_first (P := fun k => ∃ m, Opens C h.headerType.algorithm pw k m) hm ⟨m, o⟩
    apply hno m'
    simp only [Recovers, hv]
    exact ⟨b, k', a, by rw [hk, e], o', fun x hx m hm => f x hx ⟨m, hm⟩⟩

/-- Two keyslots, the first one of somebody else: `[112, 119]` opens the second. -/
example : ∃ (body : Bytes), DecryptsTo Example.toy [112, 119] (bytesV5 exV5 (List.replicate 8 1) [Example.slotA, ex19Slot] ++ body) [1, 2, 3] := by
  have hi := fun tail => bytesV5_isHeader (t := exV5) (nonce := List.replicate 8 1) (ks := [Example.slotA, ex19Slot]) rfl rfl (by decide)
    (by
      intro k hk
      simp only [List.mem_cons, List.not_mem_nil, or_false] at hk
      rcases hk with rfl | rfl
      · exact Example.slotA_ok
      · exact ⟨by decide, rfl, rfl, by decide⟩) tail
  refine ⟨ex19Body, (C20_first_opening_slot _ (Example.toy_lawful _ (by decide)) [112, 119] _ [1, 2, 3] _ _ (List.replicate 32 5)
    (hi ex19Body) rfl [Example.slotA] [] ex19Slot rfl ex19_opens ?_).2 ?_⟩
  · intro k hk m
    simp only [List.mem_cons, List.not_mem_nil, or_false] at hk
    subst hk
    rintro ⟨hk, ⟨f, hf, h1⟩, h2⟩
    cases hf; cases h1
    revert h2
    simp only [Example.toy]
    rw [show Example.toyDec _ _ _ _ = none by decide +kernel]
    simp
  · refine ⟨by decide, .last (by decide) ?_⟩
    decide +kernel

/-! ### C53 -/

/-- The 64 header bytes of the old versions: tag, salt, then nonce and padding to 64 bytes; in V2 the unused bytes come last, in V1 and V3
before the nonce (16 zero bytes in V3, which also pads with zeros). -/
def legacyBytes (v : HeaderVersion) (a : Algorithm) (m : Mode) (salt nonce unused pad : Bytes) : Bytes :=
  versionCode v ++ algorithmCode a ++ modeCode m ++ salt ++
    (match v with
     | .v2 => nonce ++ pad ++ unused
     | _ => unused ++ nonce ++ pad)

/-- Argon2id memory, passes and lanes of the old versions. -/
def legacyKdf : HeaderVersion → Kdf
  | .v1 => .argon2id 8192 8 4
  | .v2 => .argon2id 262144 8 4
  | _ => .argon2id 262144 10 4

/-- **C53.** V1, V2 and V3 files in the layout of their format, the body encrypted in stream or memory mode under the argon2id hash of the
password with the version's parameters, decrypt to their plaintext. -/
theorem C53_legacy (C : Crypto) (hC : C.Lawful) (v : HeaderVersion) (a : Algorithm) (m : Mode)
    (pw salt nonce unused pad key aad p body : Bytes) (hv : v = .v1 ∨ v = .v2 ∨ v = .v3)
    (hs : salt.length = 16) (hn : nonce.length = nonceLength a m) (hu : unused.length = 16)
    (hp : pad.length = 26 - nonceLength a m)
    (hz : v = .v3 → unused = List.replicate 16 0 ∧ pad = List.replicate (26 - nonceLength a m) 0)
    (hkey : C.kdf (legacyKdf v) pw salt = some key)
    (haad : aad = if v = .v3 then legacyBytes v a m salt nonce unused pad else [])
    (hbody : match m with
      | .memoryMode => C.enc a key nonce aad p = some body
      | .streamMode => p.length / blockLen ≤ C.ctrMax ∧
          EncryptedBlocks C a key aad (bodyNonces nonce (p.length / blockLen)) p body) :
    DecryptsTo C pw (legacyBytes v a m salt nonce unused pad ++ body) p := by
  apply Spec.FileOf.decrypts hC
  have h24 := nonceLength_le a m
  have hlen : (legacyBytes v a m salt nonce unused pad).length = 64 := by
    unfold legacyBytes
    rcases hv with rfl | rfl | rfl <;> simp [hs, hn, hu, hp] <;> omega
  have hi : IsHeader (legacyBytes v a m salt nonce unused pad ++ body)
      { headerType := { version := v, algorithm := a, mode := m }, nonce, salt := some salt, keyslots := none } aad := by
    have hst : ∀ x : Bytes, (Example.world1 x).rest 0 = x := fun x => by simp [World.rest, World.data, Example.world1, Example.world]
    rcases hv with rfl | rfl | rfl
    · obtain ⟨w', he, _⟩ := (C02_old_readable a m salt nonce unused pad body hs hn hu hp
        (Example.world1 (legacyBytes .v1 a m salt nonce unused pad ++ body)) 0 rfl).1
        ((hst _).trans (by simp [legacyBytes]))
      rw [haad, if_neg (by decide), ← hst (legacyBytes .v1 a m salt nonce unused pad ++ body)]
      exact (C07_accepts_iff _ 0 rfl _ _).1 (by rw [he])
    · obtain ⟨w', he, _⟩ := (C02_old_readable a m salt nonce unused pad body hs hn hu hp
        (Example.world1 (legacyBytes .v2 a m salt nonce unused pad ++ body)) 0 rfl).2
        ((hst _).trans (by simp [legacyBytes]))
      rw [haad, if_neg (by decide), ← hst (legacyBytes .v2 a m salt nonce unused pad ++ body)]
      exact (C07_accepts_iff _ 0 rfl _ _).1 (by rw [he])
    · obtain ⟨rfl, rfl⟩ := hz rfl
      have htag : versionCode .v3 ++ algorithmCode a ++ modeCode m =
          ({ version := .v3, algorithm := a, mode := m } : HeaderType).tag := by
        cases a <;> cases m <;> rfl
      have hb : legacyBytes .v3 a m salt nonce (List.replicate 16 0) (List.replicate (26 - nonceLength a m) 0) =
          bytesV3 { version := .v3, algorithm := a, mode := m } nonce salt := by
        simp only [legacyBytes, bytesV3, htag, zeros, List.append_assoc]
      rw [haad, if_pos rfl, hb]
      exact bytesV3_isHeader rfl hn hs body
  refine ⟨_, aad, key, hi, ?_, ?_⟩
  · rcases hv with rfl | rfl | rfl <;> exact ⟨salt, rfl, hkey⟩
  · have : headerSize v = 64 := by rcases hv with rfl | rfl | rfl <;> rfl
    rw [this, List.drop_left' hlen]
    cases m <;> exact hbody

/-- A V1 file in memory mode and a V3 file in stream mode. -/
example : (∃ body, DecryptsTo Example.toy [112] (legacyBytes .v1 .aes256Gcm .memoryMode (List.replicate 16 1) (List.replicate 12 3)
      (List.replicate 16 7) (List.replicate 14 6) ++ body) [1, 2]) ∧
    (∃ body, DecryptsTo Example.toy [112] (legacyBytes .v3 .aes256Gcm .streamMode (List.replicate 16 1) (List.replicate 8 3)
      (List.replicate 16 0) (List.replicate 18 0) ++ body) [1, 2]) :=
  ⟨⟨_, C53_legacy _ (Example.toy_lawful _ (by decide)) .v1 .aes256Gcm .memoryMode [112] _ _ _ _ _ _ [1, 2] _ (.inl rfl) rfl rfl rfl rfl
      (by simp) rfl rfl rfl⟩,
   ⟨_, C53_legacy _ (Example.toy_lawful _ (by decide)) .v3 .aes256Gcm .streamMode [112] _ _ _ _ _ _ [1, 2] _ (.inr (.inr rfl)) rfl rfl
      rfl rfl (fun _ => ⟨rfl, rfl⟩) rfl rfl ⟨by decide, .last (by decide) rfl⟩⟩⟩

/-! ### C54 -/

/-- **C54.** Whatever is to be decrypted, with or without separate header, with whatever key, handles and I/O schedule: the call returns `Ok` or
an error (no panic, no endless loop) and changes nothing but the output file and the positions of the handles it was given. -/
theorem C54_total (C : Crypto) (hC : C.Lawful) (req : Decrypt.Request) (w : World) :
    ∃ w', (Decrypt.execute C req w = (.ok (), w') ∨ ∃ e, Decrypt.execute C req w = (.err e, w')) ∧
      Touches (req.reader :: req.headerReader.toList) [req.writer] w w' := by
  refine ⟨(Decrypt.execute C req w).2, ?_, ?_⟩
  · have := decrypt_returns hC req w
    rcases hx : Decrypt.execute C req w with ⟨_ | e | a, w'⟩
    · exact .inl rfl
    · exact .inr ⟨e, rfl⟩
    · rw [hx] at this; exact absurd rfl (this a)
  · refine (decrypt_within C req w).mono ?_ (fun _ h => h)
    unfold Decrypt.Request.readers
    intro x hx
    cases hh : req.headerReader <;> simp only [hh, Option.toList, List.mem_cons, List.not_mem_nil, or_false] at hx ⊢ <;> first | exact hx | exact hx.symm

/-! ### C55 -/

/-- **C55.** A supported hash identifier runs exactly the key derivation with its parameters; every other version number is an error, whatever
the primitives would do. -/
theorem C55_pinned (h : HashingAlgorithm) :
    (∀ f, kdfParams h = some f → ∀ C pw salt, h.hash C pw salt = Res.ofOption .hashing (C.kdf f pw salt)) ∧
    (kdfParams h = none → ∀ C pw salt, h.hash C pw salt = .err .unsupported) ∧
    ((∃ f, kdfParams h = some f) ↔ h ∈ supportedHashes) := by
  refine ⟨?_, ?_, kdfParams_mem.symm⟩
  · intro f hf C pw salt; rw [hash_eq, hf]
  · intro hf C pw salt; rw [hash_eq, hf]

/-- **C55.** Different supported identifiers have different parameters. -/
theorem C55_distinct (h h' : HashingAlgorithm) (hs : h ∈ supportedHashes) (hs' : h' ∈ supportedHashes)
    (he : kdfParams h = kdfParams h') : h = h' := by
  simp only [supportedHashes, List.mem_cons, List.not_mem_nil, or_false] at hs hs'
  rcases hs with rfl | rfl | rfl | rfl | rfl <;> rcases hs' with rfl | rfl | rfl | rfl | rfl <;>
    first | rfl | (exact absurd he (by decide))

/-- **C55.** On disk: each supported hash has one identifier, 0xDF and its code in the table, distinct from the others, read back as the same
hash; everything else that starts with 0xDF is rejected.  A hash that does not exist (the library's types admit any number as the
parameter) is stored as two zero bytes, the identifier of an empty slot. -/
theorem C55_on_disk (h : HashingAlgorithm) (ek n s : Bytes) :
    (h ∈ supportedHashes ↔ ∃ b, (b, h) ∈ hashCodes) ∧
    (∀ b b', (b, h) ∈ hashCodes → (b', h) ∈ hashCodes → b = b') ∧
    (∀ b h', (b, h) ∈ hashCodes → (b, h') ∈ hashCodes → h = h') ∧
    (∀ b, (b, h) ∈ hashCodes → (Keyslot.mk h ek n s).serialize = [0xDF, b]) ∧
    ((∀ b, (b, h) ∉ hashCodes) → (Keyslot.mk h ek n s).serialize = [0, 0]) ∧
    (∀ b, parseKeyslotId [0xDF, b] = some h ↔ (b, h) ∈ hashCodes) := by
  refine ⟨?_, ?_, ?_, ?_, ?_, ?_⟩
  · constructor
    · intro hs
      simp only [supportedHashes, List.mem_cons, List.not_mem_nil, or_false] at hs
      rcases hs with rfl | rfl | rfl | rfl | rfl
      · exact ⟨0xA1, by decide⟩
      · exact ⟨0xA2, by decide⟩
      · exact ⟨0xA3, by decide⟩
      · exact ⟨0xB4, by decide⟩
      · exact ⟨0xB5, by decide⟩
    · rintro ⟨b, hb⟩
      simp only [hashCodes, List.mem_cons, List.not_mem_nil, or_false, Prod.mk.injEq] at hb
      rcases hb with ⟨_, rfl⟩ | ⟨_, rfl⟩ | ⟨_, rfl⟩ | ⟨_, rfl⟩ | ⟨_, rfl⟩ <;> decide
  · intro b b' hb hb'
    simp only [hashCodes, List.mem_cons, List.not_mem_nil, or_false, Prod.mk.injEq] at hb hb'
    rcases hb with ⟨rfl, rfl⟩ | ⟨rfl, rfl⟩ | ⟨rfl, rfl⟩ | ⟨rfl, rfl⟩ | ⟨rfl, rfl⟩ <;> simpa [eq_comm] using hb'
  · intro b h' hb hb'
    simp only [hashCodes, List.mem_cons, List.not_mem_nil, or_false, Prod.mk.injEq] at hb hb'
    rcases hb with ⟨rfl, rfl⟩ | ⟨rfl, rfl⟩ | ⟨rfl, rfl⟩ | ⟨rfl, rfl⟩ | ⟨rfl, rfl⟩ <;> simpa [eq_comm] using hb'
  · intro b hb
    simp only [hashCodes, List.mem_cons, List.not_mem_nil, or_false, Prod.mk.injEq] at hb
    rcases hb with ⟨rfl, rfl⟩ | ⟨rfl, rfl⟩ | ⟨rfl, rfl⟩ | ⟨rfl, rfl⟩ | ⟨rfl, rfl⟩ <;> rfl
  · intro hb
    simp only [hashCodes, List.mem_cons, List.not_mem_nil, or_false, Prod.mk.injEq, not_or, not_and] at hb
    have a1 := (hb 0xA1).1 rfl
    have a2 := (hb 0xA2).2.1 rfl
    have a3 := (hb 0xA3).2.2.1 rfl
    have b4 := (hb 0xB4).2.2.2.1 rfl
    have b5 := (hb 0xB5).2.2.2.2 rfl
    cases h with
    | argon2id i =>
      simp only [HashingAlgorithm.argon2id.injEq] at a1 a2 a3
      simp [Keyslot.serialize, a1, a2, a3]
    | blake3Balloon i =>
      simp only [HashingAlgorithm.blake3Balloon.injEq] at b4 b5
      simp [Keyslot.serialize, b4, b5]
  · intro b
    simp only [hashCodes, List.mem_cons, List.not_mem_nil, or_false, Prod.mk.injEq, parseKeyslotId,
      List.cons.injEq, true_and, and_true]
    constructor
    · intro hp
      repeat' split at hp
      all_goals simp_all
    · rintro (⟨rfl, rfl⟩ | ⟨rfl, rfl⟩ | ⟨rfl, rfl⟩ | ⟨rfl, rfl⟩ | ⟨rfl, rfl⟩) <;> rfl

/-- A parameter that does not exist. -/
example : ∀ b, (b, HashingAlgorithm.argon2id 7) ∉ hashCodes := by simp [hashCodes]

end Volaris.Props
