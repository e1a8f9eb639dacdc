import Verif.Proofs.Stream
import Verif.Spec.Toy
/-!
# C08 – C13: the encrypted body
-/
namespace Volaris.Props
open Spec

/-- The stream used by the examples. -/
def exStream : Stream :=
  { algorithm := .aes256Gcm, key := List.replicate 32 1, pre := List.replicate 8 2, position := 0 }

theorem exStream_fresh : Fresh exStream := ⟨rfl, rfl⟩

/-- **C08.** Under every I/O schedule, a successful `encrypt_file` has written the encryption of the chunks of its input under
one nonce per chunk, and these nonces are pairwise distinct. -/
theorem C08_nonces_distinct (C : Crypto) (hC : C.Lawful) (rh wh : Nat) (hne : rh ≠ wh) (aad : Bytes) (s : Stream)
    (hs : Fresh s) (w w' : World) (hino : (w.fd rh).ino ≠ (w.fd wh).ino)
    (hok : encryptFile C s rh wh aad w = (.ok (), w')) :
    ∃ (p body : Bytes), p <+: w.rest rh ∧ Copied rh wh w w' p.length body ∧
      EncryptedBlocks C s.algorithm s.key aad (bodyNonces s.pre (p.length / blockLen)) p body ∧
      (bodyNonces s.pre (p.length / blockLen)).Nodup := by
  rcases encryptFile_spec C hne aad s hs.position w hino with
    ⟨m, c, w2, he, hm, _, hseal, hc⟩ | ⟨e, m, out, w2, he, _⟩
  · rw [hok] at he; simp only [Prod.mk.injEq, true_and] at he; subst he
    have hlen : ((w.rest rh).take m).length = m := by simp; omega
    have hctr := hseal.counter
    have := hC.ctr_lt
    refine ⟨_, c, List.take_prefix m _, ?_, ?_, ?_⟩
    · rw [hlen]; exact Copied.of_core hne hc
    · rw [← streamNonces_body]; exact hseal.blocks
    · rw [← streamNonces_body]; exact streamNonces_nodup _ _ _ (by omega)
  · rw [hok] at he; simp at he

example : ∃ w', encryptFile (Example.toy) exStream 0 1 [9] (Example.world fun i => if i = 0 then [1, 2, 3] else []) =
    (.ok (), w') := by
  obtain ⟨c, hc⟩ := Sealed.exists (C := Example.toy) (a := exStream.algorithm) (key := exStream.key) (pre := exStream.pre)
    (aad := [9]) (by intros; rfl) 0 0 [1, 2, 3] rfl (by decide)
  obtain ⟨w', h, _⟩ := encryptFile_nil Example.toy (rh := 0) (wh := 1) (by decide) [9] (s := exStream) rfl
    (w := Example.world fun i => if i = 0 then [1, 2, 3] else []) (c := c) hc (by decide) rfl
  exact ⟨w', h⟩

/-- **C08.** The nonce of a final block is never the nonce of a non-final block, whatever the (equally long) nonce prefixes and
counters; and nonces agree only for the same prefix, counter and flag. -/
theorem C08_nonce_injective (pre pre' : Bytes) (i j : Nat) (l l' : Bool) (hp : pre.length = pre'.length)
    (hi : i < 2 ^ 31) (hj : j < 2 ^ 31) (h : blockNonce pre i l = blockNonce pre' j l') :
    pre = pre' ∧ i = j ∧ l = l' := by
  rw [← streamNonce_eq, ← streamNonce_eq] at h
  exact streamNonce_inj hp hi hj h

example : blockNonce [1] 5 true ≠ blockNonce [1] 5 false := by decide

/-- **C09.** When all reads return full buffers and no call fails, `encrypt_file` succeeds and writes some body, and
`decrypt_file` with the same key, nonce, algorithm and AAD, on any files where that body is what remains to be read, succeeds and writes
exactly the plaintext.  The only limit is the block counter. -/
theorem C09_stream_roundtrip (C : Crypto) (hC : C.Lawful) (aad p : Bytes) (s : Stream) (hs : Fresh s)
    (htot : EncTotal C s.algorithm s.key aad) (hlim : p.length / blockLen ≤ C.ctrMax) :
    ∃ body,
      (∀ rh wh w, rh ≠ wh → (w.fd rh).ino ≠ (w.fd wh).ino → w.sched = [] → w.rest rh = p →
        ∃ w', encryptFile C s rh wh aad w = (.ok (), w') ∧ Copied rh wh w w' p.length body) ∧
      (∀ rh wh w, rh ≠ wh → (w.fd rh).ino ≠ (w.fd wh).ino → w.sched = [] → w.rest rh = body →
        ∃ w', decryptFile C s rh wh aad w = (.ok (), w') ∧ Copied rh wh w w' body.length p) := by
  obtain ⟨c, hc⟩ := Sealed.exists (encTotal_pre htot hs.pre) (p.length / blockLen) 0 p rfl (by omega)
  refine ⟨c, ?_, ?_⟩
  · intro rh wh w hne hino hsn hr
    subst hr
    obtain ⟨w', h, hco, _⟩ := encryptFile_nil C hne aad hs.position hc hino hsn
    exact ⟨w', h, Copied.of_core hne hco⟩
  · intro rh wh w hne hino hsn hr
    subst hr
    obtain ⟨w', h, hco, _⟩ := decryptFile_nil C hC hne aad hs.position hc hino hsn
    exact ⟨w', h, Copied.of_core hne hco⟩

example : (Example.toy).Lawful ∧ Fresh exStream ∧ EncTotal Example.toy exStream.algorithm exStream.key [9] ∧
    (List.replicate (3 * 1048576) (5 : UInt8)).length / blockLen ≤ Example.toy.ctrMax :=
  ⟨Example.toy_lawful _ (by decide), exStream_fresh, by intro n m _ _; rfl, by rw [List.length_replicate]; decide⟩

/-- **C10.** Under every I/O schedule a successful encryption of `n` consumed bytes has written exactly
`n + 16 * (⌊n / 2^20⌋ + 1)` bytes; with no short transfer `n` is the whole input. -/
theorem C10_body_size (C : Crypto) (hC : C.Lawful) (rh wh : Nat) (hne : rh ≠ wh) (aad : Bytes) (s : Stream)
    (hs : Fresh s) (w w' : World) (hino : (w.fd rh).ino ≠ (w.fd wh).ino)
    (hok : encryptFile C s rh wh aad w = (.ok (), w')) :
    ∃ n body, Copied rh wh w w' n body ∧ body.length = n + 16 * (n / 2 ^ 20 + 1) ∧
      ((∀ k, Io.short k ∉ w.sched) → n = (w.rest rh).length) := by
  rcases encryptFile_spec C hne aad s hs.position w hino with
    ⟨m, c, w2, he, hm, hn, hseal, hc⟩ | ⟨e, m, out, w2, he, _⟩
  · rw [hok] at he; simp only [Prod.mk.injEq, true_and] at he; subst he
    have hlen : ((w.rest rh).take m).length = m := by simp; omega
    refine ⟨m, c, Copied.of_core hne hc, ?_, hn⟩
    have := hseal.length hC
    rw [hlen] at this
    exact this
  · rw [hok] at he; simp at he

/-- **C11.** Decrypting an arbitrary body `ct` when no block that can be presented to the decryptor is a forgery (everything that opens was
encrypted at that position for plaintext `p`), under every I/O schedule: success means the output is exactly `p`; an error means
that what was written is a prefix of `p`; there is no third outcome. -/
theorem C11_tampering (C : Crypto) (hC : C.Lawful) (rh wh : Nat) (hne : rh ≠ wh) (aad p : Bytes) (s : Stream)
    (hs : Fresh s) (w : World) (hino : (w.fd rh).ino ≠ (w.fd wh).ino)
    (hn : NoForgery C s.algorithm s.key s.pre aad p (w.rest rh)) :
    ∃ n q w', Copied rh wh w w' n q ∧
      ((decryptFile C s rh wh aad w = (.ok (), w') ∧ q = p) ∨
       (∃ e, decryptFile C s rh wh aad w = (.err e, w') ∧ q <+: p)) := by
  rcases decryptFile_spec C hC hne aad s hs.position w hino with
    ⟨m, q, w', he, hm, _, hseal, hc⟩ | ⟨e, m, q, c, k, w', he, hpre, hop, hc⟩
  · refine ⟨m, q, w', Copied.of_core hne hc, .inl ⟨he, ?_⟩⟩
    have := hseal.genuine hC hn (by simpa using List.take_prefix _ _)
    simpa using this
  · refine ⟨m, q.take k, w', Copied.of_core hne hc, .inr ⟨e, he, ?_⟩⟩
    have := hop.genuine hn (by simpa using hpre)
    exact (List.take_prefix _ _).trans (by simpa using this)

/-- **C11.** If `body` is the genuine encryption of `p` and a different body is decrypted by reads that return full buffers, the
result is an error (no block at its natural boundary being a forgery). -/
theorem C11_tampering_detected (C : Crypto) (hC : C.Lawful) (rh wh : Nat) (hne : rh ≠ wh) (aad p body : Bytes)
    (s : Stream) (hs : Fresh s) (w : World) (hino : (w.fd rh).ino ≠ (w.fd wh).ino)
    (hshort : ∀ k, Io.short k ∉ w.sched)
    (hbody : EncryptedBlocks C s.algorithm s.key aad (bodyNonces s.pre (p.length / blockLen)) p body)
    (hlim : p.length / blockLen ≤ C.ctrMax)
    (hdiff : w.rest rh ≠ body)
    (hn : NoForgeryFull C s.algorithm s.key s.pre aad p (w.rest rh)) :
    ∃ e w', decryptFile C s rh wh aad w = (.err e, w') := by
  rcases decryptFile_spec C hC hne aad s hs.position w hino with
    ⟨m, q, w', he, hm, hno, hseal, hc⟩ | ⟨e, m, q, c, k, w', he, hpre, hop, hc⟩
  · exfalso
    rw [hno hshort, List.take_length] at hseal
    have hq := hseal.genuineFull hC hn (by simp)
    simp only [Nat.zero_mul, List.drop_zero] at hq
    subst hq
    apply hdiff
    have h2 := hbody.sealed (pre := s.pre) (i := 0) (by rw [← streamNonces_body]) (by omega)
    exact hseal.unique h2
  · exact ⟨e, w', he⟩

/-- A tampered body for which the hypotheses hold: one byte of the genuine body of `[1, 2]` is changed. -/
example : ∃ body, EncryptedBlocks Example.toy exStream.algorithm exStream.key [9] (bodyNonces exStream.pre 0) [1, 2] body ∧
    body.set 0 7 ≠ body ∧
    NoForgery Example.toy exStream.algorithm exStream.key exStream.pre [9] [1, 2] (body.set 0 7) := by
  refine ⟨[1, 2] ++ Example.toyTag exStream.key (blockNonce exStream.pre 0 true) [9] [1, 2],
    .last (by decide) rfl, by decide, ?_⟩
  intro i c q _ hc hl hd
  exfalso
  by_cases h16 : c.length < 16
  · rw [Example.toy_dec_short h16] at hd; simp at hd
  · cases i with
    | succ i =>
      have h18 : 18 ≤ (i + 1) * (blockLen + tagLen) := by
        rw [Nat.succ_mul]; simp only [blockLen, tagLen]; omega
      rw [List.drop_eq_nil_of_le h18] at hc
      simp at hc; subst hc; simp at h16
    | zero =>
      obtain ⟨t, ht⟩ := hc
      rw [Nat.zero_mul, List.drop_zero] at ht
      have hcl : c.length + t.length = 18 := by
        rw [← List.length_append, ht]; rfl
      have hlt : c.length < blockLen + tagLen := by simp [blockLen, tagLen]; omega
      rw [decide_eq_true hlt] at hd
      have : c = (([1, 2] ++ Example.toyTag exStream.key (blockNonce exStream.pre 0 true) [9] [1, 2]).set 0 7).take c.length := by
        rw [← ht]; simp
      have h3 : c.length = 16 ∨ c.length = 17 ∨ c.length = 18 := by omega
      rcases h3 with h | h | h <;> rw [h] at this <;> subst this <;>
        exact absurd (Option.isSome_of_eq_some hd) (by decide +kernel)

/-- **C12** (what holds for every schedule of short reads, interruptions and failures; the full property is that the whole input is
encrypted, see `C12_short_read_truncates`).  Success means that the output is the encryption of the bytes consumed, a prefix of the
input; the whole input if no transfer was short, and in any case if the prefix is a number of full blocks.  So encryption is cut off only where a
read stops within a block, and by `C12_short_read_truncates` there it can be. -/
theorem C12_complete_partial (C : Crypto) (rh wh : Nat) (hne : rh ≠ wh) (aad : Bytes) (s : Stream)
    (hs : Fresh s) (w w' : World) (hino : (w.fd rh).ino ≠ (w.fd wh).ino)
    (hok : encryptFile C s rh wh aad w = (.ok (), w')) :
    ∃ p body, p <+: w.rest rh ∧ Copied rh wh w w' p.length body ∧
      EncryptedBlocks C s.algorithm s.key aad (bodyNonces s.pre (p.length / blockLen)) p body ∧
      ((∀ k, Io.short k ∉ w.sched) ∨ p.length % blockLen = 0 → p = w.rest rh) := by
  rcases encryptFile_whole C hne aad s hs.position w hino with
    ⟨m, c, w2, he, hm, hno, hseal, hc⟩ | ⟨e, m, out, w2, he, _⟩
  · rw [hok] at he; simp only [Prod.mk.injEq, true_and] at he; subst he
    have hlen : ((w.rest rh).take m).length = m := by simp; omega
    refine ⟨_, c, List.take_prefix m _, ?_, ?_, ?_⟩
    · rw [hlen]; exact Copied.of_core hne hc
    · rw [← streamNonces_body]; exact hseal.blocks
    · intro h; rw [hlen, ← blockLen_eq] at h; rw [hno h, List.take_length]
  · rw [hok] at he; simp at he

/-- **C57.** For every schedule of short transfers, interruptions and failures: if the stream encryption returns `Ok`, the output is a well-formed encryption of exactly the bytes consumed, these are a
prefix of the input, and the whole of it if no transfer was short or if they are a number of full blocks. -/
theorem C57_success (C : Crypto) (rh wh : Nat) (hne : rh ≠ wh) (aad : Bytes) (s : Stream) (hs : Fresh s) (w w' : World) (hino : (w.fd rh).ino ≠ (w.fd wh).ino)
    (hok : encryptFile C s rh wh aad w = (.ok (), w')) :
    ∃ p body, p <+: w.rest rh ∧ Copied rh wh w w' p.length body ∧
      EncryptedBlocks C s.algorithm s.key aad (bodyNonces s.pre (p.length / blockLen)) p body ∧
      ((∀ k, Io.short k ∉ w.sched) ∨ p.length % blockLen = 0 → p = w.rest rh) :=
  C12_complete_partial C rh wh hne aad s hs w w' hino hok

/-- **C12**, the defect: for every input and every `m` short of its end that is not a multiple of the block size there is a schedule with
a single short read under which encryption reports success although only the first `m` bytes were encrypted. -/
theorem C12_short_read_truncates (C : Crypto) (hC : C.Lawful) (rh wh : Nat) (hne : rh ≠ wh) (aad : Bytes) (s : Stream)
    (hs : Fresh s) (w : World) (hino : (w.fd rh).ino ≠ (w.fd wh).ino) (htot : EncTotal C s.algorithm s.key aad)
    (m : Nat) (hm : m < (w.rest rh).length) (hm0 : m % blockLen ≠ 0) (hlim : m / blockLen ≤ C.ctrMax) :
    ∃ n k w' body, n = 2 * (m / blockLen) ∧
      encryptFile C s rh wh aad { w with sched := List.replicate n .full ++ [.short k] } = (.ok (), w') ∧
      Copied rh wh w w' m body ∧
      EncryptedBlocks C s.algorithm s.key aad (bodyNonces s.pre (m / blockLen)) ((w.rest rh).take m) body := by
  have hlen : ((w.rest rh).take m).length = m := by simp; omega
  obtain ⟨c, hc⟩ := Sealed.exists (encTotal_pre htot hs.pre) (m / blockLen) 0 ((w.rest rh).take m)
    (by rw [hlen]) (by omega)
  obtain ⟨w', h, hco, _⟩ := encryptFile_short C hC hne aad hs.position (t := (w.rest rh).drop m)
    (w := { w with sched := List.replicate (2 * (m / blockLen)) .full ++ [.short (m % blockLen)] })
    hc hino (by rw [hlen]; omega) (by rw [List.take_append_drop]; rfl) (by rw [hlen])
  rw [hlen] at hco
  refine ⟨_, m % blockLen, w', c, rfl, h, ?_, ?_⟩
  · have := Copied.of_core hne hco
    exact ⟨this.read, this.write, this.content, this.files, this.fds, this.dir⟩
  · have := hc.blocks
    rw [hlen, streamNonces_body] at this
    exact this

example : 1 < ((Example.world fun i => if i = 0 then [1, 2, 3] else []).rest 0).length ∧ 1 % blockLen ≠ 0 ∧
    1 / blockLen ≤ Example.toy.ctrMax := by decide

/-- **C12**, negation of the required property: success of `encrypt_file` does not imply that the whole input was consumed. -/
theorem C12_not_complete : ¬ ∀ (C : Crypto) (s : Stream) (rh wh : Nat) (aad : Bytes) (w w' : World), C.Lawful → Fresh s →
    rh ≠ wh → (w.fd rh).ino ≠ (w.fd wh).ino → encryptFile C s rh wh aad w = (.ok (), w') → w'.rest rh = [] := by
  intro h
  obtain ⟨n, k, w', body, _, he, hc, _⟩ := C12_short_read_truncates Example.toy (Example.toy_lawful _ (by decide)) 0 1
    (by decide) [9] exStream exStream_fresh (Example.world fun i => if i = 0 then [1, 2, 3] else []) (by decide)
    (by intro n m _ _; rfl) 1 (by decide) (by decide) (by decide)
  have h1 := h _ _ _ _ _ _ _ (Example.toy_lawful _ (by decide)) exStream_fresh (by decide) (by simpa using by decide) he
  have h2 : w'.rest 0 = [2, 3] := by
    simp only [World.rest, World.data]
    rw [hc.read]
    rw [hc.files _ (by decide)]
    rfl
  rw [h2] at h1
  simp at h1

/-- **C13.** A body with more full blocks than the counter allows is an error for encryption (of the input) and for
decryption (of the body) whenever reads return full buffers; no outcome under any schedule is a panic or an endless loop. -/
theorem C13_counter_exhaustion (C : Crypto) (hC : C.Lawful) (rh wh : Nat) (hne : rh ≠ wh) (aad : Bytes) (s : Stream)
    (hs : Fresh s) (w : World) (hino : (w.fd rh).ino ≠ (w.fd wh).ino) :
    (∀ x, (encryptFile C s rh wh aad w).1 ≠ .abort x) ∧ (∀ x, (decryptFile C s rh wh aad w).1 ≠ .abort x) ∧
    ((∀ k, Io.short k ∉ w.sched) →
      (C.ctrMax < (w.rest rh).length / blockLen → ∃ e, (encryptFile C s rh wh aad w).1 = .err e) ∧
      (C.ctrMax < (w.rest rh).length / (blockLen + tagLen) → ∃ e, (decryptFile C s rh wh aad w).1 = .err e)) := by
  have h1 := encryptFile_spec C hne aad s hs.position w hino
  have h2 := decryptFile_spec C hC hne aad s hs.position w hino
  refine ⟨?_, ?_, ?_⟩
  · intro x
    rcases h1 with ⟨m, c, w2, he, _⟩ | ⟨e, m, out, w2, he, _⟩ <;> rw [he] <;> simp
  · intro x
    rcases h2 with ⟨m, q, w', he, _⟩ | ⟨e, m, q, c, k, w', he, _⟩ <;> rw [he] <;> simp
  · intro hno
    constructor
    · intro hlt
      rcases h1 with ⟨m, c, w2, he, hm, hn, hseal, _⟩ | ⟨e, m, out, w2, he, _⟩
      · exfalso
        rw [hn hno, List.take_length] at hseal
        have := hseal.counter
        omega
      · exact ⟨e, by rw [he]⟩
    · intro hlt
      rcases h2 with ⟨m, q, w', he, hm, hn, hseal, _⟩ | ⟨e, m, q, c, k, w', he, _⟩
      · exfalso
        rw [hn hno, List.take_length] at hseal
        have h3 := hseal.counter
        have h4 := hseal.blockCount hC
        omega
      · exact ⟨e, by rw [he]⟩

example : (Example.toy 0).ctrMax < ((Example.world fun i => if i = 0 then List.replicate 1048576 5 else []).rest 0).length / blockLen := by
  have : (Example.world fun i => if i = 0 then List.replicate 1048576 5 else []).rest 0 = List.replicate 1048576 5 := by
    simp only [World.rest, World.data, Example.world, if_true, List.drop_zero]
  rw [this, List.length_replicate]
  decide

end Volaris.Props
