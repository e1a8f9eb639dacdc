import Verif.Proofs.Fresh
import Verif.Props.Keys
/-!
# C61: salts, keys and nonces are fresh
-/
namespace Volaris.Props
open Spec KeyOps

/-- **C61.** A successful encryption (no short transfers) takes exactly its salt, its data key, the nonce of its keyslot and the nonce prefix of
its body from the random source, one after the other and not overlapping, and those are the values in the header that is written. -/
theorem C61_encrypt (C : Crypto) (hC : C.Lawful) (req : Encrypt.Request) (w w' : World) (ha : ApartHandles req w)
    (hshort : ∀ k, Io.short k ∉ w.sched) (hok : Encrypt.execute C req w = (.ok (), w')) :
    Used (fileDraw req.headerType) w w' ∧
    Minted C req (w'.file (w.fd (headerHandle req)).ino) (tape w 0 16) (tape w 16 32)
      (tape w 48 (nonceLength req.headerType.algorithm .memoryMode))
      (tape w (48 + nonceLength req.headerType.algorithm .memoryMode) (nonceLength req.headerType.algorithm req.headerType.mode)) := by
  refine ⟨encrypt_used hC ha hok, ?_⟩
  cases hh : req.headerWriter with
  | none =>
    obtain ⟨hb, aad, c, k, henc, hcont⟩ := encrypt_embedded_content hC req hh ha.handles.1 ha.files hshort hok
    have e : headerHandle req = req.writer := by simp [headerHandle, hh]
    rw [e, hcont, List.append_assoc]
    exact henc.minted hC _
  | some hw =>
    obtain ⟨hb, aad, c, k, henc, hcont, _⟩ := encrypt_detached_content hC req hh ha.handles.1 (ha.handles.2 hw hh) ha.files
      (ha.header hw hh).1 (ha.header hw hh).2 hshort hok
    have e : headerHandle req = hw := by simp [headerHandle, hh]
    rw [e, hcont]
    exact henc.minted hC _

/-- **C61.** The random source is never wound back: whatever operations run, however they end, a later state sees a later part of the tape. -/
theorem C61_later (C : Crypto) (w v : World) (h : Later C w v) : ∃ n, Used n w v := h.used

/-- **C61.** Two encryptions at any distance in any history, whatever their passwords, inputs and outcomes in between: the second takes all its
values from a part of the random source behind everything the first one took. -/
theorem C61_two_files (C : Crypto) (hC : C.Lawful) (req1 req2 : Encrypt.Request) (w w' v v' : World)
    (ha1 : ApartHandles req1 w) (hshort1 : ∀ k, Io.short k ∉ w.sched) (hok1 : Encrypt.execute C req1 w = (.ok (), w'))
    (hlater : Later C w' v)
    (ha2 : ApartHandles req2 v) (hshort2 : ∀ k, Io.short k ∉ v.sched) (hok2 : Encrypt.execute C req2 v = (.ok (), v')) :
    Minted C req1 (w'.file (w.fd (headerHandle req1)).ino) (tape w 0 16) (tape w 16 32)
      (tape w 48 (nonceLength req1.headerType.algorithm .memoryMode))
      (tape w (48 + nonceLength req1.headerType.algorithm .memoryMode) (nonceLength req1.headerType.algorithm req1.headerType.mode)) ∧
    ∃ s, fileDraw req1.headerType ≤ s ∧
      Minted C req2 (v'.file (v.fd (headerHandle req2)).ino) (tape w s 16) (tape w (s + 16) 32)
        (tape w (s + 48) (nonceLength req2.headerType.algorithm .memoryMode))
        (tape w (s + (48 + nonceLength req2.headerType.algorithm .memoryMode))
          (nonceLength req2.headerType.algorithm req2.headerType.mode)) := by
  obtain ⟨hu, hm1⟩ := C61_encrypt C hC req1 w w' ha1 hshort1 hok1
  obtain ⟨n, hn⟩ := hlater.used
  obtain ⟨_, hm2⟩ := C61_encrypt C hC req2 v v' ha2 hshort2 hok2
  refine ⟨hm1, fileDraw req1.headerType + n, by omega, ?_⟩
  have ht := fun i m => (hu.trans hn).tape i m
  rw [ht, ht, ht, ht, Nat.add_zero] at hm2
  exact hm2

/-- The world of the examples: input in file 0, empty output in file 1, a random source that counts up. -/
def exFreshWorld : World := { Example.world (fun i => if i = 0 then [1, 2, 3] else []) with rng := fun i => UInt8.ofNat i }

def exFreshReq : Encrypt.Request := exRequest exV5 (.argon2id 3)

def exFreshRun := Encrypt.execute Example.toy exFreshReq exFreshWorld

theorem exFreshApart (w : World) (h : ∀ i, (w.fd i).ino = i) : ApartHandles exFreshReq w where
  handles := ⟨by decide, fun _ h => nomatch h⟩
  files := by rw [h, h]; decide
  header := fun _ h => nomatch h

example : (exFreshRun.2.rng 0, (exFreshRun.2.file 1)[0]?) = (68, some 222) := by decide +kernel

example : ∃ s, 68 ≤ s ∧ ∃ v' : World, Minted Example.toy exFreshReq (v'.file 1) (tape exFreshWorld s 16) (tape exFreshWorld (s + 16) 32)
    (tape exFreshWorld (s + 48) 12) (tape exFreshWorld (s + 60) 8) := by
  have hfst : exFreshRun.1 = .ok () := by decide +kernel
  have hok1 : Encrypt.execute Example.toy exFreshReq exFreshWorld = (.ok (), exFreshRun.2) := run_of_fst hfst
  have hlater : Later Example.toy exFreshRun.2 { exFreshWorld with rng := exFreshRun.2.rng } := .other (.refl _) rfl
  obtain ⟨v', hok2, _⟩ := C14_encrypt_decrypt Example.toy (Example.toy_lawful _ (by decide)) exFreshReq
    { exFreshWorld with rng := exFreshRun.2.rng } rfl rfl rfl (by decide) (by decide) rfl
    (toy_works _ _ _ (by decide)) (by decide) (by decide)
  obtain ⟨_, s, hs, hm⟩ := C61_two_files Example.toy (Example.toy_lawful _ (by decide)) exFreshReq exFreshReq exFreshWorld exFreshRun.2
    _ v' (exFreshApart _ fun _ => rfl) (by simp [exFreshWorld, Example.world]) hok1 hlater (exFreshApart _ fun _ => rfl)
    (by simp [exFreshWorld, Example.world]) hok2
  exact ⟨s, hs, v', hm⟩

/-- **C61.** A successful `key add` takes the salt and the nonce of the new keyslot from the random source and nothing else. -/
theorem C61_key_add (C : Crypto) (hC : C.Lawful) (req : NewKeyRequest) (w w' : World) (hd : Header) (ks : List Keyslot) (aad : Bytes)
    (hf : KeyFile (w.rest req.handle) hd ks aad) (hshort : ∀ k, Io.short k ∉ w.sched) (hok : add C req w = (.ok (), w')) :
    Used (16 + nonceLength hd.headerType.algorithm .memoryMode) w w' ∧
    ∃ k content' hd', HeaderReplaced req.handle w w' content' ∧ KeyFile content' hd' (ks ++ [k]) aad ∧
      k.salt = tape w 0 16 ∧ k.nonce = tape w 16 (nonceLength hd.headerType.algorithm .memoryMode) := by
  refine ⟨add_used hC hf hok, ?_⟩
  obtain ⟨b, k0, af, mk, k, j, hsp, ho, hb, hmk, h4, hsl, hkok, _, hj, hrep⟩ := add_effect hC hf hok
  have := hj hshort; subst this
  have hsz := isHeader_sized hf.header
  have hks := hsz.2 ks hf.slots
  have hall : ∀ x ∈ ks ++ [k], SlotOk hd.headerType.algorithm x := by
    intro x hx
    rcases List.mem_append.1 hx with hx | hx
    · exact hks.2 x hx
    · rw [List.mem_singleton.1 hx]; exact hkok
  have hlen : (ks ++ [k]).length ≤ 4 := by simp; omega
  have hH := bytesV5_length hsz.1 hlen hall
  rw [List.take_of_length_le (by omega)] at hrep
  exact ⟨k, _, _, hrep, hf.written hlen hall ((w.rest req.handle).drop 416), hsl.saltEq, hsl.nonceEq⟩

/-- **C61.** A successful `key change` takes a new salt and a new nonce for the keyslot it replaces; the others stay. -/
theorem C61_key_change (C : Crypto) (hC : C.Lawful) (req : NewKeyRequest) (w w' : World) (hd : Header) (ks : List Keyslot) (aad : Bytes)
    (hf : KeyFile (w.rest req.handle) hd ks aad) (hshort : ∀ k, Io.short k ∉ w.sched) (hok : change C req w = (.ok (), w')) :
    Used (16 + nonceLength hd.headerType.algorithm .memoryMode) w w' ∧
    ∃ before k0 after k content' hd', ks = before ++ k0 :: after ∧ HeaderReplaced req.handle w w' content' ∧
      KeyFile content' hd' (before ++ k :: after) aad ∧
      k.salt = tape w 0 16 ∧ k.nonce = tape w 16 (nonceLength hd.headerType.algorithm .memoryMode) := by
  refine ⟨change_used hC hf hok, ?_⟩
  obtain ⟨b, k0, af, mk, k, j, hsp, ho, hb, hmk, hsl, hkok, _, hj, hrep⟩ := change_effect hC hf hok
  have := hj hshort; subst this
  have hsz := isHeader_sized hf.header
  have hks := hsz.2 ks hf.slots
  have hall : ∀ x ∈ b ++ k :: af, SlotOk hd.headerType.algorithm x := by
    intro x hx
    rw [List.mem_append, List.mem_cons] at hx
    rcases hx with hx | rfl | hx
    · exact hks.2 x (by rw [hsp]; simp [hx])
    · exact hkok
    · exact hks.2 x (by rw [hsp]; simp [hx])
  have hlen : (b ++ k :: af).length ≤ 4 := by have := hks.1; rw [hsp] at this; simpa using this
  have hH := bytesV5_length hsz.1 hlen hall
  rw [List.take_of_length_le (by omega)] at hrep
  exact ⟨b, k0, af, k, _, _, hsp, hrep, hf.written hlen hall ((w.rest req.handle).drop 416), hsl.saltEq, hsl.nonceEq⟩

def exFreshAdd := add Example.toy exAdd (Example.world1 exFile)
def exFreshChange := change Example.toy exAdd (Example.world1 exFile)

example : Used 28 (Example.world1 exFile) exFreshAdd.2 ∧ Used 28 (Example.world1 exFile) exFreshChange.2 := by
  have h1 : exFreshAdd.1 = .ok () := by decide +kernel
  have h2 : exFreshChange.1 = .ok () := by decide +kernel
  exact ⟨(C61_key_add Example.toy (Example.toy_lawful _ (by decide)) exAdd (Example.world1 exFile) _ _ _ _ exFile_key (by simp [Example.world1, Example.world])
      (run_of_fst (x := exFreshAdd) h1)).1,
    (C61_key_change Example.toy (Example.toy_lawful _ (by decide)) exAdd (Example.world1 exFile) _ _ _ _ exFile_key (by simp [Example.world1, Example.world])
      (run_of_fst (x := exFreshChange) h2)).1⟩

end Volaris.Props
