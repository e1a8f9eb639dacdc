import Verif.Proofs.CmdOk
import Verif.Props.Cli
/-!
# The encrypt and decrypt commands, one after the other
-/
namespace Volaris.Props
open Spec Example Cli
variable {σ : Type}

/-! ### C68 -/

/-- **C68, encrypt.** When everything is in place the encrypt command succeeds, whatever the files, the key source, the flags and the answers are, and the output (with the header file) decrypts to
what the input was. -/
theorem C68_encrypt (s : Sys σ) (hC : s.C.Lawful) (input output : List Char) (params : CryptoParams) (a : Algorithm) (secret : Bytes) (q : Path) (i : Nat) (w : World)
    (h : EncryptReady s input output params a secret q i w) :
    ∃ w', encryptMode s input output params a w = (.ok (), w') ∧ Spec.Encrypted s.C s.cwd output params.header secret (w.file i) w' := by
  obtain ⟨hx, u, hac, hsup⟩ := h.key
  exact encryptMode_nil s hC input output params a secret h.faultless h.names h.source hac hx hsup h.target h.header h.separate h.primitives h.size

/-- **C68, decrypt.** When everything is in place and the input can be decrypted with the secret, then the decrypt command succeeds and the output is the plaintext. -/
theorem C68_decrypt (s : Sys σ) (input output : List Char) (params : CryptoParams) (secret c p : Bytes) (w : World)
    (h : DecryptReady s input output params secret c w) (hun : Unlocks s.C s.cwd params.header secret c p w) :
    ∃ w', decryptMode s input output params w = (.ok (), w') ∧ ContentAt w' (toPath s.cwd output) p := by
  obtain ⟨hx, u, hac, hsup⟩ := h.key
  obtain ⟨q, i, hl, rfl⟩ := h.source
  exact decryptMode_nil s input output params secret p h.faultless h.names hl hac hx hsup h.target h.separate hun

/-- **C68.** The encrypt command succeeds when everything is in place, and from then on the file it wrote can be decrypted: on whatever machine (`s'`, with the same primitives) and in whatever
directory tree `v` the file and its header turn up, the decrypt command with the same secret succeeds and writes exactly what the input of the encrypt command was. -/
theorem C68_round_trip (s s' : Sys σ) (hC : s.C.Lawful) (hs : s'.C = s.C) (input output : List Char) (params : CryptoParams) (a : Algorithm) (secret : Bytes) (q : Path) (i : Nat) (w : World)
    (h : EncryptReady s input output params a secret q i w) :
    ∃ w' c, encryptMode s input output params a w = (.ok (), w') ∧ ContentAt w' (toPath s.cwd output) c ∧
      ∀ (input' output' : List Char) (params' : CryptoParams) (v : World), DecryptReady s' input' output' params' secret c v →
        HeaderBrought s.cwd s'.cwd params.header params'.header c w' v →
        ∃ v', decryptMode s' input' output' params' v = (.ok (), v') ∧ ContentAt v' (toPath s'.cwd output') (w.file i) := by
  obtain ⟨w', he, henc⟩ := C68_encrypt s hC input output params a secret q i w h
  unfold Spec.Encrypted at henc
  cases hh : params.header with
  | none =>
    simp only [hh] at henc
    obtain ⟨c, hc, hd⟩ := henc
    refine ⟨w', c, he, hc, fun input' output' params' v hr hb => ?_⟩
    refine C68_decrypt s' input' output' params' secret c _ v hr ?_
    cases hh' : params'.header with
    | none => rw [← hs] at hd; exact hd
    | some x => rw [hh'] at hb; exact hb.elim
  | some x =>
    simp only [hh] at henc
    obtain ⟨hdr, c, hx, hc, hd⟩ := henc
    refine ⟨w', c, he, hc, fun input' output' params' v hr hb => ?_⟩
    refine C68_decrypt s' input' output' params' secret c _ v hr ?_
    cases hh' : params'.header with
    | none => rw [hh'] at hb; exact hb.elim
    | some y =>
      rw [hh'] at hb
      obtain ⟨h1, h2⟩ := hb hdr hx
      rw [← hs] at hd
      exact ⟨hdr, h1, hd h2⟩

/-- Everything is in place on the small disk to encrypt `z` to `o`. -/
theorem exEncryptReady : EncryptReady exSys ['z'] ['o'] exErasing .aes256Gcm [112, 119] [['z']] 2 (exWorld [] []) where
  faultless := rfl
  names := by decide
  source := ⟨by rfl, by decide +kernel⟩
  separate := exSeparate [] []
  target := ⟨[['o']], by rfl, .inr ⟨by decide +kernel, by decide +kernel⟩⟩
  header := fun hd h => by cases h
  key := by
    refine ⟨by decide, exWorld [] [], .inl ⟨.inl ?_, rfl⟩, rfl⟩
    rintro ⟨q, n, h1, h2⟩
    have e : (exWorld [] []).resolve (toPath exSys.cwd ['o']) = .ok [['o']] := by rfl
    rw [e] at h1
    cases h1
    have e2 : (exWorld [] []).look [['o']] = none := by decide +kernel
    rw [e2] at h2
    cases h2
  primitives := toy_works _ _ _ (by decide)
  size := by decide +kernel

/-- What `encrypt z o` leaves behind. -/
def exAfterEncrypt : World := (exEncrypt ['z'] ['o'] exErasing (exWorld [] [])).2

theorem exAfterEncrypt_dir : exAfterEncrypt.dir = [([['o']], .file 1000), ([['a'], ['b'], ['y']], .file 1), ([['a'], ['b']], .dir), ([['a'], ['x']], .file 0), ([['a']], .dir)] := by decide +kernel

/-- And there everything is in place to decrypt `o` to `z2`. -/
theorem exDecryptReady : DecryptReady exSys ['o'] ['z', '2'] exErasing [112, 119] (exAfterEncrypt.file 1000) exAfterEncrypt where
  faultless := by decide +kernel
  names := by decide
  source := ⟨[['o']], 1000, ⟨eq_ok_of (by decide +kernel), by decide +kernel⟩, rfl⟩
  separate := by
    refine ⟨allocated_of ?_, apart_of (q := [['o']]) (q' := [['z', '2']]) (i := 1000) ⟨eq_ok_of (by decide +kernel), by decide +kernel⟩ (eq_ok_of (by decide +kernel)) (by decide) (by decide +kernel),
      fun hd h => by cases h⟩
    intro k i h
    rw [exAfterEncrypt_dir] at h
    have e : exAfterEncrypt.nextIno = 1001 := by decide +kernel
    rw [e]
    simp only [List.mem_cons, Prod.mk.injEq, List.not_mem_nil, or_false, Node.file.injEq, reduceCtorEq, and_false, false_or] at h
    omega
  target := ⟨[['z', '2']], eq_ok_of (by decide +kernel), .inr ⟨by decide +kernel, by decide +kernel⟩⟩
  key := by
    refine ⟨by decide, exAfterEncrypt, .inl ⟨.inl ?_, rfl⟩, by show exAfterEncrypt.env = _; decide +kernel⟩
    rintro ⟨q, n, h1, h2⟩
    have e : exAfterEncrypt.resolve (toPath exSys.cwd ['z', '2']) = .ok [['z', '2']] := eq_ok_of (by decide +kernel)
    rw [e] at h1
    cases h1
    have e2 : exAfterEncrypt.look [['z', '2']] = none := by decide +kernel
    rw [e2] at h2
    cases h2

/-- So the file comes back. -/
example : ∃ v', decryptMode exSys ['o'] ['z', '2'] exErasing exAfterEncrypt = (.ok (), v') ∧ ContentAt v' (toPath exSys.cwd ['z', '2']) [1, 2, 3] := by
  obtain ⟨w', c, he, ⟨q, i, hl, rfl⟩, h⟩ := C68_round_trip exSys exSys (Example.toy_lawful _ (by decide)) rfl _ _ _ _ _ _ _ _ exEncryptReady
  have hw : w' = exAfterEncrypt := (congrArg Prod.snd he).symm
  subst hw
  obtain ⟨rfl, rfl⟩ := leads_unique hl (q' := [['o']]) (i' := 1000) ⟨eq_ok_of (by decide +kernel), by decide +kernel⟩
  exact h ['o'] ['z', '2'] exErasing exAfterEncrypt exDecryptReady trivial

end Volaris.Props
