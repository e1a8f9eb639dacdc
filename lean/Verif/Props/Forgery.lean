import Verif.Proofs.Forgery
import Verif.Props.EndToEnd
import Verif.Props.Cli
/-!
# C90: whatever file is decrypted, what comes out was encrypted as it is
-/
namespace Volaris.Props
open Volaris.Spec Volaris.Cli

/-! ### C90 -/

/-- **C90.** Let any number of files have been encrypted, and let `content` be any bytes whatsoever that start with a header of version 3, 4 or 5, if with any: a genuine file, one with blocks removed,
repeated, reordered or taken from other files, one with another file's header or keyslots.  If nothing is forged, in the sense that whatever the decryption presents to the AEAD and that
opens was encrypted for one of those files, then under every I/O schedule decryption either succeeds and writes exactly the whole plaintext of one of the files, or fails having written a beginning of
the plaintext of one of them, or nothing. -/
theorem C90_file (C : Crypto) (hC : C.Lawful) (made : Made → Prop) (hm : ProperlyMade C made) (pw content : Bytes) (ha : Authenticated content)
    (hu : UnforgedFile C made pw content) (req : Decrypt.Request) (v : World) (hq : Asks req v pw content) :
    Faithful made req.writer v (Decrypt.execute C req v) :=
  decrypt_faithful hC hm ha hu hq

/-- **C90, separate header.** The same when header and content are in two files, of which either may be anything. -/
theorem C90_detached (C : Crypto) (hC : C.Lawful) (made : Made → Prop) (hm : ProperlyMade C made) (pw hdr content : Bytes) (ha : Authenticated hdr)
    (hu : UnforgedDetached C made pw hdr content) (req : Decrypt.Request) (v : World) (hr : Nat) (hq : AsksDetached req v pw hdr content hr) :
    Faithful made req.writer v (Decrypt.execute C req v) :=
  decrypt_faithful_detached hC hm ha hu hq

/-- **C90, which file.** If decryption succeeds, the plaintext is that of a file whose authenticated header bytes are the ones in `content` and whose data key is the one that the password
recovers from `content`. -/
theorem C90_which (C : Crypto) (hC : C.Lawful) (made : Made → Prop) (hm : ProperlyMade C made) (pw content : Bytes) (ha : Authenticated content)
    (hu : UnforgedFile C made pw content) (req : Decrypt.Request) (v v' : World) (hq : Asks req v pw content)
    (hrun : Decrypt.execute C req v = (.ok (), v')) :
    ∃ f h, made f ∧ IsHeader content h f.aad ∧ Recovers C pw h f.key ∧ Wrote req.writer v v' f.plain := by
  have := decrypt_faithful hC (made := fun f => made f ∧ ∃ h, IsHeader content h f.aad ∧ Recovers C pw h f.key)
    ⟨fun f hf => hm.header f hf.1, fun f hf => hm.blocks f hf.1, fun f f' hf hf' => hm.fresh f f' hf.1 hf'.1⟩ ha (by
      intro h aad mk hi hr n c q hp hdec
      obtain ⟨f, hf, hs⟩ := hu h aad mk hi hr n c q hp hdec
      refine ⟨f, ⟨hf, h, ?_, ?_⟩, hs⟩
      · rw [← show aad = f.aad from hs.2.2.1]; exact hi
      · rw [← show mk = f.key from hs.2.1]; exact hr) hq
  rw [hrun] at this
  rcases this with ⟨_, f, ⟨hf, h, hi, hr⟩, hw⟩ | ⟨e, he, _⟩
  · exact ⟨f, h, hf, hi, hr, hw⟩
  · cases he

/-- **C90, the command.** If the decrypt command succeeds (and transfers were not cut short), the output file holds exactly the plaintext of one of the files that were encrypted. -/
theorem C90_command {σ : Type} (s : Sys σ) (hC : s.C.Lawful) (made : Made → Prop) (hm : ProperlyMade s.C made) (input output : List Char) (params : CryptoParams) (w w' : World)
    (hns : ∀ k, Io.short k ∉ w.sched) (hsep : OutputApart s.cwd input output params.header w) (hu : UnforgedInput s made input params w)
    (he : decryptMode s input output params w = (.ok (), w')) :
    ∃ qo j f, LeadsToFile w' (toPath s.cwd output) qo j ∧ made f ∧ w'.file j = f.plain := by
  obtain ⟨q, i, secret, hl, hsup, qo, j, ho, _, _, hres⟩ := C59_success s hC input output params w w' hns hsep he
  obtain ⟨⟨ha, hf⟩, hd⟩ := hu q i secret hl hsup
  refine ⟨qo, j, ?_⟩
  split at hres
  · obtain ⟨f, hf, hp⟩ := Spec.FileOf.genuine hC hm ha hf hres
    exact ⟨f, ho, hf, hp⟩
  · next hdr heq =>
    rcases hres with ⟨qh, k, hk, hres⟩ | ⟨_, hres⟩
    · obtain ⟨ha', hf'⟩ := hd hdr qh k heq hk
      obtain ⟨f, hf, hp⟩ := Spec.DetachedFileOf.genuine hC hm ha' hf' hres
      exact ⟨f, ho, hf, hp⟩
    · obtain ⟨f, hf, hp⟩ := Spec.FileOf.genuine hC hm ha hf hres
      exact ⟨f, ho, hf, hp⟩

/-- **C90, versions 1 and 2.** The condition on the version is needed.  From every file of version 1 or 2 in stream mode with at least one full block and something after it, a file can be made without any secret which
nobody encrypted, in which nothing is forged, and which decrypts with the same password, without an error, to one block cut out of the middle. -/
theorem C90_old_versions (C : Crypto) (hC : C.Lawful) (pw content p : Bytes) (h : Header) (mk : Bytes) (hi : IsHeader content h [])
    (hv : h.headerType.version = .v1 ∨ h.headerType.version = .v2) (hmode : h.headerType.mode = .streamMode) (hr : Recovers C pw h mk)
    (hb : BodyOf C h mk [] p (content.drop 64)) (hlong : blockLen < p.length) (i : Nat) (hlt : i < p.length / blockLen) :
    ProperlyMade C (· = { header := h, aad := [], key := mk, plain := p }) ∧
    UnforgedFile C (· = { header := h, aad := [], key := mk, plain := p }) pw (cutOut h content i) ∧
    DecryptsTo C pw (cutOut h content i) (chunk p i) ∧ chunk p i ≠ p := by
  have hs := (bodyOf_stream hmode).1 hb
  have hblk := hs.block hC i hlt
  rw [Nat.zero_add] at hblk
  obtain ⟨hi', hd'⟩ := cutOut_header hi hv hmode i
  have hbody : slice (content.drop 64) (i * (blockLen + tagLen)) (blockLen + tagLen) = slice content (64 + i * (blockLen + tagLen)) (blockLen + tagLen) := by
    simp only [slice, List.drop_drop]
  rw [hbody] at hblk
  have hsz : headerSize h.headerType.version = 64 := by rcases hv with hv | hv <;> rw [hv] <;> rfl
  have hr' : Recovers C pw { h with headerType := { h.headerType with mode := .memoryMode }, nonce := blockNonce h.nonce i false } mk := by
    rcases hv with hv | hv <;> simpa only [Recovers, hv] using hr
  refine ⟨⟨?_, ?_, ?_⟩, ?_, ?_, ?_⟩
  · rintro f rfl
    exact ⟨content, hi⟩
  · rintro f rfl _
    simp only [BodyOf, hmode] at hb
    exact hb.1
  · rintro f f' rfl rfl _ _
    rfl
  · intro h2 aad2 mk2 hi2 hr2 n c q hp hdec
    obtain ⟨rfl, rfl⟩ := isHeader_unique hi2 hi'
    have := hr2.unique hr'; subst this
    simp only [Presented, hsz, hd'] at hp
    obtain ⟨rfl, rfl⟩ := hp
    refine ⟨_, rfl, rfl, rfl, rfl, chunk p i, hblk, ?_⟩
    simp only [hmode]
    exact ⟨i, false, ⟨rfl, .inl ⟨rfl, hlt⟩⟩, rfl⟩
  · apply Spec.FileOf.decrypts hC
    refine ⟨_, _, mk, hi', hr', ?_⟩
    simp only [BodyOf, hsz, hd']
    exact hblk
  · intro he
    have := congrArg List.length he
    simp only [chunk, List.length_take, List.length_drop] at this
    omega

/-- A version 2 file of a plaintext one byte longer than a block. -/
def ex90Old : Header :=
  { headerType := { version := .v2, algorithm := .aes256Gcm, mode := .streamMode }, nonce := zeros 8, salt := some (zeros 16), keyslots := none }

example : ∃ content mk, IsHeader content ex90Old [] ∧ Recovers Example.toy [112, 119] ex90Old mk ∧
    BodyOf Example.toy ex90Old mk [] (List.replicate (blockLen + 1) 3) (content.drop 64) ∧ blockLen < (List.replicate (blockLen + 1) (3 : UInt8)).length ∧
    0 < (List.replicate (blockLen + 1) (3 : UInt8)).length / blockLen := by
  have hdiv : (List.replicate (blockLen + 1) (3 : UInt8)).length / blockLen = 1 := by rw [List.length_replicate]; decide
  obtain ⟨body, hbody⟩ : ∃ body, EncryptedBlocks Example.toy .aes256Gcm (Example.toyKdf (Kdf.argon2id 262144 8 4) [112, 119] (zeros 16)) []
      [blockNonce (zeros 8) 0 false, blockNonce (zeros 8) 1 true] (List.replicate (blockLen + 1) 3) body := by
    rw [← List.replicate_append_replicate]
    exact ⟨_, .next (by rw [List.length_replicate]) rfl (.last (by decide) rfl)⟩
  refine ⟨[0xDE, 2, 0x0E, 2, 0x0C, 1] ++ zeros 58 ++ body, _, ⟨?_, rfl, ⟨rfl, rfl, rfl⟩, rfl⟩, ⟨_, rfl, rfl⟩, ⟨?_, ?_⟩, ?_, ?_⟩
  · rw [List.length_append]
    exact Nat.le_add_right_of_le (by decide)
  · rw [hdiv]; decide
  · rw [hdiv, List.drop_left' (show ([0xDE, 2, 0x0E, 2, 0x0C, 1] ++ zeros 58).length = 64 from rfl)]
    exact hbody
  · rw [List.length_replicate]; omega
  · rw [hdiv]; omega

/-! Two files were encrypted under the same password; the second has another nonce and another plaintext. -/

def ex90Header (x : UInt8) : Header :=
  { headerType := exV5, nonce := List.replicate 8 x, salt := some (zeros 16), keyslots := some [ex19Slot] }

def ex90Body (x y : UInt8) : Bytes := [y, 2, 3] ++ Example.toyTag (List.replicate 32 5) (blockNonce (List.replicate 8 x) 0 true)
  (ex19Aad (List.replicate 8 x)) [y, 2, 3]

def ex90Made (f : Made) : Prop := ∃ x y : UInt8, ((x = 1 ∧ y = 1) ∨ (x = 2 ∧ y = 7)) ∧
  f = { header := ex90Header x, aad := ex19Aad (List.replicate 8 x), key := List.replicate 32 5, plain := [y, 2, 3] }

theorem ex90_proper : ProperlyMade Example.toy ex90Made := by
  refine ⟨?_, ?_, ?_⟩
  · rintro f ⟨x, y, _, rfl⟩
    exact ⟨_, ex19_isHeader (List.replicate 8 x) [] (by simp)⟩
  · rintro f ⟨x, y, _, rfl⟩ _
    show 3 / blockLen ≤ 2 ^ 31 - 1
    decide
  · rintro f f' ⟨x, y, h, rfl⟩ ⟨x', y', h', rfl⟩ _ ha
    rcases h with ⟨rfl, rfl⟩ | ⟨rfl, rfl⟩ <;> rcases h' with ⟨rfl, rfl⟩ | ⟨rfl, rfl⟩
    · rfl
    · exact absurd ha (by decide)
    · exact absurd ha (by decide)
    · rfl

/-- The header of the file `x` with the body of the file `x'`. -/
def ex90File (x x' y' : UInt8) : Bytes := ex19Bytes (List.replicate 8 x) ++ ex90Body x' y'

theorem ex90_authenticated (x x' y' : UInt8) : Authenticated (ex90File x x' y') := by
  intro h aad hi
  obtain ⟨rfl, rfl⟩ := isHeader_unique hi (ex19_isHeader (List.replicate 8 x) _ (by simp))
  exact ⟨fun h => HeaderVersion.noConfusion h, fun h => HeaderVersion.noConfusion h⟩

theorem ex90_recovers (x : UInt8) : Recovers Example.toy [112, 119] (ex90Header x) (List.replicate 32 5) := ⟨[], _, [], rfl, ex19_opens, by simp⟩

/-- Nothing is forged in any of the four combinations. -/
theorem ex90_unforged (x y x' y' : UInt8) (h : (x = 1 ∧ y = 1) ∨ (x = 2 ∧ y = 7)) (h' : (x' = 1 ∧ y' = 1) ∨ (x' = 2 ∧ y' = 7)) :
    UnforgedFile Example.toy ex90Made [112, 119] (ex90File x x' y') := by
  intro hd aad mk hi hr n c q hp hdec
  obtain ⟨rfl, rfl⟩ := isHeader_unique hi (ex19_isHeader (List.replicate 8 x) _ (by simp))
  have := Spec.Recovers.unique hr (ex90_recovers x); subst this
  obtain ⟨i, _, hpre, _, rfl⟩ := hp
  have hsplit : (ex90File x x' y').drop 416 = ex90Body x' y' := by
    rcases h with ⟨rfl, rfl⟩ | ⟨rfl, rfl⟩ <;> rcases h' with ⟨rfl, rfl⟩ | ⟨rfl, rfl⟩ <;> decide +kernel
  replace hpre : c <+: ((ex90File x x' y').drop 416).drop (i * (blockLen + tagLen)) := hpre
  rw [hsplit] at hpre
  have hbl : (ex90Body x' y').length = 19 := rfl
  cases i with
  | succ i =>
    rw [List.drop_eq_nil_of_le (by rw [hbl]; simp only [blockLen, tagLen]; omega), List.prefix_nil] at hpre
    subst hpre
    rw [Example.toy_dec_short (by decide)] at hdec
    cases hdec
  | zero =>
    rw [Nat.zero_mul, List.drop_zero] at hpre
    have hle := hpre.length_le
    rw [hbl] at hle
    have hfin : decide (c.length < blockLen + tagLen) = true := by
      apply decide_eq_true
      simp only [blockLen, tagLen]; omega
    rw [hfin] at hdec ⊢
    rw [List.prefix_iff_eq_take.1 hpre] at hdec ⊢
    generalize c.length = k at hle hdec
    have key : ∀ k < 20, Example.toyDec (List.replicate 32 5) (blockNonce (List.replicate 8 x) 0 true) (ex19Aad (List.replicate 8 x)) ((ex90Body x' y').take k) = none ∨
        (k = 19 ∧ x' = x) := by
      rcases h with ⟨rfl, rfl⟩ | ⟨rfl, rfl⟩ <;> rcases h' with ⟨rfl, rfl⟩ | ⟨rfl, rfl⟩ <;> decide +kernel
    rcases key k (by omega) with hn | ⟨rfl, rfl⟩
    · have hdec : Example.toyDec (List.replicate 32 5) (blockNonce (List.replicate 8 x) 0 true) (ex19Aad (List.replicate 8 x)) ((ex90Body x' y').take k) = some q := hdec
      rw [hn] at hdec
      cases hdec
    · refine ⟨_, ⟨x', y', h', rfl⟩, rfl, rfl, rfl, [y', 2, 3], ?_, 0, true, ⟨rfl, .inr ⟨rfl, (Nat.div_eq_of_lt (show 3 < blockLen by decide)).symm⟩⟩, rfl⟩
      rw [List.take_of_length_le (by rw [hbl]; omega)]
      rfl

/-- The first file, the second, and the header of the first with the body of the second: in all of them nothing is forged; the first decrypts to its plaintext, the mixed one
is refused. -/
example : DecryptsTo Example.toy [112, 119] (ex90File 1 1 1) [1, 2, 3] ∧ Authenticated (ex90File 1 1 1) ∧ UnforgedFile Example.toy ex90Made [112, 119] (ex90File 1 1 1) ∧
    Authenticated (ex90File 1 2 7) ∧ UnforgedFile Example.toy ex90Made [112, 119] (ex90File 1 2 7) ∧ ProperlyMade Example.toy ex90Made := by
  refine ⟨?_, ex90_authenticated _ _ _, ex90_unforged 1 1 1 1 (by simp) (by simp), ex90_authenticated _ _ _, ex90_unforged 1 1 2 7 (by simp) (by simp), ex90_proper⟩
  apply Spec.FileOf.decrypts (Example.toy_lawful _ (by decide))
  refine ⟨_, _, List.replicate 32 5, ex19_isHeader _ _ rfl, ⟨[], _, [], rfl, ex19_opens, by simp⟩, ?_⟩
  refine ⟨by decide, .last (by decide) ?_⟩
  decide +kernel

/-- The separate header of the first file and the bodies. -/
example : Authenticated (ex19Bytes (List.replicate 8 1)) ∧ UnforgedDetached Example.toy ex90Made [112, 119] (ex19Bytes (List.replicate 8 1)) (zeros 416 ++ ex90Body 1 1) := by
  have hb : detachedBody 416 (zeros 416 ++ ex90Body 1 1) = (ex90File 1 1 1).drop 416 := by decide +kernel
  have hi1 := ex19_isHeader (List.replicate 8 1) [] rfl
  rw [List.append_nil] at hi1
  constructor
  · intro h aad hi
    obtain ⟨rfl, rfl⟩ := isHeader_unique hi hi1
    exact ⟨by decide, by decide⟩
  · intro h aad mk hi hr
    obtain ⟨rfl, rfl⟩ := isHeader_unique hi hi1
    show Unforged _ _ _ _ _ (detachedBody 416 _)
    rw [hb]
    exact ex90_unforged 1 1 1 1 (by simp) (by simp) _ _ _ (ex19_isHeader _ _ rfl) hr

/-- The disk of the examples with the first file as `z`. -/
def ex90World : World := { exWorld [] [] with file := fun i => if i = 2 then ex90File 1 1 1 else (exWorld [] []).file i }

/-- The command succeeds on it, and its hypotheses are met. -/
example : UnforgedInput exSys ex90Made ['z'] exParams ex90World ∧ OutputApart exSys.cwd ['z'] ['o'] exParams.header ex90World ∧
    decryptMode exSys ['z'] ['o'] exParams ex90World = (.ok (), (decryptMode exSys ['z'] ['o'] exParams ex90World).2) := by
  refine ⟨?_, ⟨(exSeparate [] []).allocated, apart_of (q := [['z']]) (q' := [['o']]) (i := 2) ⟨rfl, rfl⟩ rfl (by decide) (by simp [show ex90World.look [['o']] = none from rfl]), fun hd h => by cases h⟩, run_of_fst (by decide +kernel)⟩
  intro q i secret hl hs
  have hl' : LeadsToFile ex90World (toPath exSys.cwd ['z']) [['z']] 2 := ⟨rfl, rfl⟩
  obtain ⟨rfl, rfl⟩ := leads_unique hl hl'
  obtain ⟨_, u, ho, hsec⟩ := hs
  have he : u.env = some [112, 119] := by rw [ho.1]; rfl
  have : secret = [112, 119] := Option.some.inj ((show u.env = some secret from hsec).symm.trans he)
  subst this
  exact ⟨⟨ex90_authenticated 1 1 1, ex90_unforged 1 1 1 1 (by simp) (by simp)⟩, fun hd qh k h => by cases h⟩

end Volaris.Props
