import Verif.Proofs.Screen
import Verif.Props.PackCmd
/-!
# C92: what encrypt, decrypt and pack show on the screen
-/
namespace Volaris.Props
open Volaris.Spec Volaris.Cli Volaris.Example
variable {σ : Type}

/-- **C92, encrypting.** Under every schedule of faults and however the command ends, exactly these lines come on the screen, in this order: the question about the output, which comes if and only if there is something and overwriting is not
forced; what belongs to the secret; the question about the header file; the digest of the output.  Erasing the input prints nothing. -/
theorem C92_encrypt (s : Sys σ) (input output : List Char) (params : CryptoParams) (a : Algorithm) (w w' : World) (r : Res Error Unit) (he : encryptMode s input output params a w = (r, w')) :
    ∃ q k h d, Shows (q ++ k ++ h ++ d) w w' ∧ AboutOutput s.cwd params.force output (input ≠ output) w q ∧ AboutKey .validate params.key (endedWell r) k ∧
      AboutHeader params.force params.header h ∧ AboutDigest params.hashMode output (endedWell r) d := by
  rw [encryptMode_split] at he
  obtain ⟨q, k, h, d, h1, h2, h3, h4, h5⟩ := encryptMode_shows s input output { params with erase := .ignoreFile } a w rfl
  rcases e1 : encryptMode s input output { params with erase := .ignoreFile } a w with ⟨b | e | b, u⟩
  · rw [e1] at h1 h3 h5
    rw [Prog.bind_ok e1] at he
    rcases encryptMode_cases s input output { params with erase := .ignoreFile } a w e1 with ⟨-, hr⟩ | ⟨v, x, i, secret, ht, hl, -, -, hE⟩
    · exact absurd rfl hr
    · have huv : u = v := by
        rcases hE with ⟨_, _, rfl⟩ | ⟨⟨n, hn⟩, _⟩ | ⟨n, _, hn, _⟩
        · rfl
        · cases hn
        · cases hn
      subst huv
      have := eraseIf_wordless s params.erase params.force input (ht.leads hl)
      rw [he] at this
      exact ⟨q, k, h, d, by simpa using h1.trans (.nil this), h2, AboutKey.weaken h3, h4, AboutDigest.weaken h5⟩
  · rw [e1] at h1 h3 h5
    rw [Prog.bind_err e1] at he; cases he
    exact ⟨q, k, h, d, h1, h2, h3, h4, h5⟩
  · rw [e1] at h1 h3 h5
    rw [Prog.bind_abort e1] at he; cases he
    exact ⟨q, k, h, d, h1, h2, h3, h4, h5⟩

/-- **C92, decrypting.** The same; the header file is only read, a password is asked for once and without remarks, and the digest is that of the input. -/
theorem C92_decrypt (s : Sys σ) (input output : List Char) (params : CryptoParams) (w w' : World) (r : Res Error Unit) (he : decryptMode s input output params w = (r, w')) :
    ∃ q k d, Shows (q ++ k ++ d) w w' ∧ AboutOutput s.cwd params.force output (input ≠ output) w q ∧ AboutKey .direct params.key (endedWell r) k ∧ AboutDigest params.hashMode input (endedWell r) d := by
  rw [decryptMode_split] at he
  obtain ⟨q, k, d, h1, h2, h3, h5⟩ := decryptMode_shows s input output { params with erase := .ignoreFile } w rfl
  rcases e1 : decryptMode s input output { params with erase := .ignoreFile } w with ⟨b | e | b, u⟩
  · rw [e1] at h1 h3 h5
    rw [Prog.bind_ok e1] at he
    rcases decryptMode_cases s input output { params with erase := .ignoreFile } w e1 with ⟨-, hr⟩ | ⟨v, x, i, secret, ht, hl, -, -, hE⟩
    · exact absurd rfl hr
    · have huv : u = v := by
        rcases hE with ⟨_, _, rfl⟩ | ⟨⟨n, hn⟩, _⟩ | ⟨n, _, hn, _⟩
        · rfl
        · cases hn
        · cases hn
      subst huv
      have := eraseIf_wordless s params.erase params.force input (ht.leads hl)
      rw [he] at this
      exact ⟨q, k, d, by simpa using h1.trans (.nil this), h2, AboutKey.weaken h3, AboutDigest.weaken h5⟩
  · rw [e1] at h1 h3 h5
    rw [Prog.bind_err e1] at he; cases he
    exact ⟨q, k, d, h1, h2, h3, h5⟩
  · rw [e1] at h1 h3 h5
    rw [Prog.bind_abort e1] at he; cases he
    exact ⟨q, k, d, h1, h2, h3, h5⟩

/-- **C92, packing.** The same, with the questions about the directories to be erased at the end, at most one for each of them and none unless erasing was asked for.  The first question comes only if no input is a file. -/
theorem C92_pack (s : Sys σ) (inputs : List (List Char)) (output : List Char) (pp : PackParams) (params : CryptoParams) (a : Algorithm) (w w' : World) (r : Res Error Unit)
    (he : packMode s inputs output pp params a w = (r, w')) :
    ∃ q k h d e, Shows (q ++ k ++ h ++ d ++ e) w w' ∧
      AboutOutput s.cwd params.force output (output ∉ inputs ∧ ∀ f ∈ inputs, ∀ x i, ¬ LeadsToFile w (toPath s.cwd f) x i) w q ∧ AboutKey .validate params.key (endedWell r) k ∧
      AboutHeader params.force params.header h ∧ AboutDigest params.hashMode output (endedWell r) d ∧ AboutErasing params.force inputs e ∧ (pp.eraseSource = false → e = []) := by
  have := packMode_shows s inputs output pp params a w
  rw [he] at this
  exact this

/-- A path leads to one content. -/
theorem contentAt_unique {w : World} {p : PathBuf} {c c' : Bytes} (h : ContentAt w p c) (g : ContentAt w p c') : c = c' := by
  obtain ⟨q, i, h1, rfl⟩ := h
  obtain ⟨q', i', g1, rfl⟩ := g
  have := h1.resolve
  rw [g1.resolve] at this; cases this
  have := h1.look
  rw [g1.look] at this; cases this
  rfl

/-- **C92, the digest when encrypting.** When encrypting with `--hash` succeeds and no transfer was short, the last line on the screen shows the digest of what is in the output file afterwards: with its header if that is not detached.  If the
input is erased, the files have to be separate. -/
theorem C92_encrypt_digest (s : Sys σ) (hC : s.C.Lawful) (digest : Bytes → String) (hH : Computes s.H digest) (input output : List Char) (params : CryptoParams) (a : Algorithm) (w w' : World)
    (hns : ∀ k, Io.short k ∉ w.sched) (hh : params.hashMode = .calculateHash) (hs : params.erase = .ignoreFile ∨ Separate s.cwd input output params.header w)
    (he : encryptMode s input output params a w = (.ok (), w')) :
    ∃ c earlier, ContentAt w' (toPath s.cwd output) c ∧ w'.out.map (·.text) = digestLine output (digest c) :: earlier := by
  rw [encryptMode_split] at he
  obtain ⟨_, u, e1, e2⟩ := Prog.bind_eq_ok he
  obtain ⟨v, hv, e3⟩ := encryptMode_closes s input output { params with erase := .ignoreFile } a rfl w () u e1
  rw [show ({ params with erase := EraseMode.ignoreFile } : CryptoParams).hashMode = .calculateHash from hh] at e3
  obtain ⟨c, hc, ho⟩ := hashIf_digest s hH (fun k hk => hns k (hv.subset hk)) e3
  rcases encryptMode_cases s input output { params with erase := .ignoreFile } a w e1 with ⟨-, hr⟩ | ⟨v', x, i, secret, ht, hl, -, hp, hE⟩
  · exact absurd rfl hr
  · have huv : u = v' := by
      rcases hE with ⟨_, _, rfl⟩ | ⟨⟨n, hn⟩, _⟩ | ⟨n, _, hn, _⟩
      · rfl
      · cases hn
      · cases hn
    subst huv
    have hw := eraseIf_wordless s params.erase params.force input (ht.leads hl)
    have hE2 := eraseIf_wp s params.erase params.force input (ht.leads hl)
    unfold wp at hE2
    rw [e2] at hw hE2
    refine ⟨c, _, ?_, by rw [hw]; exact ho⟩
    rcases hs with hs | hs
    · rw [hs] at e2
      cases e2
      exact hc
    · obtain ⟨qo, j, g1, g2, g3, -⟩ := hp hC hns hs
      rw [contentAt_unique hc ⟨qo, j, g1, rfl⟩]
      exact ⟨qo, j, hE2.leads g1 g2, hE2.others.1 j g3⟩

/-- **C92, the digest when decrypting.** When decrypting with `--hash` succeeds and no transfer was short, the last line shows the digest of what was in the input file. -/
theorem C92_decrypt_digest (s : Sys σ) (digest : Bytes → String) (hH : Computes s.H digest) (input output : List Char) (params : CryptoParams) (w w' : World)
    (hns : ∀ k, Io.short k ∉ w.sched) (hh : params.hashMode = .calculateHash) (hs : OutputApart s.cwd input output params.header w)
    (he : decryptMode s input output params w = (.ok (), w')) :
    ∃ c earlier, ContentAt w (toPath s.cwd input) c ∧ w'.out.map (·.text) = digestLine input (digest c) :: earlier := by
  rw [decryptMode_split] at he
  obtain ⟨_, u, e1, e2⟩ := Prog.bind_eq_ok he
  obtain ⟨v, hv, e3⟩ := decryptMode_closes s input output { params with erase := .ignoreFile } rfl w () u e1
  rw [show ({ params with erase := EraseMode.ignoreFile } : CryptoParams).hashMode = .calculateHash from hh] at e3
  obtain ⟨c, hc, ho⟩ := hashIf_digest s hH (fun k hk => hns k (hv.subset hk)) e3
  rcases decryptMode_cases s input output { params with erase := .ignoreFile } w e1 with ⟨-, hr⟩ | ⟨v', x, i, secret, ht, hl, -, -, hE⟩
  · exact absurd rfl hr
  · have huv : u = v' := by
      rcases hE with ⟨_, _, rfl⟩ | ⟨⟨n, hn⟩, _⟩ | ⟨n, _, hn, _⟩
      · rfl
      · cases hn
      · cases hn
    subst huv
    have hw := eraseIf_wordless s params.erase params.force input (ht.leads hl)
    rw [e2] at hw
    refine ⟨w.file i, v.out.map (·.text), ⟨x, i, hl, rfl⟩, ?_⟩
    rw [hw, ho, contentAt_unique hc ⟨x, i, ht.leads hl, rfl⟩, output_kept hs.allocated ht hs.inp hl]

/-- **C92, the digest when packing.** When packing with `--hash` succeeds and no transfer was short, the digest that is shown, with nothing after it but the questions about the directories to be erased, is that of what is in the output
file afterwards. -/
theorem C92_pack_digest (s : Sys σ) (hC : s.C.Lawful) (digest : Bytes → String) (hH : Computes s.H digest) (inputs : List (List Char)) (output : List Char) (pp : PackParams) (params : CryptoParams) (a : Algorithm) (w w' : World)
    (hns : ∀ k, Io.short k ∉ w.sched) (hh : params.hashMode = .calculateHash) (ht : TreeOk w) (ho : Outside s.cwd inputs output params.header w)
    (he : packMode s inputs output pp params a w = (.ok (), w')) :
    ∃ j e earlier, KeptAt s.cwd inputs (toPath s.cwd output) w w' j ∧ AboutErasing params.force inputs e ∧ (pp.eraseSource = false → e = []) ∧
      w'.out.map (·.text) = e.reverse ++ digestLine output (digest (w'.file j)) :: earlier := by
  have hmain : ∀ u, packMode s inputs output ⟨false⟩ params a w = (.ok (), u) → ∃ j earlier, KeptAt s.cwd inputs (toPath s.cwd output) w u j ∧
      u.out.map (·.text) = digestLine output (digest (u.file j)) :: earlier := by
    intro u e1
    obtain ⟨v, hv, e3⟩ := packMode_closes s inputs output params a w () u e1
    rw [hh] at e3
    obtain ⟨c, hc, h1⟩ := hashIf_digest s hH (fun k hk => hns k (hv.subset hk)) e3
    rcases packMode_cases s inputs output ⟨false⟩ params a w u _ ht e1 with ⟨_, h⟩ | ⟨u', secret, h, hs, hA, hcase⟩
    · exact absurd rfl h
    · rcases hcase with ⟨-, -, rfl⟩ | ⟨h2, -⟩
      · obtain ⟨l, hl, hr, j, ⟨q, g1, g2, g3, g4⟩, -⟩ := hA hC hns ho
        refine ⟨j, v.out.map (·.text), ⟨q, g1, g2, g3, g4⟩, ?_⟩
        rw [h1, contentAt_unique hc ⟨q, j, ⟨(h.resolves _ _).2 g1, g3⟩, rfl⟩]
      · cases h2
  obtain ⟨b⟩ := pp
  cases b with
  | false =>
    obtain ⟨j, earlier, h1, h2⟩ := hmain w' he
    exact ⟨j, [], earlier, h1, .none, fun _ => rfl, h2⟩
  | true =>
    rw [packMode_split] at he
    obtain ⟨_, u, e1, e2⟩ := Prog.bind_eq_ok he
    obtain ⟨j, earlier, h1, h2⟩ := hmain u e1
    obtain ⟨e, h3, h4⟩ := eraseInputs_tells s params.force inputs u
    rw [e2] at h3
    have hwp := packMode_wp s inputs output ⟨false⟩ params a w ht
    unfold wp at hwp
    rw [e1] at hwp
    rcases hwp with ⟨_, h⟩ | ⟨u', _, t1, t2, t3, _, _, h⟩
    · exact absurd rfl h
    · cases h
      have hnf : ∀ f ∈ inputs, ∀ q i, ¬ LeadsToFile u (toPath s.cwd f) q i := by
        intro f hf q i hq
        obtain ⟨T, hT⟩ := t3 f hf
        have hr := (t1.resolves _ _).1 hq.resolve
        rw [hT.resolve] at hr; cases hr
        have := trail_dir t1 hT.look
        rw [hq.look] at this; cases this
      obtain ⟨r2, w2, g1, g2, -⟩ := eraseInputs_cases s params.force inputs u t2 hnf
      rw [e2] at g1; cases g1
      obtain ⟨k1, k2⟩ := keptAt_erased h1 (g2.mono fun x => (inSource_trail t1 x).1)
      exact ⟨j, e, earlier, k1, h4, (fun h => by cases h), by rw [k2, h3, h2]⟩

/-- **C92, the digests agree.** The line that encrypting shows is the line that hashing the output shows, and the one that decrypting it shows, as long as the files are the same. -/
theorem C92_agree (s : Sys σ) (hC : s.C.Lawful) (digest : Bytes → String) (hH : Computes s.H digest) (input output plain : List Char) (params params' : CryptoParams) (a : Algorithm) (w w' v : World)
    (hns : ∀ k, Io.short k ∉ w.sched) (hns' : ∀ k, Io.short k ∉ v.sched) (hh : params.hashMode = .calculateHash) (hh' : params'.hashMode = .calculateHash)
    (hs : params.erase = .ignoreFile ∨ Separate s.cwd input output params.header w) (he : encryptMode s input output params a w = (.ok (), w')) (hv : SameFiles w' v) :
    ∃ line earlier, w'.out.map (·.text) = line :: earlier ∧
      (∀ ds v', hashStream s [output] v = (.ok ds, v') → Shows [line] v v') ∧
      (OutputApart s.cwd output plain params'.header v → ∀ v', decryptMode s output plain params' v = (.ok (), v') → ∃ before, v'.out.map (·.text) = line :: before) := by
  obtain ⟨c, earlier, h1, h2⟩ := C92_encrypt_digest s hC digest hH input output params a w w' hns hh hs he
  have hc : ContentAt v (toPath s.cwd output) c := by
    obtain ⟨q, i, g1, rfl⟩ := h1
    exact ⟨q, i, leads_congr hv.2 g1, by rw [hv.1]⟩
  refine ⟨_, earlier, h2, fun ds v' hd => ?_, fun ha v' hd => ?_⟩
  · obtain ⟨shown, g1, g2, g3, g4, g5⟩ := hashStream_prints s digest hH [output] v
    rw [hd] at g2 g3
    obtain ⟨rfl, h3⟩ := g3 ds rfl
    obtain ⟨d, rfl⟩ : ∃ d, ds = [d] := by
      match ds, h3 with
      | [d], _ => exact ⟨d, rfl⟩
    obtain ⟨c', hc', rfl⟩ := g5 hns' 0 output d rfl rfl
    unfold Shows
    rw [g2, contentAt_unique hc hc']
    simp
  · obtain ⟨c', before, k1, k2⟩ := C92_decrypt_digest s digest hH output plain params' v v' hns' hh' ha hd
    exact ⟨before, by rw [k2, contentAt_unique hc k1]⟩

/-! ### The hypotheses can be met -/

/-- Encrypt with a typed password and show the digest. -/
def exTelling : CryptoParams := { exParams with hashMode := .calculateHash, key := .user, header := some ['a', '/', 'x'], erase := .eraseFile 1 }

def exTellingRun : Res Error Unit × World := exEncrypt ['z'] ['a', '/', 'b', '/', 'y'] exTelling { exWorld ["what?\n", "y\n", "\n"] [] with tty := [[], [], [1], [2], [1], [1]] }

/-- Every kind of line: a question that is repeated, remarks on passwords, the question about the header file, and last the digest. -/
example : exTellingRun.1 = .ok () ∧ exTellingRun.2.out.length = 7 ∧ exTellingRun.2.out.tail.map (·.text) =
    ["[?] a/x already exists, would you like to overwrite? (Y/n): ".toList,
      "[-] The passwords aren't the same, please try again.".toList, "[-] Password cannot be empty, please try again.".toList,
      "[?] a/b/y already exists, would you like to overwrite? (Y/n): ".toList, "[-] Unrecognised answer - please try again".toList, "[?] a/b/y already exists, would you like to overwrite? (Y/n): ".toList] :=
  ⟨by decide +kernel, by decide +kernel, by decide +kernel⟩

/-- The hypotheses of the theorems about the digest, with and without erasing the input. -/
example : exSys.C.Lawful ∧ Computes exSys.H (fun c => toString c) ∧ (∀ k, Io.short k ∉ (exWorld [] []).sched) ∧ Separate exSys.cwd ['z'] ['o'] exErasing.header (exWorld [] []) ∧
    (exEncrypt ['z'] ['o'] { exErasing with hashMode := .calculateHash } (exWorld [] [])).1 = .ok () ∧
    (exEncrypt ['z'] ['o'] { exErasing with hashMode := .calculateHash } (exWorld [] [])).2.out.length = 1 ∧
    (exEncrypt ['z'] ['o'] { exParams with hashMode := .calculateHash } (exWorld [] [])).1 = .ok () :=
  ⟨Example.toy_lawful _ (by decide), exHasher_computes, by simp [exWorld, disk], exSeparate [] [], by decide +kernel, by decide +kernel, by decide +kernel⟩

/-- Encrypt and show the digest, then decrypt what came out and show the digest again: two lines, and without `--hash` none. -/
def exAgain (mode : HashMode) : Res Error Unit × World :=
  exDecrypt ['o'] ['p'] { exParams with hashMode := mode } (exEncrypt ['z'] ['o'] { exParams with hashMode := mode } (exWorld [] [])).2

example : (exAgain .calculateHash).1 = .ok () ∧ (exAgain .calculateHash).2.out.length = 2 ∧ (exAgain .noHash).1 = .ok () ∧ (exAgain .noHash).2.out.length = 0 :=
  ⟨by decide +kernel, by decide +kernel, by decide +kernel, by decide +kernel⟩

/-- Pack, show the digest, then ask about the directory. -/
def exTellingPack (lines : List String) : Res Error Unit × World :=
  packMode exPackSys [['a']] ['o'] { eraseSource := true } { exParams with hashMode := .calculateHash } .aes256Gcm (exWorld lines [])

example : (exTellingPack ["y\n"]).1 = .ok () ∧ (exTellingPack ["y\n"]).2.out.length = 2 ∧ (exTellingPack ["y\n"]).2.out.head?.map (·.text) = some eraseQuestion ∧
    (exTellingPack ["\n"]).1 = .abort (.exit 0) ∧ (exTellingPack ["\n"]).2.out.length = 2 :=
  ⟨by decide +kernel, by decide +kernel, by decide +kernel, by decide +kernel, by decide +kernel⟩

/-- A write that fails: no digest. -/
example : (exEncrypt ['z'] ['o'] { exParams with hashMode := .calculateHash } (exWorld [] [.full, .full, .fail])).1.isOk = false ∧
    (exEncrypt ['z'] ['o'] { exParams with hashMode := .calculateHash } (exWorld [] [.full, .full, .fail])).2.out.length = 0 := ⟨by decide +kernel, by decide +kernel⟩

end Volaris.Props
