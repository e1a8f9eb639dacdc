import Verif.Proofs.DecryptCmd
import Verif.Proofs.Args
import Verif.Spec.Disk
import Verif.Spec.Toy
import Verif.Spec.ZipToy
import Verif.Props.Tools
import Verif.Props.RoundTrip
/-!
# Properties of the command line tool
-/
namespace Volaris.Props
open Spec Example Cli
variable {σ : Type}

/-! ### Concrete runs -/

/-- The toy primitives, the working directory is the root. -/
def exSys : Sys Bytes :=
  { C := Example.toy, H := exHasher, z := toyZip, words := [['a', 'b'], ['c', 'd']], cwd := [], tmp := ⟨true, [], [.name ['a']]⟩, order := [] }

/-- The small disk with a key in the environment; the user's lines are `lines`. -/
def exWorld (lines : List String) (sched : List Io) : World := { disk sched with env := some [112, 119], stdin := lines }

/-- Encrypt with the key in the environment; ask before overwriting; the input is kept. -/
def exParams : CryptoParams :=
  { hashMode := .noHash, force := .prompt, erase := .ignoreFile, key := .env, header := none, hashingAlgorithm := .argon2id 3 }

/-- The same, and the input is erased. -/
def exErasing : CryptoParams := { exParams with erase := .eraseFile 1 }

def exEncrypt (input output : List Char) (params : CryptoParams) (w : World) : Res Cli.Error Unit × World := encryptMode exSys input output params .aes256Gcm w

def exDecrypt (input output : List Char) (params : CryptoParams) (w : World) : Res Cli.Error Unit × World := decryptMode exSys input output params w

/-! ### C46 -/

/-- **C46, the question.** Under every schedule of faults and for whatever the user types: asking consumes lines, prints, and does nothing else, and never ends in a panic; what it returns is
the user's first answer.  Without faults the first answer is returned if there is one, the question having been printed before each line that was read; otherwise there is an error. -/
theorem C46_answer (prompt : List Char) (default : Bool) (w : World) (question : List Char) (hq : question = "[?] ".toList ++ prompt ++ (if default then " (Y/n): " else " (y/N): ").toList) :
    OnlyAnswered w (getAnswer prompt default .prompt w).2 ∧ (∀ a, (getAnswer prompt default .prompt w).1 ≠ .abort a) ∧
    (∀ b, (getAnswer prompt default .prompt w).1 = .ok b → FirstAnswer default w.stdin b (getAnswer prompt default .prompt w).2.stdin ∧
      (getAnswer prompt default .prompt w).2.out = (answered w question (getAnswer prompt default .prompt w).2.stdin).out) ∧
    (w.sched = [] → ∀ b rest, FirstAnswer default w.stdin b rest → getAnswer prompt default .prompt w = (.ok b, answered w question rest)) ∧
    (w.sched = [] → (∀ b rest, ¬ FirstAnswer default w.stdin b rest) → (getAnswer prompt default .prompt w).1 = .err .noFirstChar) := by
  have hq : question = questionText prompt default := by rw [hq]; cases default <;> rfl
  subst hq
  rcases getAnswer_cases prompt default w with ⟨b, rest, s, h1, h2, h3, h4⟩ | ⟨e, rest, s, o, h1, h2, h3, h4⟩
  · rw [h3]
    refine ⟨⟨rfl, h1, h2, List.suffix_append _ _⟩, by simp, fun b' hb => by cases hb; exact ⟨h4, rfl⟩, fun hs b' rest' hf => ?_, fun _ hn => absurd h4 (hn b rest)⟩
    obtain ⟨rfl, rfl⟩ := firstAnswer_unique h4 hf
    rw [hs] at h2
    rw [List.suffix_nil.1 h2, ← hs]
    rfl
  · rw [h3]
    refine ⟨⟨rfl, h1, h2, List.suffix_append _ _⟩, by simp, fun b' hb => (by cases hb), fun hs b' rest' hf => absurd ⟨b', rest', hf⟩ (h4 hs).2, fun hs _ => by rw [(h4 hs).1]⟩

example : FirstAnswer true ["what?\n", "No\n", "y\n"] false ["y\n"] :=
  ⟨["what?\n"], "No\n", rfl, by rintro s hs; rw [List.mem_singleton] at hs; subst hs; exact ⟨'w', ['h', 'a', 't', '?', '\n'], by decide, by decide⟩,
    .inr (.inl ⟨⟨'N', ['o', '\n'], by decide, .inr rfl⟩, rfl⟩)⟩

/-- **C46, the check.** Yes without asking exactly if nothing is at the path or the flag is set; otherwise the user's answer. -/
theorem C46_overwrite_check (cwd : Path) (name : List Char) (force : ForceMode) (w : World) :
    (¬ Occupied w (toPath cwd name) ∨ force = .forced → overwriteCheck cwd name force w = (.ok true, w)) ∧
    (Occupied w (toPath cwd name) → force = .prompt → overwriteCheck cwd name force w = getAnswer (name ++ " already exists, would you like to overwrite?".toList) true .prompt w) := by
  refine ⟨fun h => ?_, fun ho hf => ?_⟩
  · by_cases ho : Occupied w (toPath cwd name)
    · rcases h with h | rfl
      · exact absurd ho h
      · rw [overwriteCheck_occupied .forced ho]; rfl
    · exact overwriteCheck_free force ho
  · rw [overwriteCheck_occupied force ho, hf]; rfl

/-- **C46, encrypting.** Under every schedule of faults and however the command ends: a new file comes into being only at the output or header path; the content of an existing file changes only if
it is at the output or header path and the user consented to overwriting it, or if it is the input and is to be erased; nothing else disappears. -/
theorem C46_encrypt (s : Sys σ) (input output : List Char) (params : CryptoParams) (a : Algorithm) (w w' : World) (r : Res Cli.Error Unit)
    (he : encryptMode s input output params a w = (r, w')) :
    Changes (Targets s.cwd output params w) (fun q i => params.erase ≠ .ignoreFile ∧ LeadsToFile w (toPath s.cwd input) q i) w w' := by
  rcases encryptMode_cases s input output params a w he with ⟨h, _⟩ | ⟨u, q, i, secret, ht, hq, _, _, h⟩
  · exact h.changes
  · exact h.changes ht hq.look fun hm => ⟨hm, hq⟩

/-- **C46, decrypting.** The same; only the output path can be written to. -/
theorem C46_decrypt (s : Sys σ) (input output : List Char) (params : CryptoParams) (w w' : World) (r : Res Cli.Error Unit)
    (he : decryptMode s input output params w = (r, w')) :
    Changes (OutputPlace s.cwd params.force output w) (fun q i => params.erase ≠ .ignoreFile ∧ LeadsToFile w (toPath s.cwd input) q i) w w' := by
  rcases decryptMode_cases s input output params w he with ⟨h, _⟩ | ⟨u, q, i, secret, ht, hq, _, _, h⟩
  · exact h.changes
  · exact h.changes ht hq.look fun hm => ⟨hm, hq⟩

theorem consent_declined {cwd : Path} {name : List Char} {w : World} {rest : List String} (ho : Occupied w (toPath cwd name)) (hs : w.sched = []) (hn : FirstAnswer true w.stdin false rest) :
    consent cwd name .prompt w = (.abort (.exit 0), answered w (overwriteQuestion name) rest) := by
  have h := (C46_answer (overwritePrompt name) true w _ rfl).2.2.2.1 hs false rest hn
  rw [show "[?] ".toList ++ overwritePrompt name ++ (if true then " (Y/n): " else " (y/N): ").toList = overwriteQuestion name from overwriteQuestion_eq name] at h
  unfold consent
  rw [Prog.bind_ok (by rw [overwriteCheck_occupied .prompt ho]; exact h)]
  rfl

/-- **C46, declining.** If the output exists and the user's first answer is no, encrypting and decrypting end at once, the question having been printed, and nothing is changed. -/
theorem C46_declined (s : Sys σ) (input output : List Char) (params : CryptoParams) (a : Algorithm) (w : World) (rest : List String) (hne : input ≠ output)
    (hf : params.force = .prompt) (ho : Occupied w (toPath s.cwd output)) (hs : w.sched = []) (hn : FirstAnswer true w.stdin false rest) :
    encryptMode s input output params a w = (.abort (.exit 0), answered w (overwriteQuestion output) rest) ∧
    decryptMode s input output params w = (.abort (.exit 0), answered w (overwriteQuestion output) rest) := by
  have h := consent_declined ho hs hn
  unfold encryptMode decryptMode
  rw [if_neg hne, if_neg hne, hf]
  exact ⟨Prog.bind_abort h, Prog.bind_abort h⟩

/-- The file `z` is to be overwritten, and the user says no. -/
example : (['a', '/', 'x'] : List Char) ≠ ['z'] ∧ exParams.force = .prompt ∧ Occupied (exWorld ["n\n"] []) (toPath exSys.cwd ['z']) ∧ (exWorld ["n\n"] []).sched = [] ∧
    FirstAnswer true (exWorld ["n\n"] []).stdin false [] :=
  ⟨by decide, rfl, ⟨[['z']], .file 2, rfl, rfl⟩, rfl, [], "n\n", rfl, by simp, .inr (.inl ⟨⟨'n', ['\n'], by decide, .inl rfl⟩, rfl⟩)⟩

/-- The file `z` is to be overwritten, and the user says yes: it is. -/
example : ∃ w', exEncrypt ['a', '/', 'x'] ['z'] exParams (exWorld ["y\n"] []) = (.ok (), w') ∧ Targets exSys.cwd ['z'] exParams (exWorld ["y\n"] []) [['z']] ∧
    w'.file 2 ≠ [1, 2, 3] ∧ w'.file 0 = [1, 2, 3] := by
  refine ⟨(exEncrypt ['a', '/', 'x'] ['z'] exParams (exWorld ["y\n"] [])).2, run_of_fst (by decide +kernel), ?_, by decide +kernel, by decide +kernel⟩
  exact .inl ⟨.inr (.inr ⟨["y\n"], [], List.suffix_refl _, [], "y\n", rfl, by simp, .inl ⟨⟨'y', ['\n'], by decide, .inl rfl⟩, rfl⟩⟩), rfl⟩

/-! ### C47 -/

/-- **C47, the secret.** Whatever the source: a secret that is returned is not empty and is the one that the source supplies; in particular a new password is the first one typed twice in
a row. -/
theorem C47_secret (words : List (List Char)) (cwd : Path) (key : Key) (state : PasswordState) (w w' : World) (x : Bytes)
    (h : getSecret words cwd key state w = (.ok x, w')) : x ≠ [] ∧ Supplies words cwd state key w x :=
  getSecret_ok h

/-- **C47, the confirmed password is accepted.** Without faults, the first pair of equal non-empty entries is what a new password is set to; without one there is an error. -/
theorem C47_confirmed (words : List (List Char)) (cwd : Path) (w : World) (hs : w.sched = []) :
    (∀ x rest, FirstConfirmed w.tty x rest → ∃ w', getSecret words cwd .user .validate w = (.ok x, w')) ∧
    ((∀ x rest, ¬ FirstConfirmed w.tty x rest) → ∃ e w', getSecret words cwd .user .validate w = (.err e, w')) := by
  rcases confirmLoop_cases w.tty w rfl with ⟨x, rest, s, o, h1, h2, h3, h4⟩ | ⟨rest, s, o, h1, h2, h3, h4⟩
  · have hne : x ≠ [] := by
      clear h1 h2 h3
      generalize w.tty = l at h4
      induction h4 with
      | here h => exact h
      | later _ _ ih => exact ih
    have hrun : getSecret words cwd .user .validate w = (.ok x, { w with tty := rest, sched := s, out := o }) := by
      unfold getSecret
      have : fetch words cwd .validate .user w = (.ok x, { w with tty := rest, sched := s, out := o }) := h3
      rw [Prog.bind_ok this, if_neg hne]; rfl
    refine ⟨fun y rest' hy => ?_, fun hn => absurd h4 (hn x rest)⟩
    have : ∀ {l : List Bytes} {x y : Bytes} {r r' : List Bytes}, FirstConfirmed l x r → FirstConfirmed l y r' → x = y := by
      intro l x y r r' h
      induction h with
      | here h =>
        intro h'
        cases h' with
        | here _ => rfl
        | later hd _ => rcases hd with hd | hd
                        · exact absurd rfl hd
                        · exact absurd hd h
      | later hd _ ih =>
        intro h'
        cases h' with
        | here h => rcases hd with hd | hd
                    · exact absurd rfl hd
                    · exact absurd hd h
        | later _ hm => exact ih hm
    have := this h4 hy
    subst this
    exact ⟨_, hrun⟩
  · refine ⟨fun x rest' hx => absurd ⟨x, rest', hx⟩ (h4 hs), fun _ => ⟨.readPassword, { w with tty := rest, sched := s, out := o }, ?_⟩⟩
    unfold getSecret
    exact Prog.bind_err h3

/-- The first two pairs differ or are empty, the third is taken. -/
example : FirstConfirmed [[1], [2], [], [], [5, 6], [5, 6], [9]] [5, 6] [[9]] := .later (.inl (by decide)) (.later (.inr rfl) (.here (by decide)))

theorem keyfile_default {args : List Arg} {m : Matches} (h : Accepted args m) (ha : args ∈ [encryptArgs, decryptArgs, packArgs, unpackArgs]) : m.default .keyfile = none := by
  unfold Matches.default
  rw [h.args]
  simp only [List.mem_cons, List.not_mem_nil, or_false] at ha
  rcases ha with rfl | rfl | rfl | rfl <;> rfl

/-- **C47, the source.** For every command line of encrypt, decrypt, pack and unpack: a key file is used if one is given, else the environment variable if it is set, else a generated
passphrase if the option has a value (given or by default), else the user is asked. -/
theorem C47_source {args : List Arg} (ha : args ∈ [encryptArgs, decryptArgs, packArgs, unpackArgs]) (m : Matches) (h : Accepted args m) (w : World) :
    ∃ key, Key.init m {} .keyfile w = (.ok key, w) ∧
      (∀ path, Gives m .keyfile path → key = .keyfile path) ∧
      (Omits m .keyfile → w.env ≠ none → key = .env) ∧
      (Omits m .keyfile → w.env = none → ∀ v, (Gives m .autogenerate v ∨ Omits m .autogenerate ∧ m.default .autogenerate = some v) → key = .generate ((parseI32 v).getD 7)) ∧
      (Omits m .keyfile → w.env = none → Omits m .autogenerate → m.default .autogenerate = none → key = .user) := by
  obtain ⟨key, hk, hs⟩ := init_run h (keyfile_default h ha) w
  exact ⟨key, hk, hs.keyfile, hs.env, hs.auto, hs.user⟩

/-- `encrypt a/x z -k k`, where `k` is the key file. -/
def exEncryptLine : Matches := { args := encryptArgs, given := [(.input, [['a', '/', 'x']]), (.output, [['o']]), (.keyfile, [['z']])] }

example : Accepted encryptArgs exEncryptLine ∧ Gives exEncryptLine .keyfile ['z'] := ⟨⟨rfl, by decide, rfl⟩, [], rfl⟩

/-! ### C48 -/

theorem leads_unique {w : World} {p : PathBuf} {q q' : Path} {i i' : Nat} (h : LeadsToFile w p q i) (h' : LeadsToFile w p q' i') : q = q' ∧ i = i' := by
  have h1 := h'.resolve
  rw [h.resolve] at h1; cases h1
  have h2 := h'.look
  rw [h.look] at h2; cases h2
  exact ⟨rfl, rfl⟩

/-- **C48.** Under every schedule of faults without short transfers, whatever the user types, and however the command ends: if input, output and header file are different files, then afterwards
the input is where it was with its content, or it was to be erased and the output (with the header file) decrypts to its content with the secret that the key source supplied.

Missing for the full property: paths that are spelled differently but lead to the same file (`C48_alias`), and short transfers. -/
theorem C48_encrypt_partial (s : Sys σ) (hC : s.C.Lawful) (input output : List Char) (params : CryptoParams) (a : Algorithm) (w w' : World) (r : Res Cli.Error Unit) (q : Path) (i : Nat)
    (hns : ∀ k, Io.short k ∉ w.sched) (hsep : Separate s.cwd input output params.header w) (hin : LeadsToFile w (toPath s.cwd input) q i)
    (he : encryptMode s input output params a w = (r, w')) :
    (LeadsToFile w' (toPath s.cwd input) q i ∧ w'.file i = w.file i) ∨
    (params.erase ≠ .ignoreFile ∧ ∃ secret, SuppliedTo s .validate params.key w secret ∧ Preserves s.C s.cwd output params.header secret (w.file i) q i w') := by
  have hkeep : ∀ v, Trail (Targets s.cwd output params w) w v → v.file i = w.file i := by
    intro v ht
    refine ht.kept (hsep.allocated q i hin.look) ?_
    rintro x (⟨_, hx⟩ | ⟨hd, hhd, _, hx⟩) hl
    · exact hsep.out.2 q x i hin ⟨hx, hl⟩
    · exact (hsep.hdr hd hhd).1.2 q x i hin ⟨hx, hl⟩
  rcases encryptMode_cases s input output params a w he with ⟨h, _⟩ | ⟨u, q', i', secret, ht, hq, hsup, hp, h⟩
  · exact .inl ⟨h.leads hin, hkeep _ h⟩
  · obtain ⟨rfl, rfl⟩ := leads_unique hin hq
    by_cases hm : params.erase = .ignoreFile
    · left
      rcases h with ⟨_, _, rfl⟩ | ⟨⟨n, hn⟩, _⟩ | ⟨n, _, hn, _⟩
      · exact ⟨ht.leads hin, hkeep _ ht⟩
      · rw [hm] at hn; cases hn
      · rw [hm] at hn; cases hn
    · exact .inr ⟨hm, secret, hsup, Cli.Preserves.erased (hp hC hns hsep) h⟩

/-- **C48, success.** If the command succeeds the output decrypts to what the input was, and the input is gone exactly if it was to be erased. -/
theorem C48_success (s : Sys σ) (hC : s.C.Lawful) (input output : List Char) (params : CryptoParams) (a : Algorithm) (w w' : World)
    (hns : ∀ k, Io.short k ∉ w.sched) (hsep : Separate s.cwd input output params.header w) (he : encryptMode s input output params a w = (.ok (), w')) :
    ∃ q i secret, LeadsToFile w (toPath s.cwd input) q i ∧ SuppliedTo s .validate params.key w secret ∧ Preserves s.C s.cwd output params.header secret (w.file i) q i w' ∧
      if params.erase = .ignoreFile then LeadsToFile w' (toPath s.cwd input) q i ∧ w'.file i = w.file i else w'.look q = none ∧ w'.file i = [] := by
  rcases encryptMode_cases s input output params a w he with ⟨_, h⟩ | ⟨u, q, i, secret, ht, hq, hsup, hp, h⟩
  · exact absurd rfl h
  · refine ⟨q, i, secret, hq, hsup, Cli.Preserves.erased (hp hC hns hsep) h, ?_⟩
    rcases h with ⟨hm, _, rfl⟩ | ⟨_, h, _⟩ | ⟨n, u', hn, _, _, ⟨_, h1, h2⟩ | ⟨h, _⟩⟩
    · rw [if_pos hm]
      have := C48_encrypt_partial s hC input output params a w w' _ q i hns hsep hq he
      rcases this with h | ⟨h, _⟩
      · exact h
      · exact absurd hm h
    · exact absurd rfl h
    · rw [if_neg (by rw [hn]; simp)]
      exact ⟨h1, h2⟩
    · exact absurd rfl h

theorem allocated_of {w : World} (h : ∀ k i, (k, Node.file i) ∈ w.dir → i < w.nextIno) : Allocated w := by
  intro q i hl
  unfold World.look at hl
  split at hl
  · cases hl
  · rw [Option.map_eq_some_iff] at hl
    obtain ⟨⟨k, n⟩, h1, h2⟩ := hl
    have hm := List.mem_of_find?_eq_some h1
    cases h2
    exact h k i hm

theorem apart_of {w : World} {p p' : PathBuf} {q q' : Path} {i : Nat} (h : LeadsToFile w p q i) (hr : w.resolve p' = .ok q') (hne : q ≠ q') (hl : w.look q' ≠ some (.file i)) : Apart w p p' := by
  refine ⟨fun x hx hx' => ?_, fun x x' k hx hx' => ?_⟩
  · rw [h.resolve] at hx; cases hx
    rw [hr] at hx'; cases hx'
    exact hne rfl
  · obtain ⟨rfl, rfl⟩ := leads_unique h hx
    have := hx'.resolve
    rw [hr] at this; cases this
    exact hl hx'.look

theorem exSeparate (lines : List String) (sched : List Io) : Separate exSys.cwd ['z'] ['o'] none (exWorld lines sched) := by
  refine ⟨allocated_of ?_, apart_of (q := [['z']]) (q' := [['o']]) (i := 2) ⟨rfl, rfl⟩ rfl (by decide) (by simp [show (exWorld lines sched).look [['o']] = none from rfl]), fun hd h => by cases h⟩
  intro k i h
  have h : (k, Node.file i) ∈ ([([['a'], ['b'], ['y']], .file 1), ([['a'], ['b']], .dir), ([['a'], ['x']], .file 0), ([['a']], .dir), ([['z']], .file 2)] : List (Path × Node)) := h
  show i < 1000
  simp only [List.mem_cons, Prod.mk.injEq, List.not_mem_nil, or_false, Node.file.injEq, reduceCtorEq, and_false, false_or] at h
  omega

/-- The hypotheses are met, the command succeeds, and the input is gone. -/
example : exSys.C.Lawful ∧ (∀ k, Io.short k ∉ (exWorld [] []).sched) ∧ Separate exSys.cwd ['z'] ['o'] exErasing.header (exWorld [] []) ∧
    LeadsToFile (exWorld [] []) (toPath exSys.cwd ['z']) [['z']] 2 ∧ (exWorld [] []).file 2 = [1, 2, 3] ∧
    exEncrypt ['z'] ['o'] exErasing (exWorld [] []) = (.ok (), (exEncrypt ['z'] ['o'] exErasing (exWorld [] [])).2) ∧
    (exEncrypt ['z'] ['o'] exErasing (exWorld [] [])).2.look [['z']] = none :=
  ⟨Example.toy_lawful _ (by decide), by simp [exWorld, disk], exSeparate [] [], ⟨rfl, rfl⟩, rfl, run_of_fst (by decide +kernel), by decide +kernel⟩

/-- A fault while the output is written: the command fails. -/
example : exEncrypt ['z'] ['o'] exErasing (exWorld [] [.full, .full, .full, .full, .fail]) ≠ (.ok (), (exEncrypt ['z'] ['o'] exErasing (exWorld [] [.full, .full, .full, .full, .fail])).2) := by
  intro h
  have := congrArg Prod.fst h
  revert this
  decide +kernel

def exAlias : Res Cli.Error Unit × World := exEncrypt ['z'] ['.', '/', 'z'] exErasing (exWorld ["y\n"] [])

/-- **C48, negation.** What the full property demands is false of the program: the paths `z` and `./z` are different strings, so the command goes ahead; the output is emptied before the input is
read, and then the input is erased.  The command succeeds, and what was in the file is neither there nor in the output. -/
theorem C48_alias : ∃ (input output : List Char) (params : CryptoParams) (w w' : World) (q : Path) (i : Nat), input ≠ output ∧ w.sched = [] ∧
    LeadsToFile w (toPath exSys.cwd input) q i ∧ w.file i = [1, 2, 3] ∧ encryptMode exSys input output params .aes256Gcm w = (.ok (), w') ∧
    ¬ (LeadsToFile w' (toPath exSys.cwd input) q i ∧ w'.file i = w.file i) ∧
    ∀ secret, ¬ Preserves exSys.C exSys.cwd output params.header secret (w.file i) q i w' := by
  have hlook : exAlias.2.look [['z']] = none := by decide +kernel
  have hres : exAlias.2.resolve (toPath exSys.cwd ['.', '/', 'z']) = .ok [['z']] := eq_ok_of (by decide +kernel)
  refine ⟨['z'], ['.', '/', 'z'], exErasing, exWorld ["y\n"] [], exAlias.2, [['z']], 2, by decide, rfl, ⟨rfl, rfl⟩, rfl, run_of_fst (x := exAlias) (by decide +kernel), ?_, ?_⟩
  · rintro ⟨h, _⟩
    have := h.look
    rw [hlook] at this; cases this
  · rintro secret ⟨qo, j, h, _⟩
    have h1 := h.resolve
    rw [hres] at h1; cases h1
    have h2 := h.look
    rw [hlook] at h2; cases h2

/-- The input is read short: one byte. -/
def exShort : List Io := [.full, .full, .full, .full, .full, .short 1]

def exShortRun : Res Cli.Error Unit × World := exEncrypt ['z'] ['o'] exErasing (exWorld [] exShort)

/-- A file of the given content is decrypted. -/
def decryptAlone (C : Crypto) (key content : Bytes) : Res Decrypt.Error Unit × World :=
  Decrypt.execute C { reader := 0, headerReader := none, writer := 1, rawKey := key } (Example.world fun i => if i = 0 then content else [])

theorem decryptAlone_of {C : Crypto} {key content plain : Bytes} (h : DecryptsTo C key content plain) : (decryptAlone C key content).2.file 1 = plain := by
  obtain ⟨v', h1, h2, _⟩ := h { reader := 0, headerReader := none, writer := 1, rawKey := key } (Example.world fun i => if i = 0 then content else [])
    ⟨rfl, rfl, Nat.zero_ne_one, Nat.zero_ne_one, rfl⟩ rfl
  have h3 := h2.content
  unfold decryptAlone
  rw [h1]
  exact h3.trans (show writeAt [] 0 plain = plain by rw [writeAt_zero]; simp)

/-- The output of that run is decrypted. -/
def exShortBack : Res Decrypt.Error Unit × World :=
  decryptAlone Example.toy [112, 119] (exShortRun.2.file 1000)

theorem onlyAnswered_env {w u : World} (h : OnlyAnswered w u) : u.env = w.env := by rw [h.1]

/-- **C48, short transfers.** Even when input and output are different files, a read that returns less than was asked for makes the command take the rest of the file for read; it succeeds, erases the
input, and the output does not decrypt to what the input was. -/
theorem C48_short : ∃ (input output : List Char) (params : CryptoParams) (w w' : World) (q : Path) (i : Nat), Separate exSys.cwd input output params.header w ∧ exSys.C.Lawful ∧
    LeadsToFile w (toPath exSys.cwd input) q i ∧ w.file i = [1, 2, 3] ∧ encryptMode exSys input output params .aes256Gcm w = (.ok (), w') ∧
    ¬ (LeadsToFile w' (toPath exSys.cwd input) q i ∧ w'.file i = w.file i) ∧
    ∀ secret, SuppliedTo exSys .validate params.key w secret → ¬ Preserves exSys.C exSys.cwd output params.header secret (w.file i) q i w' := by
  refine ⟨['z'], ['o'], exErasing, exWorld [] exShort, exShortRun.2, [['z']], 2, exSeparate [] exShort, Example.toy_lawful _ (by decide), ⟨rfl, rfl⟩, rfl,
    run_of_fst (x := exShortRun) (by decide +kernel), ?_, ?_⟩
  · rintro ⟨_, h⟩
    have h2 : exShortRun.2.file 2 = [] := by decide +kernel
    rw [h2] at h
    exact absurd h (by decide)
  · rintro secret ⟨_, u, hu, hsup⟩ ⟨qo, j, hl, _, _, hd⟩
    have hsec : secret = [112, 119] := by
      have h1 : u.env = some secret := hsup
      rw [onlyAnswered_env hu] at h1
      exact (Option.some.inj h1).symm
    subst hsec
    have hj : j = 1000 := by
      have h1 := hl.resolve
      rw [show exShortRun.2.resolve (toPath exSys.cwd ['o']) = .ok [['o']] from eq_ok_of (by decide +kernel)] at h1
      cases h1
      have h2 := hl.look
      rw [show exShortRun.2.look [['o']] = some (.file 1000) by decide +kernel] at h2
      cases h2; rfl
    subst hj
    change DecryptsTo Example.toy [112, 119] (exShortRun.2.file 1000) [1, 2, 3] at hd
    have h6 := decryptAlone_of hd
    have h5 : exShortBack.2.file 1 = [1] := by decide +kernel
    unfold exShortBack at h5
    rw [h5] at h6
    exact absurd h6 (by decide)

/-! ### C49 -/

theorem erase_default {args : List Arg} {m : Matches} (h : Accepted args m) (ha : args ∈ [encryptArgs, decryptArgs, unpackArgs]) : m.default .erase = some ['1'] := by
  unfold Matches.default
  rw [h.args]
  simp only [List.mem_cons, List.not_mem_nil, or_false] at ha
  rcases ha with rfl | rfl | rfl <;> rfl

/-- **C49, negation.** For every command line of encrypt and decrypt (and unpack) that the parser accepts, with or without `--erase`: the input is to be erased. -/
theorem C49_always_erases {args : List Arg} (ha : args ∈ [encryptArgs, decryptArgs, unpackArgs]) (m : Matches) (h : Accepted args m) (w : World) :
    ∃ params n, parameterHandler m w = (.ok params, w) ∧ params.erase = .eraseFile n ∧ (Omits m .erase → n = 1) := by
  obtain ⟨params, hp, _, he, _⟩ := parameterHandler_run h (keyfile_default h (by
    simp only [List.mem_cons, List.not_mem_nil, or_false] at ha ⊢
    rcases ha with h | h | h <;> simp [h])) w
  have hd := erase_default h ha
  cases hx : m.explicit .erase with
  | none =>
    refine ⟨params, 1, hp, ?_, fun _ => rfl⟩
    rw [he.some ['1'] (.inr ⟨hx, hd⟩)]
    rfl
  | some vs =>
    have hne := (explicit_nonempty h.accepted hx).1
    cases vs with
    | nil => exact absurd rfl hne
    | cons v vs =>
      refine ⟨params, (parseI32 v).getD 1, hp, he.some v (.inl ⟨vs, hx⟩), fun ho => ?_⟩
      rw [ho] at hx; cases hx

theorem required_value {args : List Arg} {m : Matches} (h : Accepted args m) {a : Arg} (hm : a ∈ args) (hr : a.required = true) (w : World) :
    ∃ v, Gives m a.id v ∧ getParam m a.id w = (.ok v, w) := by
  obtain ⟨v, hv⟩ := required_given h.accepted (h.args ▸ hm) hr
  refine ⟨v, hv, ?_⟩
  rw [getParam_release h.release]
  rcases value_cases h a.id with ⟨v', ⟨vs', e'⟩, h1, _⟩ | ⟨ho, _⟩
  · obtain ⟨vs, e⟩ := hv
    rw [e] at e'; cases e'
    rw [h1]
  · obtain ⟨vs, e⟩ := hv
    rw [ho] at e; cases e

/-- **C49, the consequence.** Whenever the encrypt command succeeds, on whatever accepted command line, the input file is emptied and its name is gone. -/
theorem C49_encrypt_erases (s : Sys σ) (m : Matches) (h : Accepted encryptArgs m) (w w' : World) (he : Cli.encrypt s m w = (.ok (), w')) :
    ∃ input q i, Gives m .input input ∧ LeadsToFile w (toPath s.cwd input) q i ∧ w'.look q = none ∧ w'.file i = [] := by
  obtain ⟨params, n, hp, hn, _⟩ := C49_always_erases (by simp) m h w
  obtain ⟨input, hi, hi'⟩ := required_value h (a := { id := .input, required := true }) (by simp [encryptArgs]) rfl w
  obtain ⟨output, ho, ho'⟩ := required_value h (a := { id := .output, required := true }) (by simp [encryptArgs]) rfl w
  unfold Cli.encrypt at he
  rw [Prog.bind_ok hp, Prog.bind_ok (algorithm_run h.release w), Prog.bind_ok hi', Prog.bind_ok ho'] at he
  rcases encryptMode_cases s input output params _ w he with ⟨_, h⟩ | ⟨u, q, i, secret, ht, hq, hsup, hp, h⟩
  · exact absurd rfl h
  · refine ⟨input, q, i, hi, hq, ?_⟩
    rcases h with ⟨hm, _⟩ | ⟨_, h, _⟩ | ⟨n, u', hn, _, _, ⟨_, h1, h2⟩ | ⟨h, _⟩⟩
    · rw [hn] at hm; cases hm
    · exact absurd rfl h
    · exact ⟨h1, h2⟩
    · exact absurd rfl h

theorem C49_decrypt_erases (s : Sys σ) (m : Matches) (h : Accepted decryptArgs m) (w w' : World) (he : Cli.decrypt s m w = (.ok (), w')) :
    ∃ input q i, Gives m .input input ∧ LeadsToFile w (toPath s.cwd input) q i ∧ w'.look q = none ∧ w'.file i = [] := by
  obtain ⟨params, n, hp, hn, _⟩ := C49_always_erases (by simp) m h w
  obtain ⟨input, hi, hi'⟩ := required_value h (a := { id := .input, required := true }) (by simp [decryptArgs]) rfl w
  obtain ⟨output, ho, ho'⟩ := required_value h (a := { id := .output, required := true }) (by simp [decryptArgs]) rfl w
  unfold Cli.decrypt at he
  rw [Prog.bind_ok hp, Prog.bind_ok hi', Prog.bind_ok ho'] at he
  rcases decryptMode_cases s input output params w he with ⟨_, h⟩ | ⟨u, q, i, secret, ht, hq, hsup, hp, h⟩
  · exact absurd rfl h
  · refine ⟨input, q, i, hi, hq, ?_⟩
    rcases h with ⟨hm, _⟩ | ⟨_, h, _⟩ | ⟨n, u', hn, _, _, ⟨_, h1, h2⟩ | ⟨h, _⟩⟩
    · rw [hn] at hm; cases hm
    · exact absurd rfl h
    · exact ⟨h1, h2⟩
    · exact absurd rfl h

/-- `encrypt z o`, with the key in the environment. -/
def exPlainLine : Matches := { args := encryptArgs, given := [(.input, [['z']]), (.output, [['o']])] }

def exPlainRun : Res Cli.Error Unit × World := Cli.encrypt exSys exPlainLine (exWorld [] [])

/-- Nobody asked for it, but the input is erased. -/
example : Accepted encryptArgs exPlainLine ∧ Omits exPlainLine .erase ∧ exPlainRun = (.ok (), exPlainRun.2) ∧ exPlainRun.2.look [['z']] = none :=
  ⟨⟨rfl, by decide, rfl⟩, rfl, run_of_fst (by decide +kernel), by decide +kernel⟩

/-- **C49.** What is left of the property: if erasing is not selected, encrypting and decrypting leave the input where it was.

Missing for the full property: erasing is never left unselected (`C49_always_erases`). -/
theorem C49_kept_partial (s : Sys σ) (input output : List Char) (params : CryptoParams) (a : Algorithm) (hm : params.erase = .ignoreFile) (w : World) (q : Path) (i : Nat)
    (hal : Allocated w) (hin : LeadsToFile w (toPath s.cwd input) q i) (hout : Apart w (toPath s.cwd input) (toPath s.cwd output))
    (hhd : ∀ hd, params.header = some hd → Apart w (toPath s.cwd input) (toPath s.cwd hd)) :
    (LeadsToFile (encryptMode s input output params a w).2 (toPath s.cwd input) q i ∧ (encryptMode s input output params a w).2.file i = w.file i) ∧
    (LeadsToFile (decryptMode s input output params w).2 (toPath s.cwd input) q i ∧ (decryptMode s input output params w).2.file i = w.file i) := by
  constructor
  · have key : Trail (Targets s.cwd output params w) w (encryptMode s input output params a w).2 := by
      rcases hrun : encryptMode s input output params a w with ⟨r, w'⟩
      rcases encryptMode_cases s input output params a w hrun with ⟨h, _⟩ | ⟨u, q', i', secret, ht, hq, hsup, hp, h⟩
      · exact h
      · rcases h with ⟨_, _, rfl⟩ | ⟨⟨n, hn⟩, _⟩ | ⟨n, _, hn, _⟩
        · exact ht
        · rw [hm] at hn; cases hn
        · rw [hm] at hn; cases hn
    refine ⟨key.leads hin, key.kept (hal q i hin.look) ?_⟩
    rintro x (⟨_, hx⟩ | ⟨hd, hhd', _, hx⟩) hl
    · exact hout.2 q x i hin ⟨hx, hl⟩
    · exact (hhd hd hhd').2 q x i hin ⟨hx, hl⟩
  · have key : Trail (OutputPlace s.cwd params.force output w) w (decryptMode s input output params w).2 := by
      rcases hrun : decryptMode s input output params w with ⟨r, w'⟩
      rcases decryptMode_cases s input output params w hrun with ⟨h, _⟩ | ⟨u, q', i', secret, ht, hq, hsup, hp, h⟩
      · exact h
      · rcases h with ⟨_, _, rfl⟩ | ⟨⟨n, hn⟩, _⟩ | ⟨n, _, hn, _⟩
        · exact ht
        · rw [hm] at hn; cases hn
        · rw [hm] at hn; cases hn
    refine ⟨key.leads hin, key.kept (hal q i hin.look) ?_⟩
    rintro x ⟨_, hx⟩ hl
    exact hout.2 q x i hin ⟨hx, hl⟩

/-! ### C50 -/

/-- **C50, negation.** For every command line of encrypt and pack that gives no key file, without the environment variable: the key is a generated passphrase, whether or not one was asked for; the
user is never asked for a password. -/
theorem C50_never_asks (m : Matches) (w : World) (ho : Omits m .keyfile) (he : w.env = none) :
    (Accepted encryptArgs m → ∃ params n, parameterHandler m w = (.ok params, w) ∧ params.key = .generate n ∧ (Omits m .autogenerate → n = 7)) ∧
    (Accepted packArgs m → ∃ params pp n, packParams m w = (.ok (params, pp), w) ∧ params.key = .generate n ∧ (Omits m .autogenerate → n = 7)) := by
  have key : ∀ {args : List Arg}, Accepted args m → m.default .autogenerate = some ['7'] → ∀ {k : Key}, Source m .keyfile w k → ∃ n, k = .generate n ∧ (Omits m .autogenerate → n = 7) := by
    intro args h hd k hs
    cases hx : m.explicit .autogenerate with
    | none => exact ⟨7, by rw [hs.auto ho he ['7'] (.inr ⟨hx, hd⟩)]; rfl, fun _ => rfl⟩
    | some vs =>
      have hne := (explicit_nonempty h.accepted hx).1
      cases vs with
      | nil => exact absurd rfl hne
      | cons v vs =>
        refine ⟨(parseI32 v).getD 7, hs.auto ho he v (.inl ⟨vs, hx⟩), fun ho => ?_⟩
        rw [ho] at hx; cases hx
  constructor
  · intro h
    obtain ⟨params, hp, hs, _⟩ := parameterHandler_run h (keyfile_default h (by simp)) w
    obtain ⟨n, h1, h2⟩ := key h (by unfold Matches.default; rw [h.args]; rfl) hs
    exact ⟨params, n, hp, h1, h2⟩
  · intro h
    obtain ⟨params, pp, hp, hs, _⟩ := packParams_run h (keyfile_default h (by simp)) w
    obtain ⟨n, h1, h2⟩ := key h (by unfold Matches.default; rw [h.args]; rfl) hs
    exact ⟨params, pp, n, hp, h1, h2⟩

example : Accepted encryptArgs exPlainLine ∧ Omits exPlainLine .keyfile ∧ Omits exPlainLine .autogenerate := ⟨⟨rfl, by decide, rfl⟩, rfl, rfl⟩

/-- **C50.** What is left of the property: decrypt and unpack ask the user exactly if there is neither a key file nor the environment variable.

Missing for the full property: encrypt and pack never ask (`C50_never_asks`). -/
theorem C50_asks_partial {args : List Arg} (ha : args ∈ [decryptArgs, unpackArgs]) (m : Matches) (h : Accepted args m) (w : World) :
    ∃ params, parameterHandler m w = (.ok params, w) ∧ (params.key = .user ↔ Omits m .keyfile ∧ w.env = none) := by
  obtain ⟨params, hp, hs, _⟩ := parameterHandler_run h (keyfile_default h (by
    simp only [List.mem_cons, List.not_mem_nil, or_false] at ha ⊢
    rcases ha with h | h <;> simp [h])) w
  refine ⟨params, hp, fun hk => ?_, fun ⟨ho, he⟩ => ?_⟩
  · have hom : Omits m .keyfile := by
      cases hx : m.explicit .keyfile with
      | none => exact hx
      | some vs =>
        have hne := (explicit_nonempty h.accepted hx).1
        cases vs with
        | nil => exact absurd rfl hne
        | cons v vs =>
          have := hs.keyfile v ⟨vs, hx⟩
          rw [hk] at this; cases this
    refine ⟨hom, ?_⟩
    by_cases he : w.env = none
    · exact he
    · have := hs.env hom he
      rw [hk] at this; cases this
  · have hno : m.defines .autogenerate = false := by
      unfold Matches.defines
      rw [h.args]
      simp only [List.mem_cons, List.not_mem_nil, or_false] at ha
      rcases ha with rfl | rfl <;> rfl
    refine hs.user ho he ?_ ?_
    · cases hx : m.explicit .autogenerate with
      | none => exact hx
      | some vs =>
        have := (explicit_nonempty h.accepted hx).2
        rw [hno] at this; cases this
    · unfold Matches.default
      rw [h.args]
      simp only [List.mem_cons, List.not_mem_nil, or_false] at ha
      rcases ha with rfl | rfl <;> rfl

example : Accepted decryptArgs { args := decryptArgs, given := [(.input, [['z']]), (.output, [['o']])] } := ⟨rfl, by decide, rfl⟩

/-! ### C59 -/

/-- **C59.** Under every schedule of faults without short transfers and however the command ends: if the output is another file than the input and the header file, then after the decrypt
command the input is where it was with its content, or it was to be erased and the output holds exactly its plaintext under the secret that the key source supplied. -/
theorem C59_decrypt (s : Sys σ) (hC : s.C.Lawful) (input output : List Char) (params : CryptoParams) (w w' : World) (r : Res Cli.Error Unit) (q : Path) (i : Nat)
    (hns : ∀ k, Io.short k ∉ w.sched) (hsep : OutputApart s.cwd input output params.header w) (hin : LeadsToFile w (toPath s.cwd input) q i)
    (he : decryptMode s input output params w = (r, w')) :
    (LeadsToFile w' (toPath s.cwd input) q i ∧ w'.file i = w.file i) ∨
    (params.erase ≠ .ignoreFile ∧ ∃ secret, SuppliedTo s .direct params.key w secret ∧ Restores s.C s.cwd output params.header secret (w.file i) q i w w') := by
  have hkeep : ∀ v, Trail (OutputPlace s.cwd params.force output w) w v → v.file i = w.file i := fun v ht => output_kept hsep.allocated ht hsep.inp hin
  rcases decryptMode_cases s input output params w he with ⟨h, _⟩ | ⟨u, q', i', secret, ht, hq, hsup, hp, h⟩
  · exact .inl ⟨h.leads hin, hkeep _ h⟩
  · obtain ⟨rfl, rfl⟩ := leads_unique hin hq
    by_cases hm : params.erase = .ignoreFile
    · left
      rcases h with ⟨_, _, rfl⟩ | ⟨⟨n, hn⟩, _⟩ | ⟨n, _, hn, _⟩
      · exact ⟨ht.leads hin, hkeep _ ht⟩
      · rw [hm] at hn; cases hn
      · rw [hm] at hn; cases hn
    · exact .inr ⟨hm, secret, hsup, Cli.Restores.erased (hp hC hns hsep) h⟩

/-- **C59, success.** If the command succeeds then the output holds the plaintext. -/
theorem C59_success (s : Sys σ) (hC : s.C.Lawful) (input output : List Char) (params : CryptoParams) (w w' : World)
    (hns : ∀ k, Io.short k ∉ w.sched) (hsep : OutputApart s.cwd input output params.header w) (he : decryptMode s input output params w = (.ok (), w')) :
    ∃ q i secret, LeadsToFile w (toPath s.cwd input) q i ∧ SuppliedTo s .direct params.key w secret ∧ Restores s.C s.cwd output params.header secret (w.file i) q i w w' := by
  rcases decryptMode_cases s input output params w he with ⟨_, h⟩ | ⟨u, q, i, secret, ht, hq, hsup, hp, h⟩
  · exact absurd rfl h
  · exact ⟨q, i, secret, hq, hsup, Cli.Restores.erased (hp hC hns hsep) h⟩

/-- What `encrypt z o` made is decrypted into `z2`. -/
def exBack : Res Cli.Error Unit × World := exDecrypt ['o'] ['z', '2'] exErasing (exEncrypt ['z'] ['o'] exErasing (exWorld [] [])).2

example : exBack = (.ok (), exBack.2) ∧ exBack.2.look [['o']] = none ∧ exBack.2.look [['z', '2']] = some (.file 1001) ∧ exBack.2.file 1001 = [1, 2, 3] :=
  ⟨run_of_fst (by decide +kernel), by decide +kernel, by decide +kernel, by decide +kernel⟩

/-- The output `o` is apart from the input `z`. -/
example : OutputApart exSys.cwd ['z'] ['o'] exErasing.header (exWorld [] []) := ⟨(exSeparate [] []).allocated, (exSeparate [] []).out, fun hd h => by cases h⟩

/-! ### C60 -/

/-- **C60.** For every command line the unpack command panics before it has done anything: `verbose` is asked for as a flag but takes a value. -/
theorem C60_unpack_panics (s : Sys σ) (m : Matches) (h : Accepted unpackArgs m) (w : World) : Cli.unpack s m w = (.abort .panic, w) := by
  obtain ⟨params, hp, _⟩ := parameterHandler_run h (keyfile_default h (by simp)) w
  unfold Cli.unpack
  rw [Prog.bind_ok hp]
  exact Prog.bind_abort rfl

example : Accepted unpackArgs { args := unpackArgs, given := [(.input, [['z']]), (.output, [['a']]), (.verbose, [['1']])] } := ⟨rfl, by decide, rfl⟩

end Volaris.Props
