import Verif.Proofs.UnpackCmd
import Verif.Props.CmdRoundTrip
import Verif.Props.RoundTrip
/-!
# C69: the unpack command
-/
namespace Volaris.Props
open Spec Cli Example
variable {σ : Type}

theorem dialogue_consent {force : ForceMode} {verbose : Bool} {w : World} {lines : List String} {conv : List (PathBuf × Bool)} {shown : List (List Char)} (h : Dialogue force verbose w lines conv shown) (hl : lines <:+ w.stdin) {p : PathBuf}
    (hp : (p, true) ∈ conv) (ho : Occupied w p) : Consent force w := by
  induction h with
  | nil => cases hp
  | free h _ hd ih =>
    rcases List.mem_cons.1 hp with e | hp
    · cases e; exact absurd ho h
    · exact ih hl hp
  | forced h _ hd ih => exact .inl h
  | @asked lines rest p' name b k conv shown h hf hk hn hd ih =>
    rcases List.mem_cons.1 hp with e | hp
    · cases e; exact .inr ⟨lines, rest, hl, h⟩
    · refine ih ?_ hp
      obtain ⟨sk, l, e, _⟩ := h
      exact (show rest <:+ lines from ⟨sk ++ [l], by rw [e]; simp⟩).trans hl

/-- In a tree, a path without `..` that leads on paper to something does lead there. -/
theorem occupied_of_onPaper {w : World} (ht : TreeOk w) {p : PathBuf} (hup : Comp.up ∉ p.comps) (hst : w.look p.start = some .dir) {n : Node} (h : w.look (onPaper p) = some n) : Occupied w p := by
  obtain ⟨ns, hns⟩ : ∃ ns : List Name, p.comps = ns.map .name := by
    have : ∀ cs : List Comp, Comp.up ∉ cs → ∃ ns : List Name, cs = ns.map .name := by
      intro cs
      induction cs with
      | nil => intro _; exact ⟨[], rfl⟩
      | cons c cs ih =>
        intro h
        obtain ⟨ns, e⟩ := ih (fun hm => h (List.mem_cons_of_mem _ hm))
        cases c with
        | up => exact absurd List.mem_cons_self h
        | name m => exact ⟨m :: ns, by rw [e]; rfl⟩
    exact this _ hup
  have hp : onPaper p = p.start ++ ns := by unfold onPaper; rw [hns, Unpack.lexical_names]
  rw [hp] at h
  refine ⟨p.start ++ ns, n, ?_, h⟩
  show w.walk p.start p.comps = _
  rw [hns]
  exact w.walk_names ns _ (ht.ancestors _ _ ns rfl (by rw [h]; rfl))

/-- What is on the screen at the end of the command. -/
theorem screen_end {s : Sys σ} {params : CryptoParams} {input : List Char} {r : Res Error Unit} {r1 : Res Unpack.Error Unit} {w v v' w' : World} {shown : List (List Char)} (h1 : v.out = w.out)
    (h2 : v'.out.map (·.text) = shown.reverse ++ v.out.map (·.text))
    (h3 : (r1 = .ok () ∧ hashIf s params.hashMode input v' = (r, w')) ∨ (r1 ≠ .ok () ∧ r ≠ .ok () ∧ w' = v')) : Screen params input r shown w w' := by
  rcases h3 with ⟨-, h⟩ | ⟨-, h, rfl⟩
  · obtain ⟨after, h4, h5⟩ := hashIf_prints s params.hashMode input v'
    rw [h] at h4 h5
    refine ⟨after, ?_, h5⟩
    rw [show w'.out.map (·.text) = _ from h4, h2, h1, List.reverse_append]
    rcases h5 with ⟨rfl, -⟩ | ⟨-, d, rfl⟩ <;> simp
  · exact ⟨[], by rw [h2, h1, List.append_nil], .inl ⟨rfl, fun e => absurd e h⟩⟩

/-! ### C69 -/

/-- **C69, the dialogue.** Under every schedule of faults, for every archive and every interleaving, the unpack command either fails and has at most made a new file in the directory for temporary files;
or, after a dialogue with the user about paths of members of an archive (`C69_members` says of which), in which a path was accepted without a question only if nothing was there or by force,
and of which exactly the questions and decisions (and at last the digest, if asked for) are on the screen, directories have come into being only on the way to the output directory and to accepted paths, and files have come into being or changed only at accepted paths, but for the temporary file. -/
theorem C69_dialogue (s : Sys σ) (input output : List Char) (verbose : Bool) (params : CryptoParams) (w w' : World) (r : Res Error Unit) (hst : w.look (toPath s.cwd output).start = some .dir)
    (he : unpackMode s input output verbose params w = (r, w')) :
    (r ≠ .ok () ∧ Extracts (fun _ => False) (fun q => TempPlace s.tmp q ∧ w.look q = none) w w') ∨
    ∃ lines ms conv shown, lines <:+ w.stdin ∧ Dialogue params.force verbose w lines conv shown ∧ ((∀ n, params.key ≠ .generate n) → Screen params input r shown w w') ∧ (conv.map (·.1)).Sublist (memberPaths (toPath s.cwd output) ms) ∧
      Extracts (DirsOf (toPath s.cwd output) conv) (fun q => FilesOf conv q ∨ (TempPlace s.tmp q ∧ w.look q = none)) w w' := by
  rcases unpackMode_cases s input output verbose params w he with ⟨h1, h2⟩ | ⟨v, v', r1, hi, hf, secret, q, i, hl, hq, -, -, -, -, -, hx, hend, hout⟩
  · exact .inl ⟨h1, Looked.extracts h2 (Nat.le_refl _)⟩
  · have hsv : v.look (toPath s.cwd output).start = some .dir := by rw [hl.look]; exact hst
    obtain ⟨r2, v2, hx2, hfr⟩ := Unpack.execute_frame s.C s.z s.tmp s.order
      { reader := hi, headerReader := optStream hf, rawKey := secret, outputDir := toPath s.cwd output, onZipFile := some (onZipFile params.force verbose) } (onZipFile_talks params.force verbose) v hsv
    rw [hx] at hx2
    obtain ⟨rfl, rfl⟩ := Prod.mk.inj hx2
    have hfin : ∀ {D F}, Extracts D F v v' → Extracts D F w w' := by
      intro D F h
      refine (Looked.extracts hl (Nat.le_refl _)).trans (h.trans ?_)
      rcases hend with ⟨-, hh⟩ | ⟨-, -, rfl⟩
      · have := (hashIf_looks s v'.nextFd params.hashMode input v' (Nat.le_refl _)).1
        rw [hh] at this
        exact Looked.extracts (show Looked v'.nextFd v' w' from this) (Nat.le_refl _)
      · exact .refl _
    have hplace : TempPlace s.tmp (onPaper (tempPath s.tmp v)) := tempPlace _ _
    rcases hfr with ⟨h0, h1, h2⟩ | ⟨_, _, ms, conv, _, _, _, hask, hsub, _, hfree, hex⟩
    · refine .inl ⟨?_, hfin ?_⟩
      · rcases hend with ⟨g, _⟩ | ⟨_, g, _⟩
        · exact absurd g h0
        · exact g
      · rcases h1 with h1 | h1
        · exact h2.mono (fun _ h => h) (by rintro x rfl; exact ⟨hplace, by rw [← hl.look]; exact h1⟩)
        · exact h1.mono (fun _ h => h) (fun _ h => h.elim)
    · obtain ⟨shown, hd, ht⟩ := asked_dialogue (w0 := w) hask (fun x n hx => by rw [hl.look]; exact hx)
      refine .inr ⟨v.stdin, ms, conv, shown, hl.stdin, hd, fun hk => screen_end (hout hk) ht hend, hsub, hfin (hex.mono (fun _ h => h.1) ?_)⟩
      rintro x (⟨h, -⟩ | rfl)
      · exact .inl h
      · exact .inr ⟨hplace, by rw [← hl.look]; exact hfree⟩

/-- **C69, inside.** Under every schedule of faults, for every archive, every interleaving and whatever the user answers: a path at which something has changed lies in the output directory, or is a directory on the way to it
that was missing, or a new file in the directory for temporary files; a file that has other content than before was in the output directory; and everything that was there still is. -/
theorem C69_inside (s : Sys σ) (input output : List Char) (verbose : Bool) (params : CryptoParams) (w w' : World) (r : Res Error Unit) (hst : w.look (toPath s.cwd output).start = some .dir)
    (he : unpackMode s input output verbose params w = (r, w')) :
    (∀ q, w'.look q ≠ w.look q → (TempPlace s.tmp q ∧ w.look q = none) ∨ onPaper (toPath s.cwd output) <+: q ∨
      (OnTheWay (toPath s.cwd output) q ∧ w.look q = none ∧ w'.look q = some .dir)) ∧
    (∀ j, j < w.nextIno → w'.file j ≠ w.file j → ∃ q, onPaper (toPath s.cwd output) <+: q ∧ w.look q = some (.file j)) ∧
    (∀ q n, w.look q = some n → w'.look q = some n) := by
  have keep : ∀ q n, w.look q = some n → w'.look q = some n := by
    rcases C69_dialogue s input output verbose params w w' r hst he with ⟨_, h⟩ | ⟨_, _, _, _, _, _, _, _, h⟩ <;> exact fun q n hq => h.keeps hq
  rcases unpackMode_cases s input output verbose params w he with ⟨h1, h2⟩ | ⟨v, v', r1, hi, hf, secret, q, i, hl, hq, -, -, -, -, -, hx, hend, hout⟩
  · exact ⟨fun q hq => absurd (h2.look q) hq, fun j _ hj => absurd (congrFun h2.file j) hj, keep⟩
  · obtain ⟨g1, g2, g3⟩ := C41_inside s.C s.z s.tmp s.order _ v v' r1 (onZipFile_talks params.force verbose) (by rw [hl.look]; exact hst) hx
    have hw : w'.file = v'.file ∧ ∀ q, w'.look q = v'.look q := by
      rcases hend with ⟨-, hh⟩ | ⟨-, -, rfl⟩
      · have := (hashIf_looks s v'.nextFd params.hashMode input v' (Nat.le_refl _)).1
        rw [hh] at this
        have this : Looked v'.nextFd v' w' := this
        exact ⟨this.file, this.look⟩
      · exact ⟨rfl, fun _ => rfl⟩
    refine ⟨fun q hq => ?_, fun j hj hne => ?_, keep⟩
    · rw [hw.2, ← hl.look] at hq
      rcases g1 q hq with h | h | ⟨h1, h2, h3⟩
      · refine .inl ⟨(h ▸ tempPlace s.tmp v), ?_⟩
        cases hn : w.look q with
        | none => rfl
        | some n => exact absurd (by rw [← hw.2, keep q n hn, hl.look, hn]) hq
      · exact .inr (.inl h)
      · exact .inr (.inr ⟨h1, by rw [← hl.look]; exact h2, by rw [hw.2]; exact h3⟩)
    · obtain ⟨q, h1, h2⟩ := g2 j (by rw [hl.nextIno]; exact hj) (by rw [← hw.1, hl.file]; exact hne)
      exact ⟨q, h1, by rw [← hl.look]; exact h2⟩

/-- **C69, consent, as one would want it**: the unpack command changes an existing file only with the user's consent. -/
def AsksBeforeOverwriting (σ : Type) : Prop :=
  ∀ (s : Sys σ) (input output : List Char) (verbose : Bool) (params : CryptoParams) (w w' : World) (r : Res Error Unit), TreeOk w → w.look (toPath s.cwd output).start = some .dir →
    unpackMode s input output verbose params w = (r, w') → ∀ j, j < w.nextIno → w'.file j ≠ w.file j → Consent params.force w

/-- **C69, consent (partial).** In a directory tree: an existing file has changed only if it was in the output directory and the user agreed to overwriting, or if it was reached by a path with `..` in it (which the output
directory or the member's name brought along). -/
theorem C69_consent_partial (s : Sys σ) (input output : List Char) (verbose : Bool) (params : CryptoParams) (w w' : World) (r : Res Error Unit) (ht : TreeOk w)
    (hst : w.look (toPath s.cwd output).start = some .dir) (he : unpackMode s input output verbose params w = (r, w')) (j : Nat) (hj : j < w.nextIno) (hne : w'.file j ≠ w.file j) :
    ∃ p, w.look (onPaper p) = some (.file j) ∧ (Consent params.force w ∨ (Comp.up ∈ p.comps ∧ ¬ Occupied w p)) := by
  rcases C69_dialogue s input output verbose params w w' r hst he with ⟨_, h⟩ | ⟨lines, ms, conv, shown, hl, hd, -, hsub, h⟩
  · exact absurd (h.files j hj fun q hq hlk => by rw [hq.2] at hlk; cases hlk) hne
  · refine Classical.byContradiction fun hno => hne (h.files j hj fun q hF hlk => ?_)
    rcases hF with ⟨p, hp, rfl⟩ | ⟨_, hn⟩
    · refine hno ⟨p, hlk, ?_⟩
      by_cases ho : Occupied w p
      · exact .inl (dialogue_consent hd hl hp ho)
      · refine .inr ⟨Classical.byContradiction fun hup => ?_, ho⟩
        obtain ⟨m, -, hm⟩ := List.mem_filterMap.1 (hsub.subset (List.mem_map.2 ⟨_, hp, rfl⟩))
        split at hm
        · obtain ⟨cs, -, hcs⟩ := Option.map_eq_some_iff.1 hm
          subst hcs
          exact ho (occupied_of_onPaper ht hup hst hlk)
        · cases hm
    · rw [hn] at hlk; cases hlk

/-- **C69, the members.** With the header in the file, for a file that can only be decrypted to the archive `P` with the secret supplied, without short transfers (calls may fail): either the command fails and has at most made a new file in
the directory for temporary files, or `P` is an archive, and the dialogue was about its members, each at most once and in their order (about all of them if there are no faults); directories have come into being
only where members that are directories call for them, and files only at members that are no directories. -/
theorem C69_members (s : Sys σ) (input output : List Char) (verbose : Bool) (params : CryptoParams) (w w' : World) (r : Res Error Unit) (P : Bytes) (q : Path) (i : Nat) (ha : Allocated w)
    (hst : w.look (toPath s.cwd output).start = some .dir) (hh : params.header = none) (hq : LeadsToFile w (toPath s.cwd input) q i) (hs : ∀ k, Io.short k ∉ w.sched)
    (hP : ∀ secret, Supplies s.words s.cwd .direct params.key w secret → OnlyDecryptsTo s.C secret (w.file i) P) (he : unpackMode s input output verbose params w = (r, w')) :
    (r ≠ .ok () ∧ Extracts (fun _ => False) (TempPlace s.tmp) w w') ∨
    ∃ lines ms conv shown, lines <:+ w.stdin ∧ s.z.decode P = some ms ∧ Dialogue params.force verbose w lines conv shown ∧
      ((∀ n, params.key ≠ .generate n) → Screen params input r shown w w') ∧ (conv.map (·.1)).Sublist (memberPaths (toPath s.cwd output) ms) ∧
      (w.sched = [] → conv.map (·.1) = memberPaths (toPath s.cwd output) ms) ∧
      Extracts (fun q => DirsOf (toPath s.cwd output) conv q ∧ DirMember (toPath s.cwd output) ms q)
        (fun q => (FilesOf conv q ∧ FileMember (toPath s.cwd output) ms q) ∨ (TempPlace s.tmp q ∧ w.look q = none)) w w' := by
  rcases unpackMode_cases s input output verbose params w he with ⟨h1, h2⟩ | ⟨v, v', r1, hi, hf, secret, q', i', hl, hq', hfd, hlt, hhd, -, hsup, hx, hend, hout⟩
  · exact .inl ⟨h1, Looked.extracts h2 (Nat.le_refl _)⟩
  · obtain ⟨rfl, rfl⟩ := LeadsToFile_unique hq hq'
    have hhf : optStream hf = none := by
      rcases hhd with ⟨rfl, _⟩ | ⟨hd, e, _⟩
      · rfl
      · rw [hh] at e; cases e
    have hsv : v.look (toPath s.cwd output).start = some .dir := by rw [hl.look]; exact hst
    have hfin : ∀ {D F}, Extracts D F v v' → Extracts D F w w' := by
      intro D F h
      refine (Looked.extracts hl (Nat.le_refl _)).trans (h.trans ?_)
      rcases hend with ⟨-, hh⟩ | ⟨-, -, rfl⟩
      · have := (hashIf_looks s v'.nextFd params.hashMode input v' (Nat.le_refl _)).1
        rw [hh] at this
        exact Looked.extracts (show Looked v'.nextFd v' w' from this) (Nat.le_refl _)
      · exact .refl _
    have hrest : v.rest hi = w.file i := by
      show (v.file (v.fd hi).ino).drop (v.fd hi).pos = _
      rw [hfd, hl.file]; rfl
    have hplace : TempPlace s.tmp (onPaper (tempPath s.tmp v)) := tempPlace _ _
    rcases C45_declined s.C s.z s.tmp s.order _ v v' r1 P (onZipFile_talks params.force verbose) hsv hhf ⟨hlt, by rw [hfd, hl.nextIno]; exact ha _ _ hq.look⟩
      (fun k hk => hs k (hl.sched.subset hk)) (by rw [show v.rest _ = w.file i from hrest]; exact hP secret hsup) hx with ⟨h1, h2⟩ | ⟨ms, conv, h1, h2, h3, h4, h5, h6⟩
    · refine .inl ⟨?_, hfin (h2.mono (fun _ h => h) (by rintro x rfl; exact hplace))⟩
      rcases hend with ⟨g, _⟩ | ⟨_, g, _⟩
      · exact absurd g h1
      · exact g
    · obtain ⟨shown, hd, ht⟩ := asked_dialogue (w0 := w) h2 (fun x n hx => by rw [hl.look]; exact hx)
      refine .inr ⟨v.stdin, ms, conv, shown, hl.stdin, h1, hd, fun hk => screen_end (hout hk) ht hend, h3, fun hs0 => h4 (List.suffix_nil.1 (hs0 ▸ hl.sched)), hfin (h6.mono (fun _ h => h) ?_)⟩
      rintro x (h | rfl)
      · exact .inl h
      · exact .inr ⟨hplace, by rw [← hl.look]; exact h5⟩

/-- The small disk, on which `z` is an encrypted archive with the members `ms`. -/
def exArchiveWorld (lines : List String) (ms : List ZipEntry) : World := { exWorld lines [] with file := fun i => if i = 2 then exSealed (toyZip.encode ms) else [1, 2, 3] }

/-- `unpack z a`. -/
def exUnpackRunCmd (lines : List String) (ms : List ZipEntry) : Res Error Unit × World := unpackMode exSys ['z'] ['a'] false exParams (exArchiveWorld lines ms)

/-- A directory, and a file whose name goes through it. -/
def exSlip : List ZipEntry := [⟨['d', '/'], []⟩, ⟨['d', '/', '.', '.', '/', 'x'], [9]⟩]

theorem exArchive_tree (lines : List String) (ms : List ZipEntry) : TreeOk (exArchiveWorld lines ms) := (Example.disk_ok []).congr (w := Example.disk []) rfl

/-- The file `a/x` is overwritten although the user was never asked: no line was typed. -/
theorem exSlip_run : exUnpackRunCmd [] exSlip = (.ok (), (exUnpackRunCmd [] exSlip).2) ∧ (exUnpackRunCmd [] exSlip).2.file 0 = [9] ∧ (exArchiveWorld [] exSlip).file 0 = [1, 2, 3] :=
  ⟨run_of_fst (by decide +kernel), by decide +kernel, rfl⟩

/-- **C69, consent, is false of the code.** A member whose name goes through a directory that is still missing when the question would be asked, and back with `..`, overwrites a file without a question. -/
theorem C69_not_always_asked : ¬ AsksBeforeOverwriting Bytes := by
  intro h
  have := h exSys ['z'] ['a'] false exParams (exArchiveWorld [] exSlip) _ _ (exArchive_tree _ _) rfl exSlip_run.1 0 (by decide) (by rw [exSlip_run.2.1, exSlip_run.2.2]; decide)
  rcases this with h | ⟨lines, rest, hl, sk, l, e, _⟩
  · cases h
  · have : lines = [] := List.suffix_nil.1 hl
    rw [this] at e
    cases sk <;> cases e

/-- The hypotheses of the theorems above are met: an archive with a member `x` and one in a new directory is unpacked where there is already an `x`. With `n`, the old `x` stays; with `y` (after an answer that is not understood), it is
overwritten; the other member is extracted in both cases. -/
example : (exArchiveWorld ["n"] [⟨['x'], [9]⟩, ⟨['d', '/'], []⟩, ⟨['d', '/', 'f'], [8]⟩]).look (toPath exSys.cwd ['a']).start = some .dir ∧
    exUnpackRunCmd ["n"] [⟨['x'], [9]⟩, ⟨['d', '/'], []⟩, ⟨['d', '/', 'f'], [8]⟩] = (.ok (), (exUnpackRunCmd ["n"] [⟨['x'], [9]⟩, ⟨['d', '/'], []⟩, ⟨['d', '/', 'f'], [8]⟩]).2) ∧
    (exUnpackRunCmd ["n"] [⟨['x'], [9]⟩, ⟨['d', '/'], []⟩, ⟨['d', '/', 'f'], [8]⟩]).2.file 0 = [1, 2, 3] ∧
    (exUnpackRunCmd ["n"] [⟨['x'], [9]⟩, ⟨['d', '/'], []⟩, ⟨['d', '/', 'f'], [8]⟩]).2.look [['a'], ['d'], ['f']] = some (.file 1001) ∧
    (exUnpackRunCmd ["n"] [⟨['x'], [9]⟩, ⟨['d', '/'], []⟩, ⟨['d', '/', 'f'], [8]⟩]).2.file 1001 = [8] ∧
    (exUnpackRunCmd ["what", "y"] [⟨['x'], [9]⟩, ⟨['d', '/'], []⟩, ⟨['d', '/', 'f'], [8]⟩]).2.file 0 = [9] :=
  ⟨rfl, run_of_fst (by decide +kernel), by decide +kernel, by decide +kernel, by decide +kernel, by decide +kernel⟩

/-- What is on the screen then, with `--verbose` and the answers `what` and `n`. -/
example : (∀ n, exParams.key ≠ .generate n) ∧ exParams.hashMode = .noHash ∧
    (unpackMode exSys ['z'] ['a'] true exParams (exArchiveWorld ["what", "n"] [⟨['x'], [9]⟩, ⟨['d', '/'], []⟩, ⟨['d', '/', 'f'], [8]⟩])).2.out.map (fun l => String.ofList l.text) =
      ["[i] Extracting f", "[i] Extracting d", "[-] Skipping x", "[?] x already exists, would you like to overwrite? (Y/n): ", "[-] Unrecognised answer - please try again",
       "[?] x already exists, would you like to overwrite? (Y/n): "] :=
  ⟨fun n h => (by cases h), rfl, by decide +kernel⟩

/-- And so are those of `C69_members`. -/
example : Allocated (exArchiveWorld ["n"] exSlip) ∧ exParams.header = none ∧ LeadsToFile (exArchiveWorld ["n"] exSlip) (toPath exSys.cwd ['z']) [['z']] 2 ∧
    (∀ k, Io.short k ∉ (exArchiveWorld ["n"] exSlip).sched) ∧ (∃ secret, Supplies exSys.words exSys.cwd .direct exParams.key (exArchiveWorld ["n"] exSlip) secret) ∧
    ∀ secret, Supplies exSys.words exSys.cwd .direct exParams.key (exArchiveWorld ["n"] exSlip) secret → OnlyDecryptsTo exSys.C secret ((exArchiveWorld ["n"] exSlip).file 2) (toyZip.encode exSlip) := by
  refine ⟨(exSeparate ["n"] []).allocated, rfl, ⟨rfl, rfl⟩, fun k hk => (List.not_mem_nil hk).elim, ⟨[112, 119], ?_⟩, ?_⟩
  · show (exWorld ["n"] []).env = _; rfl
  · intro secret h
    have e : (some [112, 119] : Option Bytes) = some secret := h
    obtain rfl : [112, 119] = secret := Option.some.inj e
    exact (exSealed_decrypts (toyZip.encode exSlip) (by decide +kernel)).2

end Volaris.Props
