import Verif.Proofs.Status
import Verif.Props.CommandLine
import Verif.Props.Commands
/-!
# C95: exit statuses
-/
namespace Volaris.Props
open Volaris.Spec Volaris.Cli Volaris.Cli.Argv Volaris.Example
variable {σ : Type}

/-- **C95, every line.** A line that is not refused ends with the status 0, 1 or 101; and with 0 exactly if it has succeeded or the user has declined a question. -/
theorem C95_statuses (s : Sys σ) (hC : s.C.Lawful) (argv : List (List Char)) (run : Prog Error (List String)) (hm : Cli.main s false argv = some run) (w w' : World) (r : Res Error (List String)) (h : run w = (r, w')) :
    ∃ n, Status r n ∧ (n = 0 ∨ n = 1 ∨ n = 101) ∧ (n = 0 ↔ (∃ out, r = .ok out) ∨ ∃ question default, AskedBy argv question default ∧ Declined question default w w' ∧ r = .abort (.exit 0)) := by
  rcases C91_line s hC argv run hm w w' r h with ⟨out, rfl⟩ | ⟨e, rfl⟩ | ⟨_, rfl, _⟩ | ⟨rfl, q, d, h1, h2⟩ | ⟨rfl, _⟩
  · exact ⟨0, .ok out, .inl rfl, fun _ => .inl ⟨out, rfl⟩, fun _ => rfl⟩
  · refine ⟨1, .err e, .inr (.inl rfl), (by intro h; cases h), ?_⟩
    rintro (⟨_, h⟩ | ⟨_, _, _, _, h⟩) <;> cases h
  · refine ⟨101, .panic, .inr (.inr rfl), (by intro h; cases h), ?_⟩
    rintro (⟨_, h⟩ | ⟨_, _, _, _, h⟩) <;> cases h
  · exact ⟨0, .exit 0, .inl rfl, fun _ => .inr ⟨q, d, h1, h2, rfl⟩, fun _ => rfl⟩
  · refine ⟨101, .panic, .inr (.inr rfl), (by intro h; cases h), ?_⟩
    rintro (⟨_, h⟩ | ⟨_, _, _, _, h⟩) <;> cases h

/-- **C95, encrypting.** Under every schedule of faults without short transfers: when an `encrypt` line leaves the status 0, then the file is encrypted, for the key that the line asks for, and the input is gone; or the user has
declined to overwrite the output or the header file, and the input is as it was.  The latter does not happen when nobody is there to decline. -/
theorem C95_encrypt_partial (s : Sys σ) (hC : s.C.Lawful) {opts : List (String × List Char)} {input output : List Char} {words argv : List (List Char)} (hw : Words (optionsOf "encrypt") opts [input, output] words) (hc : Consistent opts)
    (hi : Invokes "encrypt" words argv) :
    ∃ run, Cli.main s false argv = some run ∧ ∀ w w' r, (∀ k, Io.short k ∉ w.sched) → Separate s.cwd input output (valueOf opts "header") w → run w = (r, w') → Status r 0 →
      ((∃ key, KeyChoice opts w key ∧ EncryptDone s input output (valueOf opts "header") key w w') ∨
        (Refused opts (overwriteQuestions (output :: (valueOf opts "header").toList)) w w' ∧ Kept s.cwd input w w')) ∧
      (Unattended opts w → ∃ key, KeyChoice opts w key ∧ EncryptDone s input output (valueOf opts "header") key w w') := by
  obtain ⟨run, h1, h2⟩ := C77_encrypt s hw hc hi
  refine ⟨run, h1, fun w w' r hns hsep hr hs => ?_⟩
  obtain ⟨params, n, sel, hk, hn, _, h⟩ := h2 w
  rw [h] at hr
  rw [← sel.header] at hsep ⊢
  suffices key : (∃ key, KeyChoice opts w key ∧ EncryptDone s input output params.header key w w') ∨ (Refused opts (overwriteQuestions (output :: params.header.toList)) w w' ∧ Kept s.cwd input w w') from
    ⟨key, fun hu => key.resolve_right fun hr => unattended_refused hu hr.1⟩
  rcases status_zero hr hs with hx | hx
  · obtain ⟨q, i, secret, g1, g2, g3, g4⟩ := C48_success s hC input output params _ w w' hns hsep hx
    rw [if_neg (by rw [hn]; simp)] at g4
    exact .inl ⟨params.key, hk, q, i, secret, g1, g2, g3, g4⟩
  · right
    have hx0 := hx
    rw [encryptMode_split, Prog.bind_run] at hx
    rcases he : encryptMode s input output { params with erase := .ignoreFile } (algorithmOf opts) w with ⟨a | e | a, u⟩ <;> rw [he] at hx
    · have hx : eraseIf s params.erase params.force input u = (.abort (.exit 0), w') := hx
      obtain ⟨q, i, secret, g1, g2, g3, g4⟩ := C48_success s hC input output { params with erase := .ignoreFile } _ w u hns hsep he
      rw [if_pos rfl] at g4
      exact absurd hx (eraseIf_file_returns s _ _ g4.1)
    · cases hx
    · cases hx
      have hforce : params.force = .prompt → valueOf opts "force" = none := fun hf => by
        rw [sel.force] at hf
        cases hv : valueOf opts "force" with
        | none => rfl
        | some v => rw [hv] at hf; cases hf
      have hq : ∀ q : List (List Char × Bool), (∀ n ∈ output :: params.header.toList, params.force = .prompt → (overwriteQuestion n, true) ∈ q) → ∃ question default, (question, default) ∈ q ∧ Declined question default w w' := fun q hq =>
        (encryptMode_quits_of s hC input output { params with erase := .ignoreFile } _ hq fun h => absurd rfl h).refused he
      refine ⟨⟨?_, hq _ fun n hn _ => List.mem_map.2 ⟨n, hn, rfl⟩⟩, fun q i hin => ?_⟩
      · refine hforce ?_
        cases hf : params.force with
        | prompt => rfl
        | forced =>
          obtain ⟨_, _, hm, _⟩ := hq [] fun n _ h => by rw [hf] at h; cases h
          cases hm
      · rcases C48_encrypt_partial s hC input output { params with erase := .ignoreFile } _ w w' _ q i hns hsep hin he with h | ⟨h, _⟩
        · exact h
        · exact absurd rfl h

/-- **C95, decrypting.** The same. -/
theorem C95_decrypt_partial (s : Sys σ) (hC : s.C.Lawful) {opts : List (String × List Char)} {input output : List Char} {words argv : List (List Char)} (hw : Words (optionsOf "decrypt") opts [input, output] words) (hc : Consistent opts)
    (hi : Invokes "decrypt" words argv) :
    ∃ run, Cli.main s false argv = some run ∧ ∀ w w' r, (∀ k, Io.short k ∉ w.sched) → OutputApart s.cwd input output (valueOf opts "header") w → run w = (r, w') → Status r 0 →
      ((∃ key, OpenKeyChoice opts w key ∧ DecryptDone s input output (valueOf opts "header") key w w') ∨
        (Refused opts (overwriteQuestions [output]) w w' ∧ Kept s.cwd input w w')) ∧
      (Unattended opts w → ∃ key, OpenKeyChoice opts w key ∧ DecryptDone s input output (valueOf opts "header") key w w') := by
  obtain ⟨run, h1, h2⟩ := C77_decrypt s hw hc hi
  refine ⟨run, h1, fun w w' r hns hsep hr hs => ?_⟩
  obtain ⟨params, n, sel, hk, hn, _, h⟩ := h2 w
  rw [h] at hr
  rw [← sel.header] at hsep ⊢
  suffices key : (∃ key, OpenKeyChoice opts w key ∧ DecryptDone s input output params.header key w w') ∨ (Refused opts (overwriteQuestions [output]) w w' ∧ Kept s.cwd input w w') from
    ⟨key, fun hu => key.resolve_right fun hr => unattended_refused hu hr.1⟩
  rcases status_zero hr hs with hx | hx
  · rcases decryptMode_cases s input output params w hx with ⟨_, h⟩ | ⟨u, q, i, secret, ht, hq, hsup, hp, h⟩
    · exact absurd rfl h
    · refine .inl ⟨params.key, hk, q, i, secret, hq, hsup, Cli.Restores.erased (hp hC hns hsep) h, ?_⟩
      rcases h with ⟨hm, _⟩ | ⟨_, h, _⟩ | ⟨n, u', _, _, _, ⟨_, h⟩ | ⟨h, _⟩⟩
      · rw [hn] at hm; cases hm
      · exact absurd rfl h
      · exact h
      · exact absurd rfl h
  · right
    rw [decryptMode_split, Prog.bind_run] at hx
    rcases he : decryptMode s input output { params with erase := .ignoreFile } w with ⟨a | e | a, u⟩ <;> rw [he] at hx
    · have hx : eraseIf s params.erase params.force input u = (.abort (.exit 0), w') := hx
      obtain ⟨q, i, secret, g1, _⟩ := C59_success s hC input output { params with erase := .ignoreFile } w u hns hsep he
      rcases C59_decrypt s hC input output { params with erase := .ignoreFile } w u _ q i hns hsep g1 he with h | ⟨h, _⟩
      · exact absurd hx (eraseIf_file_returns s _ _ h.1)
      · exact absurd rfl h
    · cases hx
    · cases hx
      have hforce : params.force = .prompt → valueOf opts "force" = none := fun hf => by
        rw [sel.force] at hf
        cases hv : valueOf opts "force" with
        | none => rfl
        | some v => rw [hv] at hf; cases hf
      have hq : ∀ q : List (List Char × Bool), (params.force = .prompt → (overwriteQuestion output, true) ∈ q) → ∃ question default, (question, default) ∈ q ∧ Declined question default w w' := fun q hq =>
        (decryptMode_quits_of s hC input output { params with erase := .ignoreFile } hq fun h => absurd rfl h).refused he
      refine ⟨⟨?_, hq _ fun _ => List.mem_singleton.2 rfl⟩, fun q i hin => ?_⟩
      · refine hforce ?_
        cases hf : params.force with
        | prompt => rfl
        | forced =>
          obtain ⟨_, _, hm, _⟩ := hq [] fun h => by rw [hf] at h; cases h
          cases hm
      · rcases C59_decrypt s hC input output { params with erase := .ignoreFile } w w' _ q i hns hsep hin he with h | ⟨h, _⟩
        · exact h
        · exact absurd rfl h

/-- **C95, packing.** When a `pack` line leaves the status 0, then the archive is in the output and, if the line is to erase, the sources are gone, and otherwise they are as they were; or the user has declined to overwrite the output or the
header file, and the sources are as they were; or the archive is in the output, and the user has declined to have the sources (or the rest of them) erased.  Only the first can happen when nobody is there to decline. -/
theorem C95_pack_partial (s : Sys σ) (hC : s.C.Lawful) {before after : List (String × List Char)} {wb wa : List (List Char)} (hb : OptionWords (optionsOf "pack") before wb) (ha : OptionWords (optionsOf "pack") after wa)
    {inputs : List (List Char)} {output : List Char} {argv : List (List Char)} (hne : inputs ≠ []) (hpi : ∀ f ∈ inputs, NotOption f) (hpo : NotOption output) (hc : Consistent (before ++ after))
    (hi : Invokes "pack" (wb ++ inputs ++ output :: wa) argv) {opts : List (String × List Char)} (ho : opts = before ++ after) :
    ∃ run, Cli.main s false argv = some run ∧ ∀ w w' r, (∀ k, Io.short k ∉ w.sched) → TreeOk w → Outside s.cwd inputs output (valueOf opts "header") w → run w = (r, w') → Status r 0 →
      ((∃ key, KeyChoice opts w key ∧ ArchiveDone s inputs output (valueOf opts "header") key w w' ∧ if (valueOf opts "erase").isSome then SourcesGone s.cwd inputs w w' else Intact s.cwd inputs w w') ∨
        (Refused opts (overwriteQuestions (output :: (valueOf opts "header").toList)) w w' ∧ Intact s.cwd inputs w w') ∨
        ((valueOf opts "erase").isSome ∧ Refused opts [(eraseQuestion, false)] w w' ∧ ∃ key, KeyChoice opts w key ∧ ArchiveDone s inputs output (valueOf opts "header") key w w')) ∧
      (Unattended opts w →
        ∃ key, KeyChoice opts w key ∧ ArchiveDone s inputs output (valueOf opts "header") key w w' ∧ if (valueOf opts "erase").isSome then SourcesGone s.cwd inputs w w' else Intact s.cwd inputs w w') := by
  subst ho
  obtain ⟨run, h1, h2⟩ := C77_pack s hb ha hne hpi hpo hc hi
  generalize before ++ after = opts at h2 ⊢
  refine ⟨run, h1, fun w w' r hns ht hsep hr hs => ?_⟩
  obtain ⟨params, sel, hk, _, h⟩ := h2 w
  rw [h] at hr
  rw [← sel.header] at hsep ⊢
  suffices key : (∃ key, KeyChoice opts w key ∧ ArchiveDone s inputs output params.header key w w' ∧ if (valueOf opts "erase").isSome then SourcesGone s.cwd inputs w w' else Intact s.cwd inputs w w') ∨
        (Refused opts (overwriteQuestions (output :: params.header.toList)) w w' ∧ Intact s.cwd inputs w w') ∨
        ((valueOf opts "erase").isSome ∧ Refused opts [(eraseQuestion, false)] w w' ∧ ∃ key, KeyChoice opts w key ∧ ArchiveDone s inputs output params.header key w w') from
    ⟨key, fun hu => key.resolve_right fun hr => hr.elim (fun h => unattended_refused hu h.1) fun h => unattended_refused hu h.2.1⟩
  have hforce : params.force = .prompt → valueOf opts "force" = none := fun hf => by
    rw [sel.force] at hf
    cases hv : valueOf opts "force" with
    | none => rfl
    | some v => rw [hv] at hf; cases hf
  -- a question about overwriting has been declined
  have early : packMode s inputs output ⟨false⟩ params (algorithmOf opts) w = (.abort (.exit 0), w') → Refused opts (overwriteQuestions (output :: params.header.toList)) w w' ∧ Intact s.cwd inputs w w' := by
    intro he
    have hq : ∀ q : List (List Char × Bool), (∀ n ∈ output :: params.header.toList, params.force = .prompt → (overwriteQuestion n, true) ∈ q) → ∃ question default, (question, default) ∈ q ∧ Declined question default w w' := fun q hq =>
      (packMode_quits_of s hC inputs output ⟨false⟩ params _ hq fun h => by cases h).refused he
    refine ⟨⟨?_, hq _ fun n hn _ => List.mem_map.2 ⟨n, hn, rfl⟩⟩, ?_⟩
    · refine hforce ?_
      cases hf : params.force with
      | prompt => rfl
      | forced =>
        obtain ⟨_, _, hm, _⟩ := hq [] fun n _ h => by rw [hf] at h; cases h
        cases hm
    · rcases C67_safe s hC inputs output ⟨false⟩ params _ w w' _ hns ht hsep he with h | ⟨h, _⟩
      · exact h
      · cases h
  rcases status_zero hr hs with hx | hx
  · obtain ⟨⟨secret, l, g⟩, g2, g3⟩ := C67_success s hC inputs output _ params _ w w' hns ht hsep hx
    refine .inl ⟨params.key, hk, ⟨secret, l, g⟩, ?_⟩
    split
    · exact g3 (by assumption)
    · exact g2 (by cases hv : (valueOf opts "erase").isSome <;> simp_all)
  · cases hv : (valueOf opts "erase").isSome with
    | false =>
      rw [hv] at hx
      exact .inr (.inl (early hx))
    | true =>
      rw [hv, packMode_split, Prog.bind_run] at hx
      rcases he : packMode s inputs output ⟨false⟩ params (algorithmOf opts) w with ⟨a | e | a, u⟩ <;> rw [he] at hx
      · have hx : eraseInputs s params.force inputs u = (.abort (.exit 0), w') := hx
        have hwp := packMode_wp s inputs output ⟨false⟩ params (algorithmOf opts) w ht
        unfold wp at hwp
        rw [he] at hwp
        rcases hwp with ⟨_, h⟩ | ⟨u', secret, g1, g2, g3, g4, g5, g6⟩
        · exact absurd rfl h
        · obtain rfl : u = u' := by
            have : (Res.ok a, u) = (pure () : Prog Error Unit) u' := g6
            cases this; rfl
          obtain ⟨l, k1, k2, k3⟩ := g5 hC hns hsep
          have hleads : ∀ f ∈ inputs, ∀ T, LeadsToDir u (toPath s.cwd f) T → LeadsToDir w (toPath s.cwd f) T := by
            intro f hf T hT
            obtain ⟨T', hT'⟩ := g3 f hf
            have := (g1.resolves _ _).1 hT.resolve
            rw [hT'.resolve] at this
            cases this
            exact hT'
          obtain ⟨r', v, hr', her, -, -⟩ := eraseInputs_cases s params.force inputs u g2 fun f hf q i hq => by
            obtain ⟨T, hT⟩ := g3 f hf
            have e1 := (g1.resolves _ _).1 hq.resolve
            rw [hT.resolve] at e1
            cases e1
            have := g1.look hT.look
            rw [hq.look] at this
            cases this
          rw [hx] at hr'
          cases hr'
          have her' : ErasedIn (InSource s.cwd inputs w) u w' := her.mono fun x ⟨f, hf, T, hT, hx⟩ => ⟨f, hf, T, hleads f hf T hT, hx⟩
          refine .inr (.inr ⟨rfl, ⟨?_, ?_⟩, params.key, hk, secret, l, g4, k1, k2, keeps_erased k3 her'⟩)
          · refine hforce ?_
            cases hf : params.force with
            | prompt => rfl
            | forced =>
              rw [hf] at hx
              obtain ⟨_, _, _, hm, _⟩ := (eraseInputs_ends (q := []) s .forced (fun h => by cases h) inputs u).2 _ (by rw [hx])
              cases hm
          · obtain ⟨_, t, d, hm, hd⟩ := (eraseInputs_ends (q := [(eraseQuestion, false)]) s params.force (fun _ => List.mem_singleton.2 rfl) inputs u).2 _ (by rw [hx])
            rw [hx] at hd
            have on := (packMode_quits s hC inputs output ⟨false⟩ params (algorithmOf opts) w).1
            rw [he] at on
            exact ⟨t, d, hm, declined_after on hd⟩
      · cases hx
      · cases hx
        exact .inr (.inl (early he))

/-- **C95, erasing.** When an `erase` line leaves the status 0, then what it names, a file or a directory with everything below it, is gone and the files are empty; or it names a directory, the user has declined to have it erased, and nothing
has changed.  The latter does not happen when nobody is there to decline. -/
theorem C95_erase_partial (s : Sys σ) {opts : List (String × List Char)} {input : List Char} {words argv : List (List Char)} (hw : Words (optionsOf "erase") opts [input] words) (hc : Consistent opts) (hi : Invokes "erase" words argv) :
    ∃ run, Cli.main s false argv = some run ∧ ∀ w w' r, TreeOk w → run w = (r, w') → Status r 0 →
      (EraseDone s.cwd input w w' ∨ (Refused opts [(eraseQuestion, false)] w w' ∧ SameFiles w w')) ∧ (Unattended opts w → EraseDone s.cwd input w w') := by
  obtain ⟨run, n, h1, _, h2⟩ := C77_erase s hw hc hi
  refine ⟨run, h1, fun w w' r ht hr hs => ?_⟩
  rw [h2] at hr
  suffices key : EraseDone s.cwd input w w' ∨ (Refused opts [(eraseQuestion, false)] w w' ∧ SameFiles w w') from ⟨key, fun hu => key.resolve_right fun hr => unattended_refused hu hr.1⟩
  generalize hf : (if (valueOf opts "force").isSome then ForceMode.forced else .prompt) = force at hr
  have hforce : force = .prompt → valueOf opts "force" = none := by
    rintro rfl
    cases hv : valueOf opts "force" with
    | none => rfl
    | some v => rw [hv] at hf; cases hf
  have hx := status_zero hr hs
  by_cases hfile : ∃ q i, LeadsToFile w (toPath s.cwd input) q i
  · obtain ⟨q, i, hq⟩ := hfile
    rcases secureErase_file s input n force hq with ⟨e, sc, g1, _⟩ | ⟨r', v, w2, g1, _, _, ⟨rfl, g2, g3⟩ | ⟨⟨e, rfl⟩, -⟩⟩
    · rw [g1] at hx
      rcases hx with hx | hx <;> cases hx
    · rw [g1] at hx
      rcases hx with hx | hx <;> cases hx
      exact .inl (.inl ⟨q, i, hq, g2, g3⟩)
    · rw [g1] at hx
      rcases hx with hx | hx <;> cases hx
  · by_cases hdir : ∃ T, LeadsToDir w (toPath s.cwd input) T
    · obtain ⟨T, hT⟩ := hdir
      obtain ⟨r', w2, g1, _, hor⟩ := secureErase_dir s input n force ht hT
      rw [g1] at hx
      rcases hor with ⟨hsame, hp, ⟨rfl, hno⟩ | ⟨⟨e, rfl⟩, _⟩⟩ | ⟨_, ⟨rfl, g2, g3⟩ | ⟨⟨e, rfl⟩, _⟩⟩
      · rcases hx with hx | hx <;> cases hx
        obtain ⟨_, t, d, hm, hd⟩ := (secureErase_ends (q := [(eraseQuestion, false)]) s input n force (fun _ => List.mem_singleton.2 rfl) w).2 _ (by rw [g1])
        rw [g1] at hd
        exact .inr ⟨⟨hforce hp, t, d, hm, hd⟩, hsame⟩
      · rcases hx with hx | hx <;> cases hx
      · rcases hx with hx | hx <;> cases hx
        exact .inl (.inr ⟨T, hT, g2, g3⟩)
      · rcases hx with hx | hx <;> cases hx
    · obtain ⟨e, sc, g1⟩ := secureErase_none s input n force (fun q i h => hfile ⟨q, i, h⟩) fun T h => hdir ⟨T, h⟩
      rw [g1] at hx
      rcases hx with hx | hx <;> cases hx

/-- **C95, hashing.** When a `hash` line leaves the status 0, then the digests of all the files, as they are on the disk, have been shown, in order. -/
theorem C95_hash (s : Sys σ) (digest : Bytes → String) (hH : Computes s.H digest) {opts : List (String × List Char)} {files words argv : List (List Char)} (hw : Words (optionsOf "hash") opts files words) (hne : files ≠ []) (hi : Invokes "hash" words argv) :
    ∃ run, Cli.main s false argv = some run ∧ ∀ w w' r, (∀ k, Io.short k ∉ w.sched) → run w = (r, w') → Status r 0 →
      ∃ contents : List Bytes, contents.length = files.length ∧ (∀ (k : Nat) f c, files[k]? = some f → contents[k]? = some c → ContentAt w (toPath s.cwd f) c) ∧
        Prints ((files.zip contents).map fun fc => digestLine fc.1 (digest fc.2)) w w' := by
  obtain ⟨run, h1, h2⟩ := C77_hash s hw hne hi
  refine ⟨run, h1, fun w w' r hns hr hs => ?_⟩
  rw [h2] at hr
  cases hs with
  | exit n => exact absurd (congrArg Prod.fst hr) ((C62_hash s digest hH files w).1 (.exit 0))
  | ok ds =>
    obtain ⟨shown, g1, g2, g3, _, g5⟩ := C62_printed s digest hH files w w' _ hr
    obtain ⟨rfl, g3⟩ := g3 ds rfl
    have g5 := g5 hns
    clear hr g2 h2 h1 hne hw hi
    have key : ∀ (files : List (List Char)) (ds : List String), ds.length = files.length → (∀ (k : Nat) f d, files[k]? = some f → ds[k]? = some d → ∃ c, ContentAt w (toPath s.cwd f) c ∧ d = digest c) →
        ∃ contents : List Bytes, contents.length = files.length ∧ (∀ (k : Nat) f c, files[k]? = some f → contents[k]? = some c → ContentAt w (toPath s.cwd f) c) ∧
          (files.zip contents).map (fun fc => digestLine fc.1 (digest fc.2)) = (files.zip ds).map fun fd => digestLine fd.1 fd.2 := by
      intro files
      induction files with
      | nil => intro ds _ _; exact ⟨[], rfl, by intro k f c h; simp at h, rfl⟩
      | cons f fs ih =>
        intro ds hl h
        cases ds with
        | nil => cases hl
        | cons d ds =>
          obtain ⟨c, hc, rfl⟩ := h 0 f d rfl rfl
          obtain ⟨cs, e1, e2, e3⟩ := ih ds (by simpa using hl) fun k f' d' hf hd => h (k + 1) f' d' (by simpa using hf) (by simpa using hd)
          refine ⟨c :: cs, by simp [e1], ?_, by simp [e3]⟩
          intro k f' c' hf hc'
          cases k with
          | zero => simp at hf hc'; subst hf; subst hc'; exact hc
          | succ k => exact e2 k f' c' (by simpa using hf) (by simpa using hc')
    obtain ⟨cs, e1, e2, e3⟩ := key files ds g3 g5
    exact ⟨cs, e1, e2, by rw [e3]; exact g1⟩

/-! ### What is false, and examples -/

/-- What a line comes to on a machine with the small disk: how it ends, and the contents of `z`, `a/x`, `a/b/y` and `o`. -/
def exFinal (argv : List String) (w : World) : Option (Res Error (List String) × List (Option Bytes)) :=
  (Cli.main exSys false (argv.map String.toList)).map fun run => ((run w).1, [[['z']], [['a'], ['x']], [['a'], ['b'], ['y']], [['o']]].map fun q => match (run w).2.look q with
    | some (.file i) => some ((run w).2.file i)
    | _ => none)

/-- **The status 0 does not mean that the work is done**: `encrypt z a/x`, answered with `n`, leaves it, and nothing has been encrypted.  It does not even mean that nothing has happened: `encrypt --header a/b/y z a/x`, where the user agrees
to overwrite `a/x` and then declines to overwrite `a/b/y`, leaves the status 0 too, and `a/x` is now empty. -/
theorem C95_false :
    (∃ run, Cli.main exSys false ["encrypt".toList, "z".toList, "a/x".toList] = some run ∧ ∃ r w', run (exWorld ["n\n"] []) = (r, w') ∧ Status r 0 ∧ w'.look [['z']] = some (.file 2) ∧ w'.file 2 = [1, 2, 3] ∧
      (∀ key, ¬ EncryptDone exSys "z".toList "a/x".toList none key (exWorld ["n\n"] []) w') ∧ w'.file 0 = (exWorld [] []).file 0) ∧
    ∃ run, Cli.main exSys false ["encrypt".toList, "--header".toList, "a/b/y".toList, "z".toList, "a/x".toList] = some run ∧ ∃ r w', run (exWorld ["y\n", "n\n"] []) = (r, w') ∧ Status r 0 ∧
      w'.look [['z']] = some (.file 2) ∧ w'.look [['a'], ['x']] = some (.file 0) ∧ (exWorld [] []).file 0 ≠ [] ∧ w'.file 0 = [] ∧ w'.file 2 = [1, 2, 3] := by
  constructor
  · refine ⟨_, rfl, .abort (.exit 0), _, run_of_fst (by decide +kernel), .exit 0, by decide +kernel, by decide +kernel, ?_, by decide +kernel⟩
    rintro key ⟨q, i, secret, hq, _, _, hg, _⟩
    obtain rfl : q = [['z']] := by
      have h1 := hq.resolve
      have h2 : (exWorld ["n\n"] []).resolve (toPath exSys.cwd "z".toList) = .ok [['z']] := rfl
      rw [h2] at h1
      cases h1; rfl
    revert hg
    decide +kernel
  · exact ⟨_, rfl, .abort (.exit 0), _, run_of_fst (by decide +kernel), .exit 0, by decide +kernel, by decide +kernel, by decide +kernel, by decide +kernel, by decide +kernel⟩

/-- Status 0 with the work done, with nobody to decline: the file is gone, the output is there; the same without anything on standard input, where a question ends the line with an error; and a line on which the user declines. -/
example : (exFinal ["encrypt", "--force=1", "z", "a/x"] (exWorld ["n\n"] [])).map (fun x => (x.1, x.2.map (·.isSome))) = some (.ok [], [false, true, true, false]) ∧
    (exFinal ["encrypt", "z", "o"] (exWorld [] [])).map (fun x => (x.1, x.2.map (·.isSome))) = some (.ok [], [false, true, true, true]) ∧
    (exFinal ["encrypt", "z", "a/x"] (exWorld [] [])).map (fun x => match x.1 with | .err _ => true | _ => false) = some true ∧
    (exFinal ["encrypt", "z", "a/x"] (exWorld ["n\n"] [])).map (·.1) = some (.abort (.exit 0)) :=
  ⟨by decide +kernel, by decide +kernel, by decide +kernel, by decide +kernel⟩

/-- The hypotheses are met: two lines, with and without the option not to ask, on the small disk. -/
example : Words (optionsOf "encrypt") [("force", ['1'])] ["z".toList, "o".toList] ["--force=1".toList, "z".toList, "o".toList] ∧ Consistent [("force", ['1'])] ∧ Invokes "encrypt" ["--force=1".toList, "z".toList, "o".toList] ["-e".toList, "--force=1".toList, "z".toList, "o".toList] ∧
    Separate exSys.cwd ['z'] ['o'] none (exWorld [] []) ∧ OutputApart exSys.cwd ['z'] ['o'] none (exWorld [] []) ∧ Outside exPackSys.cwd [['a']] ['o'] none (exWorld [] []) ∧ TreeOk (exWorld [] []) ∧ Unattended [("force", ['1'])] (exWorld ["n\n"] []) ∧ Unattended [] (exWorld [] []) :=
  ⟨.opt (o := ⟨"force", some 'f', false⟩) (by decide) .attached (.file (.inr (by decide)) (.file (.inr (by decide)) .nil)), ⟨by decide, .inr rfl⟩, .letter 'e' rfl, exSeparate [] [],
    ⟨(exSeparate [] []).allocated, (exSeparate [] []).out, fun hd h => by cases h⟩, exPack_outside [] [], exWorld_tree [] [], .inl rfl, .inr rfl⟩

/-- A directory that is not erased because the user declines, and one that is. -/
example : (exFinal ["erase", "a"] (exWorld ["n\n"] [])).map (fun x => (x.1, x.2.map (·.isSome))) = some (.abort (.exit 0), [true, true, true, false]) ∧
    (exFinal ["erase", "a"] (exWorld ["y\n"] [])).map (fun x => (x.1, x.2.map (·.isSome))) = some (.ok [], [true, false, false, false]) ∧ Words (optionsOf "erase") [] ["a".toList] ["a".toList] :=
  ⟨by decide +kernel, by decide +kernel, .file (.inr (by decide)) .nil⟩

end Volaris.Props
