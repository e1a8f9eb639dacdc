import Verif.Proofs.ScreenUnpack
import Verif.Props.Screen
import Verif.Props.UnpackCmd
/-!
# C92: what unpacking shows on the screen
-/
namespace Volaris.Props
open Volaris.Spec Volaris.Cli Volaris.Example
variable {σ : Type}

/-- **C92, unpacking.** Under every schedule of faults and however the command ends, exactly these lines come on the screen, in this order: what belongs to the secret; for one member of the archive after the other the question whether to
overwrite, which never comes if overwriting is forced, and the decision; the digest of the archive.  A member is skipped only after a question, and a question that got no answer ends the command. -/
theorem C92_unpack (s : Sys σ) (input output : List Char) (verbose : Bool) (params : CryptoParams) (w w' : World) (r : Res Error Unit) (he : unpackMode s input output verbose params w = (r, w')) :
    ∃ k names m d, Shows (k ++ m ++ d) w w' ∧ AboutKey .direct params.key (endedWell r) k ∧ AboutMembers params.force verbose (endedWell r) names m ∧
      AboutDigest params.hashMode input (endedWell r) d := by
  obtain ⟨k, m, d, h1, h2, ⟨names, h3⟩, h4⟩ := unpackMode_shows s input output verbose params w
  rw [he] at h1 h2 h3 h4
  rw [good_ended] at h2 h3 h4
  exact ⟨k, names, m, d, h1, h2, h3, h4⟩

/-- **C92, the digest when unpacking.** When unpacking with `--hash` succeeds and no transfer was short, the last line shows the digest of what is in the input file afterwards. -/
theorem C92_unpack_digest (s : Sys σ) (digest : Bytes → String) (hH : Computes s.H digest) (input output : List Char) (verbose : Bool) (params : CryptoParams) (w w' : World)
    (hns : ∀ k, Io.short k ∉ w.sched) (hh : params.hashMode = .calculateHash) (he : unpackMode s input output verbose params w = (.ok (), w')) :
    ∃ c earlier, ContentAt w' (toPath s.cwd input) c ∧ w'.out.map (·.text) = digestLine input (digest c) :: earlier := by
  obtain ⟨v, hv, e3⟩ := unpackMode_closes s input output verbose params w () w' he
  rw [hh] at e3
  obtain ⟨c, hc, ho⟩ := hashIf_digest s hH (fun k hk => hns k (hv.subset hk)) e3
  exact ⟨c, _, hc, ho⟩

/-! ### The hypotheses can be met -/

/-- Unpack an archive with members `d/` and `x` where there is an `x`, and show the digest. -/
def exTellingUnpack (lines : List String) : Res Error Unit × World :=
  unpackMode exSys ['z'] ['a'] true { exParams with hashMode := .calculateHash } (exArchiveWorld lines [⟨['d', '/'], []⟩, ⟨['x'], [9]⟩])

/-- The hypotheses of the theorem about the digest. -/
example : Computes exSys.H (fun c => toString c) ∧ (∀ k, Io.short k ∉ (exArchiveWorld ["y\n"] [⟨['d', '/'], []⟩, ⟨['x'], [9]⟩]).sched) ∧ (exTellingUnpack ["y\n"]).1 = .ok () :=
  ⟨exHasher_computes, by simp [exArchiveWorld, exWorld, disk], by decide +kernel⟩

/-- The member `x` is extracted, or skipped, and the digest comes last; or nobody answers, and the question is the last line. -/
example : (exTellingUnpack ["y\n"]).1 = .ok () ∧
    (exTellingUnpack ["y\n"]).2.out.tail.map (·.text) = ["[i] Extracting x".toList, "[?] x already exists, would you like to overwrite? (Y/n): ".toList, "[i] Extracting d".toList] ∧
    (exTellingUnpack ["n\n"]).1 = .ok () ∧
    (exTellingUnpack ["n\n"]).2.out.tail.map (·.text) = ["[-] Skipping x".toList, "[?] x already exists, would you like to overwrite? (Y/n): ".toList, "[i] Extracting d".toList] ∧
    (exTellingUnpack []).1 = .abort .panic ∧
    (exTellingUnpack []).2.out.map (·.text) = ["[?] x already exists, would you like to overwrite? (Y/n): ".toList, "[i] Extracting d".toList] :=
  ⟨by decide +kernel, by decide +kernel, by decide +kernel, by decide +kernel, by decide +kernel, by decide +kernel⟩

end Volaris.Props
