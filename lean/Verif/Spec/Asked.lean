import Verif.Spec.Cli
import Verif.Spec.Crash
import Verif.Model.Cli.Commands
/-!
# Vocabulary for questions that are asked before something is destroyed

`World.out` holds what is on the screen, the newest first, each entry with the number of modifying system calls that had been made and the numbers of lines of standard input that were unread and of passwords that had not been typed when it
was printed.
-/
namespace Volaris.Spec

/-- In the run from `w` to `w'` the question was printed when `calls` modifying calls had been made, and the first answer that the user gave from then on is yes. -/
def AgreedTo (question : List Char) (default : Bool) (calls : Nat) (w w' : World) : Prop :=
  ∃ lines rest untyped later earlier, lines <:+ w.stdin ∧ FirstAnswer default lines true rest ∧ w'.out = later ++ ⟨calls, lines.length, untyped, question⟩ :: earlier ++ w.out

/-- The question before a directory is erased. -/
def eraseQuestion : List Char := "[?] This is a directory, would you like to erase all files within it? (y/N): ".toList

/-- The commands that write to `output` and ask before they overwrite it. -/
inductive WritesTo {σ : Type} (s : Cli.Sys σ) (output : List Char) : Prog Cli.Error Unit → Prop
  | encrypt (input : List Char) (params : Cli.CryptoParams) (a : Algorithm) (h : params.force = .prompt) : WritesTo s output (Cli.encryptMode s input output params a)
  | decrypt (input : List Char) (params : Cli.CryptoParams) (h : params.force = .prompt) : WritesTo s output (Cli.decryptMode s input output params)
  | pack (inputs : List (List Char)) (pp : Cli.PackParams) (params : Cli.CryptoParams) (a : Algorithm) (h : params.force = .prompt) : WritesTo s output (Cli.packMode s inputs output pp params a)
  | dump (input : List Char) : WritesTo s output (Cli.headerDump s input output .prompt)

/-- The commands that write a detached header to `hd` besides the output. -/
inductive WritesHeader {σ : Type} (s : Cli.Sys σ) (output hd : List Char) : Prog Cli.Error Unit → Prop
  | encrypt (input : List Char) (params : Cli.CryptoParams) (a : Algorithm) (h : params.force = .prompt) (hh : params.header = some hd) :
      WritesHeader s output hd (Cli.encryptMode s input output params a)
  | pack (inputs : List (List Char)) (pp : Cli.PackParams) (params : Cli.CryptoParams) (a : Algorithm) (h : params.force = .prompt) (hh : params.header = some hd) :
      WritesHeader s output hd (Cli.packMode s inputs output pp params a)

/-- In the run from `w` to `w'` nothing changed except what `output` leads to: the entries are the same, or a new file came into being there, and every other file has its content. -/
structure OnlyAt (cwd : Path) (output : List Char) (w w' : World) : Prop where
  entries : ∀ x, w'.look x = w.look x ∨ (w.look x = none ∧ w.resolve (Cli.toPath cwd output) = .ok x ∧ ∃ j, w.nextIno ≤ j ∧ w'.look x = some (.file j))
  files : ∀ j, j < w.nextIno → w'.file j = w.file j ∨ ∃ x, LeadsToFile w (Cli.toPath cwd output) x j

end Volaris.Spec
