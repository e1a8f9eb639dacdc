import Verif.Spec.Storage
import Verif.Spec.Utils
import Verif.Spec.Unpack
import Verif.Spec.Behaviour
import Verif.Model.Cli.Commands
/-!
# Vocabulary for the command line tool
-/
namespace Volaris.Spec
open Volaris.Cli (Id Matches Key)

/-! ## Answers -/

/-- A line that says yes. -/
def YesLine (l : String) : Prop := ∃ c cs, l.toList = c :: cs ∧ (c = 'y' ∨ c = 'Y')

/-- A line that says no. -/
def NoLine (l : String) : Prop := ∃ c cs, l.toList = c :: cs ∧ (c = 'n' ∨ c = 'N')

/-- A line with nothing on it but its line break. -/
def BlankLine (l : String) : Prop := ∃ c cs, l.toList = c :: cs ∧ (c = '\n' ∨ c = '\r')

/-- A line that is none of these. -/
def OtherLine (l : String) : Prop := ∃ c cs, l.toList = c :: cs ∧ c ∉ ['y', 'Y', 'n', 'N', '\n', '\r']

/-- What a line says to a question with the given default. -/
def Says (default : Bool) (l : String) (b : Bool) : Prop := YesLine l ∧ b = true ∨ NoLine l ∧ b = false ∨ BlankLine l ∧ b = default

/-- The user's first answer among `lines` is `b`; all lines before say nothing, the lines `rest` come after it. -/
def FirstAnswer (default : Bool) (lines : List String) (b : Bool) (rest : List String) : Prop :=
  ∃ skipped l, lines = skipped ++ l :: rest ∧ (∀ s ∈ skipped, OtherLine s) ∧ Says default l b

/-- What is on the screen, newest first, when a question was asked with `left` lines unread, and was answered after `skipped` lines that are no answer. -/
def exchange (calls untyped : Nat) (question : List Char) : Nat → Nat → List Printed
  | left, 0 => [⟨calls, left, untyped, question⟩]
  | left, skipped + 1 => exchange calls untyped question (left - 1) skipped ++ [⟨calls, left - 1, untyped, "[-] Unrecognised answer - please try again".toList⟩, ⟨calls, left, untyped, question⟩]

/-- The question was asked and answered; the lines `rest` are left. -/
def answered (w : World) (question : List Char) (rest : List String) : World :=
  { w with stdin := rest, out := exchange w.log.length w.tty.length question w.stdin.length (w.stdin.length - rest.length - 1) ++ w.out }

/-- The question before `name` is overwritten. -/
def overwriteQuestion (name : List Char) : List Char := "[?] ".toList ++ name ++ " already exists, would you like to overwrite? (Y/n): ".toList

/-- There is something at the path. -/
def Occupied (w : World) (p : PathBuf) : Prop := ∃ q n, w.resolve p = .ok q ∧ w.look q = some n

/-- The user's consent to overwriting: the flag, or an answer to the question that says yes. -/
def Consent (force : Cli.ForceMode) (w : World) : Prop := force = .forced ∨ ∃ lines rest, lines <:+ w.stdin ∧ FirstAnswer true lines true rest

/-- `p` may be written to: nothing is there, or the user consents. -/
def MayWrite (force : Cli.ForceMode) (w : World) (p : PathBuf) : Prop := ¬ Occupied w p ∨ Consent force w

/-- The two paths do not lead to the same place, nor to the same file. -/
def Apart (w : World) (p p' : PathBuf) : Prop :=
  (∀ q, w.resolve p = .ok q → w.resolve p' ≠ .ok q) ∧ ∀ q q' i, LeadsToFile w p q i → ¬ LeadsToFile w p' q' i

/-- File numbers that are in use are not new. -/
def Allocated (w : World) : Prop := ∀ q i, w.look q = some (.file i) → i < w.nextIno

/-- Only the user's lines and the schedule were consumed, and something was printed. -/
def OnlyAnswered (w w' : World) : Prop := w' = { w with stdin := w'.stdin, sched := w'.sched, out := w'.out } ∧ w'.stdin <:+ w.stdin ∧ w'.sched <:+ w.sched ∧ w.out <:+ w'.out

/-! ## Secrets -/

/-- Among the entries at the password prompts, taken in pairs, the first pair of equal non-empty ones is `s`, `s`; the entries `rest` come after it. -/
inductive FirstConfirmed : List Bytes → Bytes → List Bytes → Prop
  | here {s : Bytes} {rest : List Bytes} (h : s ≠ []) : FirstConfirmed (s :: s :: rest) s rest
  | later {a b s : Bytes} {more rest : List Bytes} (h : a ≠ b ∨ a = []) (hm : FirstConfirmed more s rest) : FirstConfirmed (a :: b :: more) s rest

/-- The secret `s` is the one that the key source supplies in `w`: the content of the key file, all of standard input, the environment variable, the words chosen, what is typed (twice, if it has to be
confirmed). -/
def Supplies (words : List (List Char)) (cwd : Path) (state : Cli.PasswordState) (key : Key) (w : World) (s : Bytes) : Prop :=
  match key with
  | .keyfile path =>
      if path = ['-'] then s = Cli.stdinBytes w.stdin
      else ∃ q i, LeadsToFile w (Cli.toPath cwd path) q i ∧ w.file i = s
  | .env => w.env = some s
  | .generate n => ∃ chosen, chosen.length = n.toNat ∧
      (∀ i, i < chosen.length → chosen[i]? = words[supplied w i % (words.length + 1)]?) ∧ s = Cli.stringBytes (dashed chosen)
  | .user =>
      match state with
      | .direct => ∃ rest, w.tty = s :: rest
      | .validate => ∃ rest, FirstConfirmed w.tty s rest

/-! ## Command lines -/

/-- The command line gives `v` as first value of the argument. -/
def Gives (m : Matches) (id : Id) (v : List Char) : Prop := ∃ vs, m.explicit id = some (v :: vs)

/-- The command line does not mention the argument. -/
def Omits (m : Matches) (id : Id) : Prop := m.explicit id = none

/-- A command line of the command with the given arguments that the parser accepts, in a release build. -/
structure Accepted (args : List Cli.Arg) (m : Matches) : Prop where
  args : m.args = args
  accepted : m.accepted = true
  release : m.debug = false

/-! ## What the encrypt command may write to -/

/-- The places where a command with these arguments may write: the output, and the header file if there is to be one. -/
def Targets (cwd : Path) (output : List Char) (params : Cli.CryptoParams) (w : World) (q : Path) : Prop :=
  (MayWrite params.force w (Cli.toPath cwd output) ∧ w.resolve (Cli.toPath cwd output) = .ok q) ∨
  ∃ hd, params.header = some hd ∧ MayWrite params.force w (Cli.toPath cwd hd) ∧ w.resolve (Cli.toPath cwd hd) = .ok q

/-- Output and, if there is one, header file hold what decrypts with `secret` to `p`; neither is the file `i` at `q`. -/
def Preserves (C : Crypto) (cwd : Path) (output : List Char) (header : Option (List Char)) (secret p : Bytes) (q : Path) (i : Nat) (v : World) : Prop :=
  ∃ qo j, LeadsToFile v (Cli.toPath cwd output) qo j ∧ qo ≠ q ∧ j ≠ i ∧
    match header with
    | none => DecryptsTo C secret (v.file j) p
    | some hd => ∃ qh k, LeadsToFile v (Cli.toPath cwd hd) qh k ∧ qh ≠ q ∧ k ≠ i ∧ DecryptsTo C secret (v.file k ++ v.file j) p

/-- The secret `x` is what the key source supplies, once the questions are answered. -/
def SuppliedTo {σ : Type} (s : Cli.Sys σ) (state : Cli.PasswordState) (key : Key) (w : World) (x : Bytes) : Prop :=
  x ≠ [] ∧ ∃ u, OnlyAnswered w u ∧ Supplies s.words s.cwd state key u x

/-- Input, output and header file are three different places and three different files. -/
structure Separate (cwd : Path) (input output : List Char) (header : Option (List Char)) (w : World) : Prop where
  allocated : Allocated w
  out : Apart w (Cli.toPath cwd input) (Cli.toPath cwd output)
  hdr : ∀ hd, header = some hd → Apart w (Cli.toPath cwd input) (Cli.toPath cwd hd) ∧ Apart w (Cli.toPath cwd output) (Cli.toPath cwd hd)

/-- What a command has changed in the file system at most: new files have come into being at paths in `T` where nothing was, files that had a name in `T` have other content, and files that were to be
erased have lost their content and their name. -/
structure Changes (T : Path → Prop) (erased : Path → Nat → Prop) (w w' : World) : Prop where
  look : ∀ q, w'.look q = w.look q ∨ (w.look q = none ∧ T q ∧ ∃ j, w.nextIno ≤ j ∧ w'.look q = some (.file j)) ∨
    (w'.look q = none ∧ ∃ i, w.look q = some (.file i) ∧ erased q i)
  files : ∀ j, j < w.nextIno → w'.file j = w.file j ∨ (∃ q, T q ∧ w.look q = some (.file j)) ∨ (w'.file j = [] ∧ ∃ q, w.look q = some (.file j) ∧ erased q j)

/-! ## The decrypt command -/

/-- The place where the decrypt command may write. -/
def OutputPlace (cwd : Path) (force : Cli.ForceMode) (output : List Char) (w : World) (q : Path) : Prop :=
  MayWrite force w (Cli.toPath cwd output) ∧ w.resolve (Cli.toPath cwd output) = .ok q

/-- The output is another place and another file than the input and the header file. -/
structure OutputApart (cwd : Path) (input output : List Char) (header : Option (List Char)) (w : World) : Prop where
  allocated : Allocated w
  inp : Apart w (Cli.toPath cwd input) (Cli.toPath cwd output)
  hdr : ∀ hd, header = some hd → Apart w (Cli.toPath cwd hd) (Cli.toPath cwd output)

/-- In `v` the output holds the plaintext of the encrypted file `content`, whose header is in the header file if there was one in `w`; the output is not the file `i` at `q`. -/
def Restores (C : Crypto) (cwd : Path) (output : List Char) (header : Option (List Char)) (secret content : Bytes) (q : Path) (i : Nat) (w v : World) : Prop :=
  ∃ qo j, LeadsToFile v (Cli.toPath cwd output) qo j ∧ qo ≠ q ∧ j ≠ i ∧
    match header with
    | none => FileOf C secret content (v.file j)
    | some hd => (∃ qh k, LeadsToFile w (Cli.toPath cwd hd) qh k ∧ DetachedFileOf C secret (w.file k) content (v.file j)) ∨
        ((∃ qh, LeadsToDir w (Cli.toPath cwd hd) qh) ∧ FileOf C secret content (v.file j))

/-- How many random bytes a key source takes: eight for each word of a passphrase. -/
def keyDraws : Key → Nat
  | .generate n => 8 * n.toNat
  | _ => 0

/-- The temporary file of a command that is about to start in `w`: its name is sixteen letters and digits, drawn at random after what the key source takes. -/
def tempFile {σ : Type} (s : Cli.Sys σ) (key : Key) (w : World) : PathBuf := s.tmp.push [.name ((List.range 16).map fun i => Storage.alphanumeric (w.rng (keyDraws key + i)))]

end Volaris.Spec
