import Verif.Model.Cli.Error
import Verif.Model.Utils
/-!
# crates/volaris-cli/src/cli/prompt.rs and the secrets of global/states.rs

One element of `World.stdin` is what one call of `read_line` returns: a line with its line break, or the last piece without one.  When nothing is left `read_line` returns the empty
string.  One element of `World.tty` is what one password prompt returns; when nothing is left the prompt fails.
-/
namespace Volaris.Cli

/-- global/states.rs:49-53 `ForceMode`. -/
inductive ForceMode where
  | forced
  | prompt
deriving DecidableEq, Repr

/-- global/states.rs:63-67 `PasswordState`. -/
inductive PasswordState where
  | validate
  | direct
deriving DecidableEq, Repr

/-- prompt.rs:31-44: what the first character of a line means: `none` is an unrecognised answer.  Simplification: lower case is that of ASCII (no other character's lower case begins with
one of those that are compared). -/
def meaning (default : Bool) (c : Char) : Option Bool :=
  if c.toLower = '\n' ∨ c.toLower = '\r' then some default
  else if c.toLower = 'y' then some true
  else if c.toLower = 'n' then some false
  else none

/-- The user's remaining lines. -/
def setStdin {ε : Type} (lines : List String) : Prog ε Unit := fun w => (.ok (), { w with stdin := lines })

/-- The user's remaining passwords. -/
def setTty {ε : Type} (entries : List Bytes) : Prog ε Unit := fun w => (.ok (), { w with tty := entries })

/-- global.rs:5-39 `info!`, `success!`, `warn!`, `question!` and `println!`: print a text.  Simplification: printing does not fail (`println!` panics when standard output is closed). -/
def say {ε : Type} (text : List Char) : Prog ε Unit := fun w => (.ok (), { w with out := ⟨w.log.length, w.stdin.length, w.tty.length, text⟩ :: w.out })

/-- prompt.rs:20-23: the question with what may be answered. -/
def questionText (prompt : List Char) (default : Bool) : List Char := "[?] ".toList ++ prompt ++ (if default then " (Y/n): ".toList else " (y/N): ".toList)

/-- prompt.rs:40-43: what is said to a line that is no answer. -/
def unrecognised : List Char := "[-] Unrecognised answer - please try again".toList

/-- prompt.rs:22-45: the loop.  The first argument is what the user will type. -/
def answerLoop (prompt : List Char) (default : Bool) : List String → Prog Error Bool
  | [] => do
      say (questionText prompt default)
      sys.mapErr fun _ => .flushStdout
      sysRetry.mapErr fun _ => .readStdin
      Prog.throw .noFirstChar
  | line :: lines => do
      say (questionText prompt default)
      sys.mapErr fun _ => .flushStdout
      sysRetry.mapErr fun _ => .readStdin
      setStdin lines
      match line.toList with
      | [] => Prog.throw .noFirstChar
      | c :: _ =>
          match meaning default c with
          | some b => pure b
          | none => do
              say unrecognised
              answerLoop prompt default lines

/-- prompt.rs:15-47 `get_answer`. -/
def getAnswer (prompt : List Char) (default : Bool) (force : ForceMode) : Prog Error Bool :=
  if force = .forced then pure true else fun w => answerLoop prompt default w.stdin w

/-- prompt.rs:64-81: the loop when the password has to be confirmed.  The first argument is what the user will type. -/
def confirmLoop : List Bytes → Prog Error Bytes
  | [] => Prog.throw .readPassword
  | [_] => do
      sysRetry.mapErr fun _ => .readPassword
      setTty []
      Prog.throw .readPassword
  | a :: b :: rest => do
      sysRetry.mapErr fun _ => .readPassword
      setTty (b :: rest)
      sysRetry.mapErr fun _ => .readPassword
      setTty rest
      if a = b ∧ a ≠ [] then pure a
      else do
        say (if a = [] then "[-] Password cannot be empty, please try again.".toList else "[-] The passwords aren't the same, please try again.".toList)
        confirmLoop rest

/-- prompt.rs:65-68: one prompt. -/
def directPassword : List Bytes → Prog Error Bytes
  | [] => Prog.throw .readPassword
  | a :: rest => do
      sysRetry.mapErr fun _ => .readPassword
      setTty rest
      pure a

/-- prompt.rs:63-82 `get_password`. -/
def getPassword (state : PasswordState) : Prog Error Bytes := fun w =>
  match state with
  | .direct => directPassword w.tty w
  | .validate => confirmLoop w.tty w

/-- global/states.rs:55-61 `Key`. -/
inductive Key where
  | keyfile (path : List Char)
  | env
  | generate (words : Int)
  | user
deriving DecidableEq, Repr

/-- The bytes of a string.  Simplification: the words of the word list are ASCII. -/
def stringBytes (s : List Char) : Bytes := s.map fun c => c.toNat.toUInt8

/-- What is left on standard input. -/
def stdinBytes (lines : List String) : Bytes := stringBytes (lines.flatMap String.toList)

/-- A path as the standard library reads it: a leading `/` makes it absolute, empty components and `.` vanish.  Simplifications: the empty string is not an argument, and a `/` at the end does not
demand a directory. -/
def toPath (cwd : Path) (s : List Char) : PathBuf :=
  { abs := s.head? = some '/', cwd, comps := ZipName.comps s }

/-- prompt.rs:55: the question before something is overwritten. -/
def overwritePrompt (name : List Char) : List Char := name ++ " already exists, would you like to overwrite?".toList

/-- prompt.rs:53-61 `overwrite_check`. -/
def overwriteCheck (cwd : Path) (name : List Char) (force : ForceMode) : Prog Error Bool := do
  if ← existsAt (toPath cwd name) then getAnswer (overwritePrompt name) true force else pure true

/-- global/states.rs:69-75 `get_bytes` on standard input. -/
def readStdin : Prog Error Bytes := fun w =>
  (do
    sysRetry.mapErr fun _ => Error.readData
    setStdin []
    pure (stdinBytes w.stdin)) w

/-- global/states.rs:92-100: a key file. -/
def readKeyfile (p : PathBuf) : Prog Error Bytes := do
  let h ← (Volaris.openFile p).mapErr fun _ => .openKeyfile
  let secret ← (readToEnd h).mapErr fun _ => .readData
  if secret = [] then Prog.throw .keyfileEmpty else pure secret

/-- global/states.rs:101-105: the environment variable. -/
def readEnv : Prog Error Bytes := fun w =>
  match w.env with
  | some v => (.ok v, w)
  | none => (.err .noEnv, w)

/-- global/states.rs:83-114: get the secret from its source. -/
def fetch (words : List (List Char)) (cwd : Path) (state : PasswordState) : Key → Prog Error Bytes
  | .keyfile path =>
      if path = ['-'] then do
        let secret ← readStdin
        if secret = [] then Prog.throw .stdinEmpty else pure secret
      else readKeyfile (toPath cwd path)
  | .env => readEnv
  | .user => getPassword state
  | .generate i => do
      let passphrase ← generatePassphrase words i
      say ("[-] Your generated passphrase is: ".toList ++ passphrase)
      pure (stringBytes passphrase)

/-- global/states.rs:82-121 `Key::get_secret`.  -/
def getSecret (words : List (List Char)) (cwd : Path) (key : Key) (state : PasswordState) : Prog Error Bytes := do
  let secret ← fetch words cwd state key
  if secret = [] then Prog.throw .keyEmpty else pure secret

end Volaris.Cli
