import Verif.Model.Cli.Commands
/-!
# crates/volaris-cli/src/main.rs, and how clap reads the command line

The words after the program name are Unicode strings; a word that is not valid Unicode ends the program in the parser.  The parser is that of clap_builder 4.5.15 (`Parser::get_matches_with`,
`parse_long_arg`, `parse_short_arg`, `parse_opt_value`, `Validator::validate`) for what cli.rs declares: no argument without a value, no inference of abbreviated names, no hyphen values, no
value delimiters.  Where the parser prints help, the version or a usage error and ends the program, the model says `none`; what it prints and the exit code (0 or 2) are not modelled.
-/
namespace Volaris.Cli

/-- `clap::Command`, as far as the subcommands differ. -/
structure Command where
  name : List Char
  flag : Option Char := none
  args : List Arg

/-- cli.rs:124-309: the subcommands of `volaris`.  There is none called `header` or `key`, and none of them has subcommands. -/
def commands : List Command :=
  [{ name := ['e', 'n', 'c', 'r', 'y', 'p', 't'], flag := some 'e', args := encryptArgs },
   { name := ['d', 'e', 'c', 'r', 'y', 'p', 't'], flag := some 'd', args := decryptArgs },
   { name := ['e', 'r', 'a', 's', 'e'], args := eraseArgs },
   { name := ['h', 'a', 's', 'h'], args := hashArgs },
   { name := ['p', 'a', 'c', 'k'], flag := some 'p', args := packArgs },
   { name := ['u', 'n', 'p', 'a', 'c', 'k'], flag := some 'u', args := unpackArgs }]

namespace Argv

/-- What a word looks like (clap_lex `is_escape`, `to_long`, `to_short`). -/
inductive Shape where
  | escape
  | long (name : List Char) (value : Option (List Char))
  | short (c : Char) (rest : List Char)
  | word
deriving DecidableEq, Repr

/-- The part before the first `=` and the part after it, if there is one. -/
def splitEq : List Char → List Char × Option (List Char)
  | [] => ([], none)
  | c :: cs => if c = '=' then ([], some cs) else ((c :: (splitEq cs).1), (splitEq cs).2)

/-- clap_lex 0.7.2 `ParsedArg`: a single `-` is an ordinary word. -/
def shape : List Char → Shape
  | ['-', '-'] => .escape
  | '-' :: '-' :: cs => .long (splitEq cs).1 (splitEq cs).2
  | '-' :: c :: cs => .short c cs
  | _ => .word

/-- clap_builder `Parser::is_new_arg`, for an argument without hyphen values. -/
def newArg (t : List Char) : Bool :=
  match shape t with
  | .long _ _ => true
  | .short _ _ => true
  | _ => false

/-- The state of the parser: the values found so far, the option that waits for its value, the index of the next positional argument and whether `--` was seen. -/
structure State where
  given : List (Id × List (List Char)) := []
  want : Option Id := none
  pos : Nat := 0
  trailing : Bool := false

/-- clap_builder `Parser::react`: a second value is an error (`ArgAction::Set`), or is appended (`ArgAction::Append`, which is the action of a positional argument with `num_args(1..)`). -/
def record (given : List (Id × List (List Char))) (id : Id) (multiple : Bool) (v : List Char) : Option (List (Id × List (List Char))) :=
  match given.find? (·.1 = id) with
  | none => some (given ++ [(id, [v])])
  | some _ => if multiple then some (given.map fun g => if g.1 = id then (g.1, g.2 ++ [v]) else g) else none

/-- The positional arguments of a command. -/
def positionals (args : List Arg) : List Arg := args.filter fun a => a.long.isNone && a.short.isNone

/-- clap_builder `parse_opt_value`, for an option that was found by its name; `v` is the value attached to it. -/
def option (st : State) (a : Arg) (v : Option (List Char)) : Option State :=
  if st.want.isSome then none
  else
    match v with
    | some v => (record st.given a.id false v).map fun g => { st with given := g }
    | none => if a.equals then none else some { st with want := some a.id }

/-- clap_builder `parse_long_arg`.  `--help` is found but ends the program like an unknown name. -/
def longOption (args : List Arg) (st : State) (name : List Char) (v : Option (List Char)) : Option State :=
  match args.find? (·.long = some name) with
  | none => none
  | some a => option st a v

/-- clap_builder `parse_short_arg`: the value in the same word as the letter. -/
def attached : List Char → Option (List Char)
  | [] => none
  | '=' :: v => some v
  | v => some v

/-- clap_builder `parse_short_arg`: since every option takes a value, what follows the first letter is the value, without a leading `=`. -/
def shortOption (args : List Arg) (st : State) (c : Char) (rest : List Char) : Option State :=
  match args.find? (·.short = some c) with
  | none => none
  | some a => option st a (attached rest)

/-- clap_builder `get_matches_with`, the positional arguments: if the last but one takes several values, then the word before an option or before the end is for the last one. -/
def positional (args : List Arg) (st : State) (t : List Char) (next : Option (List Char)) : Option State :=
  let ps := positionals args
  let low := st.pos + 2 = ps.length && (ps.take (ps.length - 1)).any (·.multiple)
  let skip := low && (match next with
    | none => true
    | some n => newArg n)
  let i := if skip then st.pos + 1 else st.pos
  if st.want.isSome then none
  else
    match ps[i]? with
    | none => none
    | some a => (record st.given a.id a.multiple t).map fun g => { st with given := g, pos := if a.multiple then i else i + 1 }

/-- clap_builder `get_matches_with`, one word. -/
def step (args : List Arg) (st : State) (t : List Char) (next : Option (List Char)) : Option State :=
  if st.trailing then positional args st t next
  else
    match shape t with
    | .escape => some { st with trailing := true }
    | .long name v => longOption args st name v
    | .short c rest => shortOption args st c rest
    | .word =>
        match st.want with
        | some id => (record st.given id false t).map fun g => { st with given := g, want := none }
        | none => positional args st t next

/-- clap_builder `get_matches_with`, all words; an option that still waits for its value is an error. -/
def run (args : List Arg) : State → List (List Char) → Option State
  | st, [] => if st.want.isSome then none else some st
  | st, t :: ts =>
      match step args st t ts.head? with
      | none => none
      | some st' => run args st' ts

/-- clap_builder `Parser::parse_subcommand` and `Validator::validate`. -/
def finish (c : Command) (debug : Bool) (st : Option State) : Option (List Char × Matches) :=
  match st with
  | none => none
  | some st =>
      let m : Matches := { args := c.args, given := st.given, debug }
      if m.accepted then some (c.name, m) else none

/-- cli.rs:6-310 `get_matches`: the name of the subcommand and its matches.  A flag such as `-e` may be followed by the letter of an option in the same word.  The subcommand `help` and the options of
`volaris` itself, `--help` and `--version`, end the program in the parser. -/
def getMatches (debug : Bool) : List (List Char) → Option (List Char × Matches)
  | [] => none
  | t :: ts =>
      match shape t with
      | .word =>
          match commands.find? (·.name = t) with
          | none => none
          | some c => finish c debug (run c.args {} ts)
      | .short f rest =>
          match commands.find? (·.flag = some f) with
          | none => none
          | some c =>
              match rest with
              | [] => finish c debug (run c.args {} ts)
              | o :: rest => finish c debug ((shortOption c.args {} o rest).bind fun st => run c.args st ts)
      | _ => none

end Argv

/-- main.rs:14-70 `main`, after the parser.  `sub`: the name of the subcommand of the subcommand and its matches.  The result is what is printed to standard output by `hash` and `header details`. -/
def dispatch (s : Sys σ) (name : List Char) (m : Matches) (sub : Option (List Char × Matches)) : Prog Error (List String) :=
  if name = ['e', 'n', 'c', 'r', 'y', 'p', 't'] then do encrypt s m; pure []
  else if name = ['d', 'e', 'c', 'r', 'y', 'p', 't'] then do decrypt s m; pure []
  else if name = ['e', 'r', 'a', 's', 'e'] then do erase s m; pure []
  else if name = ['p', 'a', 'c', 'k'] then do pack s m; pure []
  else if name = ['u', 'n', 'p', 'a', 'c', 'k'] then do unpack s m; pure []
  else if name = ['h', 'a', 's', 'h'] then hash s m
  else if name = ['h', 'e', 'a', 'd', 'e', 'r'] then
    match sub with
    | none => pure []
    | some (inner, m) =>
        if inner = ['d', 'u', 'm', 'p'] then do headerDumpCmd s m; pure []
        else if inner = ['r', 'e', 's', 't', 'o', 'r', 'e'] then do headerRestoreCmd s m; pure []
        else if inner = ['s', 't', 'r', 'i', 'p'] then do headerStripCmd s m; pure []
        else if inner = ['d', 'e', 't', 'a', 'i', 'l', 's'] then headerDetailsCmd s m
        else pure []
  else if name = ['k', 'e', 'y'] then
    match sub with
    | none => pure []
    | some (inner, m) =>
        if inner = ['c', 'h', 'a', 'n', 'g', 'e'] then do keyChangeCmd s m; pure []
        else if inner = ['a', 'd', 'd'] then do keyAddCmd s m; pure []
        else if inner = ['d', 'e', 'l'] then do keyDelCmd s m; pure []
        else if inner = ['v', 'e', 'r', 'i', 'f', 'y'] then do keyVerifyCmd s m; pure []
        else pure []
  else pure []

/-- main.rs:14-70 `main`, for the words after the program name.  `none`: the parser ended the program. -/
def main (s : Sys σ) (debug : Bool) (argv : List (List Char)) : Option (Prog Error (List String)) :=
  (Argv.getMatches debug argv).map fun (name, m) => dispatch s name m none

end Volaris.Cli
