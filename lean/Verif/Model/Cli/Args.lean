import Verif.Model.Cli.Prompt
/-!
# crates/volaris-cli/src/cli.rs, global/parameters.rs, global/structs.rs and `Key::init` of global/states.rs

The clap 4.5 library is modelled as far as the code uses it: an argument has a value if it was given or has a default value; `contains_id` is about having a value, so it is always true
for an argument with a default value; asking for an identifier that the command does not define gives nothing in a release build and panics in a debug build.  `Matches.given` is what the parser
found; the parser itself is in Argv.lean.
-/
namespace Volaris.Cli

/-- `clap::Arg`, as far as the commands differ.  An argument without a long and a short name is positional.  `equals`: `require_equals`; `multiple`: `num_args(1..)`. -/
structure Arg where
  id : Id
  required : Bool := false
  default : Option (List Char) := none
  conflicts : List Id := []
  long : Option (List Char) := none
  short : Option Char := none
  equals : Bool := false
  multiple : Bool := false
deriving DecidableEq, Repr

/-- cli.rs:7-73: the arguments of `encrypt`.  None of them has an action other than `Set`, so each takes a value. -/
def encryptArgs : List Arg :=
  [{ id := .input, required := true }, { id := .output, required := true },
   { id := .keyfile, short := some 'k', long := some ['k', 'e', 'y', 'f', 'i', 'l', 'e'] },
   { id := .erase, long := some ['e', 'r', 'a', 's', 'e'], equals := true, default := some ['1'] },
   { id := .hash, short := some 'H', long := some ['h', 'a', 's', 'h'] },
   { id := .argon, long := some ['a', 'r', 'g', 'o', 'n'] },
   { id := .autogenerate, long := some ['a', 'u', 't', 'o'], equals := true, default := some ['7'], conflicts := [.keyfile] },
   { id := .header, long := some ['h', 'e', 'a', 'd', 'e', 'r'] },
   { id := .force, short := some 'f', long := some ['f', 'o', 'r', 'c', 'e'] },
   { id := .aes, long := some ['a', 'e', 's'] }]

/-- cli.rs:75-122: the arguments of `decrypt`. -/
def decryptArgs : List Arg :=
  [{ id := .input, required := true }, { id := .output, required := true },
   { id := .keyfile, short := some 'k', long := some ['k', 'e', 'y', 'f', 'i', 'l', 'e'] },
   { id := .header, long := some ['h', 'e', 'a', 'd', 'e', 'r'] },
   { id := .erase, long := some ['e', 'r', 'a', 's', 'e'], equals := true, default := some ['1'] },
   { id := .hash, short := some 'H', long := some ['h', 'a', 's', 'h'] },
   { id := .force, short := some 'f', long := some ['f', 'o', 'r', 'c', 'e'] }]

/-- cli.rs:132-155: the arguments of `erase`. -/
def eraseArgs : List Arg :=
  [{ id := .input, required := true },
   { id := .force, short := some 'f', long := some ['f', 'o', 'r', 'c', 'e'] },
   { id := .passes, long := some ['p', 'a', 's', 's', 'e', 's'], equals := true, default := some ['1'] }]

/-- cli.rs:156-166: the arguments of `hash`. -/
def hashArgs : List Arg := [{ id := .input, required := true, multiple := true }]

/-- cli.rs:167-251: the arguments of `pack`. -/
def packArgs : List Arg :=
  [{ id := .input, required := true, multiple := true }, { id := .output, required := true },
   { id := .erase, long := some ['e', 'r', 'a', 's', 'e'] },
   { id := .argon, long := some ['a', 'r', 'g', 'o', 'n'] },
   { id := .verbose, short := some 'v', long := some ['v', 'e', 'r', 'b', 'o', 's', 'e'] },
   { id := .autogenerate, long := some ['a', 'u', 't', 'o'], equals := true, default := some ['7'], conflicts := [.keyfile] },
   { id := .header, long := some ['h', 'e', 'a', 'd', 'e', 'r'] },
   { id := .zstd, short := some 'z', long := some ['z', 's', 't', 'd'] },
   { id := .recursive, short := some 'r', long := some ['r', 'e', 'c', 'u', 'r', 's', 'i', 'v', 'e'] },
   { id := .keyfile, short := some 'k', long := some ['k', 'e', 'y', 'f', 'i', 'l', 'e'] },
   { id := .hash, short := some 'H', long := some ['h', 'a', 's', 'h'] },
   { id := .force, short := some 'f', long := some ['f', 'o', 'r', 'c', 'e'] },
   { id := .aes, long := some ['a', 'e', 's'] }]

/-- cli.rs:252-307: the arguments of `unpack`. -/
def unpackArgs : List Arg :=
  [{ id := .input, required := true }, { id := .output, required := true },
   { id := .keyfile, short := some 'k', long := some ['k', 'e', 'y', 'f', 'i', 'l', 'e'] },
   { id := .header, long := some ['h', 'e', 'a', 'd', 'e', 'r'] },
   { id := .erase, long := some ['e', 'r', 'a', 's', 'e'], equals := true, default := some ['1'] },
   { id := .verbose, short := some 'v', long := some ['v', 'e', 'r', 'b', 'o', 's', 'e'] },
   { id := .hash, short := some 'H', long := some ['h', 'a', 's', 'h'] },
   { id := .force, short := some 'f', long := some ['f', 'o', 'r', 'c', 'e'] }]

/-- `clap::ArgMatches`: the arguments of the command, what was given for them, and whether the program was built with debug assertions. -/
structure Matches where
  args : List Arg
  given : List (Id × List (List Char))
  debug : Bool := false

namespace Matches

/-- Whether the command has such an argument. -/
def defines (m : Matches) (id : Id) : Bool := m.args.any (·.id = id)

/-- What was given for an argument. -/
def explicit (m : Matches) (id : Id) : Option (List (List Char)) := (m.given.find? (·.1 = id)).map (·.2)

/-- The default of an argument. -/
def default (m : Matches) (id : Id) : Option (List Char) := (m.args.find? (·.id = id)).bind (·.default)

/-- The values of an argument. -/
def values (m : Matches) (id : Id) : Option (List (List Char)) :=
  if m.defines id then
    match m.explicit id with
    | some vs => some vs
    | none => (m.default id).map fun v => [v]
  else none

/-- What the parser checks before it returns: only defined arguments, each with at least one value; all required ones; none that excludes another one that was given. -/
def accepted (m : Matches) : Bool :=
  m.given.all (fun g => m.defines g.1 && !g.2.isEmpty)
    && m.args.all (fun a => (!a.required || (m.explicit a.id).isSome)
        && ((m.explicit a.id).isNone || a.conflicts.all fun c => (m.explicit c).isNone))

end Matches

/-- Access to an argument: an identifier that the command does not define is a panic in a debug build. -/
def getMany {ε : Type} (m : Matches) (id : Id) : Prog ε (Option (List (List Char))) :=
  if m.debug && !m.defines id then Prog.panic else pure (m.values id)

/-- `ArgMatches::contains_id`. -/
def containsId {ε : Type} (m : Matches) (id : Id) : Prog ε Bool := do
  let vs ← getMany m id
  pure vs.isSome

/-- `ArgMatches::get_one::<String>`. -/
def getOne {ε : Type} (m : Matches) (id : Id) : Prog ε (Option (List Char)) := do
  let vs ← getMany m id
  pure (vs.bind List.head?)

/-- `ArgMatches::get_flag` on an argument whose action is not `SetTrue` or `SetFalse`: panics whether or not the argument has a value. -/
def getFlagOfValue {ε : Type} (_m : Matches) (_id : Id) : Prog ε Bool := Prog.panic

/-- The value of decimal digits. -/
def parseDigits : List Char → Nat → Option Nat
  | [], acc => some acc
  | c :: cs, acc => if c.isDigit then parseDigits cs (acc * 10 + (c.toNat - '0'.toNat)) else none

/-- `str::parse::<i32>`. -/
def parseI32 (s : List Char) : Option Int :=
  let (neg, ds) := match s with
    | '-' :: ds => (true, ds)
    | '+' :: ds => (false, ds)
    | ds => (false, ds)
  if ds = [] then none
  else
    match parseDigits ds 0 with
    | none => none
    | some n =>
        let v : Int := if neg then -n else n
        if -2147483648 ≤ v ∧ v ≤ 2147483647 then some v else none

/-- global/parameters.rs:13-20 `get_params`. -/
def getParams (m : Matches) (id : Id) : Prog Error (List (List Char)) := do
  match ← getMany m id with
  | some vs => pure vs
  | none => Prog.throw (.noValue id)

/-- global/parameters.rs:22-28 `get_param`. -/
def getParam (m : Matches) (id : Id) : Prog Error (List Char) := do
  match ← getOne m id with
  | some v => pure v
  | none => Prog.throw (.noValue id)

/-- global/states.rs:160-165 `KeyParams`. -/
structure KeyParams where
  user : Bool := true
  env : Bool := true
  autogenerate : Bool := true
  keyfile : Bool := true

/-- `std::env::var("VOLARIS_KEY").is_ok()`. -/
def envSet {ε : Type} : Prog ε Bool := fun w => (.ok w.env.isSome, w)

/-- global/states.rs:137-147: the number of words. -/
def initGenerate (m : Matches) : Prog Error Key := do
  let v ← getParam m .autogenerate
  pure (.generate ((parseI32 v).getD 7))

/-- global/states.rs:128-157 `Key::init`, from the environment variable on. -/
def initOther (m : Matches) (params : KeyParams) : Prog Error Key := do
  if (← envSet) && params.env then pure .env
  else if (← containsId m .autogenerate) && params.autogenerate then initGenerate m
  else if params.user then pure .user
  else Prog.throw .noKeySource

/-- global/states.rs:123-157 `Key::init`. -/
def Key.init (m : Matches) (params : KeyParams) (descriptor : Id) : Prog Error Key := do
  if (← containsId m descriptor) && params.keyfile then
    let path ← getParam m descriptor
    pure (.keyfile path)
  else initOther m params

/-- global/states.rs:43-47 `HashMode`. -/
inductive HashMode where
  | calculateHash
  | noHash
deriving DecidableEq, Repr

/-- global/states.rs:37-41 `EraseMode`. -/
inductive EraseMode where
  | eraseFile (passes : Int)
  | ignoreFile
deriving DecidableEq, Repr

/-- global/structs.rs:9-16 `CryptoParams`; `header` is `HeaderLocation` (states.rs:32-35). -/
structure CryptoParams where
  hashMode : HashMode
  force : ForceMode
  erase : EraseMode
  key : Key
  header : Option (List Char)
  hashingAlgorithm : HashingAlgorithm
deriving DecidableEq, Repr

/-- global/structs.rs:18-23 `PackParams`.  `recursive`, `verbose` and the compression are not used by anything that is modelled. -/
structure PackParams where
  eraseSource : Bool
deriving DecidableEq, Repr

/-- global/structs.rs:25-29 `KeyManipulationParams`. -/
structure KeyManipulationParams where
  keyOld : Key
  keyNew : Key
  hashingAlgorithm : HashingAlgorithm
deriving DecidableEq, Repr

/-- global/parameters.rs:177-183 `forcemode`. -/
def forcemode (m : Matches) : Prog Error ForceMode := do
  pure (if ← containsId m .force then .forced else .prompt)

/-- global/parameters.rs:75-81 `hashing_algorithm`. -/
def hashingAlgorithm (m : Matches) : Prog Error HashingAlgorithm := do
  pure (if ← containsId m .argon then .argon2id ARGON2ID_LATEST else .blake3Balloon BLAKE3BALLOON_LATEST)

/-- global/parameters.rs:83-89 `algorithm`. -/
def algorithm (m : Matches) : Prog Error Algorithm := do
  pure (if ← containsId m .aes then .aes256Gcm else .xChaCha20Poly1305)

/-- global/parameters.rs:33-37 and 116-120. -/
def hashmode (m : Matches) : Prog Error HashMode := do
  pure (if ← containsId m .hash then .calculateHash else .noHash)

/-- global/parameters.rs:41-55. -/
def erasemode (m : Matches) : Prog Error EraseMode := do
  if ← containsId m .erase then
    let v ← getParam m .erase
    pure (.eraseFile ((parseI32 v).getD 1))
  else pure .ignoreFile

/-- global/parameters.rs:30-73 `parameter_handler`. -/
def parameterHandler (m : Matches) : Prog Error CryptoParams := do
  let key ← Key.init m {} .keyfile
  let hashMode ← hashmode m
  let force ← forcemode m
  let erase ← erasemode m
  let header ← getOne m .header
  let hashingAlgorithm ← hashingAlgorithm m
  pure { hashMode, force, erase, key, header, hashingAlgorithm }

/-- global/parameters.rs:91-111 `erase_params`. -/
def eraseParams (m : Matches) : Prog Error (Int × ForceMode) := do
  let passes ← (do
    if ← containsId m .passes then
      let v ← getParam m .passes
      pure ((parseI32 v).getD 1)
    else pure 1)
  let force ← forcemode m
  pure (passes, force)

/-- global/parameters.rs:113-175 `pack_params`. -/
def packParams (m : Matches) : Prog Error (CryptoParams × PackParams) := do
  let key ← Key.init m {} .keyfile
  let hashMode ← hashmode m
  let force ← forcemode m
  let header ← getOne m .header
  let hashingAlgorithm ← hashingAlgorithm m
  let _ ← containsId m .verbose
  let _ ← containsId m .recursive
  let eraseSource ← containsId m .erase
  let _ ← containsId m .zstd
  pure ({ hashMode, force, erase := .ignoreFile, key, header, hashingAlgorithm }, { eraseSource })

/-- global/parameters.rs:185-215 `key_manipulation_params`. -/
def keyManipulationParams (m : Matches) : Prog Error KeyManipulationParams := do
  let keyOld ← Key.init m { env := false, autogenerate := false } .keyfileOld
  let keyNew ← Key.init m { env := false } .keyfileNew
  let hashingAlgorithm ← hashingAlgorithm m
  pure { keyOld, keyNew, hashingAlgorithm }

end Volaris.Cli
