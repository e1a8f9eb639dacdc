import Verif.Model.Cli.Argv
/-!
# Command lines as a user writes them

Independent of the parser: which options a command has, how an option and its value are written, and what a line of options and file names means.
-/
namespace Volaris.Spec

/-- An option as the manual lists it: its long name, its letter, and whether its value has to be attached with `=`. -/
structure OptionName where
  long : String
  letter : Option Char := none
  equals : Bool := false
deriving DecidableEq

/-- The options of a command. -/
def optionsOf (command : String) : List OptionName :=
  if command = "encrypt" then [⟨"keyfile", some 'k', false⟩, ⟨"erase", none, true⟩, ⟨"hash", some 'H', false⟩, ⟨"argon", none, false⟩, ⟨"auto", none, true⟩, ⟨"header", none, false⟩, ⟨"force", some 'f', false⟩, ⟨"aes", none, false⟩]
  else if command = "decrypt" then [⟨"keyfile", some 'k', false⟩, ⟨"erase", none, true⟩, ⟨"hash", some 'H', false⟩, ⟨"header", none, false⟩, ⟨"force", some 'f', false⟩]
  else if command = "erase" then [⟨"force", some 'f', false⟩, ⟨"passes", none, true⟩]
  else if command = "pack" then [⟨"keyfile", some 'k', false⟩, ⟨"erase", none, false⟩, ⟨"hash", some 'H', false⟩, ⟨"argon", none, false⟩, ⟨"auto", none, true⟩, ⟨"header", none, false⟩, ⟨"force", some 'f', false⟩, ⟨"aes", none, false⟩, ⟨"verbose", some 'v', false⟩, ⟨"zstd", some 'z', false⟩, ⟨"recursive", some 'r', false⟩]
  else if command = "unpack" then [⟨"keyfile", some 'k', false⟩, ⟨"erase", none, true⟩, ⟨"hash", some 'H', false⟩, ⟨"header", none, false⟩, ⟨"force", some 'f', false⟩, ⟨"verbose", some 'v', false⟩]
  else []

/-- A word that does not look like an option: it does not begin with `-`, or it is `-` itself. -/
def NotOption (v : List Char) : Prop := v = ['-'] ∨ v.head? ≠ some '-'

/-- The ways to write the option `o` with the value `v`. -/
inductive Written (o : OptionName) (v : List Char) : List (List Char) → Prop
  /-- `--name=value` -/
  | attached : Written o v [('-' :: '-' :: o.long.toList) ++ '=' :: v]
  /-- `--name value` -/
  | separate : o.equals = false → NotOption v → Written o v ['-' :: '-' :: o.long.toList, v]
  /-- `-nvalue` -/
  | letter (c : Char) : o.letter = some c → v ≠ [] → v.head? ≠ some '=' → Written o v ['-' :: c :: v]
  /-- `-n=value` -/
  | letterAttached (c : Char) : o.letter = some c → Written o v ['-' :: c :: '=' :: v]
  /-- `-n value` -/
  | letterSeparate (c : Char) : o.letter = some c → o.equals = false → NotOption v → Written o v [['-', c], v]

/-- The ways to write an option without a value. -/
def Bare (o : OptionName) (t : List Char) : Prop := t = '-' :: '-' :: o.long.toList ∨ ∃ c, o.letter = some c ∧ t = ['-', c]

/-- The words of a line with the options `opts` and the file names `files`, each in this order but mixed with each other at will.  After `--`, everything is a file name. -/
inductive Words (options : List OptionName) : List (String × List Char) → List (List Char) → List (List Char) → Prop
  | nil : Words options [] [] []
  | opt {o v ws opts files rest} : o ∈ options → Written o v ws → Words options opts files rest → Words options ((o.long, v) :: opts) files (ws ++ rest)
  | file {f opts files rest} : NotOption f → Words options opts files rest → Words options opts (f :: files) (f :: rest)
  | escape {files} : Words options [] files (['-', '-'] :: files)

/-- The words of options only. -/
def OptionWords (options : List OptionName) (opts : List (String × List Char)) (words : List (List Char)) : Prop := Words options opts [] words ∧ ['-', '-'] ∉ words

/-- The letter that may stand for the name of a command. -/
def letterOf (command : String) : Option Char :=
  if command = "encrypt" then some 'e' else if command = "decrypt" then some 'd' else if command = "pack" then some 'p' else if command = "unpack" then some 'u' else none

/-- The ways to name the command in front of the words. -/
inductive Invokes (command : String) : List (List Char) → List (List Char) → Prop
  /-- `encrypt …` -/
  | name {words} : Invokes command words (command.toList :: words)
  /-- `-e …` -/
  | letter {words} (f : Char) : letterOf command = some f → Invokes command words (['-', f] :: words)
  /-- `-ef…` for `-e -f…` -/
  | fused {words} (f c : Char) (rest : List Char) : letterOf command = some f → c ≠ '-' → Invokes command (('-' :: c :: rest) :: words) (('-' :: f :: c :: rest) :: words)

/-- What the line says about the option. -/
def valueOf (opts : List (String × List Char)) (name : String) : Option (List Char) := opts.lookup name

/-- No option twice, and not both a key file and a generated passphrase. -/
structure Consistent (opts : List (String × List Char)) : Prop where
  once : (opts.map (·.1)).Nodup
  conflict : valueOf opts "keyfile" = none ∨ valueOf opts "auto" = none

/-- The number that decimal digits denote. -/
def digitsValue (ds : List Char) : Nat := ds.foldl (fun n c => 10 * n + (c.toNat - '0'.toNat)) 0

/-- `v` is a decimal number, with or without a sign, that fits into 32 bits, and its value is `n`. -/
def Numeral (v : List Char) (n : Int) : Prop :=
  ∃ ds : List Char, ds ≠ [] ∧ (∀ c ∈ ds, c.isDigit = true) ∧ (v = ds ∧ n = digitsValue ds ∨ v = '+' :: ds ∧ n = digitsValue ds ∨ v = '-' :: ds ∧ n = -(digitsValue ds : Int)) ∧
    -2147483648 ≤ n ∧ n ≤ 2147483647

/-- The number given by the option, or `d` if the option is not given or its value is not a number. -/
def NumberOr (v : Option (List Char)) (d n : Int) : Prop := (∃ x, v = some x ∧ Numeral x n) ∨ (∀ x m, v = some x → ¬ Numeral x m) ∧ n = d

/-- Where `encrypt` and `pack` take the key from: the key file that is named, or else the environment variable, or else a passphrase is made up. -/
def KeyChoice (opts : List (String × List Char)) (w : World) (key : Cli.Key) : Prop :=
  match valueOf opts "keyfile" with
  | some path => key = .keyfile path
  | none => if w.env.isSome then key = .env else ∃ n, key = .generate n ∧ NumberOr (valueOf opts "auto") 7 n

/-- Where `decrypt` takes the key from: the key file that is named, or else the environment variable, or else the user. -/
def OpenKeyChoice (opts : List (String × List Char)) (w : World) (key : Cli.Key) : Prop :=
  match valueOf opts "keyfile" with
  | some path => key = .keyfile path
  | none => if w.env.isSome then key = .env else key = .user

/-- What the options of `encrypt`, `decrypt` and `pack` say beside the key and erasing. -/
structure Selects (opts : List (String × List Char)) (params : Cli.CryptoParams) : Prop where
  hash : params.hashMode = if (valueOf opts "hash").isSome then .calculateHash else .noHash
  force : params.force = if (valueOf opts "force").isSome then .forced else .prompt
  header : params.header = valueOf opts "header"
  argon : params.hashingAlgorithm = if (valueOf opts "argon").isSome then .argon2id 3 else .blake3Balloon 5

/-- The algorithm that the options ask for. -/
def algorithmOf (opts : List (String × List Char)) : Algorithm := if (valueOf opts "aes").isSome then .aes256Gcm else .xChaCha20Poly1305

end Volaris.Spec
