import Verif.Model.Tools.Erase
import Verif.Model.Tools.Hash
import Verif.Model.Tools.HeaderOps
import Verif.Model.Tools.Key
import Verif.Model.Tools.Pack
import Verif.Model.Tools.Unpack
import Verif.Model.Tools.Decrypt
/-!
# crates/volaris-cli: the `anyhow` errors

Every place where the command line tool makes or passes on an error has a constructor of its own.
-/
namespace Volaris.Cli

/-- The identifiers of the arguments that cli.rs and the code that reads the arguments mention. -/
inductive Id where
  | input | output | keyfile | erase | hash | argon | autogenerate | header | force | aes | passes | verbose | zstd | recursive
  | keyfileOld | keyfileNew
deriving DecidableEq, Repr

/-- The errors with which a command ends. -/
inductive Error where
  | noValue (id : Id)
  | noKeySource
  | flushStdout
  | readStdin
  | noFirstChar
  | readPassword
  | openKeyfile
  | readData
  | stdinEmpty
  | keyfileEmpty
  | noEnv
  | keyEmpty
  | sameName
  | inputIsFile
  | openFile
  | rewind
  | invalidHeader
  | notV5
  | storage (e : Storage.Error)
  | encrypt (e : Encrypt.Error)
  | decrypt (e : Decrypt.Error)
  | erase (e : Erase.Error)
  | eraseDir (e : EraseDir.Error)
  | hash (e : HashCmd.Error)
  | pack (e : Pack.Error)
  | unpack (e : Unpack.Error)
  | headerOp (e : HeaderOps.Error)
  | headerParse (e : HdrErr)
  | key (e : KeyOps.Error)
deriving DecidableEq, Repr

end Volaris.Cli
