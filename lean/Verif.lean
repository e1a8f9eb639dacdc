import Verif.Base
import Verif.Model.Primitives
import Verif.Model.Header
import Verif.Model.Crypto
import Verif.Model.Stream
import Verif.Model.Tools.Encrypt
import Verif.Model.Tools.Decrypt
import Verif.Model.Tools.Key
import Verif.Model.Tools.HeaderOps
import Verif.Model.Tools.Hash
import Verif.Model.Tools.Overwrite
import Verif.Proofs.Basic
import Verif.Spec.Header
import Verif.Proofs.Header
import Verif.Spec.Example
import Verif.Props.Header
import Verif.Spec.Stream
import Verif.Spec.Toy
import Verif.Proofs.Stream
import Verif.Props.Stream
import Verif.Spec.Frame
import Verif.Spec.Files
import Verif.Proofs.Frame
import Verif.Proofs.Sched
import Verif.Proofs.Keys
import Verif.Proofs.Decrypt
import Verif.Proofs.Encrypt
import Verif.Spec.Behaviour
import Verif.Proofs.EndToEnd
import Verif.Props.EndToEnd
import Verif.Spec.KeyFiles
import Verif.Proofs.KeyOps
import Verif.Proofs.KeyFiles
import Verif.Proofs.KeyHistory
import Verif.Proofs.KeyFaults
import Verif.Props.Keys
import Verif.Spec.Torn
import Verif.Proofs.Torn
import Verif.Props.Torn
import Verif.Spec.HeaderOps
import Verif.Proofs.HeaderOps
import Verif.Props.HeaderOps
import Verif.Spec.Tools
import Verif.Spec.Log
import Verif.Proofs.Log
import Verif.Proofs.Tools
import Verif.Props.Tools
import Verif.Fs
import Verif.Model.Tools.Storage
import Verif.Model.Tools.Erase
import Verif.Model.Utils
import Verif.Proofs.Fs
import Verif.Proofs.Thread
import Verif.Proofs.Erase
import Verif.Spec.Storage
import Verif.Spec.Disk
import Verif.Proofs.TreeOk
import Verif.Proofs.EraseDir
import Verif.Props.Erase
import Verif.Spec.Utils
import Verif.Proofs.Utils
import Verif.Props.Utils
import Verif.Model.Zip
import Verif.Model.Tools.Pack
import Verif.Model.Tools.Unpack
import Verif.Proofs.Mkdir
import Verif.Proofs.Shrinks
import Verif.Spec.Unpack
import Verif.Spec.ZipToy
import Verif.Proofs.Unpack
import Verif.Props.Unpack
import Verif.Proofs.Temp
import Verif.Spec.Pack
import Verif.Proofs.Pack
import Verif.Props.Pack
import Verif.Spec.RoundTrip
import Verif.Proofs.ZipName
import Verif.Proofs.RoundTrip
import Verif.Props.RoundTrip
import Verif.Model.Cli.Error
import Verif.Model.Cli.Prompt
import Verif.Model.Cli.Args
import Verif.Model.Cli.Commands
import Verif.Spec.Cli
import Verif.Proofs.Prompt
import Verif.Proofs.Looks
import Verif.Proofs.Secret
import Verif.Proofs.Args
import Verif.Proofs.Stages
import Verif.Proofs.EncryptCmd
import Verif.Proofs.EraseStage
import Verif.Proofs.DecryptCmd
import Verif.Props.Cli
import Verif.Spec.Fresh
import Verif.Proofs.Fresh
import Verif.Props.Fresh
import Verif.Spec.Commands
import Verif.Proofs.Commands
import Verif.Proofs.KeyCmd
import Verif.Props.Commands
import Verif.Proofs.HeaderCmd
import Verif.Props.HeaderCmd
import Verif.Proofs.EraseCmd
import Verif.Props.EraseCmd
import Verif.Spec.PackCmd
import Verif.Proofs.Prunes
import Verif.Proofs.EraseInputs
import Verif.Proofs.PackFaults
import Verif.Proofs.Trees
import Verif.Proofs.Listing
import Verif.Proofs.PackCmd
import Verif.Props.PackCmd
import Verif.Proofs.CmdOk
import Verif.Props.CmdRoundTrip
import Verif.Proofs.UnpackCmd
import Verif.Props.UnpackCmd
import Verif.Proofs.Draws
import Verif.Proofs.TreeCmd
import Verif.Props.TreeCmd
import Verif.Spec.Crash
import Verif.Proofs.Crash
import Verif.Proofs.CrashCmd
import Verif.Proofs.CrashSafe
import Verif.Props.Crash
import Verif.Props.CrashKeys
import Verif.Props.CommandLine
import Verif.Proofs.Session
import Verif.Props.Session
import Verif.Proofs.PowerLoss
import Verif.Props.PowerLoss
import Verif.Spec.History
import Verif.Proofs.Names
import Verif.Proofs.History
import Verif.Props.History
import Verif.Spec.NoLoss
import Verif.Proofs.NoLoss
import Verif.Props.NoLoss
import Verif.Spec.Secrecy
import Verif.Proofs.Both
import Verif.Proofs.BothFs
import Verif.Proofs.BothTools
import Verif.Proofs.BothDir
import Verif.Proofs.BothCli
import Verif.Proofs.BothLine
import Verif.Proofs.Secrecy
import Verif.Props.Secrecy
import Verif.Spec.Secrecy
import Verif.Proofs.Secrecy
import Verif.Props.Secrecy
import Verif.Spec.Secrecy
import Verif.Proofs.Secrecy
import Verif.Props.Secrecy
import Verif.Spec.Shown
import Verif.Proofs.Shown
import Verif.Props.Shown
import Verif.Spec.Asked
import Verif.Proofs.Asked
import Verif.Props.Asked
import Verif.Proofs.Printed
import Verif.Spec.Announced
import Verif.Proofs.Announced
import Verif.Props.Announced
import Verif.Spec.Forgery
import Verif.Proofs.Forgery
import Verif.Props.Forgery
import Verif.Spec.Ends
import Verif.Proofs.Ends
import Verif.Proofs.EndsLine
import Verif.Props.Ends
import Verif.Spec.Screen
import Verif.Proofs.Screen
import Verif.Props.Screen
import Verif.Spec.ScreenUnpack
import Verif.Proofs.ScreenUnpack
import Verif.Props.ScreenUnpack
import Verif.Spec.ScreenRest
import Verif.Proofs.ScreenRest
import Verif.Props.ScreenRest
import Verif.Spec.Retry
import Verif.Proofs.Retry
import Verif.Props.Retry
import Verif.Proofs.RetryPack
import Verif.Props.RetryPack
import Verif.Spec.PackSession
import Verif.Proofs.PackSession
import Verif.Props.PackSession
import Verif.Spec.Status
import Verif.Proofs.Status
import Verif.Props.Status
import Verif.Model.Cli.Steps
import Verif.Proofs.Steps
import Verif.Spec.Concurrent
import Verif.Proofs.Concurrent
import Verif.Proofs.ConcPrims
import Verif.Proofs.ConcCmd
import Verif.Proofs.ConcPack
import Verif.Proofs.ConcMachine
import Verif.Props.Concurrent
import Verif.Proofs.ConcKeys
import Verif.Spec.ConcKeys
import Verif.Proofs.ConcKeyOps
import Verif.Proofs.ConcKeyMachine
import Verif.Props.ConcKeys
import Verif.Spec.ConcLook
import Verif.Proofs.ConcLook
import Verif.Proofs.ConcLookMachine
import Verif.Props.ConcLook
import Verif.Spec.EraseRetry
import Verif.Proofs.EraseRetry
import Verif.Props.EraseRetry
import Verif.Spec.Disturbed
import Verif.Proofs.Disturbed
import Verif.Proofs.DisturbedCmd
import Verif.Proofs.DisturbedThreads
import Verif.Proofs.DisturbedErase
import Verif.Proofs.DisturbedPack
import Verif.Proofs.DisturbedUnpack
import Verif.Props.Disturbed
import Verif.Spec.DisturbedDecrypt
import Verif.Proofs.DisturbedDecrypt
import Verif.Props.DisturbedDecrypt
import Verif.Spec.DisturbedEncrypt
import Verif.Proofs.Observed
import Verif.Proofs.DisturbedEncrypt
import Verif.Props.DisturbedEncrypt
import Verif.Spec.Together
import Verif.Proofs.Together
import Verif.Props.Together
import Verif.Spec.TogetherDecrypt
import Verif.Proofs.TogetherDecrypt
import Verif.Props.TogetherDecrypt
import Verif.Spec.TogetherPack
import Verif.Proofs.ObservedPack
import Verif.Proofs.TogetherPack
import Verif.Props.TogetherPack
import Verif.Spec.UnpackOver
import Verif.Proofs.UnpackOver
import Verif.Props.UnpackOver
import Verif.Proofs.RetryUnpack
import Verif.Proofs.UnpackAgain
import Verif.Props.UnpackAgain
import Verif.Audit
