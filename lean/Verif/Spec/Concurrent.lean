import Verif.Spec.Cli
import Verif.Spec.History
import Verif.Model.Cli.Argv
import Verif.Model.Cli.Steps
/-!
# Several processes at the same time

Every process has its own handles, its own input, its own random bytes, its own outcomes of system calls and its own screen; the disk is shared.  The operating system lets one process after the other make
one step (`Model/Cli/Steps.lean`), in any order, as often as it likes, and it may never come back to a process.
-/
namespace Volaris

/-- What a process sees: what is its own, and the disk. -/
def World.on (w : World) (d : Disk) : World := { w with file := d.file, nextIno := d.nextIno, dir := d.dir }

namespace Spec
open Volaris.Cli (Sys Key CryptoParams PackParams KeyManipulationParams ForceMode)
variable {σ : Type}

/-- A process: what is its own (the disk in `self` is of no importance), and the steps it still has to make. -/
structure Proc where
  self : World
  rest : Thr Cli.Error Unit

/-- A disk and the processes that use it. -/
structure Machine where
  disk : Disk
  procs : List Proc

/-- One step of process `i`; nothing happens if it has come to its end. -/
def Machine.step (m : Machine) (i : Nat) : Machine :=
  match m.procs[i]? with
  | some ⟨self, .step eff k⟩ => ⟨(eff (self.on m.disk)).disk, m.procs.set i ⟨eff (self.on m.disk), k (self.on m.disk)⟩⟩
  | _ => m

/-- The steps of the processes in the given order. -/
def Machine.run (m : Machine) : List Nat → Machine
  | [] => m
  | i :: order => (m.step i).run order

/-- A command with its arguments. -/
inductive Job where
  | encrypt (input output : List Char) (params : CryptoParams) (algorithm : Algorithm)
  | decrypt (input output : List Char) (params : CryptoParams)
  | hash (files : List (List Char))
  | erase (input : List Char) (passes : Int) (force : ForceMode)
  | pack (inputs : List (List Char)) (output : List Char) (packParams : PackParams) (params : CryptoParams) (algorithm : Algorithm)
  | unpack (input output : List Char) (verbose : Bool) (params : CryptoParams)
  | keyAdd (input : List Char) (params : KeyManipulationParams)
  | keyChange (input : List Char) (params : KeyManipulationParams)
  | keyDelete (input : List Char) (key : Key)
  | keyVerify (input : List Char) (key : Key)
  | headerDump (input output : List Char) (force : ForceMode)
  | headerRestore (input output : List Char)
  | headerStrip (input : List Char)
  | headerDetails (input : List Char)

/-- The command as one program. -/
def Job.prog (s : Sys σ) : Job → Prog Cli.Error Unit
  | .encrypt input output params algorithm => Cli.encryptMode s input output params algorithm
  | .decrypt input output params => Cli.decryptMode s input output params
  | .hash files => do
      let _ ← Cli.hashStream s files
      pure ()
  | .erase input passes force => Cli.secureErase s input passes force
  | .pack inputs output packParams params algorithm => Cli.packMode s inputs output packParams params algorithm
  | .unpack input output verbose params => Cli.unpackMode s input output verbose params
  | .keyAdd input params => Cli.keyAdd s input params
  | .keyChange input params => Cli.keyChange s input params
  | .keyDelete input key => Cli.keyDelete s input key
  | .keyVerify input key => Cli.keyVerify s input key
  | .headerDump input output force => Cli.headerDump s input output force
  | .headerRestore input output => Cli.headerRestore s input output
  | .headerStrip input => Cli.headerStrip s input
  | .headerDetails input => do
      let _ ← Cli.headerDetails s input
      pure ()

/-- The command as a sequence of steps. -/
def Job.steps (s : Sys σ) : Job → Thr Cli.Error Unit
  | .encrypt input output params algorithm => Cli.Steps.encryptMode s input output params algorithm
  | .decrypt input output params => Cli.Steps.decryptMode s input output params
  | .hash files => do
      let _ ← Cli.Steps.hashStream s files
      pure ()
  | .erase input passes force => Cli.Steps.secureErase s input passes force
  | .pack inputs output packParams params algorithm => Cli.Steps.packMode s inputs output packParams params algorithm
  | .unpack input output verbose params => Cli.Steps.unpackMode s input output verbose params
  | .keyAdd input params => Cli.Steps.keyAdd s input params
  | .keyChange input params => Cli.Steps.keyChange s input params
  | .keyDelete input key => Cli.Steps.keyDelete s input key
  | .keyVerify input key => Cli.Steps.keyVerify s input key
  | .headerDump input output force => Cli.Steps.headerDump s input output force
  | .headerRestore input output => Cli.Steps.headerRestore s input output
  | .headerStrip input => Cli.Steps.headerStrip s input
  | .headerDetails input => do
      let _ ← Cli.Steps.headerDetails s input
      pure ()

/-- The file that the key is in. -/
def keyFiles : Key → List (List Char)
  | .keyfile path => if path = ['-'] then [] else [path]
  | _ => []

/-- The files that the command line names as those to be written or erased. -/
def Job.writes : Job → List (List Char)
  | .encrypt input output params _ => output :: (params.header.toList ++ if params.erase = .ignoreFile then [] else [input])
  | .decrypt input output params => output :: if params.erase = .ignoreFile then [] else [input]
  | .hash _ => []
  | .erase input _ _ => [input]
  | .pack _ output _ params _ => output :: params.header.toList
  | .unpack .. => []
  | .keyAdd input _ => [input]
  | .keyChange input _ => [input]
  | .keyDelete input _ => [input]
  | .keyVerify .. => []
  | .headerDump _ output _ => [output]
  | .headerRestore _ output => [output]
  | .headerStrip input => [input]
  | .headerDetails _ => []

/-- The other files that the command line names. -/
def Job.reads : Job → List (List Char)
  | .encrypt input _ params _ => input :: keyFiles params.key
  | .decrypt input _ params => input :: (params.header.toList ++ keyFiles params.key)
  | .hash files => files
  | .erase .. => []
  | .pack _ _ _ params _ => keyFiles params.key
  | .unpack input _ _ params => input :: (params.header.toList ++ keyFiles params.key)
  | .keyAdd _ params => keyFiles params.keyOld ++ keyFiles params.keyNew
  | .keyChange _ params => keyFiles params.keyOld ++ keyFiles params.keyNew
  | .keyDelete _ key => keyFiles key
  | .keyVerify input key => input :: keyFiles key
  | .headerDump input _ _ => [input]
  | .headerRestore input _ => [input]
  | .headerStrip _ => []
  | .headerDetails input => [input]

/-- The directories that the command line names as those to be read with all that is in them. -/
def Job.trees : Job → List (List Char)
  | .pack inputs .. => inputs
  | _ => []

/-- Whether the directories that are read are erased in the end. -/
def Job.erasesTrees : Job → Bool
  | .pack _ _ packParams _ _ => packParams.eraseSource
  | _ => false

/-- The directory that the command line names as the one to be filled. -/
def Job.fills : Job → List (List Char)
  | .unpack _ output _ _ => [output]
  | _ => []

/-- A command that is about to start: the system it runs on, its arguments, and what is its own. -/
structure Started (σ : Type) where
  s : Sys σ
  cmd : Job
  self : World

/-- The file for the archive that packing and unpacking make, in the directory for such files; its name is made of sixteen random bytes. -/
def Started.temporary (c : Started σ) : List PathBuf :=
  match c.cmd with
  | .pack _ _ _ params _ => [c.s.tmp.push [.name ((List.range 16).map fun i => Storage.alphanumeric (c.self.rng (keyDraws params.key + i)))]]
  | .unpack _ _ _ params => [c.s.tmp.push [.name ((List.range 16).map fun i => Storage.alphanumeric (c.self.rng (keyDraws params.key + i)))]]
  | _ => []

/-- The command line names the place `q` as one to be written or erased, or the temporary file is there. -/
def Started.Writes (c : Started σ) (d : Disk) (q : Path) : Prop :=
  (∃ n, n ∈ c.cmd.writes ∧ (c.self.on d).resolve (Cli.toPath c.s.cwd n) = .ok q) ∨ ∃ p, p ∈ c.temporary ∧ (c.self.on d).resolve p = .ok q

/-- The command line names the place `q`, or it is in a directory that is to be packed, or the temporary file is there. -/
def Started.Uses (c : Started σ) (d : Disk) (q : Path) : Prop :=
  c.Writes d q ∨ (∃ n, n ∈ c.cmd.reads ∧ (c.self.on d).resolve (Cli.toPath c.s.cwd n) = .ok q) ∨
    ∃ n top, n ∈ c.cmd.trees ∧ (c.self.on d).resolve (Cli.toPath c.s.cwd n) = .ok top ∧ top <+: q

/-- The directories of all the files that the command line names are there, and so is the one for temporary files; what is to be erased is no directory; what is packed is not to be erased; and
no directory is to be filled. -/
structure Started.Fits (c : Started σ) (d : Disk) : Prop where
  leads : ∀ n, n ∈ c.cmd.writes ∨ n ∈ c.cmd.reads ∨ n ∈ c.cmd.trees → ∃ q, (c.self.on d).resolve (Cli.toPath c.s.cwd n) = .ok q
  tmp : ∀ p, p ∈ c.temporary → ∃ q, (c.self.on d).resolve p = .ok q
  file : ∀ input passes force q, c.cmd = .erase input passes force → (c.self.on d).resolve (Cli.toPath c.s.cwd input) = .ok q → lookDisk d q ≠ some .dir
  keeps : c.cmd.erasesTrees = false
  fills : c.cmd.fills = []

/-- No place that `c` writes or erases is used by `c'`, nor is it another name of a file that `c'` uses. -/
def Spares (d : Disk) (c c' : Started σ) : Prop :=
  ∀ q q', c.Writes d q → c'.Uses d q' → q ≠ q' ∧ ∀ i, lookDisk d q = some (.file i) → lookDisk d q' ≠ some (.file i)

/-- File numbers that are in use are not new. -/
def Disk.Allocated (d : Disk) : Prop := ∀ q i, lookDisk d q = some (.file i) → i < d.nextIno

/-- What is at a place: nothing, a directory, or a file with its content. -/
def contentAt (d : Disk) (q : Path) : Option (Option Bytes) :=
  match lookDisk d q with
  | none => none
  | some .dir => some none
  | some (.file i) => some (some (d.file i))

/-- The commands are about to start, on one disk. -/
def startAll (cs : List (Started σ)) (d : Disk) : Machine := ⟨d, cs.map fun c => ⟨c.self, c.cmd.steps c.s⟩⟩

/-- The same input is left, the same random bytes, the same outcomes of system calls to come, and the same is on the screen. -/
structure SameSelf (w w' : World) : Prop where
  stdin : w.stdin = w'.stdin
  tty : w.tty = w'.tty
  env : w.env = w'.env
  rng : w.rng = w'.rng
  sched : w.sched = w'.sched
  out : w.out = w'.out

/-- No command writes or erases what another one uses. -/
def Independent (d : Disk) (cs : List (Started σ)) : Prop := ∀ (i j : Nat) (c c' : Started σ), i ≠ j → cs[i]? = some c → cs[j]? = some c' → Spares d c c'

/-- The process for the command line `argv` does the work `job`, on the same screen and with the same outcome. -/
def LineIs (s : Sys σ) (argv : List (List Char)) (w : World) (job : Job) : Prop :=
  ∃ run, Cli.main s false argv = some run ∧ (run >>= fun _ => pure ()) w = job.prog s w

/-- Output and, if there is one, header file hold what decrypts with `secret` to `p`. -/
def SealedIn (C : Crypto) (cwd : Path) (output : List Char) (header : Option (List Char)) (secret p : Bytes) (v : World) : Prop :=
  ∃ qo b, v.resolve (Cli.toPath cwd output) = .ok qo ∧ contentAt v.disk qo = some (some b) ∧
    match header with
    | none => DecryptsTo C secret b p
    | some hd => ∃ qh h, v.resolve (Cli.toPath cwd hd) = .ok qh ∧ contentAt v.disk qh = some (some h) ∧ DecryptsTo C secret (h ++ b) p

/-- Process `i` has come to its end with the result `r`, and this is on its screen. -/
def Ended (m : Machine) (i : Nat) (r : Res Cli.Error Unit) (screen : List Printed) : Prop := ∃ p, m.procs[i]? = some p ∧ p.rest = .done r ∧ p.self.out = screen

/-- The output holds what was encrypted in `content`, with the header that was in the header file if there is one (and if it is a file). -/
def Unsealed (C : Crypto) (cwd : Path) (output : List Char) (header : Option (List Char)) (secret content : Bytes) (w v : World) : Prop :=
  ∃ qo b, v.resolve (Cli.toPath cwd output) = .ok qo ∧ contentAt v.disk qo = some (some b) ∧
    match header with
    | none => FileOf C secret content b
    | some hd => ∃ qh, w.resolve (Cli.toPath cwd hd) = .ok qh ∧ ((∃ h, contentAt w.disk qh = some (some h) ∧ DetachedFileOf C secret h content b) ∨ (contentAt w.disk qh = some none ∧ FileOf C secret content b))

end Spec
end Volaris
