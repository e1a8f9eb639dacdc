import Verif.Spec.History
import Verif.Spec.CommandLine
import Verif.Spec.Cli
/-!
# Vocabulary for histories that lose nothing
-/
namespace Volaris.Spec
variable {σ : Type}

/-- From `x` one gets to `p` by decrypting with the secret and taking files out of archives, as often as necessary (also not at all).  (What can be decrypted with the secret is decrypted, and not taken for an archive.) -/
inductive Unwraps (C : Crypto) (z : Zip) (secret : Bytes) : Bytes → Bytes → Prop
  | plain (p : Bytes) : Unwraps C z secret p p
  | layer {x y p : Bytes} (h : DecryptsTo C secret x y) (hy : Unwraps C z secret y p) : Unwraps C z secret x p
  | member {x p : Bytes} {ms : List ZipMember} {m : ZipMember} (hx : ∀ y, ¬ DecryptsTo C secret x y) (ha : z.decode x = some ms) (hm : m ∈ ms) (ho : m.opens = true) (hs : m.sound = true)
      (hy : Unwraps C z secret m.content p) : Unwraps C z secret x p

/-- The file at `q` holds `p`, perhaps encrypted with the secret, perhaps in an archive. -/
def HoldsAt (C : Crypto) (z : Zip) (secret p : Bytes) (d : Disk) (q : Path) : Prop := ∃ i, lookDisk d q = some (.file i) ∧ Unwraps C z secret (d.file i) p

/-- The key source that the options name holds the secret: the key file, or else the environment variable. -/
def KeyIs (cwd : Path) (opts : List (String × List Char)) (secret : Bytes) (w : World) : Prop :=
  match valueOf opts "keyfile" with
  | some path => path ≠ ['-'] ∧ ∃ q k, LeadsToFile w (Cli.toPath cwd path) q k ∧ w.file k = secret
  | none => w.env = some secret

/-- In the state `w` of the machine the line encrypts or decrypts some file, or packs some directories, with the secret, not detached, to a place where nothing is; and that place is not in a directory to be packed. -/
inductive CarefulLine (secret : Bytes) (l : Invocation σ) (w : World) : Prop
  | file {command : String} {opts : List (String × List Char)} {input output : List Char} {words : List (List Char)} (hc : command = "encrypt" ∨ command = "decrypt")
      (hw : Words (optionsOf command) opts [input, output] words) (hcon : Consistent opts) (hi : Invokes command words l.argv)
      (hh : valueOf opts "header" = none) (hk : KeyIs l.sys.cwd opts secret w) (ho : ¬ Occupied w (Cli.toPath l.sys.cwd output))
  | pack {before after : List (String × List Char)} {wb wa inputs : List (List Char)} {output : List Char} (hb : OptionWords (optionsOf "pack") before wb) (ha : OptionWords (optionsOf "pack") after wa)
      (hne : inputs ≠ []) (hpi : ∀ f ∈ inputs, NotOption f) (hpo : NotOption output) (hcon : Consistent (before ++ after)) (hi : Invokes "pack" (wb ++ inputs ++ output :: wa) l.argv)
      (hh : valueOf (before ++ after) "header" = none) (hk : KeyIs l.sys.cwd (before ++ after) secret w) (ho : ¬ Occupied w (Cli.toPath l.sys.cwd output))
      (hs : ∀ q, w.resolve (Cli.toPath l.sys.cwd output) = .ok q → ¬ InSource l.sys.cwd inputs w q)

/-- A careful line for a release build; and no transfer will be a short one. -/
structure Careful (C : Crypto) (z : Zip) (secret : Bytes) (l : Invocation σ) (w : World) : Prop where
  build : l.debug = false
  crypto : l.sys.C = C
  zip : l.sys.z = z
  line : CarefulLine secret l w
  transfers : ∀ k, Io.short k ∉ w.sched

/-- A history in which every line either is careful, or hashes or unpacks, or does not mention a file that holds `p`.  Each of them may fail, in whatever way, or be killed. -/
inductive CarefulHistory (C : Crypto) (z : Zip) (secret p : Bytes) : List (Invocation σ) → Disk → Disk → Prop
  | nil (d : Disk) : CarefulHistory C z secret p [] d d
  | elsewhere {l : Invocation σ} {ls : List (Invocation σ)} {d d' d'' : Disk} (hq : ∀ q, HoldsAt C z secret p d q → ¬ Concerns l q) (h : Invoked l d d') (hs : CarefulHistory C z secret p ls d' d'') :
      CarefulHistory C z secret p (l :: ls) d d''
  | looking {l : Invocation σ} {ls : List (Invocation σ)} {d d' d'' : Disk} {command : String} {words : List (List Char)} (hc : command = "hash" ∨ command = "unpack") (hi : Invokes command words l.argv)
      (h : Invoked l d d') (hs : CarefulHistory C z secret p ls d' d'') : CarefulHistory C z secret p (l :: ls) d d''
  | ended {l : Invocation σ} {ls : List (Invocation σ)} {d'' : Disk} {run : Prog Cli.Error (List String)} (w : World) (hc : Careful C z secret l w) (h : Cli.main l.sys l.debug l.argv = some run)
      (hs : CarefulHistory C z secret p ls (run w).2.disk d'') : CarefulHistory C z secret p (l :: ls) w.disk d''
  | killed {l : Invocation σ} {ls : List (Invocation σ)} {d'' : Disk} {run : Prog Cli.Error (List String)} (w v : World) (hc : Careful C z secret l w) (h : Cli.main l.sys l.debug l.argv = some run)
      (hv : StoppedAt run w v) (hs : CarefulHistory C z secret p ls v.disk d'') : CarefulHistory C z secret p (l :: ls) w.disk d''

/-- No archive begins with the byte with which all encrypted files begin (a zip archive begins with `PK`). -/
def OwnStart (z : Zip) : Prop := ∀ l, (z.encode l).head? ≠ some 0xDE

end Volaris.Spec
