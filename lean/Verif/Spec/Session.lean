import Verif.Spec.CommandLine
import Verif.Spec.CmdRoundTrip
import Verif.Spec.RoundTrip
/-!
# Vocabulary for one command line after the other
-/
namespace Volaris.Spec

/-- In `w`, the secret that a line with the options `opts` stands for is `secret`: it is the content of the key file that is named, or else the value of the environment variable.  The key file is a
file in the working directory and is not the file `i`. -/
def KeyFrom (cwd : Path) (opts : List (String × List Char)) (i : Nat) (secret : Bytes) (w : World) : Prop :=
  secret ≠ [] ∧
    match valueOf opts "keyfile" with
    | some path => Plain path ∧ path ≠ ['-'] ∧ ∃ k, w.look (cwd ++ [path]) = some (.file k) ∧ k ≠ i ∧ w.file k = secret
    | none => w.env = some secret

/-- Before the first line: no fault will happen, the working directory is there, the file `input` is in it and has the number `i`, and the names `output` and `back` are free (`back` may also be `input`). -/
structure Desk {σ : Type} (s : Cli.Sys σ) (input output back : List Char) (i : Nat) (w : World) : Prop where
  faultless : w.sched = []
  allocated : Allocated w
  directory : w.look s.cwd = some .dir
  names : Plain input ∧ Plain output ∧ Plain back
  source : w.look (s.cwd ++ [input]) = some (.file i)
  target : w.look (s.cwd ++ [output]) = none
  last : back = input ∨ back ≠ output ∧ w.look (s.cwd ++ [back]) = none

end Volaris.Spec
