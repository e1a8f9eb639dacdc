import Verif.Fs
/-!
# Vocabulary for file system effects
-/
namespace Volaris.Spec

/-- A directory tree: no path is listed twice, and what is listed lies in a directory. -/
structure TreeOk (w : World) : Prop where
  distinct : (w.dir.map (·.1)).Nodup
  parents : ∀ k n, (k, n) ∈ w.dir → k ≠ [] ∧ w.look k.dropLast = some .dir

/-- The path `p` leads to the regular file `i`, whose resolved path is `q`. -/
structure LeadsToFile (w : World) (p : PathBuf) (q : Path) (i : Nat) : Prop where
  resolve : w.resolve p = .ok q
  look : w.look q = some (.file i)

/-- The path `p` leads to a directory, whose resolved path is `q`. -/
structure LeadsToDir (w : World) (p : PathBuf) (q : Path) : Prop where
  resolve : w.resolve p = .ok q
  look : w.look q = some .dir

/-- `q` is where some initial part of the path `p` leads on paper (`p` itself included, its start too). -/
def OnTheWay (p : PathBuf) (q : Path) : Prop := ∃ pre, pre <+: p.comps ∧ q = lexical p.start pre

end Volaris.Spec
