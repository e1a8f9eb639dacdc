import Verif.Spec.Unpack
import Verif.Model.Tools.Pack
/-!
# Vocabulary for packing
-/
namespace Volaris.Spec

/-- `Packs tp W w w'`: the only changes to files and directories are to the contents of the files behind the handles in `W`, and to the path `tp`: if nothing was there, there may be
a new file.  No user input has been taken. -/
structure Packs (tp : Path) (W : List Nat) (w w' : World) : Prop where
  look : ∀ q, q ≠ tp → w'.look q = w.look q
  temp : w'.look tp = w.look tp ∨ (w.look tp = none ∧ w'.look tp = some (.file w.nextIno))
  files : ∀ j, j < w.nextIno → (∀ h ∈ W, (w.fd h).ino ≠ j) → w'.file j = w.file j
  stdin : w'.stdin = w.stdin
  tty : w'.tty = w.tty
  env : w'.env = w.env

/-- The names in the list are all different and can be stored: reading the archive made of it gives the list back (`Zip.Lawful`). -/
structure Readable (z : Zip) (l : List ZipEntry) : Prop where
  distinct : (l.map (·.name)).Nodup
  storable : ∀ e ∈ l, z.storable e.name

/-- The handles to which packing writes. -/
def packWriters (req : Pack.Request) : List Nat :=
  match req.headerWriter with
  | none => [req.writer]
  | some hw => [hw, req.writer]

end Volaris.Spec
