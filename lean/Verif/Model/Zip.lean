import Verif.Fs
/-!
# The zip archives that pack and unpack work with

The zip crate (version 2.2.0) is not part of /repo; the format is a parameter.  `Zip.Lawful` is what is assumed about it.
-/
namespace Volaris

/-- What is added to an archive: a name (of a directory if it ends with a slash) and bytes. -/
structure ZipEntry where
  name : List Char
  content : Bytes
deriving DecidableEq, Repr

/-- What an archive contains for the reader: a name, whether the member can be opened, the bytes that come out of it, and whether they end without an
error (checksum, broken compressed data). -/
structure ZipMember where
  name : List Char
  opens : Bool
  content : Bytes
  sound : Bool
deriving DecidableEq, Repr

/-- The zip format (for one compression method): the names that can be stored, the bytes of an archive, and what is found in bytes that claim to be an archive. -/
structure Zip where
  storable : List Char → Bool
  encode : List ZipEntry → Bytes
  decode : Bytes → Option (List ZipMember)

/-- Reading a written archive gives back what was written. -/
structure Zip.Lawful (z : Zip) : Prop where
  decode_encode : ∀ l : List ZipEntry, (l.map (·.name)).Nodup → (∀ e ∈ l, z.storable e.name) →
    z.decode (z.encode l) = some (l.map fun e => { name := e.name, opens := true, content := e.content, sound := true })

namespace ZipName

/-- Cut at slashes. -/
def pieces : List Char → List (List Char)
  | [] => [[]]
  | c :: cs =>
      if c = '/' then [] :: pieces cs
      else
        match pieces cs with
        | [] => [[c]]
        | p :: ps => (c :: p) :: ps

/-- One piece of a name as a path component: nothing for an empty piece and for `.`. -/
def comp (p : List Char) : Option Comp :=
  if p = [] ∨ p = ['.'] then none else if p = ['.', '.'] then some .up else some (.name p)

/-- `Path::components` of a relative path. -/
def comps (name : List Char) : List Comp := (pieces name).filterMap comp

/-- The depth counter of `enclosed_name`: it must not go below zero. -/
def depthOk : Nat → List Comp → Bool
  | _, [] => true
  | 0, .up :: _ => false
  | d + 1, .up :: cs => depthOk d cs
  | d, .name _ :: cs => depthOk (d + 1) cs

/-- `ZipFile::enclosed_name` of the zip crate: no NUL, not absolute, never above the start. -/
def enclosed (name : List Char) : Option (List Comp) :=
  if '\x00' ∈ name ∨ name.head? = some '/' then none
  else if depthOk 0 (comps name) then some (comps name) else none

/-- `ZipFile::is_dir` of the zip crate. -/
def isDir (name : List Char) : Bool := name.getLast? = some '/' || name.getLast? = some '\\'

/-- The characters of a component. -/
def ofComp : Comp → List Char
  | .up => ['.', '.']
  | .name n => n

/-- `Path::to_str`.  Simplification: every path is valid Unicode and spelled without superfluous slashes and dots. -/
def ofPath (p : PathBuf) : List Char :=
  (if p.abs then ['/'] else []) ++ ['/'].intercalate (p.comps.map ofComp)

end ZipName

end Volaris
