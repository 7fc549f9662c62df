import Verif.Model.ZipRead

/-!
# Opening paths through archives with a mode

`ZipInternalPath.open` (`augpathlib/zip.py` lines 85-92) and `ZipHelper.open` (lines 178-182) with the mode, and what
`zipfile.ZipFile.open` of the standard library does with it for an archive that was opened for reading (zip.py 22): it takes the modes
`r` and `w` only; for `w` it sets the sizes and the position in the `ZipInfo` that it was given before it finds that the archive
was not opened for writing (`_open_to_write`, `_writecheck`), and that `ZipInfo` is the one of the path.

Simplified: reading is to the end; a password is not given.  Of two entries with the same name the first one counts.  From outside, the
modes of the builtin `open` are those for reading.
-/

namespace Verif.Zip
open Verif.Symlink

/-- What reading gives. -/
inductive Got where
  | bytes (b : Bytes)
  /-- the text that these bytes encode -/
  | text (b : Bytes)
  deriving DecidableEq, Repr

/-- `zip_file.open(zi, mode)` read to the end: the names of the entries whose `ZipInfo` has lost its position are the state. -/
def openEntry (content : Str → Bytes) (lost : List Str) (n mode : Str) : Except PyErr Got × List Str :=
  if mode = lit "r" then
    if lost.contains n then (.error .foreign, lost) else (.ok (.bytes (content n)), lost)
  else if mode = lit "w" then (.error .valueError, n :: lost)
  else (.error .valueError, lost)

/-- `ZipInternalPath.open(mode)` (zip.py 85-92) -/
def openInside (names : List Str) (content : Str → Bytes) (lost : List Str) (p : Pure) (mode : Str) : Except PyErr Got × List Str :=
  if isDir names p then (.error .isADirectoryError, lost)
  else match (obj names p).info with
    | some n => openEntry content lost n mode
    | none => (.error .attributeError, lost)

/-- Several calls on the paths of one archive, each with its mode. -/
def openings (names : List Str) (content : Str → Bytes) (lost : List Str) : List (Pure × Str) → List Str
  | [] => lost
  | (p, m) :: es => openings names content (openInside names content lost p m).2 es

/-- The builtin `open(path, mode)` of a file that is there, for the modes that read. -/
def openFile (b : Bytes) (mode : Str) : Except PyErr Got :=
  if mode = lit "r" ∨ mode = lit "rt" then .ok (.text b)
  else if mode = lit "rb" then .ok (.bytes b)
  else .error .valueError

/-- `ZipHelper.open(mode)` (zip.py 178-182) of a path that `zip_path` has been found for: in the archive with these entries, or outside with
this content. -/
def openHelper (there : Option (List Str × (Str → Bytes) × Pure)) (outside : Bytes) (lost : List Str) (mode : Str) : Except PyErr Got × List Str :=
  match there with
  | some (names, content, p) => openInside names content lost p mode
  | none => (openFile outside mode, lost)

end Verif.Zip
