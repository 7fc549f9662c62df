import Verif.Model.Zip

/-!
# What kind of thing a path through archives is

`ZipHelper` (`augpathlib/zip.py` lines 119-182) answers `exists` and `open` from the archive; `is_file` and
`is_dir` are those of `AugmentedPath` (`augpathlib/core.py` lines 438-454), which ask the disk.
-/

namespace Verif.Zip
open Verif.Symlink

/-- `AugmentedPath.is_file` (core.py 438-445): an archive is a file for the disk; what is below a file is not there (`ENOTDIR` is ignored). -/
def osIsFile (d : Disk) (p : List Str) : Bool :=
  match d p with
  | .file | .zip _ => true
  | _ => false

/-- `AugmentedPath.is_dir` (core.py 447-454) -/
def osIsDir (d : Disk) (p : List Str) : Bool :=
  match d p with
  | .dir => true
  | _ => false

/-- The path in the archive (zip.py 137-145): what `p` has below `zp`. -/
def relOf (zp p : List Str) : Pure := ⟨[], (p.take (p.length - zp.length)).reverse⟩

/-- `ZipHelper.open()` (zip.py 178-182, 85-92) for reading, whether it gives a file. -/
def zipOpens (d : Disk) (p : List Str) : Except PyErr Unit :=
  match zipPath d p with
  | .error e => .error e
  | .ok none =>
    match d p with
    | .missing => .error .fileNotFoundError
    | .dir => .error .isADirectoryError
    | _ => .ok ()
  | .ok (some zp) =>
    match d zp with
    | .zip names => if isDir names (relOf zp p) then .error .isADirectoryError else .ok ()
    | _ => .error .foreign

/-- `bool(path)`: paths have no truth value of their own, so each is true. -/
def pathTruth (_ : Pure) : Bool := true

/-- `ZipInternalPath.__fspath__` (zip.py 78-83) -/
def internalFspath (p : Pure) : Except PyErr Pure :=
  if pathTruth p.parent then .error .typeError else .ok p

/-- `is_file` of a `ZipInternalPath` (core.py 438-445): the system is asked about the path. -/
def internalIsFile (p : Pure) : Except PyErr Bool :=
  match internalFspath p with
  | .error e => .error e
  | .ok _ => .ok false

end Verif.Zip
