import Verif.Model.Disk
import Verif.Model.FileSize

/-!
# The trash of a cache

`_trashed_path`, `_trashed_path_short` and `crumple` (`augpathlib/caches.py` lines 137-169) with
`pathlib.Path.mkdir(parents=True)`.  Simplified: no symlink among the parents of the trash, and the location of
the trash is a parameter (`trash` is left to the subclasses, lines 132-135).
-/

namespace Verif.Cache
open Verif.FS

/-- What trashing depends on: the calls that fail, which locations lead to something when symlinks are followed,
the names that the file system has no room for, what a new directory looks like, and where the trash is. -/
structure Trash (ν : Type) where
  F : Nat → Option PyErr
  leads : Disk ν → Path → Bool
  long : Name → Bool
  newDir : ν
  loc : Path

variable {ν : Type} [Kinded ν]

/-- `os.mkdir` -/
def Trash.osMkdir (T : Trash ν) (q : Path) : Prog ν Unit := .act T.F fun d => d.create q T.newDir

/-- The `except OSError` clause of `pathlib.Path.mkdir`: an existing directory may be fine. -/
def Trash.tolerate (T : Trash ν) (q : Path) (existOk : Bool) (e : PyErr) : Prog ν Unit :=
  if existOk then
    .bind (.look T.F fun d => .ok (match d.at_ q with | some x => T.leads d q && Kinded.isDir x | none => false)) fun isDir =>
      if isDir then .pure () else .throw e
  else .throw e

/-- `pathlib.Path.mkdir(parents=True, exist_ok=existOk)` for the directory with these components, the last one
first. -/
def Trash.mkdirs (T : Trash ν) : List Name → Bool → Prog ν Unit
  | [], existOk => .catch_ (T.osMkdir []) fun e => T.tolerate [] existOk e
  | n :: r, existOk =>
    .catch_ (T.osMkdir (n :: r).reverse) fun e =>
      if e = .fileNotFoundError then
        .bind (T.mkdirs r true) fun _ =>
          .catch_ (T.osMkdir (n :: r).reverse) fun e => if e = .fileNotFoundError then .throw e else T.tolerate (n :: r).reverse existOk e
      else T.tolerate (n :: r).reverse existOk e

/-- `os.rename` where the new name may be too long (errno 36), which is found out after the source and the
target directory were looked up. -/
def Trash.osRename (T : Trash ν) (src dst : Path) : Prog ν Unit :=
  .act T.F fun d =>
    match d.at_ src, d.at_ dst.dropLast with
    | some _, some p =>
      if Kinded.isDir p ∧ dst.getLast?.any T.long then .error .nameTooLongError else d.rename src dst
    | _, _ => d.rename src dst

/-- `self.trash / name` for a name without a slash: the path that is written down (caches.py 145, 149). -/
def Trash.path (T : Trash ν) (s : Name) : Path := if s = [] ∨ s = ['.'] then T.loc else T.loc ++ [s]

/-- Where that path leads. -/
def Trash.place (T : Trash ν) (s : Name) : Path := if s = ['.', '.'] then T.loc.dropLast else T.path s

/-- `crumple` (caches.py 151-169) for the object at `src` with the given id; the result is the location of the
returned path.  Without an id `fs_safe_id(None)` raises. -/
def Trash.crumple (T : Trash ν) (id : Option Str) (src : Path) : Prog ν Path :=
  match id with
  | none => .throw .attributeError
  | some i =>
    .bind (.look T.F fun d => .ok (T.leads d (T.path (fsSafeId i)).dropLast)) fun parentExists =>
    .bind (if parentExists then .pure () else T.mkdirs (T.path (fsSafeId i)).dropLast.reverse false) fun _ =>
    .bind (.catch_ (T.osRename src (T.place (fsSafeId i))) fun e =>
        if e = .nameTooLongError then T.osRename src (T.place (src.getLast?.getD [])) else .throw e) fun _ =>
    .pure (T.place (fsSafeId i))

/-- What the setter of `SymlinkCache` does with the old link (caches.py 1250-1255): it is trashed, and deleted if the
trash says that something exists already. -/
def Trash.crumpleOr (T : Trash ν) (id : Option Str) (q : Path) : Prog ν Unit :=
  .catch_ (.bind (T.crumple id q) fun _ => .pure ()) fun e =>
    if e = .fileExistsError then .act T.F fun d => d.unlink q else .throw e

end Verif.Cache
