import Verif.Model.FS

/-!
# Relative paths

`augpathlib/core.py` lines 510-532 on absolute paths, given by their components below the root
(pathlib has already dropped empty and `.` components).
-/

namespace Verif.FS

/-- The component `..`. -/
def dotdot : Name := ['.', '.']

/-- `os.path.commonpath((self, other))` of two absolute paths: components are compared from the root
until they differ (core.py 510-511).  The library function sorts the two lists first, which makes no
difference for two of them. -/
def commonpath : Path → Path → Path
  | a :: as, b :: bs => if a = b then a :: commonpath as bs else []
  | _, _ => []

/-- `pathlib`'s `self.relative_to(other).parts`: `ValueError` when `other` is not an ancestor. -/
def relativeTo : Path → Path → Except PyErr (List Name)
  | self, [] => .ok self
  | a :: as, b :: bs => if a = b then relativeTo as bs else .error .valueError
  | [], _ :: _ => .error .valueError

/-- `to_relative` (core.py 513-522): `rp.parts[:-1]` drops the last component. -/
def toRelative (self other : Path) : Except PyErr (List Name) :=
  match relativeTo self other with
  | .error e => .error e
  | .ok rp => .ok (rp.dropLast.map fun _ => dotdot)

/-- `relative_path_from` (core.py 528-532) -/
def relativePathFrom (self other : Path) : Except PyErr (List Name) :=
  let base := commonpath self other
  match toRelative other base with
  | .error e => .error e
  | .ok ort => match relativeTo self base with
    | .error e => .error e
    | .ok rest => .ok (ort ++ rest)

/-- `relative_path_to` (core.py 524-526) -/
def relativePathTo (self other : Path) : Except PyErr (List Name) := relativePathFrom other self

/-- `path.parent` of an absolute path; the root is its own parent. -/
def parentOf (p : Path) : Path := p.dropLast

end Verif.FS
