import Verif.Model.Symlink

/-!
# Zip archives

`augpathlib/zip.py`.
-/

namespace Verif.Zip

open Verif.Symlink

/-! ## Names -/

/-- `PurePath.suffix` for a name: from the last dot, unless that is the first or the last
character. -/
def suffix (name : Str) : Str :=
  match rsplit1 '.' name with
  | some (a, b) => if a ≠ [] ∧ b ≠ [] then '.' :: b else []
  | none => []

/-- `PurePath.stem` for a name. -/
def stem (name : Str) : Str :=
  match rsplit1 '.' name with
  | some (a, b) => if a ≠ [] ∧ b ≠ [] then a else name
  | none => name

/-! ## Inside of an archive -/

/-- `path.parents`, nearest first. -/
def parentsGo (root : Str) : Nat → List Str → List Pure
  | 0, _ => []
  | k + 1, comps => ⟨root, comps.take k⟩ :: parentsGo root k comps

def parents (p : Pure) : List Pure := parentsGo p.root p.comps.length p.comps

/-- A member of `_paths`: a path and the name of the archive entry (`_zi`) that it carries, if any. -/
structure Item where
  path : Pure
  info : Option Str
  deriving DecidableEq, Repr

/-- Building a python set (or dict): of equal elements the first stays. -/
def dedup : List Item → List Item
  | [] => []
  | i :: is => i :: (dedup is).filter fun j => j.path ≠ i.path

/-- `_paths` of the class that `_new` makes (zip.py 18-27).  In `parents | paths` elements of the left
set win over equal ones of the right set.  The order is that of python's sets, so unspecified. -/
def members (names : List Str) : List Item :=
  let paths := dedup (names.map fun n => ⟨parse n, some n⟩)
  let parents := dedup ((paths.flatMap fun i => parents i.path).map fun p => ⟨p, none⟩)
  dedup (parents ++ paths)

/-- `ZipInternalPath(path)`: the member if there is one, else an object without entry
(zip.py 29-45). -/
def obj (names : List Str) (p : Pure) : Item :=
  match (members names).find? fun i => i.path = p with
  | some i => i
  | none => ⟨p, none⟩

/-- `exists` (zip.py 72-73) -/
def existsIn (names : List Str) (p : Pure) : Bool := ((members names).map Item.path).contains p

/-- `is_dir` (zip.py 75-76); `ZipInfo.is_dir` looks for a final slash. -/
def isDir (names : List Str) (p : Pure) : Bool :=
  match (obj names p).info with
  | none => true
  | some n => n.getLast? = some '/'

/-- `rchildren` (zip.py 56-61) -/
def rchildren (names : List Str) (p : Pure) : List Pure :=
  ((members names).map Item.path).filter fun q => (parents q).contains p

/-- `children` (zip.py 63-70) -/
def children (names : List Str) (p : Pure) : List Pure :=
  ((members names).map Item.path).filter fun q => decide (q ≠ p) && decide (p = q.parent)

/-! ## Paths through archives -/

/-- What is on disk at a path (symlinks followed). -/
inductive Kind where
  | missing
  | dir
  | file
  /-- a zip file with these entry names -/
  | zip (names : List Str)
  deriving DecidableEq, Repr

/-- A disk: what is at an absolute path.  Paths are given from the last component to the first. -/
abbrev Disk := List Str → Kind

/-- `zipfile.is_zipfile` -/
def isZipfile (d : Disk) (p : List Str) : Bool :=
  match d p with
  | .zip _ => true
  | _ => false

/-- `zip_path` (zip.py 153-167) on a fresh object; the archive is opened as soon as it is met.
Opening something that is not a zip file raises. -/
def zipPath (d : Disk) : List Str → Except PyErr (Option (List Str))
  | [] => .ok none
  | n :: up =>
    match zipPath d up with
    | .error e => .error e
    | .ok pzp =>
      if (pzp = none ∧ suffix n = lit ".zip") ∨ isZipfile d (n :: up) then
        match d (n :: up) with
        | .zip _ => .ok (some (n :: up))
        | .missing => .error .fileNotFoundError
        | .dir => .error .isADirectoryError
        | .file => .error .foreign
      else .ok pzp

/-- `ZipHelper.exists` (zip.py 123-125).  Outside archives `zip_relative_path` is `None`. -/
def zipExists (d : Disk) (p : List Str) : Except PyErr Bool :=
  match zipPath d p with
  | .error e => .error e
  | .ok none => if d p ≠ .missing then .ok true else .error .attributeError
  | .ok (some zp) =>
    match d zp with
    | .zip names => .ok (existsIn names ⟨[], (p.take (p.length - zp.length)).reverse⟩)
    | _ => .error .foreign

end Verif.Zip
