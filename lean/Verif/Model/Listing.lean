import Verif.Model.Rmdirtree

/-!
# Listing a tree: `LocalPath.children`, `rchildren` and `skip_cache`

`augpathlib/core.py` lines 1439-1473 and 1155-1172, `caches.py` lines 28-30, `utils.py` lines 27-28.
Simplified: directories can be read (pathlib's `rglob` passes over those that cannot), and the stack of
python is deep enough.
-/

namespace Verif.FS.Listing
open Rmdirtree (real)

/-- `cache_ignore` (caches.py 28-30, utils.py 27-28) -/
def cacheIgnore : List Name :=
  [['.', 'o', 'p', 'e', 'r', 'a', 't', 'i', 'o', 'n', 's'], ['.', 's', 'p', 'a', 'r', 's', 'e'], ['.', 'g', 'i', 't']]

/-- The index of the last full stop, `name.rfind('.')`. -/
def rfindDot : Name → Option Nat
  | [] => none
  | c :: cs => match rfindDot cs with
    | some i => some (i + 1)
    | none => if c = '.' then some 0 else none

/-- `PurePath.stem` of a path with this name -/
def stem (n : Name) : Name :=
  match rfindDot n with
  | some i => if 0 < i ∧ i < n.length - 1 then n.take i else n
  | none => n

/-- `rglob('*')` of a directory: its entries, then those of the directories in it (symlinks are not
followed).  The results are relative. -/
def rglob (d : Disk Node) : Nat → Path → List (List Name)
  | 0, _ => []
  | fuel + 1, q =>
    (d.names q).map (fun n => [n]) ++
      ((d.names q).filter fun n => real d q n).flatMap fun n => (rglob d fuel (q ++ [n])).map fun s => n :: s

/-- More than the depth of the disk. -/
def depth (d : Disk Node) : Nat := (d.map fun e => e.1.length).foldr max 0 + 1

/-- `children` (core.py 1439-1458) of a directory; `anchored` says that it is the local path of the anchor of
its cache. -/
def children (d : Disk Node) (anchored : Bool) (q : Path) : List Name :=
  if anchored then (d.names q).filter fun n => !cacheIgnore.contains (stem n) else d.names q

/-- Where the child `n` of `q` leads, if it is a directory or a symlink to one. -/
def dirOf (d : Disk Node) (target : Path → Option Path) (q : Path) (n : Name) : Option Path :=
  match d.at_ (q ++ [n]) with
  | some (.dir _) => some (q ++ [n])
  | some (.link _) => target (q ++ [n])
  | _ => none

/-- `rchildren` (core.py 1460-1473) of a directory; `target` is where the symlink at a location leads, if it
leads to a directory.  The children of the anchor are not the anchor, so that `rglob` lists them. -/
def rchildren (d : Disk Node) (target : Path → Option Path) (anchored : Bool) (q : Path) : List (List Name) :=
  if anchored then
    (children d true q).flatMap fun n => [n] :: match dirOf d target q n with
      | some m => (rglob d (depth d) m).map fun s => n :: s
      | none => []
  else rglob d (depth d) q

/-- `skip_cache` (core.py 1155-1172) of a path without cache, from its path relative to the anchor. -/
def skipCache (rel : List Name) : Except PyErr Bool :=
  match rel with
  | [] => .error .indexError
  | n :: _ => .ok (cacheIgnore.contains n)

end Verif.FS.Listing
