import Verif.Model.Symlink

/-!
# File system objects and path resolution

The operating system side of `augpathlib/core.py` lines 425-472: what `stat` and `lstat` answer, as
documented in path_resolution(7), and the existence tests on top of them.
-/

namespace Verif.FS

/-- One component of a path. -/
abbrev Name := Str

/-- A location: the components below the root, without `.`, `..` or symlinks. -/
abbrev Path := List Name

/-- The text of a symlink, split into components (empty ones dropped). -/
structure Target where
  absolute : Bool
  comps : List Name
  deriving DecidableEq, Repr

/-- What is at a location.  A directory may or may not be searchable by this process; `other` are
devices, pipes and sockets. -/
inductive Node where
  | dir (searchable : Bool)
  | file (data : Bytes)
  | link (target : Target)
  | other
  deriving DecidableEq, Repr

/-- The error codes that path resolution gives. -/
inductive Errno where
  | ENOENT | ENOTDIR | ELOOP | EACCES | ENAMETOOLONG
  deriving DecidableEq, Repr

/-- A file system: what is at each location. -/
abbrev Tree := Path → Option Node

/-- Limits of the operating system: the longest name (in bytes) and the number of symlinks followed
in one resolution. -/
structure Limits where
  nameMax : Nat
  maxLinks : Nat

/-- Where the resolution of a path starts that is met in the directory `cwd`. -/
def start (cwd : Path) (absolute : Bool) : Path := if absolute then [] else cwd

/-- Resolve the components `rest` starting in the directory `cur`, following at most `budget`
symlinks; the result is the location reached (path_resolution(7)). -/
def walk (L : Limits) (t : Tree) (budget : Nat) (cur : Path) (rest : List Name) :
    Except Errno Path :=
  match rest with
  | [] => .ok cur
  | n :: rest =>
    match t cur with
    | none => .error .ENOENT
    | some (.dir false) => .error .EACCES
    | some (.dir true) =>
      if n = ['.'] then walk L t budget cur rest
      else if n = ['.', '.'] then walk L t budget cur.dropLast rest
      else if L.nameMax < (utf8 n).length then .error .ENAMETOOLONG
      else
        match t (cur ++ [n]) with
        | none => .error .ENOENT
        | some (.link l) =>
          match budget with
          | 0 => .error .ELOOP
          | b + 1 => walk L t b (start cur l.absolute) (l.comps ++ rest)
        | some _ => walk L t budget (cur ++ [n]) rest
    | some _ => .error .ENOTDIR
termination_by (budget, rest.length)

/-- What is at a resolved location. -/
def node (t : Tree) (p : Path) : Except Errno Node :=
  match t p with
  | some n => .ok n
  | none => .error .ENOENT

/-- A path as a user writes it: relative to the working directory `cwd` or absolute.  pathlib drops
empty and `.` components. -/
structure UserPath where
  absolute : Bool
  comps : List Name
  deriving DecidableEq, Repr

/-- `os.stat(path)` -/
def stat (L : Limits) (t : Tree) (cwd : Path) (p : UserPath) : Except Errno Node :=
  match walk L t L.maxLinks (start cwd p.absolute) p.comps with
  | .ok q => node t q
  | .error e => .error e

/-- `os.lstat(path)`: the last component is not followed. -/
def lstat (L : Limits) (t : Tree) (cwd : Path) (p : UserPath) : Except Errno Node :=
  match p.comps.getLast? with
  | none => node t (start cwd p.absolute)
  | some n =>
    if n = ['.'] ∨ n = ['.', '.'] then stat L t cwd p
    else
      match walk L t L.maxLinks (start cwd p.absolute) p.comps.dropLast with
      | .error e => .error e
      | .ok d => match t d with
        | none => .error .ENOENT
        | some (.dir false) => .error .EACCES
        | some (.dir true) =>
          if L.nameMax < (utf8 n).length then .error .ENAMETOOLONG else node t (d ++ [n])
        | some _ => .error .ENOTDIR

/-- `_ignore_error` (core.py 34, 46-47), for the error codes of this model (`EBADF` does not occur in
path resolution).  pathlib's own filter, which runs first, ignores the same codes (python 3.8 up to
3.12) or all but `ELOOP` of them. -/
def ignored : Errno → Bool
  | .ENOENT | .ENOTDIR | .ELOOP => true
  | .EACCES | .ENAMETOOLONG => false

/-- The python exception of an error code (what CPython makes of it). -/
def Errno.py : Errno → PyErr
  | .ENOENT => .fileNotFoundError
  | .ENOTDIR => .notADirectoryError
  | .EACCES => .permissionError
  | .ELOOP | .ENAMETOOLONG => .osError

/-- The pattern of core.py 425-463: `False` for ignored errors, raise the others. -/
def test (r : Except Errno Node) (kind : Node → Bool) : Except PyErr Bool :=
  match r with
  | .ok n => .ok (kind n)
  | .error e => if ignored e then .ok false else .error e.py

/-- `exists()` (core.py 425-436) -/
def pathExists (L : Limits) (t : Tree) (cwd : Path) (p : UserPath) : Except PyErr Bool :=
  test (stat L t cwd p) fun _ => true

/-- `is_file()` (core.py 438-445) -/
def isFile (L : Limits) (t : Tree) (cwd : Path) (p : UserPath) : Except PyErr Bool :=
  test (stat L t cwd p) fun | .file _ => true | _ => false

/-- `is_dir()` (core.py 447-454) -/
def isDir (L : Limits) (t : Tree) (cwd : Path) (p : UserPath) : Except PyErr Bool :=
  test (stat L t cwd p) fun | .dir _ => true | _ => false

/-- `is_symlink()` (core.py 456-463) -/
def isSymlink (L : Limits) (t : Tree) (cwd : Path) (p : UserPath) : Except PyErr Bool :=
  test (lstat L t cwd p) fun | .link _ => true | _ => false

/-- `is_broken_symlink()` (core.py 465-469): `and` does not evaluate its second argument when the
first one is false. -/
def isBrokenSymlink (L : Limits) (t : Tree) (cwd : Path) (p : UserPath) : Except PyErr Bool :=
  match isSymlink L t cwd p with
  | .error e => .error e
  | .ok false => .ok false
  | .ok true => match pathExists L t cwd p with
    | .error e => .error e
    | .ok b => .ok (!b)

/-- `exists_not_symlink()` (core.py 471-472) -/
def existsNotSymlink (L : Limits) (t : Tree) (cwd : Path) (p : UserPath) : Except PyErr Bool :=
  match pathExists L t cwd p with
  | .error e => .error e
  | .ok false => .ok false
  | .ok true => match isSymlink L t cwd p with
    | .error e => .error e
    | .ok b => .ok (!b)

end Verif.FS
