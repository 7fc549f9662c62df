import Verif.Model.Disk
import Verif.Model.FS

/-!
# The directories that a recursive glob passes through (`augpathlib/core.py` lines 79-103)

`_iterate_directories`, with which augpathlib replaces the function of pathlib, and `_is_dir`.  What they yield for a directory at a
location, on a disk with symlinks, with directories that this process may not search or not read.

Simplified: nobody else changes the disk meanwhile, and the results are asked for until the end.  An entry of `scandir` knows
whether it is a directory or a symlink, only what a symlink leads to has to be looked up.
-/

namespace Verif.FS.GlobDirs

/-- What is known about the machine: the limits, the disk, and the directories that this process may read. -/
structure Host where
  L : Limits
  disk : Disk Node
  read : Path → Bool

/-- `list(scandir(parent_path))` (core.py 94) -/
def Host.scan (H : Host) (q : Path) : Except PyErr (List Name) :=
  match walk H.L H.disk.at_ H.L.maxLinks [] q with
  | .error e => .error e.py
  | .ok r => match H.disk.at_ r with
    | some (.dir _) => if H.read r then .ok (H.disk.names r) else .error .permissionError
    | some _ => .error .notADirectoryError
    | none => .error .fileNotFoundError

/-- `_is_dir(entry)` (core.py 81-88) for the entry `n` of `q` -/
def Host.isDirEntry (H : Host) (q : Path) (n : Name) : Except PyErr Bool :=
  match H.disk.at_ (q ++ [n]) with
  | some (.dir _) => .ok true
  | some (.link _) => isDir H.L H.disk.at_ [] ⟨true, q ++ [n]⟩
  | _ => .ok false

/-- `entry.is_symlink()` -/
def Host.isLinkEntry (H : Host) (q : Path) (n : Name) : Bool :=
  match H.disk.at_ (q ++ [n]) with
  | some (.link _) => true
  | _ => false

/-- The loop (core.py 95-99); `rec` is what is yielded for an entry, and the exception at its end. -/
def Host.loop (H : Host) (q : Path) (rec : Path → List Path × Option PyErr) : List Name → List Path × Option PyErr
  | [] => ([], none)
  | n :: ns => match H.isDirEntry q n with
    | .error e => ([], some e)
    | .ok b =>
      if b && !H.isLinkEntry q n then
        match rec (q ++ [n]) with
        | (l, some e) => (l, some e)
        | (l, none) => (l ++ (H.loop q rec ns).1, (H.loop q rec ns).2)
      else H.loop q rec ns

/-- `except PermissionError: return` (core.py 100-101) -/
def pass : Option PyErr → Option PyErr
  | some .permissionError => none
  | e => e

/-- `_iterate_directories(parent_path)` (core.py 90-101); `fuel` is the depth that python's stack allows. -/
def Host.dirs (H : Host) : Nat → Path → List Path × Option PyErr
  | 0, _ => ([], some .runtimeError)
  | fuel + 1, q => match H.scan q with
    | .error e => ([q], pass (some e))
    | .ok ns => (q :: (H.loop q (H.dirs fuel) ns).1, pass (H.loop q (H.dirs fuel) ns).2)

end Verif.FS.GlobDirs
