import Verif.Model.Basic

/-!
# Removing a tree with read-only files on windows

`rmtree` (`augpathlib/core.py` lines 650-706) with the helper `onerror_windows_readwrite_remove` (`augpathlib/utils.py` lines 38-41) as its
argument `onerror`, on a system where files and directories that are read-only cannot be removed.

Simplified: no symlinks, nobody else changes the tree, no call fails except because something is read-only or a directory is not empty, and the guards of
`rmtree` do not refuse.  The names play no role.  `Model/Rmtree` has the guards, the symlinks and the failing calls, with handlers that change nothing.
-/

namespace Verif.ReadOnly

/-- What is on the disk; `ro` says whether it is read-only. -/
inductive Node where
  | file (ro : Bool)
  | dir (ro : Bool) (kids : List Node)

/-- `onerror_windows_readwrite_remove` (utils.py 38-41): `chmod`, and then `os.remove`, which does not remove directories. -/
def helper : Node → Except PyErr Unit × Option Node
  | .file _ => (.ok (), none)
  | .dir _ kids => (.error .permissionError, some (.dir false kids))

/-- The `except` clause (core.py 698-706) without `ignore_errors`, for what is at the path by now; `h` says whether the helper is given. -/
def handle (h : Bool) (e : PyErr) (n : Option Node) : Except PyErr Unit × Option Node :=
  if h then match n with
    | some n => helper n
    | none => (.error .fileNotFoundError, none)
  else (.error e, n)

mutual

/-- `rmtree` (core.py 667-706): how it ends, and what is left. -/
def rmtree (h : Bool) : Node → Except PyErr Unit × Option Node
  | .file ro => if ro then handle h .permissionError (some (.file ro)) else (.ok (), none)
  | .dir ro kids => match loop h kids with
    | (.error e, kids) => (.error e, some (.dir ro kids))
    | (.ok false, kids) => (.ok (), some (.dir ro kids))
    | (.ok true, kids) =>
      if !kids.isEmpty then handle h .osError (some (.dir ro kids))
      else if ro then handle h .permissionError (some (.dir ro []))
      else (.ok (), none)

/-- The loop over the entries (core.py 680-688).  When the removal of an entry raises, the `except` clause of the directory has `path` bound to it, and the call
ends there; the loop has come to its end only with `true`. -/
def loop (h : Bool) : List Node → Except PyErr Bool × List Node
  | [] => (.ok true, [])
  | k :: ks => match rmtree h k with
    | (.ok _, left) => ((loop h ks).1, left.toList ++ (loop h ks).2)
    | (.error e, left) => match handle h e left with
      | (.ok _, left) => (.ok false, left.toList ++ ks)
      | (.error e, left) => (.error e, left.toList ++ ks)

end

/-- The call again and again, for what the call before has left. -/
def again : Nat → Node → Option Node
  | 0, n => some n
  | k + 1, n => match (rmtree true n).2 with
    | none => none
    | some n => again k n

end Verif.ReadOnly
