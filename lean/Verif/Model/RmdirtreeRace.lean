import Verif.Model.Rmdirtree
import Verif.Model.RmtreeRace

/-!
# `AugmentedPath.rmdirtree` while other processes change the disk (`augpathlib/core.py` lines 591-648)

The function of `Model/Rmdirtree` with something that others do to the disk before each of its system calls, and with paths as they are given
to the system, which follows the symlinks on the way.  Simplified: one scan of a directory, with the kinds of its entries, is one call.
-/

namespace Verif.FS

/-- How the walk sees the entries of a directory: `pathWalk` for `Path.walk`, otherwise `os.walk`, which follows symlinks to tell whether they
lead to directories. -/
def Env.lister (E : Env) (pathWalk : Bool) : Rmdirtree.Env where
  pathWalk := pathWalk
  F := E.F
  toDir d q := match FS.isDir E.L d.at_ E.cwd ⟨true, q⟩ with
    | .ok b => b
    | .error _ => false

/-- The scan of one directory; `os.scandir` follows the path if it is a symlink -/
def Env.scanAmid (E : Env) (A : Others) (pathWalk : Bool) (p : UserPath) : Prog Node Rmdirtree.Listing :=
  turn A (.look E.F fun d => match walk E.L d.at_ E.L.maxLinks (start E.cwd p.absolute) p.comps with
    | .error e => .error e.py
    | .ok q => match d.at_ q with
      | some (.dir _) => .ok
        { subs := (d.names q).filter fun n => Rmdirtree.real d q n || (E.lister pathWalk).linked d q n
          files := (d.names q).filter fun n => !(Rmdirtree.real d q n || (E.lister pathWalk).linked d q n)
          walked := (d.names q).filter fun n => Rmdirtree.real d q n }
      | some _ => .error .notADirectoryError
      | none => .error .fileNotFoundError)

/-- The body of the loop (core.py 602-618, 632-648) for one directory, as `Rmdirtree.Env.body`; the set has the paths, not the locations. -/
def Env.bodyAmid (E : Env) (A : Others) (p : UserPath) (l : Rmdirtree.Listing) (deleted : List Path) : Prog Node (List Path) :=
  let r := Rmdirtree.check deleted p.comps l.subs []
  if l.files.isEmpty && !r.1 then
    .bind (turn A (E.rmdir p)) fun _ => .pure ((p.comps :: deleted).filter fun c => decide (c ∉ r.2))
  else .pure deleted

mutual

/-- The walk with the body of the loop, for one directory, as `Rmdirtree.Env.visit` -/
def Env.visitAmid (E : Env) (A : Others) (pathWalk : Bool) : Nat → UserPath → List Path → Prog Node (List Path)
  | 0, _, _ => .throw .runtimeError
  | fuel + 1, p, deleted =>
    .bind (.catch_ (.bind (E.scanAmid A pathWalk p) fun l => .pure (some l)) fun _ => .pure none) fun
      | none => .pure deleted
      | some l => .bind (E.visitAllAmid A pathWalk fuel p l.walked deleted) fun deleted => E.bodyAmid A p l deleted

def Env.visitAllAmid (E : Env) (A : Others) (pathWalk : Bool) (fuel : Nat) (p : UserPath) : List Name → List Path → Prog Node (List Path)
  | [], deleted => .pure deleted
  | n :: ns, deleted => .bind (E.visitAmid A pathWalk fuel (p.child n) deleted) fun deleted => E.visitAllAmid A pathWalk fuel p ns deleted

end

/-- `rmdirtree` (core.py 591-618, 621-648) -/
def Env.rmdirtreeAmid (E : Env) (A : Others) (pathWalk : Bool) (fuel : Nat) (p : UserPath) : Prog Node Unit :=
  .bind (turn A (E.isSymlink p)) fun b =>
    if b then .throw .notADirectoryError else .bind (E.visitAmid A pathWalk fuel p []) fun _ => .pure ()

end Verif.FS
