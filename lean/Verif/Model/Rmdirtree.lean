import Verif.Model.Disk

/-!
# `AugmentedPath.rmdirtree` (`augpathlib/core.py` lines 591-648)

Both versions (`os.walk` and `Path.walk`), on a disk, with system calls that may fail.  Simplified: the path
is given by its physical location; nobody else changes the disk meanwhile.
-/

namespace Verif.FS.Rmdirtree

/-- What a run depends on: whether the walk is `pathlib`'s (python 3.12 and later), the calls that fail, and
which symlinks lead to a directory. -/
structure Env where
  pathWalk : Bool
  F : Nat → Option PyErr
  toDir : Disk Node → Path → Bool

/-- The entry is a directory itself. -/
def real (d : Disk Node) (q : Path) (n : Name) : Bool :=
  match d.at_ (q ++ [n]) with
  | some (.dir _) => true
  | _ => false

/-- The entry is a symlink that the walk puts among the directories: `os.walk` asks `entry.is_dir()`, which
follows, `Path.walk` asks `entry.is_dir(follow_symlinks=False)`. -/
def Env.linked (E : Env) (d : Disk Node) (q : Path) (n : Name) : Bool :=
  match d.at_ (q ++ [n]) with
  | some (.link _) => !E.pathWalk && E.toDir d (q ++ [n])
  | _ => false

/-- What one step of the walk finds. -/
structure Listing where
  subs : List Name
  files : List Name
  /-- the directories that are walked: not the symlinks -/
  walked : List Name

/-- The scan of one directory. -/
def Env.scan (E : Env) (q : Path) : Prog Node Listing :=
  .look E.F fun d => match d.at_ q with
    | some (.dir _) => .ok
      { subs := (d.names q).filter fun n => real d q n || E.linked d q n
        files := (d.names q).filter fun n => !(real d q n || E.linked d q n)
        walked := (d.names q).filter fun n => real d q n }
    | some _ => .error .notADirectoryError
    | none => .error .fileNotFoundError

/-- The loop over `subs` (core.py 604-610, 634-640): `has_subs` and the set `sps`. -/
def check (deleted : List Path) (q : Path) : List Name → List Path → Bool × List Path
  | [], sps => (false, sps)
  | n :: ns, sps => if q ++ [n] ∈ deleted then check deleted q ns ((q ++ [n]) :: sps) else (true, sps)

/-- The body of the loop (core.py 602-618, 632-648) for one directory. -/
def Env.body (E : Env) (q : Path) (l : Listing) (deleted : List Path) : Prog Node (List Path) :=
  let r := check deleted q l.subs []
  if l.files.isEmpty && !r.1 then
    .bind (.act E.F fun d => d.rmdir q) fun _ =>
      .pure ((q :: deleted).filter fun p => decide (p ∉ r.2))
  else .pure deleted

mutual

/-- The walk with the body of the loop, for one directory: scan it (an error ends the walk of this directory
without a word, since `onerror` is not given), walk the directories in it, then run the body.  `fuel` is the
depth that python's stack allows. -/
def Env.visit (E : Env) : Nat → Path → List Path → Prog Node (List Path)
  | 0, _, _ => .throw .runtimeError
  | fuel + 1, q, deleted =>
    .bind (.catch_ (.bind (E.scan q) fun l => .pure (some l)) fun _ => .pure none) fun
      | none => .pure deleted
      | some l => .bind (E.visitAll fuel q l.walked deleted) fun deleted => E.body q l deleted

def Env.visitAll (E : Env) (fuel : Nat) (q : Path) : List Name → List Path → Prog Node (List Path)
  | [], deleted => .pure deleted
  | n :: ns, deleted => .bind (E.visit fuel (q ++ [n]) deleted) fun deleted => E.visitAll fuel q ns deleted

end

/-- `rmdirtree` -/
def Env.rmdirtree (E : Env) (fuel : Nat) (q : Path) : Prog Node Unit :=
  .bind (.look E.F fun d => match d.at_ q with
      | some (.link _) => .ok true
      | _ => .ok false) fun b =>
    if b then .throw .notADirectoryError else .bind (E.visit fuel q []) fun _ => .pure ()

end Verif.FS.Rmdirtree
