import Verif.Model.Rmtree

/-!
# Resolving paths, and the directory of a cache

`AugmentedPath.resolve` (core.py 474-481) and `local_data_dir_init` (caches.py 186-227) with `local_objects_dir`
(caches.py 175-178).
-/

namespace Verif.FS

/-- `os.path.realpath(path, strict=False)`, which `resolve` calls: symlinks are replaced by what they point to, and where nothing
is, or where looking is not allowed, the components are kept.  pathlib raises `RuntimeError` when it meets a symlink loop;
simplified: here a loop is a resolution that follows more than `budget` symlinks. -/
def realpath (t : Tree) (budget : Nat) (cur : Path) (rest : List Name) : Except PyErr Path :=
  match rest with
  | [] => .ok cur
  | n :: rest =>
    if n = ['.'] then realpath t budget cur rest
    else if n = ['.', '.'] then realpath t budget cur.dropLast rest
    else
      match t cur, t (cur ++ [n]) with
      | some (.dir true), some (.link l) =>
        match budget with
        | 0 => .error .runtimeError
        | b + 1 => realpath t b (start cur l.absolute) (l.comps ++ rest)
      | _, _ => realpath t budget (cur ++ [n]) rest
termination_by (budget, rest.length)

/-- `path.resolve()` -/
def Env.resolve (E : Env) (p : UserPath) : Prog Node Path :=
  .look E.F fun d => realpath d.at_ E.L.maxLinks (start E.cwd p.absolute) p.comps

/-- `path.exists()` (core.py 429-436) -/
def Env.pathExists (E : Env) (p : UserPath) : Prog Node Bool := .look E.F fun d => FS.pathExists E.L d.at_ E.cwd p

/-- Make something at a path where nothing is. -/
def Env.make (E : Env) (p : UserPath) (x : Node) : Prog Node Unit :=
  .act E.F fun d =>
    match E.lloc d p with
    | .error e => .error e.py
    | .ok q => d.create q x

/-- `path.mkdir(exist_ok=...)` of pathlib, without `parents`. -/
def Env.mkdir (E : Env) (p : UserPath) (existOk : Bool) : Prog Node Unit :=
  .catch_ (E.make p (.dir true)) fun e =>
    if e = .fileNotFoundError ∨ existOk = false then .throw e
    else .bind (E.isDir p) fun b => if b then .pure () else .throw e

/-- `path.symlink_to(target)` -/
def Env.symlinkTo (E : Env) (p target : UserPath) : Prog Node Unit := E.make p (.link ⟨target.absolute, target.comps⟩)

/-- `local_objects_dir` (caches.py 175-178) -/
def objectsDir (dir : UserPath) : UserPath := dir.child ['o', 'b', 'j', 'e', 'c', 't', 's']

/-- The end of `local_data_dir_init` (caches.py 223-227); some caches have no trash. -/
def Env.initTrash (E : Env) (trash : Option UserPath) (existOk : Bool) : Prog Node Unit :=
  match trash with
  | none => .pure ()
  | some t => E.mkdir t existOk

/-- `local_data_dir_init` (caches.py 186-227) for the data directory `dir`; `to` is `symlink_objects_to`.  The text of the link is
read for a message (caches.py 205). -/
def Env.dataDirInit (E : Env) (dir : UserPath) (trash : Option UserPath) (existOk : Bool) (to : Option UserPath) : Prog Node Unit :=
  .bind (E.mkdir dir existOk) fun _ =>
  match to with
  | none => .bind (E.mkdir (objectsDir dir) existOk) fun _ => E.initTrash trash existOk
  | some t =>
    .bind (E.isSymlink (objectsDir dir)) fun l =>
    if l then
      .bind (.look E.F fun d => match lstat E.L d.at_ E.cwd (objectsDir dir) with
        | .ok _ => .ok ()
        | .error e => .error e.py) fun _ =>
      .bind (E.resolve (objectsDir dir)) fun a =>
      .bind (E.resolve t) fun b =>
      if a = b then .pure () else .throw .notADirectoryError
    else
      .bind (E.pathExists (objectsDir dir)) fun ex =>
      .bind (if ex then E.rmdir (objectsDir dir) else .pure ()) fun _ =>
      .bind (E.symlinkTo (objectsDir dir) t) fun _ => E.initTrash trash existOk

end Verif.FS
