import Verif.Model.Disk

/-!
# `AugmentedPath.rmtree` (`augpathlib/core.py` lines 650-706)

On a disk with symlinks anywhere, for a path as the user writes it (with `..` and through symlinks), with
system calls that may fail.  Simplified: nobody else changes the disk meanwhile (see `Model/RmtreeRace`); a call on a cache walks
the same locations as one on its local path; `RepoPath.rmtree` (repo.py 377-388) only closes handles before.
-/

namespace Verif.FS

/-- What a run depends on: the limits of the system, the working directory, the calls that fail, and
python's recursion limit. -/
structure Env where
  L : Limits
  cwd : Path
  F : Nat → Option PyErr

/-- The location that the last component of a path names (not followed if it is a symlink). -/
def Env.lloc (E : Env) (d : Disk Node) (p : UserPath) : Except Errno Path :=
  match p.comps.getLast? with
  | none => .ok (start E.cwd p.absolute)
  | some n =>
    if n = ['.'] ∨ n = ['.', '.'] then walk E.L d.at_ E.L.maxLinks (start E.cwd p.absolute) p.comps
    else
      match walk E.L d.at_ E.L.maxLinks (start E.cwd p.absolute) p.comps.dropLast with
      | .error e => .error e
      | .ok q => match d.at_ q with
        | none => .error .ENOENT
        | some (.dir false) => .error .EACCES
        | some (.dir true) => if E.L.nameMax < (utf8 n).length then .error .ENAMETOOLONG else .ok (q ++ [n])
        | some _ => .error .ENOTDIR

/-- `os.unlink(path)`; a path that ends in `.` or `..` names a directory, so it fails. -/
def Env.unlink (E : Env) (p : UserPath) : Prog Node Unit :=
  .act E.F fun d => match E.lloc d p with
    | .error e => .error e.py
    | .ok q => d.unlink q

/-- `os.rmdir(path)`; not for paths that end in `.` or `..` -/
def Env.rmdir (E : Env) (p : UserPath) : Prog Node Unit :=
  .act E.F fun d =>
    if p.comps.getLast? = some ['.'] ∨ p.comps.getLast? = some ['.', '.'] then .error .osError
    else match E.lloc d p with
      | .error e => .error e.py
      | .ok q => d.rmdir q

/-- `path.is_dir()` (core.py 447-454) -/
def Env.isDir (E : Env) (p : UserPath) : Prog Node Bool := .look E.F fun d => FS.isDir E.L d.at_ E.cwd p

/-- `path.is_symlink()` (core.py 456-463) -/
def Env.isSymlink (E : Env) (p : UserPath) : Prog Node Bool := .look E.F fun d => FS.isSymlink E.L d.at_ E.cwd p

/-- The child of a path. -/
def UserPath.child (p : UserPath) (n : Name) : UserPath := ⟨p.absolute, p.comps ++ [n]⟩

/-- `list(path.iterdir())`, which follows the path if it is a symlink -/
def Env.iterdir (E : Env) (p : UserPath) : Prog Node (List UserPath) :=
  .look E.F fun d => match walk E.L d.at_ E.L.maxLinks (start E.cwd p.absolute) p.comps with
    | .error e => .error e.py
    | .ok q => match d.at_ q with
      | some (.dir _) => .ok ((d.names q).map p.child)
      | some _ => .error .notADirectoryError
      | none => .error .fileNotFoundError

/-- The guards (core.py 654-665); `parts` has the root as its first element. -/
def Env.refuses (E : Env) (danger : Bool) (p : UserPath) : Bool :=
  !p.absolute || (!danger && (decide (p.comps.length + 1 ≤ 2) ||
    (decide (p.comps.length + 1 ≤ 3) && p.comps.contains ['h', 'o', 'm', 'e']) || decide (p.comps = E.cwd)))

/-- The argument `onerror`: nothing, or a function that returns or raises. -/
abbrev Handler := Option (Except PyErr Unit)

/-- The `except` clauses (core.py 696-706).  `bound` says whether `path` is bound, and to what; the
handler gets a method of it, for which `path.is_dir()` is asked. -/
def Env.handle (E : Env) (ignore : Bool) (h : Handler) (bound : Option UserPath) (e : PyErr) : Prog Node Unit :=
  if e = .willNotRemovePathError then .throw e
  else if ignore then .pure ()
  else match h with
    | none => .throw e
    | some r => match bound with
      | none => .throw .unboundLocalError
      | some p => .bind (E.isDir p) fun _ s => (r, s)

mutual

/-- `rmtree`; `fuel` is the depth that python's stack allows. -/
def Env.rmtree (E : Env) (danger ignore : Bool) (h : Handler) : Nat → UserPath → Prog Node Unit
  | 0, _ => .throw .runtimeError
  | fuel + 1, p =>
    if E.refuses danger p then .throw .willNotRemovePathError
    else
      .bind (.catch_ (.bind (E.isDir p) fun b => .pure (some b)) fun e =>
          .bind (E.handle ignore h none e) fun _ => .pure none) fun
        | none => .pure ()
        | some false => .catch_ (E.unlink p) (E.handle ignore h (some p))
        | some true =>
          .bind (.catch_ (.bind (E.isSymlink p) fun b =>
              if b then .throw .osError else .bind (E.iterdir p) fun ks => .pure (some ks)) fun e =>
              .bind (E.handle ignore h none e) fun _ => .pure none) fun
            | none => .pure ()
            | some ks => E.loop danger ignore h fuel p ks

/-- The loop over the entries and the removal of the directory itself. -/
def Env.loop (E : Env) (danger ignore : Bool) (h : Handler) (fuel : Nat) (p : UserPath) :
    List UserPath → Prog Node Unit
  | [] => .catch_ (E.rmdir p) (E.handle ignore h (some p))
  | k :: ks => fun s =>
    match (Prog.bind (E.isSymlink k) fun b =>
        if b then E.unlink k else E.rmtree danger ignore h fuel k) s with
    | (.ok _, s) => E.loop danger ignore h fuel p ks s
    | (.error e, s) => E.handle ignore h (some k) e s

end

end Verif.FS
