import Verif.Model.Rmtree

/-!
# Copying files

`AugmentedPath.copy_to`, `copy_outto` (`augpathlib/core.py` lines 825-850) and `LocalPath.copy_to` (lines 1418-1430),
with the generator `data` (lines 1342-1350) that reads while the setter writes (lines 1365-1371).  Simplified: no cache
is attached to the target, each read and write is one call without buffering, a file has one location (no hard links),
and permissions, times and extended attributes are left out.
-/

namespace Verif.FS

/-- Resolve a path for opening with `O_CREAT`: as `walk`, but the last name may be missing (open(2)). -/
def walkNew (L : Limits) (t : Tree) (budget : Nat) (cur : Path) (rest : List Name) : Except Errno Path :=
  match rest with
  | [] => .ok cur
  | n :: rest =>
    match t cur with
    | none => .error .ENOENT
    | some (.dir false) => .error .EACCES
    | some (.dir true) =>
      if n = ['.'] then walkNew L t budget cur rest
      else if n = ['.', '.'] then walkNew L t budget cur.dropLast rest
      else if L.nameMax < (utf8 n).length then .error .ENAMETOOLONG
      else
        match t (cur ++ [n]) with
        | none => if rest = [] then .ok (cur ++ [n]) else .error .ENOENT
        | some (.link l) =>
          match budget with
          | 0 => .error .ELOOP
          | b + 1 => walkNew L t b (start cur l.absolute) (l.comps ++ rest)
        | some _ => walkNew L t budget (cur ++ [n]) rest
    | some _ => .error .ENOTDIR
termination_by (budget, rest.length)

/-- `open(path, 'rb')`: the location of the file -/
def Env.openRead (E : Env) (p : UserPath) : Prog Node Path :=
  .look E.F fun d => match walk E.L d.at_ E.L.maxLinks (start E.cwd p.absolute) p.comps with
    | .error e => .error e.py
    | .ok q => match d.at_ q with
      | some (.file _) => .ok q
      | some (.dir _) => .error .isADirectoryError
      | some _ => .error .osError
      | none => .error .fileNotFoundError

/-- `f.read(n)` at a position -/
def Env.read (E : Env) (q : Path) (pos n : Nat) : Prog Node Bytes :=
  .look E.F fun d => match d.at_ q with
    | some (.file b) => .ok ((b.drop pos).take n)
    | _ => .error .osError

/-- `open(path, 'wb')`: make or truncate the file -/
def Env.openWrite (E : Env) (p : UserPath) : Prog Node Path :=
  .sys E.F fun d => match walkNew E.L d.at_ E.L.maxLinks (start E.cwd p.absolute) p.comps with
    | .error e => .error e.py
    | .ok q => match d.at_ q with
      | none | some (.file _) => .ok (q, d.put q (.file []))
      | some (.dir _) => .error .isADirectoryError
      | some _ => .error .osError

/-- `f.write(chunk)` at the end of the file -/
def Env.write (E : Env) (q : Path) (c : Bytes) : Prog Node Unit :=
  .act E.F fun d => match d.at_ q with
    | some (.file b) => .ok (d.put q (.file (b ++ c)))
    | _ => .error .osError

/-- Read and write chunks of at most `n` bytes until there is nothing to read (core.py 1344-1350, 1369-1371).  `fuel`
bounds the number of passes. -/
def Env.pump (E : Env) (n : Nat) (src dst : Path) : Nat → Nat → Prog Node Unit
  | 0, _ => .throw .runtimeError
  | fuel + 1, pos =>
    .bind (E.read src pos n) fun c =>
    if c = [] then .pure ()
    else .bind (E.write dst c) fun _ => E.pump n src dst fuel (pos + c.length)

/-- `not target.exists() and not target.is_symlink() or force` (core.py 827, 1423) -/
def Env.mayCopy (E : Env) (target : UserPath) (force : Bool) : Prog Node Bool :=
  .bind (.look E.F fun d => pathExists E.L d.at_ E.cwd target) fun ex =>
  if ex then .pure force
  else .bind (E.isSymlink target) fun b => .pure (!b || force)

/-- `LocalPath.copy_to(target, force)` (core.py 1418-1430) -/
def Env.copyLocal (E : Env) (n fuel : Nat) (src target : UserPath) (force : Bool) : Prog Node Unit :=
  .bind (E.mayCopy target force) fun may =>
  if may then
    -- chunk1 = next(generator)
    .bind (E.openRead src) fun from_ =>
    .bind (E.read from_ 0 n) fun chunk1 =>
    if chunk1 = [] then .throw .stopIteration
    else
      .bind (E.openWrite target) fun to =>
      .bind (E.write to chunk1) fun _ =>
      E.pump n from_ to fuel chunk1.length
  else .throw .pathExistsError

/-- The location that a path leads to (`os.path.samefile` compares these). -/
def Env.same (E : Env) (d : Disk Node) (a b : UserPath) : Bool :=
  match walk E.L d.at_ E.L.maxLinks (start E.cwd a.absolute) a.comps,
    walk E.L d.at_ E.L.maxLinks (start E.cwd b.absolute) b.comps with
  | .ok p, .ok q => p = q ∧ (d.at_ p).isSome
  | _, _ => false

/-- `shutil.copyfile(src, dst)` as the python documentation describes it -/
def Env.copyFile (E : Env) (n fuel : Nat) (src dst : UserPath) : Prog Node Unit :=
  .bind (.look E.F fun d => .ok (E.same d src dst)) fun same =>
  if same then .throw .osError
  else
    .bind (E.openRead src) fun from_ =>
    .bind (E.openWrite dst) fun to =>
    E.pump n from_ to fuel 0

/-- `shutil.copy2(src, dst)` as the python documentation describes it, without the metadata: into `dst` if it is a
directory. -/
def Env.copy2 (E : Env) (n fuel : Nat) (src dst : UserPath) : Prog Node Unit :=
  .bind (E.isDir dst) fun isd =>
  if isd then E.copyFile n fuel src (dst.child (src.comps.getLast?.getD [])) else E.copyFile n fuel src dst

/-- `AugmentedPath.copy_to(target, force)` (core.py 825-833) -/
def Env.copyTo (E : Env) (n fuel : Nat) (src target : UserPath) (force : Bool) : Prog Node Unit :=
  .bind (E.mayCopy target force) fun may =>
  if may then E.copy2 n fuel src target else .throw .pathExistsError

/-- `copy_outto(target, force)` (core.py 839-846) for either kind of path, whose `copy_to` is given. -/
def Env.copyOutto (E : Env) (copy : UserPath → Prog Node Unit) (src target : UserPath) : Prog Node UserPath :=
  .bind (E.isDir target) fun b =>
  if b then
    let file := target.child (src.comps.getLast?.getD [])
    .bind (copy file) fun _ => .pure file
  else .throw .notADirectoryError

end Verif.FS
