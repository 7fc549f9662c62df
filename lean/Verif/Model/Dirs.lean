import Verif.Model.FS

/-!
# The working directory

`chdir`, `pushd`, `popd` and the context manager of `augpathlib/core.py` lines 708-746, over the file
system of `Verif.Model.FS`.
-/

namespace Verif.FS

/-- What these functions read and write: the file system, the working directory (a location) and the
class attribute `AugmentedPath._stack`, oldest entry first. -/
structure Dirs where
  tree : Tree
  cwd : Path
  stack : List UserPath

/-- The location of the working directory, as an absolute path. -/
def getcwd (cwd : Path) : UserPath := ⟨true, cwd⟩

/-- `self.cwd()`, which is `os.getcwd()`: the location, unless the directory has been removed. -/
def askCwd (t : Tree) (cwd : Path) : Except PyErr UserPath :=
  match t cwd with
  | some (.dir _) => .ok (getcwd cwd)
  | _ => .error .fileNotFoundError

/-- `os.chdir(path)` (core.py 708-709): the path has to lead to a directory this process may search. -/
def chdirTo (L : Limits) (t : Tree) (cwd : Path) (p : UserPath) : Except PyErr Path :=
  match walk L t L.maxLinks (start cwd p.absolute) p.comps with
  | .error e => .error e.py
  | .ok q => match t q with
    | some (.dir true) => .ok q
    | some (.dir false) => .error .permissionError
    | some _ => .error .notADirectoryError
    | none => .error .fileNotFoundError

/-- `pushd` (core.py 711-717).  The stack grows before `chdir` is tried. -/
def pushd (L : Limits) (p : UserPath) (s : Dirs) : Except PyErr Unit × Dirs :=
  match isDir L s.tree s.cwd p with
  | .error e => (.error e, s)
  | .ok false => (.error .notADirectoryError, s)
  | .ok true =>
    match askCwd s.tree s.cwd with
    | .error e => (.error e, s)
    | .ok here =>
      let s := { s with stack := s.stack ++ [here] }
      match chdirTo L s.tree s.cwd p with
      | .error e => (.error e, s)
      | .ok q => (.ok (), { s with cwd := q })

/-- `list.pop(i)` of python: `i` counts from the end when negative, `IndexError` outside. -/
def pyPop {α : Type} (l : List α) (i : Int) : Except PyErr (α × List α) :=
  let j := if i < 0 then i + l.length else i
  if j < 0 then .error .indexError
  else match l[j.toNat]? with
    | some x => .ok (x, l.eraseIdx j.toNat)
    | none => .error .indexError

/-- `popd` (core.py 719-731).  The entry is taken off before `chdir` is tried; on an empty stack there
is only a log message and the result is `None`. -/
def popd (L : Limits) (n : Int) (s : Dirs) : Except PyErr (Option UserPath) × Dirs :=
  match s.stack with
  | [] => (.ok none, s)
  | _ :: _ => match pyPop s.stack (-(n + 1)) with
    | .error e => (.error e, s)
    | .ok (path, rest) =>
      let s := { s with stack := rest }
      match chdirTo L s.tree s.cwd path with
      | .error e => (.error e, s)
      | .ok q => (.ok (some path), { s with cwd := q })

/-- A call of one of the two. -/
inductive DirOp where
  | pushd (p : UserPath)
  | popd (n : Int)

/-- A sequence of calls; the first exception ends it. -/
def runOps (L : Limits) : List DirOp → Dirs → Except PyErr Unit × Dirs
  | [], s => (.ok (), s)
  | .pushd p :: ops, s => match pushd L p s with
    | (.error e, s) => (.error e, s)
    | (.ok _, s) => runOps L ops s
  | .popd n :: ops, s => match popd L n s with
    | (.error e, s) => (.error e, s)
    | (.ok _, s) => runOps L ops s

/-! ## `with path:` -/

/-- The state for the context manager: file system, working directory, and the attribute
`_entered_from` of each path object (objects are numbered). -/
structure World where
  tree : Tree
  cwd : Path
  enteredFrom : Nat → Option UserPath

/-- `__enter__` (core.py 733-739).  `super().__enter__()` for something that is not a directory:
pathlib up to 3.12 returns the object, later versions do not have it; both are covered by the
parameter. -/
def enter (L : Limits) (hasSuper : Bool) (o : Nat) (p : UserPath) (s : World) :
    Except PyErr Unit × World :=
  match isDir L s.tree s.cwd p with
  | .error e => (.error e, s)
  | .ok true =>
    match askCwd s.tree s.cwd with
    | .error e => (.error e, s)
    | .ok here =>
      let s := { s with enteredFrom := fun i => if i = o then some here else s.enteredFrom i }
      match chdirTo L s.tree s.cwd p with
      | .error e => (.error e, s)
      | .ok q => (.ok (), { s with cwd := q })
  | .ok false => (if hasSuper then .ok () else .error .attributeError, s)

/-- `_CachePath.__enter__` (caches.py 38-44): for something that is not a directory the method of the parent class is called with one
argument too many. -/
def enterCache (L : Limits) (o : Nat) (p : UserPath) (s : World) : Except PyErr Unit × World :=
  match isDir L s.tree s.cwd p with
  | .error e => (.error e, s)
  | .ok true =>
    match askCwd s.tree s.cwd with
    | .error e => (.error e, s)
    | .ok here =>
      let s := { s with enteredFrom := fun i => if i = o then some here else s.enteredFrom i }
      match chdirTo L s.tree s.cwd p with
      | .error e => (.error e, s)
      | .ok q => (.ok (), { s with cwd := q })
  | .ok false => (.error .typeError, s)

/-- `__exit__` (core.py 741-746); the attribute is not removed. -/
def leave (L : Limits) (hasSuper : Bool) (o : Nat) (s : World) : Except PyErr Unit × World :=
  match s.enteredFrom o with
  | some from_ => match chdirTo L s.tree s.cwd from_ with
    | .error e => (.error e, s)
    | .ok q => (.ok (), { s with cwd := q })
  | none => (if hasSuper then .ok () else .error .attributeError, s)

/-- A program: arbitrary steps on the file system and the working directory (which may raise), and
`with` statements. -/
inductive Script where
  | act (f : Tree → Path → Tree × Path × Option PyErr)
  | seq (a b : Script)
  | block (o : Nat) (p : UserPath) (body : Script)

/-- Run a program.  `with`: if `__enter__` raises the body is not run and `__exit__` is not called;
otherwise `__exit__` is called in any case, its exception replaces the one of the body, and it
returns `None`, so the exception of the body goes on. -/
def Script.run (L : Limits) (hasSuper : Bool) : Script → World → Except PyErr Unit × World
  | .act f, s => match f s.tree s.cwd with
    | (t, c, none) => (.ok (), { s with tree := t, cwd := c })
    | (t, c, some e) => (.error e, { s with tree := t, cwd := c })
  | .seq a b, s => match a.run L hasSuper s with
    | (.ok _, s) => b.run L hasSuper s
    | (.error e, s) => (.error e, s)
  | .block o p body, s => match enter L hasSuper o p s with
    | (.error e, s) => (.error e, s)
    | (.ok _, s) => match body.run L hasSuper s with
      | (r, s) => match leave L hasSuper o s with
        | (.ok _, s) => (r, s)
        | (.error e, s) => (.error e, s)

end Verif.FS
