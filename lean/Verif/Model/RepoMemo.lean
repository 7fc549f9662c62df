import Verif.Model.Ancestors

/-!
# The repositories that have been opened

`augpathlib/repo.py` lines 10-130 and 376-388: `RepoHelper._repos` keeps the GitPython object of every working directory for the
life of the process.  Programs outside the process change the disk as well.  Simplified: no symlinks, no leading `~`, `exists`
does not raise, no two programs at the same moment, all paths have the same class.
-/

namespace Verif.RepoMemo
open Verif.FS

/-- What the `.git` of a directory is: a repository, with a number that tells it from the ones that were there before, or
something that GitPython does not open. -/
inductive Git
  | repo (n : Nat)
  | bogus
  deriving DecidableEq

/-- A `git.Repo`: which object, its `working_dir`, and the repository that it was opened on. -/
structure Handle where
  obj : Nat
  dir : Path
  rid : Nat
  deriving DecidableEq

/-- The disk, the current directory, and what the process has. -/
structure World where
  /-- what exists -/
  there : Path → Bool
  /-- the `.git` in a directory -/
  git : Path → Option Git
  cwd : Path
  /-- `RepoHelper._repos` (repo.py 12) -/
  memo : UserPath → Option Handle
  /-- the objects that have been closed -/
  closed : Nat → Bool
  /-- the next object or repository -/
  next : Nat

/-- `d[k] = v`, `d.pop(k)` -/
def set (m : UserPath → Option Handle) (k : UserPath) (v : Option Handle) : UserPath → Option Handle :=
  fun q => if q = k then v else m q

/-- `(p / '.git').exists()` -/
def World.hasGit (w : World) (p : Path) : Bool := (w.git p).isSome

/-- `working_dir` (repo.py 110-130) -/
def World.workingDir (w : World) (p : UserPath) : Option Path :=
  let find := fun q => match workingDirAbs (fun q => .ok (w.hasGit q)) q with
    | .ok r => r
    | .error _ => none
  if p.absolute then find p.comps
  else if w.hasGit (w.cwd ++ p.comps) then some (w.cwd ++ p.comps)
  else find (parentOf (w.cwd ++ p.comps))

/-- `self._repo_class(wd)`: GitPython opens what is there. -/
def World.opens (w : World) (wd : Path) : Except PyErr Handle :=
  match w.git wd with
  | some (.repo n) => .ok ⟨w.next, wd, n⟩
  | _ => .error .foreign

/-- `repo` (repo.py 98-108).  `NotInRepoError` is `gitError` here, `InvalidGitRepositoryError` is `foreign`. -/
def World.repo (w : World) (p : UserPath) : Except PyErr Handle × World :=
  match w.workingDir p with
  | none => (.error .gitError, w)
  | some wd =>
    match w.memo ⟨true, wd⟩ with
    | some h => (.ok h, w)
    | none =>
      match w.opens wd with
      | .error e => (.error e, w)
      | .ok h => (.ok h, { w with memo := set w.memo ⟨true, wd⟩ (some h), next := w.next + 1 })

/-- `git init` or `git clone` at a path where no repository is: the directory and the ones above it come to be, and a new
repository is in it. -/
def World.create (w : World) (d : Path) : World :=
  { w with
    there := fun q => decide (q <+: d) || w.there q
    git := fun q => if q = d then some (.repo w.next) else w.git q
    next := w.next + 1 }

/-- The end of `init` (repo.py 87-96).  `works`: whether GitPython's `init` or `clone_from` does. -/
def World.make (w : World) (p : UserPath) (works : Bool) : Except PyErr Handle × World :=
  if works then
    let d := absolute w.cwd p
    let w' := w.create d
    let h : Handle := ⟨w'.next, d, w.next⟩
    (.ok h, { w' with memo := set w'.memo p (some h), next := w'.next + 1 })
  else (.error .foreign, w)

/-- `init` (repo.py 60-96) -/
def World.init (w : World) (p : UserPath) (works : Bool) : Except PyErr Handle × World :=
  match w.repo p with
  | (.error .gitError, w) => w.make p works
  | (.error e, w) => (.error e, w)
  | (.ok r, w) =>
    if w.there (absolute w.cwd p) then (.error .repoExistsError, w)
    else if p.absolute && decide (r.dir = p.comps) then
      match w.memo p with
      | none => (.error .keyError, w)
      | some _ => { w with memo := set w.memo p none }.make p works
    else (.error .assertionError, w)

/-- `RepoPath.rmtree` (repo.py 376-388).  `gone` is what the `rmtree` of `AugmentedPath` gets to remove: nothing if it refuses,
part of the tree if it fails on the way. -/
def World.rmtree (w : World) (p : UserPath) (gone : Path → Bool) : World :=
  let w := match w.memo p with
    | none => w
    | some h => { w with memo := set w.memo p none, closed := fun o => decide (o = h.obj) || w.closed o }
  let under := fun q => gone q && decide (absolute w.cwd p <+: q)
  { w with
    there := fun q => w.there q && !under q
    git := fun q => if under q || under (q ++ [dotgit]) then none else w.git q }

/-- What may happen. -/
inductive Op
  | repo (p : UserPath)
  | init (p : UserPath) (works : Bool)
  | rmtree (p : UserPath) (gone : Path → Bool)
  | chdir (d : Path)
  /-- another program changes the disk -/
  | outside (there : Path → Bool) (git : Path → Option Git)

/-- One thing happens. -/
def World.step (w : World) : Op → World
  | .repo p => (w.repo p).2
  | .init p b => (w.init p b).2
  | .rmtree p g => w.rmtree p g
  | .chdir d => { w with cwd := d }
  | .outside t g => { w with there := t, git := g }

/-- A process begins with nothing opened. -/
def World.fresh (w : World) : Prop := (∀ k, w.memo k = none) ∧ ∀ o, w.closed o = false

end Verif.RepoMemo
