import Verif.Model.Basic

/-!
# Creating repositories in several processes

`RepoPath.init` (`augpathlib/repo.py` lines 60-96) with `working_dir` (repo.py 110-130) as separate looks at the disk, in any number of
processes, each with a path of its own or the same one.

Simplified: paths are absolute and without symlinks; a repository is a directory with a `.git` that GitPython can open; `git init` and
`git clone` are one step each, and the parents of the path can be written to; the remote answers; nobody removes repositories; no process
has opened a repository before (`_repos` is empty).  `gitInit` of `Model/Ancestors` is the same in one process on the whole file system.
-/

namespace Verif.InitRace

variable {ν : Type} [DecidableEq ν]

/-- What a process does: the path, and whether there is a remote to clone. -/
structure Job (ν : Type) where
  path : List ν
  clone : Bool

/-- How far a process is. -/
inductive Pc where
  | start
  /-- It is going to look for `.git` in the directory that so many names of the path lead to (repo.py 116). -/
  | checking (k : Nat)
  /-- It has found a repository and is going to ask whether there is something at the path (repo.py 79). -/
  | found
  /-- It has found none and is going to create one (repo.py 87-93). -/
  | creating
  | returned
  | raised (e : PyErr)
  deriving DecidableEq

/-- The repositories and the processes. -/
structure State (ν : Type) where
  repos : List (List ν)
  pc : Nat → Pc

def State.goto (s : State ν) (i : Nat) (pc : Pc) : State ν := { s with pc := fun j => if j = i then pc else s.pc j }

/-- Whether there is something at a path: a path that leads to a repository, or `there` already. -/
def State.exists_ (there : List ν → Bool) (s : State ν) (p : List ν) : Bool := there p || s.repos.any (p.isPrefixOf ·)

/-- Whether `git clone` refuses the directory: there was something in it, or there is a repository at it or below it. -/
def State.refused (full : List ν → Bool) (s : State ν) (p : List ν) : Bool := full p || s.repos.any (p.isPrefixOf ·)

/-- The next look or command of process `i`. -/
def step (there full : List ν → Bool) (job : Nat → Job ν) (s : State ν) (i : Nat) : State ν :=
  match s.pc i with
  | .start => s.goto i (.checking (job i).path.length)
  | .checking k =>
    if (job i).path.take k ∈ s.repos then s.goto i .found
    else match k with
      | 0 => s.goto i .creating
      | k + 1 => s.goto i (.checking k)
  | .found => s.goto i (.raised (if s.exists_ there (job i).path then .repoExistsError else .assertionError))
  | .creating =>
    if (job i).clone && s.refused full (job i).path then s.goto i (.raised .gitError)
    else { s.goto i .returned with repos := (job i).path :: s.repos }
  | .returned | .raised _ => s

/-- Processes make steps in any order. -/
def run (there full : List ν → Bool) (job : Nat → Job ν) : State ν → List Nat → State ν
  | s, [] => s
  | s, i :: rest => run there full job (step there full job s i) rest

/-- Nobody has begun. -/
def State.init (repos : List (List ν)) : State ν := ⟨repos, fun _ => .start⟩

end Verif.InitRace
