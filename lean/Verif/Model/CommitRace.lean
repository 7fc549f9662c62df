import Verif.Model.VisitRace

/-!
# Commits to the same repository from several processes

`RepoHelper.commit` and `commit_from_working_tree` (`augpathlib/repo.py` lines 280-339) as separate git commands, in any number of processes at
once.

Simplified as in `Model/Git`.  A git command takes effect at once or fails because another one is running (`index.lock`).  While there are
conflicts in the index, all of the commands fail.  `Env.commit` and `Env.commitFromWorkingTree` of `Model/Git` are the same in one process.
-/

namespace Verif.Git.CommitRace

/-- How far a process is. -/
inductive Pc where
  /-- `self.repo.index.add` comes next (repo.py 287). -/
  | adding
  /-- `active_branch` comes next (repo.py 306). -/
  | start
  /-- `is_valid()` comes next (repo.py 306). -/
  | known (branch : Str)
  /-- `stash('push')` comes next (repo.py 308). -/
  | valid
  /-- `checkout('stash@{0}', '--', …)` comes next (repo.py 312). -/
  | stashed
  /-- `index.commit` comes next (repo.py 316). -/
  | ready
  /-- `index.commit` comes next, on a branch without a commit (repo.py 329). -/
  | fresh
  /-- `stash('pop')` comes next (repo.py 321), and then the result or the exception. -/
  | popping (res : Except PyErr Commit)
  | ended (res : Except PyErr Commit)

/-- The repository, whether there are conflicts in its index, and the processes. -/
structure State where
  repo : Repo
  stuck : Bool
  pc : Nat → Pc

def State.goto (s : State) (i : Nat) (pc : Pc) : State := { s with pc := fun j => if j = i then pc else s.pc j }

/-- A git command; `error`: what comes after its exception. -/
def State.command {α : Type} (s : State) (i : Nat) (fail : Bool) (f : Except PyErr (α × Repo)) (ok : α → Pc) (error : PyErr → Pc) : State :=
  if fail || s.stuck then s.goto i (error .gitError)
  else match f with
    | .ok (a, r) => { s.goto i (ok a) with repo := r }
    | .error e => s.goto i (error e)

/-- `checkout('stash@{0}', '--', path)` without a result. -/
noncomputable def fromStash (spec : File → Bool) (r : Repo) : Except PyErr (Unit × Repo) :=
  match checkoutFrom 0 spec r with
  | .ok r => .ok ((), r)
  | .error e => .error e

open Classical in
/-- `repo.git.stash('pop')`, whose exception is caught (repo.py 320-323). -/
noncomputable def State.pop (mess : Repo → Tree × Tree) (s : State) (i : Nat) (fail : Bool) (pc : Pc) : State :=
  if fail || s.stuck then s.goto i pc
  else match stashPop mess 0 s.repo with
    | (.done, r) => { s.goto i pc with repo := r }
    | (.kept, r) => { s.goto i pc with repo := r, stuck := decide (VisitRace.Conflicts 0 s.repo) }

/-- The next step of process `i`, which commits what is at `spec i`. -/
noncomputable def step (mess : Repo → Tree × Tree) (spec : Nat → File → Bool) (s : State) (i : Nat) (fail : Bool) : State :=
  match s.pc i with
  | .adding => s.command i fail (.ok ((), indexAdd (spec i) s.repo)) (fun _ => .start) fun e => .ended (.error e)
  | .start => s.goto i (match s.repo.head with
    | .branch n => .known n
    | .detached _ => .ended (.error .typeError))
  | .known n => s.goto i (if (s.repo.refs (.head n)).isSome then .valid else .fresh)
  | .valid => s.command i fail (stashPush false s.repo) (fun _ => .stashed) fun e => .ended (.error e)
  | .stashed => s.command i fail (fromStash (spec i) s.repo) (fun _ => .ready) fun _ => .ready
  | .ready => s.command i fail (indexCommit s.repo) (fun c => .popping (.ok c)) fun e => .popping (.error e)
  | .fresh => s.command i fail (indexCommit s.repo) (fun c => .ended (.ok c)) fun e => .ended (.error e)
  | .popping res => s.pop mess i fail (.ended res)
  | .ended _ => s

/-- Processes make steps in any order. -/
noncomputable def run (mess : Repo → Tree × Tree) (spec : Nat → File → Bool) : State → List (Nat × Bool) → State
  | s, [] => s
  | s, (i, fail) :: rest => run mess spec (step mess spec s i fail) rest

/-- Nobody has begun; some are to call `commit_from_working_tree` (`add`) and the others `commit`. -/
def State.init (add : Nat → Bool) (r : Repo) : State := ⟨r, false, fun i => if add i then .adding else .start⟩

end Verif.Git.CommitRace
