import Verif.Model.Git

/-!
# Visiting refs of the same repository from several processes

`_Reference.__enter__` and `__exit__` (`augpathlib/repo_patch.py` lines 51-87) as separate git commands, in any number of processes at once.

Simplified as in `Model/Git`; the bodies of the blocks only read.  A git command takes effect at once or fails because another one is running
(`index.lock`).  While there are conflicts in the index, all of the commands fail.  `Env.visit` of `Model/Git` is the same in one process.
-/

namespace Verif.Git.VisitRace

/-- How far a process is. -/
inductive Pc where
  /-- `is_valid` comes next (repo_patch.py 59). -/
  | start
  /-- `active_branch` comes next (repo_patch.py 62). -/
  | valid
  /-- `stash('--all')` comes next (repo_patch.py 63). -/
  | known (original : Str)
  /-- `self.checkout()` comes next (repo_patch.py 70); whether there is a stash entry. -/
  | stashed (original : Str) (kept : Bool)
  /-- The body runs; `stash('--all')` of `__exit__` comes next (repo_patch.py 74). -/
  | inside (original : Str) (kept : Bool)
  /-- Going back comes next (repo_patch.py 80-81); whether the second stash made an entry. -/
  | leaving (original : Str) (kept again : Bool)
  /-- `stash('pop', stash)` comes next (repo_patch.py 84-85). -/
  | popping (kept again : Bool)
  | returned
  | raised (e : PyErr)

/-- The repository, whether there are conflicts in its index, and the processes. -/
structure State where
  repo : Repo
  stuck : Bool
  pc : Nat → Pc

def State.goto (s : State) (i : Nat) (pc : Pc) : State := { s with pc := fun j => if j = i then pc else s.pc j }

/-- A git command; `fail`: another one is running. -/
def State.command (s : State) (i : Nat) (fail : Bool) (f : Except PyErr (Pc × Repo)) : State :=
  if fail || s.stuck then s.goto i (.raised .gitError)
  else match f with
    | .ok (pc, r) => { s.goto i pc with repo := r }
    | .error e => s.goto i (.raised e)

/-- What comes next after a command that returned. -/
def after {α : Type} (f : α → Pc × Repo) : Except PyErr α → Except PyErr (Pc × Repo)
  | .ok a => .ok (f a)
  | .error e => .error e

/-- `ref.checkout()`: a tag has no such method. -/
noncomputable def leave (s : State) (i : Nat) (fail : Bool) (ref : Ref) (pc : Pc) : State :=
  match ref with
  | .tag _ => s.goto i (.raised .attributeError)
  | ref => s.command i fail (after (fun r => (pc, r)) (checkout ref s.repo))

/-- `git stash pop stash@{k}` leaves conflicts (see `stashPop`). -/
def Conflicts (k : Nat) (r : Repo) : Prop :=
  ∃ e, r.stash[k]? = some e ∧ (¬ ∃ p, merge3 (e.base p) (r.index p) (e.work p) ≠ some (r.index p) ∧ r.work p ≠ r.index p) ∧
    ∃ p, merge3 (e.base p) (r.index p) (e.work p) = none

open Classical in
/-- `repo.git.stash('pop', stash)` -/
noncomputable def State.pop (mess : Repo → Tree × Tree) (s : State) (i : Nat) (fail : Bool) (k : Nat) : State :=
  if fail || s.stuck then s.goto i (.raised .gitError)
  else match stashPop mess k s.repo with
    | (.done, r) => { s.goto i .returned with repo := r }
    | (.kept, r) => { s.goto i (.raised .gitError) with repo := r, stuck := decide (Conflicts k s.repo) }

open Classical in
/-- The next step of process `i`, which visits `ref i`. -/
noncomputable def step (mess : Repo → Tree × Tree) (ref : Nat → Ref) (s : State) (i : Nat) (fail : Bool) : State :=
  match s.pc i with
  | .start => s.goto i (if (s.repo.refs (ref i)).isSome then .valid else .raised .nameError)
  | .valid => s.goto i (match s.repo.head with
    | .branch n => .known n
    | .detached _ => .raised .typeError)
  | .known n => s.command i fail (after (fun x => (if ref i = .head n then .inside n x.1 else .stashed n x.1, x.2)) (stashPush true s.repo))
  | .stashed n kept => leave s i fail (ref i) (.inside n kept)
  | .inside n kept => s.command i fail (after (fun x => (.leaving n kept x.1, x.2)) (stashPush true s.repo))
  | .leaving n kept again =>
    if .head n = ref i then s.goto i (.popping kept again) else leave s i fail (.head n) (.popping kept again)
  | .popping kept again => if kept then s.pop mess i fail (if again then 1 else 0) else s.goto i .returned
  | .returned | .raised _ => s

/-- Processes make steps in any order. -/
noncomputable def run (mess : Repo → Tree × Tree) (ref : Nat → Ref) : State → List (Nat × Bool) → State
  | s, [] => s
  | s, (i, fail) :: rest => run mess ref (step mess ref s i fail) rest

/-- Nobody has begun. -/
def State.init (r : Repo) : State := ⟨r, false, fun _ => .start⟩

end Verif.Git.VisitRace
