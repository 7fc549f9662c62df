import Verif.Model.CommitRace

/-!
# Visits and commits in the same repository from several processes

Any number of processes in with-ref blocks (`_Reference.__enter__` and `__exit__`, `augpathlib/repo_patch.py` lines 51-87, see
`Model/VisitRace`) and any number of processes that call `RepoHelper.commit` or `commit_from_working_tree` (`augpathlib/repo.py` lines
280-339, see `Model/CommitRace`), at once.  Simplified as there.
-/

namespace Verif.Git.MixedRace

/-- The process whose turn it is. -/
inductive Who where
  | visitor (i : Nat)
  | committer (i : Nat)
  deriving DecidableEq

/-- The repository, whether there are conflicts in its index, and the processes. -/
structure State where
  repo : Repo
  stuck : Bool
  visits : Nat → VisitRace.Pc
  commits : Nat → CommitRace.Pc

/-- What those that visit refs see (repo_patch.py 51-87). -/
def State.visiting (s : State) : VisitRace.State := ⟨s.repo, s.stuck, s.visits⟩

/-- What those that commit see (repo.py 280-339). -/
def State.committing (s : State) : CommitRace.State := ⟨s.repo, s.stuck, s.commits⟩

/-- The next git command of a process (repo_patch.py 51-87, repo.py 280-339). -/
noncomputable def step (mess : Repo → Tree × Tree) (ref : Nat → Ref) (spec : Nat → File → Bool) (s : State) (w : Who) (fail : Bool) : State :=
  match w with
  | .visitor i =>
    let v := VisitRace.step mess ref s.visiting i fail
    ⟨v.repo, v.stuck, v.pc, s.commits⟩
  | .committer i =>
    let c := CommitRace.step mess spec s.committing i fail
    ⟨c.repo, c.stuck, s.visits, c.pc⟩

/-- Processes make steps in any order. -/
noncomputable def run (mess : Repo → Tree × Tree) (ref : Nat → Ref) (spec : Nat → File → Bool) : State → List (Who × Bool) → State
  | s, [] => s
  | s, (w, fail) :: rest => run mess ref spec (step mess ref spec s w fail) rest

/-- Nobody has begun; of those that commit, some are to call `commit_from_working_tree` (`add`) and the others `commit`. -/
def State.init (add : Nat → Bool) (r : Repo) : State := ⟨r, false, fun _ => .start, fun i => if add i then .adding else .start⟩

end Verif.Git.MixedRace
