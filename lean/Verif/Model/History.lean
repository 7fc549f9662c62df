import Verif.Model.Git

/-!
# The changes and the history of one path in a repository

`latest_commit`, `commits`, `modified`, `indexed`, `has_uncommitted_changes`, `_do_diff` and `diff` (`augpathlib/repo.py` lines 202-276)
on top of what the git manual says about `rev-list` and `diff`, and of what GitPython does with the two sides of a diff
(`git.diff.Diffable.diff`, `git.index.base.IndexFile.diff`; the source is not part of this repository).  Simplified as in `Model/Git`;
renames are not detected; which of several changes is the first one is not fixed.
-/

namespace Verif.Git

/-- The exceptions of these methods. -/
inductive HErr where
  | git
  | value
  | noCommits
  | notFound
  deriving DecidableEq

/-- The commit and those before it, the latest first. -/
def Commit.past : Commit → List Commit
  | .mk t none => [.mk t none]
  | .mk t (some p) => .mk t (some p) :: p.past

/-- The files before a commit. -/
def Commit.before (c : Commit) : Tree := (c.parent.map Commit.tree).getD fun _ => none

/-- The commit changes something at the path; `spec p` is whether `p` is the path or below it. -/
def Commit.touches (spec : File → Bool) (c : Commit) : Prop := ∃ p, spec p = true ∧ c.tree p ≠ c.before p

open Classical in
/-- `git rev-list --max-count=n start -- path` -/
noncomputable def revList (spec : File → Bool) (n : Option Nat) (start : Commit) : List Commit :=
  let l := start.past.filter fun c => c.touches spec
  match n with
  | none => l
  | some n => l.take n

/-- `commits` (repo.py 211-216); without `rev` from `repo.head.commit`, which raises before the first commit. -/
noncomputable def Repo.commits (r : Repo) (spec : File → Bool) (rev : Option Commit) (n : Option Nat) : Except HErr (List Commit) :=
  match rev with
  | some c => .ok (revList spec n c)
  | none => match r.commit with
    | none => .error .value
    | some c => .ok (revList spec n c)

/-- `latest_commit` (repo.py 202-209) -/
noncomputable def Repo.latestCommit (r : Repo) (spec : File → Bool) (rev : Option Commit) : Except HErr Commit :=
  match r.commits spec rev (some 1) with
  | .error e => .error e
  | .ok [] => .error .noCommits
  | .ok (c :: _) => .ok c

/-- One side of a diff: the working directory (`None`), the object `repo.index`, or a commit. -/
inductive Side where
  | work
  | index
  | commit (c : Commit)

/-- A change: the path, and the two contents. -/
structure Change where
  file : File
  a : Option Bytes
  b : Option Bytes

open Classical in
/-- The first one of the changes between two trees at a path. -/
noncomputable def firstChange (spec : File → Bool) (a b : Tree) : Option Change :=
  if h : ∃ p, spec p = true ∧ a p ≠ b p then some ⟨h.choose, a h.choose, b h.choose⟩ else none

/-- The files in the working directory that are in the index, which are the ones that git compares. -/
def Repo.known (r : Repo) : Tree := fun p => if (r.index p).isSome then r.work p else none

/-- `this.diff(other=other, paths=path)` and the first element of the answer.  A commit compares with the index only if it is given the class
`Diffable.Index`; given another object it hands its text to git as the name of a revision.  An index refuses everything else than `None`,
that class, trees and commits. -/
noncomputable def Repo.gitDiff (r : Repo) (spec : File → Bool) : Side → Side → Except HErr (Option Change)
  | .commit c, .commit d => .ok (firstChange spec c.tree d.tree)
  | .commit c, .work => .ok (firstChange spec c.tree r.known)
  | .commit _, .index => .error .git
  | .index, .commit d => .ok (firstChange spec r.index d.tree)
  | .index, .work => .ok (firstChange spec r.index r.known)
  | .index, .index => .error .value
  | .work, _ => .error .value

open Classical in
/-- `_do_diff` (repo.py 235-242) -/
noncomputable def Repo.doDiff (r : Repo) (spec : File → Bool) (this other : Side) : Except HErr (Option Change) :=
  if ∃ p, spec p = true ∧ (r.work p).isSome then r.gitDiff spec this other else .error .notFound

/-- `modified` (repo.py 220-223) -/
noncomputable def Repo.modified (r : Repo) (spec : File → Bool) : Except HErr (Option Change) := r.doDiff spec .index .work

/-- `repo.head.commit` -/
def Repo.headCommit (r : Repo) : Except HErr Commit :=
  match r.commit with
  | none => .error .value
  | some c => .ok c

/-- `indexed` (repo.py 225-228) -/
noncomputable def Repo.indexed (r : Repo) (spec : File → Bool) : Except HErr (Option Change) :=
  match r.headCommit with
  | .error e => .error e
  | .ok c => r.doDiff spec (.commit c) .index

/-- `has_uncommitted_changes` (repo.py 230-233) -/
noncomputable def Repo.hasUncommittedChanges (r : Repo) (spec : File → Bool) : Except HErr (Option Change) :=
  match r.headCommit with
  | .error e => .error e
  | .ok c => r.doDiff spec (.commit c) .work

/-- `diff` (repo.py 244-276) of sides that were looked up already. -/
noncomputable def Repo.diff (r : Repo) (spec : File → Bool) (other this : Side) : Except HErr (Option Change) :=
  match this, other with
  | .work, .work => .ok none
  | .work, other => r.doDiff spec other .work
  | this, other => r.doDiff spec this other

end Verif.Git
