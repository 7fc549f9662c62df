import Verif.Model.Basic

/-!
# Visiting refs and committing one path

`_Reference.__enter__`, `__exit__` (`augpathlib/repo_patch.py` lines 51-87), `RepoHelper.commit`, `add_index` and
`commit_from_working_tree` (`augpathlib/repo.py` lines 280-339), on top of what the git manual says about `stash`,
`checkout`, `add` and `commit`.  Simplified: a tree says which content a path has (no modes, no clash between a file and a
directory of the same name, no renames, no nested repositories, no hooks); commits have one parent at most; nobody else
changes the repository meanwhile.
-/

namespace Verif.Git

/-- The path of a file in the repository. -/
abbrev File := Str

/-- The files of a commit, of the index or of the working directory. -/
abbrev Tree := File → Option Bytes

/-- A commit -/
inductive Commit where
  | mk (tree : Tree) (parent : Option Commit)

def Commit.tree : Commit → Tree
  | .mk t _ => t

def Commit.parent : Commit → Option Commit
  | .mk _ p => p

/-- An entry of the stash: the commit it was made on, the index, the tracked files and the other files. -/
structure Entry where
  base : Tree
  index : Tree
  work : Tree
  untracked : Tree

/-- What `HEAD` is. -/
inductive Head where
  | branch (name : Str)
  | detached (c : Commit)

/-- What a GitPython reference may be: a branch, a branch of a remote, or a tag. -/
inductive Ref where
  | head (name : Str)
  | remote (name : Str)
  | tag (name : Str)
  deriving DecidableEq

/-- A repository -/
structure Repo where
  refs : Ref → Option Commit
  head : Head
  index : Tree
  work : Tree
  stash : List Entry

/-- The commit of `HEAD`; none on a branch that has no commit yet. -/
def Repo.commit (r : Repo) : Option Commit :=
  match r.head with
  | .branch n => r.refs (.head n)
  | .detached c => some c

/-- The files of `HEAD` -/
def Repo.tree (r : Repo) : Tree := (r.commit.map Commit.tree).getD fun _ => none

/-- The file is in the index or in `HEAD`. -/
def Repo.tracked (r : Repo) (p : File) : Bool := (r.tree p).isSome || (r.index p).isSome

/-- The files in the working directory that a stash takes as tracked. -/
def Repo.ours (r : Repo) : Tree := fun p => if r.tracked p then r.work p else none

/-- The other files: those that are not in the index (git ls-files --others). -/
def Repo.others (r : Repo) : Tree := fun p => if (r.index p).isSome then none else r.work p

/-- There is something to stash. -/
def Repo.changed (r : Repo) (all : Bool) : Prop :=
  (∃ p, r.index p ≠ r.tree p) ∨ (∃ p, r.tracked p = true ∧ r.work p ≠ r.index p) ∨ (all = true ∧ ∃ p, r.others p ≠ none)

open Classical in
/-- `git stash push`, with `--all` also untracked and ignored files; true if an entry was made, false for the answer
`No local changes to save`. -/
noncomputable def stashPush (all : Bool) (r : Repo) : Except PyErr (Bool × Repo) :=
  match r.commit with
  | none => .error .gitError
  | some _ =>
    if r.changed all then
      .ok (true, { r with
        index := r.tree
        work := fun p => if all || r.tracked p then r.tree p else r.work p
        stash := ⟨r.tree, r.index, r.ours, if all then r.others else fun _ => none⟩ :: r.stash })
    else .ok (false, r)

open Classical in
/-- A merge of three versions of a file; none if they conflict.  (git may also merge the lines of a text; that is left out
and counts as a conflict.) -/
noncomputable def merge3 (base ours theirs : Option Bytes) : Option (Option Bytes) :=
  if base = ours then some theirs
  else if base = theirs then some ours
  else if ours = theirs then some ours
  else none

/-- How `git stash pop` ends. -/
inductive Popped where
  | done
  /-- the stash is kept, git exits with an error -/
  | kept

open Classical in
/-- `git stash pop stash@{k}`.  `mess` is what conflicts leave in the index and in the working directory. -/
noncomputable def stashPop (mess : Repo → Tree × Tree) (k : Nat) (r : Repo) : Popped × Repo :=
  match r.stash[k]? with
  | none => (.kept, r)
  | some e =>
    let merged : File → Option (Option Bytes) := fun p => merge3 (e.base p) (r.index p) (e.work p)
    -- a change in the working directory would be overwritten
    if ∃ p, merged p ≠ some (r.index p) ∧ r.work p ≠ r.index p then (.kept, r)
    else if ∃ p, merged p = none then (.kept, { r with index := (mess r).1, work := (mess r).2 })
    else
      let new : Tree := fun p => (merged p).getD none
      let work : Tree := fun p => if new p = r.index p then r.work p else new p
      -- changes are not staged, new files are
      let index : Tree := fun p => if (r.index p).isSome then r.index p else new p
      let restored : Tree := fun p => if (work p).isSome then work p else e.untracked p
      if ∃ p, (work p).isSome ∧ (e.untracked p).isSome then (.kept, { r with index := index, work := restored })
      else (.done, { r with index := index, work := restored, stash := r.stash.eraseIdx k })

open Classical in
/-- `git checkout ref`: what differs between the two commits must not be changed in the index or in the working directory. -/
noncomputable def checkout (ref : Ref) (r : Repo) : Except PyErr Repo :=
  match r.refs ref with
  | none => .error .gitError
  | some c =>
    if ∃ p, r.tree p ≠ c.tree p ∧ ¬ (r.index p = r.tree p ∧ r.work p = r.tree p) then .error .gitError
    else .ok { r with
      head := match ref with
        | .head n => .branch n
        | .remote _ | .tag _ => .detached c
      index := fun p => if r.tree p = c.tree p then r.index p else c.tree p
      work := fun p => if r.tree p = c.tree p then r.work p else c.tree p }

open Classical in
/-- `git checkout stash@{k} -- path`; `spec p` is whether `p` is the path or below it.  Files that the stash entry does not have
remain. -/
noncomputable def checkoutFrom (k : Nat) (spec : File → Bool) (r : Repo) : Except PyErr Repo :=
  match r.stash[k]? with
  | none => .error .gitError
  | some e =>
    if ∃ p, spec p = true ∧ (e.work p).isSome then
      .ok { r with
        index := fun p => if spec p && (e.work p).isSome then e.work p else r.index p
        work := fun p => if spec p && (e.work p).isSome then e.work p else r.work p }
    else .error .gitError

/-- `repo.index.commit`: a commit of the index on `HEAD`, which moves to it. -/
def indexCommit (r : Repo) : Except PyErr (Commit × Repo) :=
  let c := Commit.mk r.index r.commit
  match r.head with
  | .branch n => .ok (c, { r with refs := fun ref => if ref = .head n then some c else r.refs ref })
  | .detached _ => .ok (c, { r with head := .detached c })

/-- `repo.index.add([path])`: the files of the working directory at the path; GitPython raises when there are none. -/
def indexAdd (spec : File → Bool) (r : Repo) : Repo :=
  { r with index := fun p => if spec p && (r.work p).isSome then r.work p else r.index p }

/-! ## Programs -/

/-- The repository and the number of git commands so far. -/
structure Machine where
  repo : Repo
  tick : Nat

/-- A program -/
abbrev Prog (α : Type) := Machine → Except PyErr α × Machine

/-- What a run depends on: the commands that fail, and what conflicts leave behind. -/
structure Env where
  F : Nat → Option PyErr
  mess : Repo → Tree × Tree

namespace Prog
variable {α β : Type}

def pure (a : α) : Prog α := fun s => (.ok a, s)

def throw (e : PyErr) : Prog α := fun s => (.error e, s)

def bind (m : Prog α) (f : α → Prog β) : Prog β := fun s =>
  match m s with
  | (.ok a, s) => f a s
  | (.error e, s) => (.error e, s)

/-- `try: m except ...: h` -/
def catch_ (m : Prog α) (h : PyErr → Prog α) : Prog α := fun s =>
  match m s with
  | (.ok a, s) => (.ok a, s)
  | (.error e, s) => h e s

/-- `try: m finally: f`: an exception of `f` replaces that of `m`. -/
def finally_ (m : Prog α) (f : Prog Unit) : Prog α := fun s =>
  match m s with
  | (r, s) => match f s with
    | (.ok (), s) => (r, s)
    | (.error e, s) => (.error e, s)

/-- A git command: `F n` is the error with which the command number `n` fails, if it does. -/
def cmd (E : Env) (f : Repo → Except PyErr (α × Repo)) : Prog α := fun s =>
  match E.F s.tick with
  | some e => (.error e, ⟨s.repo, s.tick + 1⟩)
  | none => match f s.repo with
    | .ok (a, r) => (.ok a, ⟨r, s.tick + 1⟩)
    | .error e => (.error e, ⟨s.repo, s.tick + 1⟩)

end Prog

variable (E : Env)

/-- `repo.git.stash('--all')` and `repo.git.stash('push')`: the message is `No local changes to save` or not. -/
noncomputable def Env.stash (all : Bool) : Prog Bool := .cmd E (stashPush all)

/-- `repo.git.stash('pop', 'stash@{k}')`; git exits with an error also after it has changed files. -/
noncomputable def Env.pop (k : Nat) : Prog Unit := fun s =>
  match E.F s.tick with
  | some e => (.error e, ⟨s.repo, s.tick + 1⟩)
  | none => match stashPop E.mess k s.repo with
    | (.done, r) => (.ok (), ⟨r, s.tick + 1⟩)
    | (.kept, r) => (.error .gitError, ⟨r, s.tick + 1⟩)

/-- `ref.checkout()`: a tag has no such method. -/
noncomputable def Env.checkout (ref : Ref) : Prog Unit :=
  match ref with
  | .tag _ => .throw .attributeError
  | ref => .cmd E fun r => match Git.checkout ref r with
    | .ok r => .ok ((), r)
    | .error e => .error e

/-- `repo.active_branch`: a `TypeError` when detached -/
def activeBranch : Prog Str := fun s =>
  match s.repo.head with
  | .branch n => (.ok n, s)
  | .detached _ => (.error .typeError, s)

/-- `_Reference.__enter__` (repo_patch.py 51-71).  The result is what it keeps: the original branch, and whether there is a stash
entry.  (The exception for an invalid ref is a `NameError`, `exc` is not imported.) -/
noncomputable def Env.enter (ref : Ref) : Prog (Str × Bool) :=
  .bind (fun s => (.ok (s.repo.refs ref).isSome, s)) fun valid =>
  if valid then
    .bind activeBranch fun original =>
    .bind (E.stash true) fun stashed =>
    if ref = .head original then .pure (original, stashed)
    else .bind (E.checkout ref) fun _ => .pure (original, stashed)
  else .throw .nameError

/-- `_Reference.__exit__` (repo_patch.py 73-87) -/
noncomputable def Env.exit (ref : Ref) (original : Str) (stashed : Bool) : Prog Unit :=
  .bind (E.stash true) fun again =>
  let k := if again then 1 else 0
  .bind (if Ref.head original = ref then .pure () else E.checkout (.head original)) fun _ =>
  if stashed then E.pop k else .pure ()

/-- `with ref: body` -/
noncomputable def Env.visit {α : Type} (ref : Ref) (body : Prog α) : Prog α :=
  .bind (E.enter ref) fun kept => .finally_ body (E.exit ref kept.1 kept.2)

/-- `except GitCommandError: pass` -/
def ignoring (m : Prog Unit) : Prog Unit :=
  .catch_ m fun e => if e = .gitError then .pure () else .throw e

/-- `RepoHelper.commit` (repo.py 289-331); on a branch without a commit both ways through the `try` end in the commit. -/
noncomputable def Env.commit (spec : File → Bool) : Prog Commit :=
  .bind activeBranch fun n =>
  .bind (fun s => (.ok (s.repo.refs (.head n)).isSome, s)) fun valid =>
  if valid then
    .bind (E.stash false) fun _ =>
    .finally_
      (.bind (ignoring (.cmd E fun r => match checkoutFrom 0 spec r with
        | .ok r => .ok ((), r)
        | .error e => .error e)) fun _ =>
      .cmd E indexCommit)
      (ignoring (E.pop 0))
  else .cmd E indexCommit

/-- `commit_from_working_tree` (repo.py 333-339) with `add_index` (repo.py 280-287) for a path that exists -/
noncomputable def Env.commitFromWorkingTree (spec : File → Bool) : Prog Commit :=
  .bind (.cmd E fun r => .ok ((), indexAdd spec r)) fun _ => E.commit spec

end Verif.Git
