import Verif.Model.Basic

/-!
# Moving the same file from several processes

`move` (`augpathlib/caches.py` lines 932-1019) as separate system calls, in any number of processes at once that move the same file to the
same target.

Simplified: the file is a file with its metadata, and what may be at the target at first is a symlink with metadata of the same id; the target
is a cache already and its parent is there; `is_broken_symlink` and `exists` are one system call each; no system call fails except because of
what is missing.  `PEnv.move` of `Model/Primary` is the call in one process with all that it can meet.
-/

namespace Verif.MoveRace

/-- The three paths: the one of the file, the target, and `.unlink-` with the name of the target (caches.py 1001). -/
inductive Place where
  | self
  | target
  | safe
  deriving DecidableEq, Repr

/-- What can be there: the file, or a symlink with the metadata. -/
inductive Obj where
  | file
  | link
  deriving DecidableEq, Repr

/-- How far a process is. -/
inductive Pc where
  /-- `target.exists() or target.is_broken_symlink()` comes next (caches.py 972). -/
  | look
  /-- `target.id` comes next (caches.py 973). -/
  | seen
  /-- `self.id` comes next; the target had an id or none (caches.py 973). -/
  | compare (had : Bool)
  /-- `self.exists()` comes next (caches.py 1000). -/
  | exists_
  /-- `target.is_broken_symlink()` comes next (caches.py 1003). -/
  | linked
  /-- `target.rename(safe_unlink)` comes next (caches.py 1004). -/
  | aside
  /-- `self.rename(target)` comes next (caches.py 1006). -/
  | rename
  /-- There was an exception and `safe_unlink.is_broken_symlink()` comes next (caches.py 1009). -/
  | failed
  /-- `safe_unlink.rename(target)` comes next (caches.py 1010). -/
  | restore
  /-- `safe_unlink.is_broken_symlink()` comes next (caches.py 1012), with an exception that was not caught or without. -/
  | finally_ (raising : Bool)
  /-- `safe_unlink.unlink()` comes next (caches.py 1013). -/
  | clean (raising : Bool)
  | returned
  | raised
  deriving DecidableEq, Repr

/-- What is at the paths, and how far the processes are. -/
structure State where
  at_ : Place → Option Obj
  pc : Nat → Pc

def State.goto (s : State) (i : Nat) (pc : Pc) : State := { s with pc := fun j => if j = i then pc else s.pc j }

def State.put (s : State) (p : Place) (x : Option Obj) : State := { s with at_ := fun q => if q = p then x else s.at_ q }

/-- `os.rename`: what is at the new path is replaced. -/
def State.move (s : State) (p q : Place) : Option State := (s.at_ p).map fun x => (s.put p none).put q (some x)

/-- The end of a call (caches.py 1019), or of one that was left with an exception. -/
def over (raising : Bool) : Pc := if raising then .raised else .returned

/-- What a process knows before: whether its object for the target and its object for the file have their ids in `_id` (caches.py 745-760), so
that these are not read from the disk again. -/
structure Known where
  target : Bool
  self : Bool

/-- The next system call of process `i`. -/
def step (known : Nat → Known) (s : State) (i : Nat) : State :=
  match s.pc i with
  | .look => s.goto i (if (s.at_ .target).isSome then .seen else .exists_)
  | .seen => s.goto i (.compare ((known i).target || (s.at_ .target).isSome))
  | .compare had => s.goto i (if had = ((known i).self || (s.at_ .self).isSome) then .exists_ else .raised)
  | .exists_ => s.goto i (if s.at_ .self = some .file then .linked else .returned)
  | .linked => s.goto i (if s.at_ .target = some .link then .aside else .rename)
  | .aside => match s.move .target .safe with
    | some s => s.goto i .rename
    | none => s.goto i .failed
  | .rename => match s.move .self .target with
    | some s => s.goto i (.finally_ false)
    | none => s.goto i .failed
  | .failed => s.goto i (if s.at_ .safe = some .link then .restore else .finally_ false)
  | .restore => match s.move .safe .target with
    | some s => s.goto i (.finally_ false)
    | none => s.goto i (.finally_ true)
  | .finally_ raising => s.goto i (if s.at_ .safe = some .link then .clean raising else over raising)
  | .clean raising => match s.at_ .safe with
    | some _ => (s.put .safe none).goto i (over raising)
    | none => s.goto i .raised
  | .returned | .raised => s

/-- Processes make steps in any order. -/
def run (known : Nat → Known) : State → List Nat → State
  | s, [] => s
  | s, i :: rest => run known (step known s i) rest

/-- Nobody has begun: the file is where it was, and there is a symlink at the target or nothing. -/
def State.init (link : Bool) : State :=
  ⟨fun | .self => some .file | .target => if link then some .link else none | .safe => none, fun _ => .look⟩

end Verif.MoveRace
