import Verif.Model.AnchorDrop

/-!
# Dropping anchor in several processes

`dropAnchor` and `smartAnchor` (`augpathlib/remotes.py` lines 136-196) with `cache_init` (`augpathlib/core.py` 1042-1062) as separate system
calls, in any number of processes that anchor the same remote root to the same directory, each for the first time.

Simplified: nobody else changes the directory, the remote root is a directory, all processes have the same id for it, storing the id is one
system call, and so is making what is in the local data directory, where it does not matter whether it is there already.  `dropAnchor` and
`smartAnchor` of `Model/AnchorDrop` are the same in one process with all that they can meet.
-/

namespace Verif.AnchorRace
open Verif.Anchor (AErr)

variable {I : Type}

/-- How far a process is. -/
inductive Pc (I : Type) where
  /-- `path.exists()` (remotes.py 174) -/
  | start
  /-- `path.mkdir()` (remotes.py 180) -/
  | making
  /-- `list(path.children)` (remotes.py 185) -/
  | listing
  /-- `self.cache and self.cache.meta` (core.py 1046) -/
  | asking
  /-- `self._cache_class(self, meta=id_or_meta)` (core.py 1058) -/
  | storing
  /-- `local_data_dir_init` in `cache.anchorClassHere()` (core.py 1060, caches.py 84) -/
  | filling
  /-- `path.cache` after `DirectoryNotEmptyError` or `CacheExistsError` (remotes.py 147-160) -/
  | rescuing (e : AErr)
  /-- It is anchored to the directory with this id. -/
  | returned (i : I)
  | raised (e : AErr)
  deriving DecidableEq

/-- The directory: whether something is in it, and the id that is stored with it. -/
structure Dir (I : Type) where
  full : Bool
  id : Option I
  deriving DecidableEq

structure State (I : Type) where
  dir : Option (Dir I)
  pc : Nat → Pc I

def State.goto (s : State I) (i : Nat) (pc : Pc I) : State I := { s with pc := fun j => if j = i then pc else s.pc j }

/-- The id that is stored with the directory. -/
def State.stored (s : State I) : Option I := s.dir.bind (·.id)

/-- An exception that `smartAnchor` handles (remotes.py 147-160) -/
def fail (smart : Bool) (e : AErr) : Pc I := if smart then .rescuing e else .raised e

/-- The next system call of process `i` for the root `root`; `smart i` says that it called `smartAnchor`. -/
def step (root : I) (smart : Nat → Bool) (s : State I) (i : Nat) : State I :=
  match s.pc i with
  | .start => s.goto i (if s.dir.isSome then .listing else .making)
  | .making => match s.dir with
    | some _ => s.goto i (.raised (.other .fileExistsError))
    | none => { s.goto i .asking with dir := some ⟨false, none⟩ }
  | .listing => match s.dir with
    | some d => s.goto i (if d.full then fail (smart i) .directoryNotEmpty else .asking)
    | none => s.goto i (.raised (.other .fileNotFoundError))
  | .asking => s.goto i (if s.stored.isSome then fail (smart i) .cacheExists else .storing)
  | .storing => match s.dir with
    | some d => { s.goto i .filling with dir := some { d with id := some root } }
    | none => s.goto i (.raised .valueError)
  | .filling => match s.dir with
    | some d => { s.goto i (.returned root) with dir := some { d with full := true } }
    | none => s.goto i (.raised (.other .fileNotFoundError))
  | .rescuing e => match s.stored with
    | some x => s.goto i (.returned x)
    | none => s.goto i (.raised e)
  | .returned _ | .raised _ => s

/-- Processes make steps in any order. -/
def run (root : I) (smart : Nat → Bool) : State I → List Nat → State I
  | s, [] => s
  | s, i :: rest => run root smart (step root smart s i) rest

/-- Nobody has begun. -/
def State.init (dir : Option (Dir I)) : State I := ⟨dir, fun _ => .start⟩

end Verif.AnchorRace
