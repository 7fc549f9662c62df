import Verif.Model.Basic

/-!
# Setting the metadata in a symlink from several processes

The setter of `SymlinkCache.meta` (`augpathlib/caches.py` lines 1184-1274) with `crumple` (lines 151-169), `_trashed_path` (lines 136-143)
and `id` (lines 743-757), as separate system calls, in any number of processes at once for the same path.

Simplified: there is never a file at the path; the trash is a directory and names in it are not too long; metadata can be encoded; no
system call fails except because of what is at the path; the object through which metadata are set has none of its own yet (`_meta`).  Which exception is raised is left out.  `Model/SymlinkCache` has the setter in
one process, with the comparison that is any function here.
-/

namespace Verif.LinkRace

/-- How far a process is that sets metadata. -/
inductive Pc (M K : Type) where
  | start
  /-- There is a link. -/
  | seen
  /-- The stored metadata is to be replaced. -/
  | going
  /-- This is where it is to be in the trash. -/
  | named (k : K)
  /-- Nothing is in the way. -/
  | bare
  /-- The setter returned without a change. -/
  | kept
  | returned
  | raised
  deriving DecidableEq

/-- The metadata in the link at the path, the trash, and the processes. -/
structure State (M K : Type) where
  link : Option M
  trash : K → Option M
  pc : Nat → Pc M K

variable {M K : Type} [DecidableEq K]

def State.goto (s : State M K) (i : Nat) (pc : Pc M K) : State M K := { s with pc := fun j => if j = i then pc else s.pc j }

/-- The next system call of process `i`, which sets the metadata `new i`.  `check old new` says whether to replace (caches.py 1189-1242;
`none`: it raises); `key` is the name in the trash, which is made from the id in the link when that is asked for. -/
def step (check : M → M → Option Bool) (key : M → K) (new : Nat → M) (s : State M K) (i : Nat) : State M K :=
  match s.pc i with
  | .start => s.goto i (if s.link.isSome then .seen else .bare)
  | .seen => match s.link with
    | none => s.goto i .raised
    | some m => match check m (new i) with
      | none => s.goto i .raised
      | some false => s.goto i .kept
      | some true => s.goto i .going
  | .going => match s.link with
    | none => s.goto i .raised
    | some m => s.goto i (.named (key m))
  | .named k => match s.link with
    | none => s.goto i .raised
    | some m => { s.goto i .bare with link := none, trash := fun j => if j = k then some m else s.trash j }
  | .bare => match s.link with
    | none => { s.goto i .returned with link := some (new i) }
    | some _ => s.goto i .raised
  | .kept | .returned | .raised => s

/-- Processes make steps in any order. -/
def run (check : M → M → Option Bool) (key : M → K) (new : Nat → M) : State M K → List Nat → State M K
  | s, [] => s
  | s, i :: rest => run check key new (step check key new s i) rest

/-- Nobody has begun. -/
def State.init (link : Option M) (trash : K → Option M) : State M K := ⟨link, trash, fun _ => .start⟩

end Verif.LinkRace
