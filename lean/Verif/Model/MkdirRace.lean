import Verif.Model.Basic

/-!
# Making local directories for remotes in several processes

`LocalPath.mkdir_cache` (`augpathlib/core.py` lines 1064-1082) as separate system calls, in any number of processes, each with a remote of its
own or the same one.

Simplified: nobody else changes the tree, the remotes answer, and setting an attribute does not fail; a process may stop at any time.
`PEnv.mkdirCache` of `Model/MkdirRemote` is the same in one process on the whole file system.
-/

namespace Verif.MkdirRace

variable {ν F : Type} [DecidableEq ν]

/-- How far a process is; the number is how many names of its remote lead to the directory that it is at. -/
inductive Pc where
  /-- It is going to ask whether the directory is there (core.py 1080). -/
  | checking (k : Nat)
  /-- It is going to make it (core.py 1081). -/
  | making (k : Nat)
  /-- It has made it and has stored so many fields of the metadata (core.py 1082, caches.py 1033-1042). -/
  | storing (k m : Nat)
  | returned
  /-- Making this directory raised. -/
  | raised (k : Nat) (e : PyErr)
  deriving DecidableEq

/-- The directories below the anchor, each with the fields that have been stored with it, and the processes. -/
structure State (ν F : Type) where
  dirs : List ν → Option (List F)
  pc : Nat → Pc

def State.goto (s : State ν F) (i : Nat) (pc : Pc) : State ν F := { s with pc := fun j => if j = i then pc else s.pc j }

def State.put (s : State ν F) (p : List ν) (fs : List F) : State ν F := { s with dirs := fun q => if q = p then some fs else s.dirs q }

/-- Whether the directory that a new one would be in is there; the one that the anchor is in always is. -/
def hasPlace (s : State ν F) (p : List ν) : Bool := p.isEmpty || (s.dirs p.dropLast).isSome

/-- The next system call of process `i`, which has the remote `target i`, in the loop over `reversed(tuple(remote.parents))` (core.py 1076):
the parents are the proper prefixes of the path of the remote.  The metadata of each directory is what this process was told. -/
def step (target : Nat → List ν) (fields : Nat → List ν → List F) (s : State ν F) (i : Nat) : State ν F :=
  match s.pc i with
  | .checking k =>
    if k < (target i).length then
      s.goto i (if (s.dirs ((target i).take k)).isSome then .checking (k + 1) else .making k)
    else s.goto i .returned
  | .making k =>
    if (s.dirs ((target i).take k)).isSome then s.goto i (.raised k .fileExistsError)
    else if hasPlace s ((target i).take k) then (s.put ((target i).take k) []).goto i (.storing k 0)
    else s.goto i (.raised k .fileNotFoundError)
  | .storing k m =>
    match (fields i ((target i).take k))[m]? with
    | some f => (s.put ((target i).take k) ((s.dirs ((target i).take k)).getD [] ++ [f])).goto i (.storing k (m + 1))
    | none => s.goto i (.checking (k + 1))
  | .returned | .raised _ _ => s

/-- Processes make steps in any order. -/
def run (target : Nat → List ν) (fields : Nat → List ν → List F) : State ν F → List Nat → State ν F
  | s, [] => s
  | s, i :: rest => run target fields (step target fields s i) rest

/-- Nobody has begun. -/
def State.init (dirs : List ν → Option (List F)) : State ν F := ⟨dirs, fun _ => .checking 0⟩

end Verif.MkdirRace
