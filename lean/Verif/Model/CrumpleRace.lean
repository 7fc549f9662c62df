import Verif.Model.Basic

/-!
# Throwing files away in several processes

`crumple` (`augpathlib/caches.py` lines 151-169) as separate system calls, in any number of processes that have the same trash.

Simplified: all that is thrown away are files on the file system of the trash, nobody else changes the files, the trash and the directories that
it is in, the ids are known already, and the name of a file is never too long.  `Trash.crumple` of `Model/Crumple` is the same in one process
on the whole file system.
-/

namespace Verif.CrumpleRace

variable {S N B : Type} [DecidableEq S] [DecidableEq N]

/-- How far a process is. -/
inductive Pc where
  | start
  /-- It is going to make directory `k` of those that lead to the trash, since one below it could not be made; first the trash itself. -/
  | trying (k : Nat)
  /-- It is going to make directory `k`, since the one above it has been made. -/
  | climbing (k : Nat)
  /-- It is going to rename to the name that is made from the id. -/
  | moving
  /-- It is going to rename to the name of the file, since the other one is too long. -/
  | shortening
  | returned
  | raised (e : PyErr)
  deriving DecidableEq

/-- How many of the directories that lead to the trash are there, the files, what is in the trash, and the processes. -/
structure State (S N B : Type) where
  dirs : Nat
  files : S → Option B
  trash : N → Option B
  pc : Nat → Pc

def State.goto (s : State S N B) (i : Nat) (pc : Pc) : State S N B := { s with pc := fun j => if j = i then pc else s.pc j }

/-- What the processes do: the file, the name from its id, and its own name. -/
structure Job (S N : Type) where
  src : S
  long : N
  short : N

/-- After directory `k` of the `n` has been found or made. -/
def next (n k : Nat) : Pc := if k = n then .moving else .climbing (k + 1)

/-- `os.mkdir` of directory `k` in `tp.mkdir(parents=True)` (caches.py 158) and what python's `Path.mkdir` does next; all but the last may be
there already (`exist_ok=True`). -/
def State.mkdir (s : State S N B) (n i k : Nat) (missing : Pc) : State S N B :=
  if k ≤ s.dirs then s.goto i (if k = n then .raised .fileExistsError else next n k)
  else if k = s.dirs + 1 then { s.goto i (next n k) with dirs := k }
  else s.goto i missing

/-- `os.rename` of the file to a name in the trash (core.py 535) -/
def State.move (s : State S N B) (p : S) (t : N) (b : B) : State S N B :=
  { s with files := fun q => if q = p then none else s.files q, trash := fun u => if u = t then some b else s.trash u }

/-- The next system call of process `i`.  The trash is directory `n`. -/
def step (n : Nat) (tooLong : N → Bool) (job : Nat → Job S N) (s : State S N B) (i : Nat) : State S N B :=
  match s.pc i with
  | .start => s.goto i (if n ≤ s.dirs then .moving else .trying n)
  | .trying k => s.mkdir n i k (.trying (k - 1))
  | .climbing k => s.mkdir n i k (.raised .fileNotFoundError)
  | .moving =>
    match s.files (job i).src with
    | none => s.goto i (.raised .fileNotFoundError)
    | some b => if tooLong (job i).long then s.goto i .shortening else (s.move (job i).src (job i).long b).goto i .returned
  | .shortening =>
    match s.files (job i).src with
    | none => s.goto i (.raised .fileNotFoundError)
    | some b => (s.move (job i).src (job i).short b).goto i .returned
  | .returned | .raised _ => s

/-- Processes make steps in any order. -/
def run (n : Nat) (tooLong : N → Bool) (job : Nat → Job S N) : State S N B → List Nat → State S N B
  | s, [] => s
  | s, i :: rest => run n tooLong job (step n tooLong job s i) rest

/-- Nobody has begun. -/
def State.init (dirs : Nat) (files : S → Option B) (trash : N → Option B) : State S N B := ⟨dirs, files, trash, fun _ => .start⟩

end Verif.CrumpleRace
