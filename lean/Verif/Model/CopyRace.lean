import Verif.Model.Basic

/-!
# Copies from several processes to the same target

`LocalPath.copy_to` without force (`augpathlib/core.py` lines 1418-1428) with what it does to write (lines 1365-1371 and 1377-1402), in
any number of processes at once that have the same target.

Simplified: nobody else changes the sources and the target, the target has no cache, the directory that it is in is there, and no
system call fails; a process may stop at any time.
-/

namespace Verif.CopyRace

/-- How far a process is. -/
inductive Pc where
  | start
  /-- `target.exists()` said no. -/
  | absent
  /-- The test is passed. -/
  | passed
  /-- The target is open for writing, and so many bytes of the source have been written. -/
  | writing (off : Nat)
  | returned
  | raised (e : PyErr)
  deriving DecidableEq

/-- The content of the target, and the processes. -/
structure State where
  target : Option Bytes
  pc : Nat → Pc

/-- Bytes are written at a place in a file; what is between the end of the file and this place is zeros. -/
def overwrite (t : Bytes) (off : Nat) (b : Bytes) : Bytes :=
  t.take off ++ List.replicate (off - t.length) 0 ++ b ++ t.drop (off + b.length)

def State.goto (s : State) (i : Nat) (pc : Pc) : State := { s with pc := fun j => if j = i then pc else s.pc j }

/-- The next system call of process `i`; if it writes, then at most `k + 1` bytes, since python's buffer and the system decide how much
at once. -/
def step (src : Nat → Bytes) (s : State) (i k : Nat) : State :=
  match s.pc i with
  | .start => s.goto i (if s.target.isSome then .raised .pathExistsError else .absent)
  | .absent => s.goto i .passed
  | .passed => if src i = [] then s.goto i (.raised .stopIteration) else { s.goto i (.writing 0) with target := some [] }
  | .writing off =>
    if off < (src i).length then
      let b := ((src i).drop off).take (k + 1)
      { s.goto i (.writing (off + b.length)) with target := s.target.map fun t => overwrite t off b }
    else s.goto i .returned
  | .returned | .raised _ => s

/-- Processes make steps in any order. -/
def run (src : Nat → Bytes) : State → List (Nat × Nat) → State
  | s, [] => s
  | s, (i, k) :: rest => run src (step src s i k) rest

/-- Nobody has begun, and there may be a file at the target. -/
def State.init (target : Option Bytes) : State := ⟨target, fun _ => .start⟩

end Verif.CopyRace
