import Verif.Model.Basic

/-!
# Swapping two paths from several processes

`swap_carefree` and `swap` (`augpathlib/core.py` lines 537-588) as separate system calls, in any number of processes at once that swap the
same two paths, in either order.

Simplified: both paths are of files on the same device, and absolute; each process gets a temporary directory of its own; no system call
fails except because of what is missing, and except for the exchange where the system has none.  `Model/Swap` has the calls in one
process with all that they can meet.
-/

namespace Verif.SwapRace

/-- How far a process is. -/
inductive Pc (X : Type) where
  /-- So many of `self.exists()`, `target.exists()`, `self.stat()` and `target.stat()` are done (core.py 573-583). -/
  | look (n : Nat)
  /-- `swap` raised (core.py 548). -/
  | fallback
  /-- The target is in the temporary directory (core.py 555). -/
  | one (x : X)
  /-- The other one is at the target (core.py 556). -/
  | two (x : X)
  | returned
  /-- It raised, and this was left in the temporary directory. -/
  | raised (x : Option X)
  deriving DecidableEq

/-- What is at the two paths, how far the processes are, and how many of them have returned. -/
structure State (X : Type) where
  place : Bool → Option X
  pc : Nat → Pc X
  done : Nat

variable {X : Type}

def State.goto (s : State X) (i : Nat) (pc : Pc X) : State X := { s with pc := fun j => if j = i then pc else s.pc j }

def State.put (s : State X) (b : Bool) (x : Option X) : State X := { s with place := fun c => if c = b then x else s.place c }

/-- The next system call of process `i`, for which `self` is the path `own i` and the target the other one; `native`: the system can
exchange two paths in one call. -/
def step (native : Bool) (own : Nat → Bool) (s : State X) (i : Nat) : State X :=
  match s.pc i with
  | .look n =>
    if n < 4 then
      s.goto i (if (s.place (if n % 2 = 0 then own i else !own i)).isSome then .look (n + 1) else .fallback)
    else match native, s.place (own i), s.place (!own i) with
      | true, some x, some y => { ((s.put (own i) (some y)).put (!own i) (some x)).goto i .returned with done := s.done + 1 }
      | _, _, _ => s.goto i .fallback
  | .fallback => match s.place (!own i) with
    | none => s.goto i (.raised none)
    | some x => (s.put (!own i) none).goto i (.one x)
  | .one x => match s.place (own i) with
    | none => s.goto i (.raised (some x))
    | some y => ((s.put (!own i) (some y)).put (own i) none).goto i (.two x)
  | .two x => { (s.put (own i) (some x)).goto i .returned with done := s.done + 1 }
  | .returned | .raised _ => s

/-- Processes make steps in any order. -/
def run (native : Bool) (own : Nat → Bool) : State X → List Nat → State X
  | s, [] => s
  | s, i :: rest => run native own (step native own s i) rest

/-- Nobody has begun. -/
def State.init (place : Bool → Option X) : State X := ⟨place, fun _ => .look 0, 0⟩

end Verif.SwapRace
