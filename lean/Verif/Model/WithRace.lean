import Verif.Model.Basic

/-!
# `with path:` in several threads

`__enter__` and `__exit__` (`augpathlib/core.py` lines 733-746) as separate system calls, in any number of threads of a process, which have one
working directory together.

Simplified: all paths are absolute and lead to directories that stay, and each block has a path object of its own.  `Script.run` of
`Model/Dirs` is the same in one thread with all that it can meet.
-/

namespace Verif.WithRace

variable {D : Type}

/-- The calls of a thread. -/
inductive Op (D : Type) where
  /-- `self._entered_from = self.cwd()` at the beginning of a block for this directory (core.py 734-735). -/
  | ask (d : D)
  /-- `self.chdir()` (core.py 736). -/
  | go
  /-- `self._entered_from.chdir()` at the end of a block (core.py 744). -/
  | leave

/-- The working directory; for each thread the `_entered_from` of its open blocks, innermost first; and the directory of a block for which it has
not called `chdir` yet. -/
structure State (D : Type) where
  cwd : D
  entered : Nat → List D
  half : Nat → Option D

def State.setEntered (s : State D) (t : Nat) (l : List D) : State D :=
  { s with entered := fun u => if u = t then l else s.entered u }

def State.setHalf (s : State D) (t : Nat) (h : Option D) : State D := { s with half := fun u => if u = t then h else s.half u }

/-- A call of thread `t`; one that is not possible in a thread changes nothing. -/
def step (s : State D) (t : Nat) : Op D → State D
  | .ask d => match s.half t with
    | none => (s.setEntered t (s.cwd :: s.entered t)).setHalf t (some d)
    | some _ => s
  | .go => match s.half t with
    | some d => { s.setHalf t none with cwd := d }
    | none => s
  | .leave => match s.half t, s.entered t with
    | none, a :: r => { s.setEntered t r with cwd := a }
    | _, _ => s

/-- Threads make calls in any order. -/
def run : State D → List (Nat × Op D) → State D
  | s, [] => s
  | s, (t, op) :: rest => run (step s t op) rest

/-- No thread is in a block. -/
def State.init (cwd : D) : State D := ⟨cwd, fun _ => [], fun _ => none⟩

end Verif.WithRace
