import Verif.Model.Basic

/-!
# `pushd` and `popd` in several threads

`pushd` and `popd` (`augpathlib/core.py` lines 711-731) as separate steps, in any number of threads of a process, which have one working
directory and one stack (`AugmentedPath._stack`, core.py 338) together.

Simplified: all directories are absolute paths of directories that stay (`Dirs.pushd` and `Dirs.popd` of `Model/Dirs` have the rest, in one
thread), `popd` is called without arguments, and what is printed is left out.
-/

namespace Verif.PushdRace

variable {D : Type}

/-- A call in the program of a thread. -/
inductive Call (D : Type) where
  | pushd (d : D)
  | popd
deriving DecidableEq

/-- Where in a call a thread is. -/
inductive Pc (D : Type) where
  | idle
  /-- `self.cwd()` was evaluated, nothing is appended yet (core.py 713). -/
  | asked (here d : D)
  /-- The stack has grown, `chdir` was not called yet (core.py 714). -/
  | pushed (d : D)
  /-- The stack was not empty (core.py 725). -/
  | tested
  /-- The entry is off the stack, `chdir` was not called yet (core.py 727). -/
  | popped (path : D)
deriving DecidableEq

/-- How a call ended. -/
inductive Res (D : Type) where
  /-- `pushd` returned. -/
  | done
  /-- `popd` returned this path (core.py 729). -/
  | got (path : D)
  /-- `popd: directory stack empty` was logged (core.py 731). -/
  | warned
  /-- `list.pop` raised `IndexError`. -/
  | raised
deriving DecidableEq

/-- The working directory; the stack, oldest entry first; and for each thread where it is, its further calls, and how its calls ended, the
latest first. -/
structure State (D : Type) where
  cwd : D
  stack : List D
  pc : Nat → Pc D
  todo : Nat → List (Call D)
  res : Nat → List (Res D)

/-- Thread `t` goes on to `p` with the calls `c` to make. -/
def State.goto (s : State D) (t : Nat) (p : Pc D) (c : List (Call D)) : State D :=
  { s with pc := fun u => if u = t then p else s.pc u, todo := fun u => if u = t then c else s.todo u }

/-- A call of thread `t` ended. -/
def State.ends (s : State D) (t : Nat) (r : Res D) : State D := { s with res := fun u => if u = t then r :: s.res t else s.res u }

/-- The next step of thread `t`.  An exception ends the program of the thread. -/
def step (s : State D) (t : Nat) : State D :=
  match s.pc t, s.todo t with
  | .idle, [] => s
  | .idle, .pushd d :: r => s.goto t (.asked s.cwd d) r
  | .asked h d, r => { s.goto t (.pushed d) r with stack := s.stack ++ [h] }
  | .pushed d, r => { (s.goto t .idle r).ends t .done with cwd := d }
  | .idle, .popd :: r => if s.stack.isEmpty then (s.goto t .idle r).ends t .warned else s.goto t .tested r
  | .tested, r => match s.stack.getLast? with
    | some p => { s.goto t (.popped p) r with stack := s.stack.dropLast }
    | none => (s.goto t .idle []).ends t .raised
  | .popped p, r => { (s.goto t .idle r).ends t (.got p) with cwd := p }

/-- The threads take steps in any order. -/
def run : State D → List Nat → State D
  | s, [] => s
  | s, t :: rest => run (step s t) rest

/-- Before the first step. -/
def State.init (cwd : D) (stack : List D) (prog : Nat → List (Call D)) : State D := ⟨cwd, stack, fun _ => .idle, prog, fun _ => []⟩

end Verif.PushdRace
