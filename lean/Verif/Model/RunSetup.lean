import Verif.Model.Basic

/-!
# What a setup file is told: `load_run_setup` and `setupfu` (`augpathlib/package.py` 13-41, 162-176)

With `setup_use_kwargs` the arguments of `setuptools.setup` in a `setup.py` are found out by running the file with another function in
its place.  A file is a list of actions, and it can run other files by the same means.  Changing to the folder of the package is not
part of this model, and neither is what the module of the file is; what a file does is given by its actions, and it catches exceptions
only of other files that it runs.
-/

namespace Verif.RunSetup

/-- What the name `setuptools.setup` refers to: the function of setuptools, or the `fake_setup` of a run (package.py 23-24). -/
inductive Fn where
  | real
  | fake (run : Nat)
  deriving DecidableEq, Repr

/-- What a `setup.py` does.  Arguments of `setup` are numbers here. -/
inductive Act where
  /-- `from setuptools import setup` -/
  | bind
  /-- `setup(...)`; the name must be bound -/
  | callBound (args : Nat)
  /-- `setuptools.setup(...)` -/
  | call (args : Nat)
  /-- asks another package for `setupfu`, in `try: ... except: pass` if `caught` -/
  | nested (caught : Bool) (file : List Act)
  /-- calls `augpathlib.package.run_setup` itself -/
  | rerun (file : List Act)
  /-- `logging.getLogger().setLevel(...)` -/
  | level (l : Nat)
  | raise (e : PyErr)

abbrev File := List Act

structure St where
  /-- `setuptools.setup` -/
  current : Fn
  /-- `_orig_setup` of the closure that the global `run_setup` is; `none` while it is `None` -/
  orig : Option Fn
  /-- `last_output[0]` of each run -/
  cell : Nat → Option Nat
  /-- the number of runs so far -/
  next : Nat
  /-- the calls of the function of setuptools -/
  real : List Nat
  /-- the level of the root logger -/
  level : Nat

/-- A call of one of the functions. -/
def St.apply (s : St) (f : Fn) (args : Nat) : St :=
  match f with
  | .real => { s with real := s.real ++ [args] }
  | .fake n => { s with cell := fun k => if k = n then some args else s.cell k }

/-- `load_run_setup` (package.py 15-38): a new closure that remembers what `setuptools.setup` is now. -/
def St.load (s : St) : St := { s with orig := some s.current }

/-- The start of `_run_setup` (package.py 21-26). -/
def St.begin (s : St) : St :=
  { s with current := .fake s.next, cell := fun k => if k = s.next then none else s.cell k, next := s.next + 1 }

/-- The end of `_run_setup` (package.py 30-33); run `n` with the closure that remembers `orig`. -/
def St.finish (orig : Fn) (n : Nat) : Except PyErr Unit × St → Except PyErr Nat × St
  | (.error e, s) => (.error e, { s with current := orig })
  | (.ok (), s) => ((match s.cell n with | some a => .ok a | none => .error .typeError), { s with current := orig })

/-- `logging.getLogger().setLevel(sigh)` (package.py 175-176) -/
def St.quiet (l : Nat) : Except PyErr Nat × St → Except PyErr Nat × St
  | (r, s) => (r, { s with level := l })

mutual
/-- What a file does; `bound` is what the name `setup` of the module refers to. -/
def exec (bound : Option Fn) : List Act → St → Except PyErr Unit × St
  | [], s => (.ok (), s)
  | a :: as, s =>
    match act bound a s with
    | (.error e, s) => (.error e, s)
    | (.ok b, s) => exec b as s

def act (bound : Option Fn) : Act → St → Except PyErr (Option Fn) × St
  | .bind, s => (.ok (some s.current), s)
  | .callBound a, s => match bound with
    | some f => (.ok bound, s.apply f a)
    | none => (.error .nameError, s)
  | .call a, s => (.ok bound, s.apply s.current a)
  | .nested caught file, s =>
    -- `setupfu`, see below
    match St.quiet s.level (St.finish s.current s.next (exec none file s.load.begin)) with
    | (.ok _, s) => (.ok bound, s)
    | (.error e, s) => if caught then (.ok bound, s) else (.error e, s)
  | .rerun file, s => match s.orig with
    | none => (.error .typeError, s)
    | some o => match St.finish o s.next (exec none file s.begin) with
      | (.ok _, s) => (.ok bound, s)
      | (.error e, s) => (.error e, s)
  | .level l, s => (.ok bound, { s with level := l })
  | .raise e, s => (.error e, s)
end

/-- `_run_setup` (package.py 20-33) of a closure that remembers `orig`. -/
def runSetup (orig : Fn) (file : File) (s : St) : Except PyErr Nat × St := St.finish orig s.next (exec none file s.begin)

/-- `setupfu` (package.py 162-176) -/
def setupfu (file : File) (s : St) : Except PyErr Nat × St := St.quiet s.level (runSetup s.current file s.load)

end Verif.RunSetup
