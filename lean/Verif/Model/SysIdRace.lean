import Verif.Model.SysId

/-!
# The id of the machine, determined by several processes at once

`sysidpath` and `_raw_id` (`augpathlib/utils.py` lines 56-85 and 111-112) as separate system calls, in any number of processes that begin at
any time.

Simplified: the processes may read and write the two files, and make the one in `/var/tmp`; nobody else touches them; a file is read by one
system call.  `Model/SysId` has the calls in one process with all that they can meet.
-/

namespace Verif.SysIdRace
open Verif

/-- How far a process is. -/
inductive Pc where
  /-- It has not looked at `/etc/machine-id` yet (utils.py 75-78). -/
  | start
  /-- `failover.exists()` comes next (utils.py 76). -/
  | second
  /-- `failover.stat().st_size > 0` comes next (utils.py 78). -/
  | there
  /-- `open(failover, 'wt')` comes next (utils.py 82). -/
  | missing
  /-- The file is open; what was written goes to it when it is closed (utils.py 83). -/
  | opened
  /-- `checksum` of this file comes next (utils.py 112). -/
  | reading (w : SysId.Which)
  /-- `_raw_id` returned. -/
  | returned (id : Bytes)
  | raised
  deriving DecidableEq

/-- What is in `/var/tmp/machine-id`, and how far the processes are. -/
structure State where
  file : Option Bytes
  pc : Nat → Pc

def State.goto (s : State) (i : Nat) (pc : Pc) : State := { s with pc := fun j => if j = i then pc else s.pc j }

/-- What is in a file after these bytes were written from its beginning on. -/
def overwrite (u c : Bytes) : Bytes := u ++ c.drop u.length

/-- `option.exists() and accessf(option) and option.stat().st_size > 0` (utils.py 76-78) of `/etc/machine-id`, which nobody changes. -/
def etcUsable : Option Bytes → Bool
  | some c => decide (c.length > 0)
  | none => false

/-- `checksum()[:16]` (utils.py 112) of a file that may be missing. -/
def digest (H : Bytes → Bytes) : Option Bytes → Pc
  | some c => .returned ((H c).take 16)
  | none => .raised

/-- The next system call of process `i`, which would draw `uuid i`; `H` is the hash function of `checksum`. -/
def step (H : Bytes → Bytes) (etc : Option Bytes) (uuid : Nat → Bytes) (s : State) (i : Nat) : State :=
  match s.pc i with
  | .start => s.goto i (if etcUsable etc then .reading .etc else .second)
  | .second => s.goto i (if s.file.isSome then .there else .missing)
  | .there => match s.file with
    | some c => s.goto i (if c.length > 0 then .reading .failover else .missing)
    | none => s.goto i .raised
  | .missing => { s.goto i .opened with file := some [] }
  | .opened => { s.goto i (.reading .failover) with file := some (overwrite (uuid i) (s.file.getD [])) }
  | .reading .etc => s.goto i (digest H etc)
  | .reading .failover => s.goto i (digest H s.file)
  | .returned _ | .raised => s

/-- Processes make steps in any order. -/
def run (H : Bytes → Bytes) (etc : Option Bytes) (uuid : Nat → Bytes) : State → List Nat → State
  | s, [] => s
  | s, i :: rest => run H etc uuid (step H etc uuid s i) rest

/-- Nobody has begun. -/
def State.init (file : Option Bytes) : State := ⟨file, fun _ => .start⟩

end Verif.SysIdRace
