import Verif.Model.Basic

/-!
# Preparing the directory of a cache in several processes

`local_data_dir_init` (`augpathlib/caches.py` lines 186-227) as separate system calls, in any number of processes that have the same
anchor, while other processes store objects (`local_object_cache_path`, caches.py 180-184).

Simplified: a target is given by where it leads, so that two targets are the same when they resolve to the same; nobody else changes the
data directory; nothing but a directory is ever at the place of the data directory or of the trash, and nobody removes them, so that the
`os.mkdir` of an existing one and python's `is_dir` after it are one step; a file is stored in one step.  `Env.dataDirInit` of
`Model/DataDir` is the same in one process on the whole file system.
-/

namespace Verif.DataDirRace

/-- What is at `local_objects_dir` (caches.py 175-178): nothing, a directory with files, or a symlink. -/
inductive Objects (T F : Type) where
  | absent
  | dir (files : List F)
  | link (to : T)
  deriving DecidableEq

/-- What a process does: `local_data_dir_init` with `symlink_objects_to` and `exist_ok`, or storing an object. -/
inductive Job (T F : Type) where
  | prepare (to : Option T) (existOk : Bool)
  | store (f : F)

/-- How far a process is. -/
inductive Pc where
  | start
  /-- It is going to make the directory for objects (caches.py 221). -/
  | making
  /-- It could not, and is going to ask whether it is a directory (python's `Path.mkdir`). -/
  | looking
  /-- It is going to ask whether the objects are a symlink (caches.py 203). -/
  | asking
  /-- They are, and it is going to see where that leads (caches.py 204-209). -/
  | comparing
  /-- They are not, and it is going to ask whether they exist (caches.py 210). -/
  | existing
  /-- They do, and it is going to remove the directory (caches.py 212). -/
  | removing
  /-- It is going to make the symlink (caches.py 219). -/
  | linking
  /-- It is going to make the trash (caches.py 223-227). -/
  | trashing
  | returned
  | raised (e : PyErr)
  deriving DecidableEq

/-- Whether the data directory is there, the objects, the files at the targets, whether the trash is there, and the processes. -/
structure State (T F : Type) where
  dir : Bool
  objects : Objects T F
  far : T → List F
  trash : Bool
  pc : Nat → Pc

variable {T F : Type} [DecidableEq T]

def State.goto (s : State T F) (i : Nat) (pc : Pc) : State T F := { s with pc := fun j => if j = i then pc else s.pc j }

/-- Opening a new file in the objects and writing it. -/
def State.store (leads : T → Bool) (s : State T F) (i : Nat) (f : F) : State T F :=
  match s.objects with
  | .absent => s.goto i (.raised .fileNotFoundError)
  | .dir fs => { s.goto i .returned with objects := .dir (fs ++ [f]) }
  | .link t =>
    if leads t then { s.goto i .returned with far := fun u => if u = t then s.far u ++ [f] else s.far u }
    else s.goto i (.raised .fileNotFoundError)

/-- The next system call of process `i` of `local_data_dir_init` (caches.py 190-227); `leads` are the targets that are directories,
`hasTrash` is whether the class has a trash. -/
def State.prepare (leads : T → Bool) (hasTrash : Bool) (s : State T F) (i : Nat) (to : Option T) (existOk : Bool) : State T F :=
  match s.pc i with
  | .start =>
    if s.dir && !existOk then s.goto i (.raised .fileExistsError)
    else { s.goto i (if to.isSome then .asking else .making) with dir := true }
  | .making =>
    match s.objects with
    | .absent => { s.goto i .trashing with objects := .dir [] }
    | _ => s.goto i (if existOk then .looking else .raised .fileExistsError)
  | .looking =>
    match s.objects with
    | .absent => s.goto i (.raised .fileExistsError)
    | .dir _ => s.goto i .trashing
    | .link t => s.goto i (if leads t then .trashing else .raised .fileExistsError)
  | .asking =>
    match s.objects with
    | .link _ => s.goto i .comparing
    | _ => s.goto i .existing
  | .comparing =>
    match s.objects with
    | .absent => s.goto i (.raised .fileNotFoundError)
    | .dir _ => s.goto i (.raised .osError)
    | .link t => s.goto i (if to = some t then .returned else .raised .notADirectoryError)
  | .existing =>
    match s.objects with
    | .absent => s.goto i .linking
    | .dir _ => s.goto i .removing
    | .link t => s.goto i (if leads t then .removing else .linking)
  | .removing =>
    match s.objects with
    | .absent => s.goto i (.raised .fileNotFoundError)
    | .dir fs => if fs.isEmpty then { s.goto i .linking with objects := .absent } else s.goto i (.raised .osError)
    | .link _ => s.goto i (.raised .notADirectoryError)
  | .linking =>
    match s.objects, to with
    | .absent, some t => { s.goto i .trashing with objects := .link t }
    | _, _ => s.goto i (.raised .fileExistsError)
  | .trashing =>
    if hasTrash then
      if s.trash && !existOk then s.goto i (.raised .fileExistsError)
      else { s.goto i .returned with trash := true }
    else s.goto i .returned
  | .returned | .raised _ => s

/-- The next system call of process `i`. -/
def step (leads : T → Bool) (hasTrash : Bool) (job : Nat → Job T F) (s : State T F) (i : Nat) : State T F :=
  match job i with
  | .prepare to existOk => s.prepare leads hasTrash i to existOk
  | .store f => if s.pc i = .start then s.store leads i f else s

/-- Processes make steps in any order. -/
def run (leads : T → Bool) (hasTrash : Bool) (job : Nat → Job T F) : State T F → List Nat → State T F
  | s, [] => s
  | s, i :: rest => run leads hasTrash job (step leads hasTrash job s i) rest

/-- Nobody has begun. -/
def State.init (dir : Bool) (objects : Objects T F) (far : T → List F) (trash : Bool) : State T F := ⟨dir, objects, far, trash, fun _ => .start⟩

end Verif.DataDirRace
