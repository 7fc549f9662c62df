import Verif.Model.FS

/-!
# A finite disk and the system calls that change it

What POSIX says about `unlink`, `rmdir`, `mkdir`, `symlink`, `open(O_CREAT)` and `rename`, on physical
locations.  The content of the disk is a list of locations with what is there; the order of the list is
the (arbitrary) order in which directories are listed.  The type of what is there is a parameter, since
the caches need more detail about files than the rest.
-/

namespace Verif.FS

/-- What is needed to know about the objects on a disk. -/
class Kinded (ν : Type) where
  isDir : ν → Bool

instance : Kinded Node where
  isDir | .dir _ => true | _ => false

/-- The objects on a disk. -/
abbrev Disk (ν : Type) := List (Path × ν)

namespace Disk
variable {ν : Type}

/-- What is at a location. -/
def at_ (d : Disk ν) (p : Path) : Option ν := (d.find? fun e => e.1 = p).map Prod.snd

/-- The names in a directory, in the order of the disk. -/
def names (d : Disk ν) (q : Path) : List Name :=
  d.filterMap fun e => match e.1.getLast? with
    | some n => if e.1.dropLast = q then some n else none
    | none => none

def erase (q : Path) (d : Disk ν) : Disk ν := d.filter fun e => e.1 ≠ q

/-- Make `q` be `x`, whatever it was before. -/
def put (q : Path) (x : ν) (d : Disk ν) : Disk ν := (q, x) :: d.erase q

variable [Kinded ν]

/-- unlink(2) -/
def unlink (q : Path) (d : Disk ν) : Except PyErr (Disk ν) :=
  match d.at_ q with
  | none => .error .fileNotFoundError
  | some x => if Kinded.isDir x then .error .isADirectoryError else .ok (d.erase q)

/-- rmdir(2) -/
def rmdir (q : Path) (d : Disk ν) : Except PyErr (Disk ν) :=
  match d.at_ q with
  | none => .error .fileNotFoundError
  | some x =>
    if !Kinded.isDir x then .error .notADirectoryError
    else if q = [] ∨ d.names q ≠ [] then .error .osError
    else .ok (d.erase q)

/-- Make a new object (mkdir(2), symlink(2), open(2) with `O_CREAT | O_EXCL`). -/
def create (q : Path) (x : ν) (d : Disk ν) : Except PyErr (Disk ν) :=
  match d.at_ q with
  | some _ => .error .fileExistsError
  | none => match d.at_ q.dropLast with
    | none => .error .fileNotFoundError
    | some p => if Kinded.isDir p then .ok (d.put q x) else .error .notADirectoryError

/-- The disk with everything at and below `src` moved to `dst`, where nothing or a replaceable
object is. -/
def move (src dst : Path) (d : Disk ν) : Disk ν :=
  (d.filter fun e => ¬ dst <+: e.1).map fun e =>
    if src <+: e.1 then (dst ++ e.1.drop src.length, e.2) else e

/-- rename(2) -/
def rename (src dst : Path) (d : Disk ν) : Except PyErr (Disk ν) :=
  match d.at_ src, d.at_ dst.dropLast with
  | none, _ => .error .fileNotFoundError
  | _, none => .error .fileNotFoundError
  | some x, some p =>
    if !Kinded.isDir p then .error .notADirectoryError
    else if src = dst then .ok d
    else if src <+: dst then .error .osError
    else if dst <+: src then .error .osError
    else match d.at_ dst with
      | none => .ok (d.move src dst)
      | some y =>
        if Kinded.isDir x then
          if !Kinded.isDir y then .error .notADirectoryError
          else if d.names dst ≠ [] then .error .osError
          else .ok (d.move src dst)
        else if Kinded.isDir y then .error .isADirectoryError
        else .ok (d.move src dst)

end Disk

/-! ## Programs that change a disk

A program runs on a disk and a clock that counts its system calls; an exception leaves the disk as it is
at that point. -/

/-- The state of the machine. -/
structure Machine (ν : Type) where
  disk : Disk ν
  tick : Nat

/-- A program with result `α`. -/
abbrev Prog (ν α : Type) := Machine ν → Except PyErr α × Machine ν

namespace Prog
variable {ν α β : Type}

def pure (a : α) : Prog ν α := fun s => (.ok a, s)

def throw (e : PyErr) : Prog ν α := fun s => (.error e, s)

def bind (m : Prog ν α) (f : α → Prog ν β) : Prog ν β := fun s =>
  match m s with
  | (.ok a, s) => f a s
  | (.error e, s) => (.error e, s)

/-- `try: m except ...: h` -/
def catch_ (m : Prog ν α) (h : PyErr → Prog ν α) : Prog ν α := fun s =>
  match m s with
  | (.ok a, s) => (.ok a, s)
  | (.error e, s) => h e s

instance : Monad (Prog ν) where
  pure := Prog.pure
  bind := Prog.bind

/-- A system call that may also fail for reasons of its own: `F n` is the error with which the call
number `n` fails, if it does. -/
def sys (F : Nat → Option PyErr) (f : Disk ν → Except PyErr (α × Disk ν)) : Prog ν α := fun s =>
  match F s.tick with
  | some e => (.error e, ⟨s.disk, s.tick + 1⟩)
  | none => match f s.disk with
    | .ok (a, d) => (.ok a, ⟨d, s.tick + 1⟩)
    | .error e => (.error e, ⟨s.disk, s.tick + 1⟩)

/-- A system call that only looks. -/
def look (F : Nat → Option PyErr) (f : Disk ν → Except PyErr α) : Prog ν α :=
  sys F fun d => match f d with
    | .ok a => .ok (a, d)
    | .error e => .error e

/-- A system call that only acts. -/
def act (F : Nat → Option PyErr) (f : Disk ν → Except PyErr (Disk ν)) : Prog ν Unit :=
  sys F fun d => match f d with
    | .ok d => .ok ((), d)
    | .error e => .error e

/-- `for x in xs: f x` -/
def each (f : α → Prog ν Unit) : List α → Prog ν Unit
  | [] => pure ()
  | x :: xs => bind (f x) fun _ => each f xs

end Prog

end Verif.FS
