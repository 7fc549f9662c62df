import Verif.Model.Zip
import Verif.Model.Basic

/-!
# Reading out of zip archives

`augpathlib/zip.py` 85-113 (`open`, `close`, `data`) and 169-176 (`rchildren`).  A path inside of an archive is a single
object for all its users (`_paths[self]`, zip.py 39-40), and that object remembers the file that it opened last.  `data` is a
generator: several of them can be under way for one object.

Simplified: the archive is sound and stays open (`zip_file` is never closed), so that decompression gives the archived content
and only reading from a closed file fails (`ValueError`).
-/

namespace Verif.Zip

/-- A generator of `data` (zip.py 101-113). -/
inductive Reader where
  /-- made, but nothing asked of it yet: no code has run -/
  | fresh
  /-- at the `yield`, with its own open file and the position in it -/
  | reading (fd pos : Nat)
  /-- ran to its end -/
  | ended
  /-- thrown away before its end (`GeneratorExit` at the `yield`) -/
  | dropped
  /-- ended with an exception -/
  | failed (e : PyErr)
  deriving DecidableEq, Repr

/-- The object of one archived path with its generators. -/
structure Obj where
  /-- `self.__fd`: the file opened last -/
  last : Option Nat
  /-- the number of files opened so far -/
  opened : Nat
  /-- the files that were closed -/
  closed : List Nat
  readers : Nat → Reader
  /-- what each generator yielded so far -/
  got : Nat → List Bytes

/-- An object that nobody has used. -/
def Obj.new : Obj := ⟨none, 0, [], fun _ => .fresh, fun _ => []⟩

def Obj.set (o : Obj) (i : Nat) (r : Reader) : Obj := { o with readers := fun j => if j = i then r else o.readers j }

def Obj.give (o : Obj) (i : Nat) (b : Bytes) : Obj := { o with got := fun j => if j = i then o.got j ++ [b] else o.got j }

/-- `f.close()` -/
def Obj.closeFile (o : Obj) (fd : Nat) : Obj := { o with closed := fd :: o.closed }

/-- Leaving `data` (zip.py 112-113): `self.close()` (zip.py 94-99) closes the file that the object opened last, whichever
generator that belongs to.  If it never opened one there is no attribute, and a `BaseException` is raised in place of whatever
was under way. -/
def Obj.finish (o : Obj) (i : Nat) (r : Reader) : Obj :=
  match o.last with
  | some fd => (o.closeFile fd).set i r
  | none => o.set i (.failed .baseException)

/-- One round of the loop (zip.py 106-111): read, and either yield or leave.  Leaving the `with` closes the own file first. -/
def Obj.round (o : Obj) (content : Bytes) (chunksize i fd pos : Nat) : Obj :=
  if fd ∈ o.closed then (o.closeFile fd).finish i (.failed .valueError)
  else
    let b := (content.drop pos).take chunksize
    if b = [] then (o.closeFile fd).finish i .ended
    else (o.give i b).set i (.reading fd (pos + b.length))

/-- What can happen: a generator is asked for its next value, or thrown away. -/
inductive Event where
  | next (i : Nat)
  | drop (i : Nat)
  deriving DecidableEq, Repr

/-- `open` (zip.py 85-92) at the first value, then the loop.  `entry` is the archived content, or `none` for a directory or for
something that is not in the archive. -/
def Obj.step (entry : Option Bytes) (chunksize : Nat) (o : Obj) : Event → Obj
  | .next i =>
    match o.readers i with
    | .fresh =>
      match entry with
      | none => o.finish i (.failed .isADirectoryError)
      | some content =>
        let fd := o.opened
        (({ o with opened := fd + 1, last := some fd }).set i (.reading fd 0)).round content chunksize i fd 0
    | .reading fd pos =>
      match entry with
      | none => o  -- does not happen
      | some content => o.round content chunksize i fd pos
    | _ => o
  | .drop i =>
    match o.readers i with
    | .fresh => o.set i .dropped
    | .reading fd _ => (o.closeFile fd).finish i .dropped
    | _ => o

/-- A history of one object. -/
def Obj.run (entry : Option Bytes) (chunksize : Nat) (o : Obj) (es : List Event) : Obj := es.foldl (Obj.step entry chunksize) o

/-- What the object's path has in the archive. -/
def entryOf (names : List Str) (content : Str → Bytes) (p : Symlink.Pure) : Option Bytes :=
  if isDir names p then none else (obj names p).info.map content

/-! ## From outside -/

/-- `ZipHelper.rchildren` (zip.py 169-176) of a path in an archive; `none` outside of archives, where it is that of other
paths.  Paths outside are given from the last component to the first.  `zip_path / child` gives `child` for absolute ones. -/
def zipRchildren (d : Disk) (p : List Str) : Except PyErr (Option (List Symlink.Pure)) :=
  match zipPath d p with
  | .error e => .error e
  | .ok none => .ok none
  | .ok (some zp) =>
    match d zp with
    | .zip names =>
      .ok (some ((rchildren names ⟨[], (p.take (p.length - zp.length)).reverse⟩).map fun c =>
        if c.root = [] then ⟨['/'], zp.reverse ++ c.comps⟩ else c))
    | _ => .error .foreign

/-- `ZipHelper.open` (zip.py 178-182), read to the end: what is inside of archives is read there. -/
def zipRead (d : Disk) (content : List Str → Str → Bytes) (p : List Str) : Except PyErr (Option Bytes) :=
  match zipPath d p with
  | .error e => .error e
  | .ok none => .ok none
  | .ok (some zp) =>
    match d zp with
    | .zip names =>
      match entryOf names (content zp) ⟨[], (p.take (p.length - zp.length)).reverse⟩ with
      | some b => .ok (some b)
      | none => .error .isADirectoryError
    | _ => .error .foreign

end Verif.Zip
