import Verif.Model.Basic

/-!
# `utils.etag`: the multipart etag

Models `augpathlib/utils.py` lines 199-256.  The hash function (`etag.cypher`, md5) is an arbitrary
function `H`; a hash object is the list of bytes fed to it so far.
-/

namespace Verif.Etag

/-- The attributes of an `etag` object (utils.py 203-208).  `m` is the list of bytes fed to `_m`
since it was created.  `chunksize` is a natural number: negative chunk sizes are not modelled. -/
structure Obj where
  chunksize : Nat
  m : Bytes
  parts : List Bytes
  remainder : Bytes
  lastChunksize : Nat
  deriving DecidableEq, Repr

/-- `etag.__init__` (utils.py 203-208). -/
def init (chunksize : Nat) : Obj :=
  { chunksize := chunksize, m := [], parts := [], remainder := [], lastChunksize := 0 }

/-- What one iteration of the `while True` loop does: return, go round again with the rest of the
buffer, or raise `IndexError` (from `self._parts[-1] = ...` on an empty list). -/
inductive Iter where
  | ret (s : Obj)
  | again (s : Obj) (bio : Bytes)
  | raised (e : PyErr)

/-- One iteration of the loop of `etag.update` (utils.py 214-241).  `bio` is the unread part of the
buffer. -/
def iter (H : Bytes → Bytes) (s : Obj) (bio : Bytes) : Iter :=
  -- 214-221
  let chunksize := if s.lastChunksize ≠ 0 then s.chunksize - s.lastChunksize else s.chunksize
  let s := { s with lastChunksize := 0 }
  -- 223-224
  let chunk := s.remainder
  let s := { s with remainder := bio.take chunksize }
  let bio := bio.drop chunksize
  -- 225-230
  if s.remainder = [] ∧ chunk.length < chunksize then
    .ret { s with remainder := chunk }
  -- 232-241
  else if chunk ≠ [] then
    let digest := H (s.m ++ chunk)
    let s := { s with m := [] }
    if chunksize < s.chunksize then
      if s.parts = [] then .raised .indexError
      else .again { s with parts := s.parts.dropLast ++ [digest] } bio
    else .again { s with parts := s.parts ++ [digest] } bio
  else .again s bio

/-- The state of a loop after a number of iterations. -/
inductive Run where
  | running
  | returned (s : Obj)
  | raised (e : PyErr)

/-- `fuel` iterations of the loop (utils.py 213). -/
def loop (H : Bytes → Bytes) : Nat → Obj → Bytes → Run
  | 0, _, _ => .running
  | fuel + 1, s, bio =>
    match iter H s bio with
    | .ret s' => .returned s'
    | .again s' bio' => loop H fuel s' bio'
    | .raised e => .raised e

/-- `etag.update(bytes_)` (utils.py 210-241), run for at most `fuel` iterations. -/
def updateFuel (H : Bytes → Bytes) (fuel : Nat) (s : Obj) (b : Bytes) : Run :=
  loop H fuel { s with remainder := [] } (s.remainder ++ b)

/-- `etag.update(bytes_)`: `some` of the object after the call, `none` if the call does not return
normally within `len(remainder) + len(bytes_) + 3` iterations.  `C04_update_terminates` shows that
this many iterations are always enough when `chunksize > 0`. -/
def update (H : Bytes → Bytes) (s : Obj) (b : Bytes) : Option Obj :=
  match updateFuel H (s.remainder.length + b.length + 3) s b with
  | .returned s' => some s'
  | _ => none

/-- `etag.digest()` (utils.py 243-252): the object after the call and the returned pair. -/
def digest (H : Bytes → Bytes) (s : Obj) : Obj × (Bytes × Nat) :=
  let s :=
    if s.remainder ≠ [] then
      { s with
        lastChunksize := s.remainder.length
        m := s.m ++ s.remainder
        parts := s.parts ++ [H (s.m ++ s.remainder)]
        remainder := [] }
    else s
  (s, (H s.parts.flatten, s.parts.length))

/-- The calls a user can make on an etag object. -/
inductive Op where
  | update (b : Bytes)
  | digest
  deriving DecidableEq, Repr

/-- One call; the value returned by `digest` is dropped. -/
def step (H : Bytes → Bytes) (s : Obj) : Op → Option Obj
  | .update b => update H s b
  | .digest => some (digest H s).1

/-- A sequence of calls. -/
def run (H : Bytes → Bytes) : Obj → List Op → Option Obj
  | s, [] => some s
  | s, op :: ops => (step H s op).bind fun s' => run H s' ops

/-- A sequence of `update` calls. -/
def feed (H : Bytes → Bytes) (s : Obj) (inputs : List Bytes) : Option Obj :=
  run H s (inputs.map Op.update)

end Verif.Etag
