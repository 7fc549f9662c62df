import Verif.Model.Str
import Verif.Model.Basic

/-!
# The streams of a file on windows (`augpathlib/pyads.py` lines 52-129)

One object of the class `ADS` and the streams that the file has on disk, in the order in which the file system lists them.
Simplified: the file itself stays where it is, and the message printed by `add_stream_from_string` is left out.
-/

namespace Verif.Ads

/-- What a run depends on: the calls that fail, the questions whether something exists that are answered with no because the call failed
(`os.path.exists` raises no errors), how much of a content is written by a call that fails, and which names are the same for
the file system, which ignores case: those with the same `fold`. -/
structure Env where
  F : Nat → Option PyErr
  blind : Nat → Bool
  part : Nat → Nat
  fold : Str → Str

/-- The streams on disk, the attribute `streams`, and the number of calls so far. -/
structure St where
  disk : List (Str × Bytes)
  streams : List Str
  tick : Nat
  deriving DecidableEq

/-- The text that `FindFirstStreamW` and `FindNextStreamW` give for a stream. -/
def entry (n : Str) : Str := ':' :: n ++ lit ":$DATA"

/-- The texts for all the streams: a file, but not a directory, has a stream without a name, which comes first. -/
def entries (isFile : Bool) (disk : List (Str × Bytes)) : List Str :=
  (if isFile then [entry []] else []) ++ disk.map fun s => entry s.1

/-- `text.split(":")[1]` -/
def second (t : Str) : Except PyErr Str :=
  match (splitC ':' t)[1]? with
  | some n => .ok n
  | none => .error .indexError

/-- The loop over the streams after the first (pyads.py 80-81) -/
def more : List Str → Except PyErr (List Str)
  | [] => .ok []
  | t :: ts => match second t with
    | .error e => .error e
    | .ok n => match more ts with
      | .error e => .error e
      | .ok ns => .ok (n :: ns)

/-- `init_streams` (pyads.py 57-85) -/
def initStreams : List Str → Except PyErr (List Str)
  | [] => .ok []
  | t :: ts => match second t with
    | .error e => .error e
    | .ok n => match more ts with
      | .error e => .error e
      | .ok ns => .ok (if n = [] then ns else n :: ns)

/-- `os.path.splitdrive(name)[1]` for drives that are letters. -/
def noDrive : Str → Str
  | _ :: ':' :: r => r
  | n => n

/-- `os.path.basename` on windows: what is after the last separator and after the colon of a drive. -/
def basename (n : Str) : Str :=
  ((noDrive n).reverse.takeWhile fun c => c ≠ '/' ∧ c ≠ '\\').reverse

/-- The stream of this name. -/
def Env.find (E : Env) (disk : List (Str × Bytes)) (n : Str) : Option (Str × Bytes) :=
  disk.find? fun s => E.fold s.1 = E.fold n

/-- `open(name, "wb")`: the stream is empty afterwards, and is made if there is none. -/
def Env.open_ (E : Env) (disk : List (Str × Bytes)) (n : Str) (b : Bytes) : List (Str × Bytes) :=
  if (E.find disk n).isSome then disk.map fun s => if E.fold s.1 = E.fold n then (s.1, b) else s
  else disk ++ [(n, b)]

/-- `add_stream_from_string` (pyads.py 105-115) -/
def Env.addString (E : Env) (name : Str) (content : Bytes) (s : St) : Except PyErr Bool × St :=
  let full := basename name
  if (E.find s.disk full).isSome && !E.blind s.tick then (.ok false, { s with tick := s.tick + 1 })
  else match E.F (s.tick + 1) with
    | some e => (.error e, { s with tick := s.tick + 2 })
    | none => match E.F (s.tick + 2) with
      | some e => (.error e, { s with disk := E.open_ s.disk full (content.take (E.part (s.tick + 2))), tick := s.tick + 3 })
      | none => (.ok true, { disk := E.open_ s.disk full content, streams := s.streams ++ [name], tick := s.tick + 3 })

/-- `add_stream_from_file` (pyads.py 96-103).  `src` is the content of the other file, if it is there. -/
def Env.addFile (E : Env) (name : Str) (src : Option Bytes) (s : St) : Except PyErr Bool × St :=
  match src with
  | none => (.ok false, { s with tick := s.tick + 1 })
  | some content => match E.F (s.tick + 1) with
    | some e => (.error e, { s with tick := s.tick + 2 })
    | none => E.addString name content { s with tick := s.tick + 2 }

/-- `delete_stream` (pyads.py 117-123): every exception is the answer no. -/
def Env.delete (E : Env) (name : Str) (s : St) : Except PyErr Bool × St :=
  match E.F s.tick with
  | some _ => (.ok false, { s with tick := s.tick + 1 })
  | none =>
    if (E.find s.disk name).isSome then
      let disk := s.disk.eraseP fun x => E.fold x.1 = E.fold name
      if name ∈ s.streams then (.ok true, { disk, streams := s.streams.erase name, tick := s.tick + 1 })
      else (.ok false, { s with disk, tick := s.tick + 1 })
    else (.ok false, { s with tick := s.tick + 1 })

/-- `get_stream_content` (pyads.py 125-129) -/
def Env.content (E : Env) (name : Str) (s : St) : Except PyErr Bytes :=
  match E.F s.tick with
  | some e => .error e
  | none => match E.find s.disk name with
    | some x => .ok x.2
    | none => .error .fileNotFoundError

/-- An operation on the object. -/
inductive Op where
  | addString (name : Str) (content : Bytes)
  | addFile (name : Str) (src : Option Bytes)
  | delete (name : Str)

def Env.step (E : Env) (s : St) : Op → Except PyErr Bool × St
  | .addString n b => E.addString n b s
  | .addFile n b => E.addFile n b s
  | .delete n => E.delete n s

/-- The answers and the state after a history; an exception is seen by whoever called and the object is used further. -/
def Env.run (E : Env) : St → List Op → List (Except PyErr Bool) × St
  | s, [] => ([], s)
  | s, o :: os => let r := E.step s o; let r' := E.run r.2 os; (r.1 :: r'.1, r'.2)

end Verif.Ads
