import Verif.Model.Ads
import Verif.Model.Attrs

/-!
# Attributes on windows, where they are streams

`ADSHelper` (`augpathlib/core.py` lines 139-278) in full: `Model/Attrs.lean` has what it does to the streams of a file that is
there and whose path it can name; here are the paths that it makes, and what windows makes of them.

Simplified: the names of files are compared as they are written, drives and their roots are left out, no path has `..` or links,
and the file system stores the names of streams as they are given.
-/

namespace Verif.AdsHelper

/-- What a run depends on: the current directory, and which names of streams are the same for the file system, which ignores
case: those with the same `fold`. -/
structure Env where
  cwd : List Str
  fold : Str → Str

/-- A path: on the drive of the current directory, from its root or from the current directory.  `Path('.')` has no components. -/
structure WPath where
  absolute : Bool
  comps : List Str
  deriving DecidableEq

/-- A file or directory with its named streams, in the order in which the file system lists them. -/
structure Node where
  dir : Bool
  streams : List (Str × Bytes)
  deriving DecidableEq

/-- What is on the drive. -/
abbrev Vol := List Str → Option Node

def Vol.put (v : Vol) (q : List Str) (n : Node) : Vol := fun r => if r = q then some n else v r

/-- A key: text, or bytes, here as the text that they are decoded to. -/
inductive Key where
  | text (s : Str)
  | raw (s : Str)
  deriving DecidableEq

/-- `namespace + '.' + key` (core.py 146-148): bytes cannot be appended to a text. -/
def keyConvention (ns : Str) : Key → Except PyErr Str
  | .text s => .ok (ns ++ '.' :: s)
  | .raw _ => .error .typeError

/-- The components of a piece of a path. -/
def segments (t : Str) : List Str := (splitC '/' (replaceC '\\' '/' t)).filter fun s => s ≠ [] ∧ s ≠ ['.']

/-- `_stream` (core.py 150-160): the path of a stream.  There is no last part of `Path('.')` to unpack. -/
def stream (p : WPath) (name : Str) : Except PyErr WPath :=
  match p.comps.reverse with
  | [] => .error .valueError
  | last :: up =>
    if !p.absolute && up.isEmpty && last.length == 1 then .error .valueError
    else .ok ⟨p.absolute, up.reverse ++ segments (last ++ ':' :: name)⟩

/-- `_streamname` (core.py 162-166): the arguments of `split` are swapped. -/
def streamname (p : WPath) : Except PyErr (Option Str) :=
  match p.comps.reverse with
  | [] => .error .valueError
  | last :: _ => if ':' ∈ last then .error .typeError else .ok none

variable (E : Env)

/-- Where a path leads. -/
def Env.full (p : WPath) : List Str := if p.absolute then p.comps else E.cwd ++ p.comps

/-- What windows takes a path for: a file and the name of a stream of it.  A colon elsewhere is not allowed, and the only type
of streams is `$DATA`. -/
def Env.locate (q : List Str) : Except PyErr (List Str × Str) :=
  match q.reverse with
  | [] => .error .osError
  | last :: up =>
    if up.any fun c => c.contains ':' then .error .osError
    else match splitC ':' last with
      | [f, s] => if f = [] ∨ s = [] then .error .osError else .ok (up.reverse ++ [f], s)
      | [f, s, t] => if f = [] ∨ s = [] ∨ E.fold t ≠ E.fold (lit "$DATA") then .error .osError else .ok (up.reverse ++ [f], s)
      | _ => .error .osError

/-- The content of a stream. -/
def Env.find (ss : List (Str × Bytes)) (n : Str) : Option Bytes :=
  match ss with
  | [] => none
  | (m, b) :: ss => if E.fold m = E.fold n then some b else Env.find ss n

/-- A stream gets this content, and is made if there is none. -/
def Env.write (ss : List (Str × Bytes)) (n : Str) (b : Bytes) : List (Str × Bytes) :=
  match ss with
  | [] => [(n, b)]
  | (m, c) :: ss => if E.fold m = E.fold n then (m, b) :: ss else (m, c) :: Env.write ss n b

/-- A stream is removed. -/
def Env.drop (ss : List (Str × Bytes)) (n : Str) : List (Str × Bytes) :=
  match ss with
  | [] => []
  | (m, c) :: ss => if E.fold m = E.fold n then ss else (m, c) :: Env.drop ss n

/-- `open(stream, 'wb')` and writing: a file that is not there is made, like the stream. -/
def Env.openW (v : Vol) (q : List Str) (b : Bytes) : Except PyErr Vol :=
  match E.locate q with
  | .error e => .error e
  | .ok (f, s) => match v f with
    | some n => .ok (v.put f { n with streams := E.write n.streams s b })
    | none => match v f.dropLast with
      | some ⟨true, _⟩ => .ok (v.put f ⟨false, [(s, b)]⟩)
      | _ => .error .fileNotFoundError

/-- `open(stream, 'rb')` and reading. -/
def Env.openR (v : Vol) (q : List Str) : Except PyErr Bytes :=
  match E.locate q with
  | .error e => .error e
  | .ok (f, s) => match (v f).bind fun n => E.find n.streams s with
    | some b => .ok b
    | none => .error .fileNotFoundError

/-- `stream.unlink()` -/
def Env.unlink (v : Vol) (q : List Str) : Except PyErr Vol :=
  match E.locate q with
  | .error e => .error e
  | .ok (f, s) => match v f with
    | none => .error .fileNotFoundError
    | some n => match E.find n.streams s with
      | none => .error .fileNotFoundError
      | some _ => .ok (v.put f { n with streams := E.drop n.streams s })

/-- `setxattr` (core.py 216-231) with a bytes value; bytes keys are decoded.  `fault`: the write fails after so many bytes. -/
def Env.setxattr (v : Vol) (p : WPath) (ns : Str) (key : Key) (value : Bytes) (fault : Option (PyErr × Nat)) : Except PyErr Unit × Vol :=
  let key := match key with | .text s | .raw s => Key.text s
  match keyConvention ns key with
  | .error e => (.error e, v)
  | .ok name => match stream p name with
    | .error e => (.error e, v)
    | .ok q => match fault with
      | none => match E.openW v (E.full q) value with
        | .error e => (.error e, v)
        | .ok v => (.ok (), v)
      | some (e, n) => match E.openW v (E.full q) (value.take n) with
        | .error e => (.error e, v)
        | .ok v => (.error e, v)

/-- `getxattr` (core.py 238-246) -/
def Env.getxattr (v : Vol) (p : WPath) (ns : Str) (key : Key) : Except PyErr Bytes :=
  match keyConvention ns key with
  | .error e => .error e
  | .ok name => match stream p name with
    | .error e => .error e
    | .ok q => match E.openR v (E.full q) with
      | .ok b => .ok b
      | .error e => .error (if e = .fileNotFoundError then .noStreamError else e)

/-- `delxattr` (core.py 207-214) -/
def Env.delxattr (v : Vol) (p : WPath) (ns : Str) (key : Key) (fail : Bool) : Except PyErr Unit × Vol :=
  match keyConvention ns key with
  | .error e => (.error e, v)
  | .ok name => match stream p name with
    | .error e => (.error e, v)
    | .ok q => match E.unlink v (E.full q) with
      | .ok v => (.ok (), v)
      | .error e =>
        if e = .fileNotFoundError then (if fail then (.error .noStreamError, v) else (.ok (), v))
        else (.error e, v)

/-- `text.rsplit(':$', 1)` in two; `none` if there is no `:$`. -/
def rsplitType : Str → Option (Str × Str)
  | [] => none
  | c :: cs => match rsplitType cs with
    | some (a, b) => some (c :: a, b)
    | none => match c, cs with
      | ':', '$' :: r => some ([], r)
      | _, _ => none

/-- `text.strip(':')` -/
def stripColons (t : Str) : Str := ((t.dropWhile (· = ':')).reverse.dropWhile (· = ':')).reverse

/-- `a in b` for texts -/
def within (a : Str) : Str → Bool
  | [] => a.isPrefixOf []
  | c :: cs => a.isPrefixOf (c :: cs) || within a cs

/-- What `_streams` makes of one answer of `FindFirstStreamW` or `FindNextStreamW` (core.py 192-201): the name of the stream,
or nothing for the stream without a name. -/
def cleaned (t : Str) : Except PyErr (Option Str) :=
  if within (lit "::$DATA") t then .ok none
  else match rsplitType (stripColons t) with
    | some (n, _) => .ok (some n)
    | none => .error .valueError

/-- The loop of `_xattrs` over `_streams` (core.py 168-205 and 257-265): each stream is opened when it has been found.  The
dictionary has one value for each key. -/
def Env.collect (v : Vol) (p : WPath) : List Str → List (Str × Bytes) → Except PyErr (List (Str × Bytes))
  | [], out => .ok out
  | t :: ts, out => match cleaned t with
    | .error e => .error e
    | .ok none => Env.collect v p ts out
    | .ok (some n) => match stream p n with
      | .error e => .error e
      | .ok q => match q.comps.getLast? with
        | none => .error .valueError
        | some last => match (splitC ':' last) with
          | [] | [_] => .error .valueError
          | _ :: k => match E.openR v (E.full q) with
            | .error e => .error e
            | .ok b => Env.collect v p ts (Attrs.insert (joinC ':' k) b out)

/-- `_xattrs` (core.py 248-265): a path that is not absolute is resolved first.  Of a path where nothing is, no streams are found. -/
def Env.allxattrs (v : Vol) (p : WPath) : Except PyErr (List (Str × Bytes)) :=
  let p : WPath := if p.absolute then p else ⟨true, E.cwd ++ p.comps⟩
  match v p.comps with
  | none => .ok []
  | some n => E.collect v p (Ads.entries (!n.dir) n.streams) []

/-- `xattrs` (core.py 267-278); the keys are bytes, here the text that is encoded. -/
def Env.xattrs (v : Vol) (p : WPath) (ns : Str) : Except PyErr (List (Str × Bytes)) :=
  match E.allxattrs v p with
  | .error e => .error e
  | .ok out => .ok ((Attrs.xattrsADS out ns).foldl (fun d kv => Attrs.insert kv.1 kv.2 d) [])

end Verif.AdsHelper
