import Verif.Model.Merge
import Verif.Model.Sweep

/-!
# Comparing remotes, and putting them into sets

`RemotePath.__eq__` and `__ne__` (`augpathlib/remotes.py` lines 565-569) with what python does for `a == b`, `PathMeta.__eq__`
(`augpathlib/meta.py` lines 157-163) and the comparison of paths of the standard library; what python makes of a class that defines
`__eq__` without `__hash__`; and the beginning of the sweep in `_bootstrap_recursive` (`augpathlib/caches.py` lines 475-481), which
puts remotes into a set.

Simplified: all paths have the same flavour, and metadata are given by the values of their attributes, as in `Model/Merge`.
-/

namespace Verif.RemoteEq

/-- What a remote is compared with. -/
inductive Obj where
  | none
  /-- a remote; `SshRemote` is a path too (remotes.py 575), whose text this is -/
  | remote (id : PyVal) (path : Option Str)
  /-- a path with its text, and the attribute `id` if its class has one (caches.py 743-757, core.py 1178-1182) -/
  | path (text : Str) (id : Option PyVal)
  /-- a `PathMeta` -/
  | info (m : Meta)
  /-- something else without an attribute `id`, with its truth value -/
  | plain (truthy : Bool)

/-- `bool(o)` -/
def Obj.truthy : Obj → Bool
  | .none => false
  | .remote _ _ => true
  | .path _ _ => true
  | .info m => metaBool m
  | .plain b => b

/-- `o.id` -/
def Obj.id : Obj → Except PyErr PyVal
  | .remote i _ => .ok i
  | .path _ (some i) => .ok i
  | .info m => .ok (m .id)
  | _ => .error .attributeError

/-- What a comparison gives. -/
inductive Answer where
  | bool (b : Bool)
  /-- the object that was compared with, which is falsy -/
  | itself (o : Obj)
  | none
  | notImplemented

/-- The truth value of an answer; there is none of `NotImplemented`, which python does not hand out. -/
def Answer.truth : Answer → Bool
  | .bool b => b
  | .itself o => o.truthy
  | .none => false
  | .notImplemented => false

/-- `RemotePath.__eq__` (remotes.py 565-566): `other and self.id == other.id` -/
def remoteEq (i : PyVal) (other : Obj) : Except PyErr Answer :=
  if !other.truthy then .ok (.itself other)
  else match other.id with
    | .error e => .error e
    | .ok j => .ok (.bool (pyEq i j))

/-- `PurePath.__eq__` of the standard library -/
def pathEq (text : Str) : Obj → Answer
  | .path t _ => .bool (text = t)
  | .remote _ (some t) => .bool (text = t)
  | _ => .notImplemented

/-- `PathMeta.__eq__` (meta.py 157-163), which gives `None` for everything else -/
def infoEq (m : Meta) : Obj → Answer
  | .info n => .bool (Field.all.all fun f => pyEq (m f) (n f))
  | _ => .none

/-- `a.__eq__(b)` -/
def Obj.eqMethod (a b : Obj) : Except PyErr Answer :=
  match a with
  | .remote i _ => remoteEq i b
  | .path t _ => .ok (pathEq t b)
  | .info m => .ok (infoEq m b)
  | .none => .ok (match b with | .none => .bool true | _ => .notImplemented)
  | .plain _ => .ok .notImplemented

/-- `a == b` for two different objects: the method of the left one, then that of the right one, then whether they are the same object. -/
def Obj.eq (a b : Obj) : Except PyErr Answer :=
  match a.eqMethod b with
  | .ok .notImplemented => match b.eqMethod a with
    | .ok .notImplemented => .ok (.bool false)
    | r => r
  | r => r

/-- `a != b` for a remote on the left (remotes.py 568-569) -/
def Obj.remoteNe (a b : Obj) : Except PyErr Bool :=
  match a.eq b with
  | .error e => .error e
  | .ok r => .ok !r.truth

/-- What the body of a class defines. -/
structure Body where
  eq : Bool
  hash : Bool
  deriving DecidableEq

/-- Whether instances have a hash, by the classes in the order of their lookup, without `object`: python sets `__hash__` of a class to
`None` if its body defines `__eq__` and not `__hash__`. -/
def hashable : List Body → Bool
  | [] => true
  | b :: bs => if b.hash then true else if b.eq then false else hashable bs

/-- `RemotePath` (remotes.py 565-569) -/
def remotePath : Body := ⟨true, false⟩

/-- `pathlib.PurePath` -/
def purePath : Body := ⟨true, true⟩

/-- A class body without either, as that of `SshRemote` (remotes.py 575-986) -/
def noneOfThem : Body := ⟨false, false⟩

/-- `SshRemote(RemotePath, pathlib.PurePath)` (remotes.py 575) -/
def sshRemote : List Body := [noneOfThem, remotePath, purePath]

open Sweep in
/-- The sweep from its beginning (caches.py 475-493): if there are local directories, the directories of the remote are put into a set
(caches.py 478). -/
def sweepFrom {σ : Type} (mro : List Body) (W : World σ) (fuel : Nat) (s : σ) (dirs : List Rel) : Run σ :=
  if dirs.isEmpty then .ended ⟨s, dirs, []⟩
  else if !W.remote.isEmpty && !hashable mro then .raised .typeError ⟨s, dirs, []⟩
  else W.sweep fuel s dirs

end Verif.RemoteEq
