import Verif.Model.EatCache

/-!
# Reading and setting the attributes of one file at the same time

`EatCache.meta` and `EatCache._meta_setter` (`augpathlib/caches.py` lines 1074-1101) with `XattrHelper.setxattrs` and
`XattrHelper.xattrs` (`augpathlib/core.py` lines 302-304 and 316-321) as the sequences of the system calls that they make, so that the calls of
several processes can come in any order.  `setxattrs` makes one call for each attribute; `xattr.get_all` of the library asks for the names
and then for the value of each name, and leaves out a name that is gone.

Simplified: the file stays, and no attribute is removed; the calls do not fail; `exists` and `is_symlink`, whose answers do not change, are
left out.
-/

namespace Verif.Torn
open Verif.Xattrs Verif.Cache

/-- What a process still has to do. -/
inductive Proc where
  /-- the attributes that it has to set -/
  | set (xs : Attrs)
  /-- it has to ask for the names -/
  | list
  /-- the names that it has to ask for, and what it has got so far -/
  | get (names : List Bytes) (got : Attrs)
  deriving DecidableEq

/-- getxattr(2) -/
def getAttr (k : Bytes) : Attrs → Option Bytes
  | [] => none
  | (k', v) :: l => if k' = k then some v else getAttr k l

/-- One call of a process on the attributes of the file. -/
def Proc.step (a : Attrs) : Proc → Attrs × Proc
  | .set [] => (a, .set [])
  | .set (x :: xs) => (setAttr x.1 x.2 a, .set xs)
  | .list => (a, .get (a.map Prod.fst) [])
  | .get [] got => (a, .get [] got)
  | .get (k :: ks) got => match getAttr k a with
    | some v => (a, .get ks (got ++ [(k, v)]))
    | none => (a, .get ks got)

/-- `_meta_setter(m)` (caches.py 1094) -/
def setter (env : Env) (pre : Option Str) (m : Meta) : Except PyErr Proc :=
  match asXattrs env m pre with
  | .ok xs => .ok (.set xs)
  | .error e => .error e

/-- `meta` (caches.py 1077) -/
def getter : Proc := .list

/-- What `meta` gives, if it has ended (caches.py 1078-1079) -/
def Proc.answer (env : Env) (pre : Option Str) : Proc → Option (Except PyErr PathMeta)
  | .get [] got => some (fromXattrs env got pre)
  | _ => none

/-- Process `n` makes its next call; one that has ended does nothing. -/
def call (n : Nat) (a : Attrs) (ps : Nat → Proc) : Attrs × (Nat → Proc) :=
  (((ps n).step a).1, fun j => if j = n then ((ps n).step a).2 else ps j)

/-- The processes make calls in the given order. -/
def calls : List Nat → Attrs → (Nat → Proc) → Attrs × (Nat → Proc)
  | [], a, ps => (a, ps)
  | n :: ns, a, ps => calls ns (call n a ps).1 (call n a ps).2

end Verif.Torn
