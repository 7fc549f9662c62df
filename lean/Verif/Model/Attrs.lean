import Verif.Model.Basic

/-!
# Extended attributes

`augpathlib/core.py` lines 139-321: `XattrHelper` (posix) and `ADSHelper` (windows, where attributes are
alternate data streams).  The store of one file is a list of full names with values, as the operating
system (or the file system) keeps it.
-/

namespace Verif.Attrs

/-- The attributes of a file, by full name. -/
abbrev Store := List (Str × Bytes)

/-- The full name of an attribute: `_key_convention` (core.py 147-148), and what the `xattr` library
does. -/
def full (ns key : Str) : Str := ns ++ '.' :: key

def lookup (name : Str) : Store → Option Bytes
  | [] => none
  | (n, v) :: rest => if n = name then some v else lookup name rest

def insert (name : Str) (v : Bytes) : Store → Store
  | [] => [(name, v)]
  | (n, w) :: rest => if n = name then (n, v) :: rest else (n, w) :: insert name v rest

def erase (name : Str) : Store → Store
  | [] => []
  | (n, w) :: rest => if n = name then rest else (n, w) :: erase name rest

/-- `setxattr` (core.py 216-231 and 293-300) with a bytes value. -/
def setxattr (s : Store) (ns key : Str) (v : Bytes) : Store := insert (full ns key) v s

/-- `getxattr` (core.py 238-246 and 306-314) -/
def getxattr (s : Store) (ns key : Str) : Except PyErr Bytes :=
  match lookup (full ns key) s with
  | some v => .ok v
  | none => .error .noStreamError

/-- `delxattr` of `XattrHelper` (core.py 286-291): a missing attribute is an error only on request. -/
def delxattr (s : Store) (ns key : Str) (fail : Bool) : Except PyErr Store :=
  match lookup (full ns key) s with
  | some _ => .ok (erase (full ns key) s)
  | none => if fail then .error .osError else .ok s

/-- `xattr.get_all(path, namespace=ns)` as in `XattrHelper.xattrs` (core.py 316-321): the library
returns what starts with the namespace, a dot and at least one more character. -/
def xattrs (s : Store) (ns : Str) : List (Str × Bytes) :=
  s.filterMap fun (n, v) =>
    if (ns ++ ['.']).isPrefixOf n ∧ ns.length + 1 < n.length then some (n.drop (ns.length + 1), v) else none

/-- `ADSHelper.xattrs` (core.py 267-278), as a list of pairs (equal keys, of which python keeps the
last, are not merged). -/
def xattrsADS (s : Store) (ns : Str) : List (Str × Bytes) :=
  s.filterMap fun (n, v) => if ns.isPrefixOf n then some (n.drop (ns.length + 1), v) else none

/-- An operation on the attributes of a file. -/
inductive Op where
  | set (ns key : Str) (v : Bytes)
  | del (ns key : Str)

def step (s : Store) : Op → Store
  | .set ns key v => setxattr s ns key v
  | .del ns key => match delxattr s ns key false with
    | .ok s => s
    | .error _ => s

/-- The store of a new file after these operations. -/
def run (ops : List Op) : Store := ops.foldl step []

end Verif.Attrs
