import Verif.Model.Str
import Verif.Model.Symlink

/-!
# The path of a child of a cache from python 3.12 on

`_make_child` (`augpathlib/caches.py` lines 278-310) parses what it is given and joins it to the path of the cache with its own copy of
`join_parsed_parts`, which python 3.12 has no longer.  `__truediv__` (lines 233-253) calls it with the parts of a remote relative to another one.

Simplified: the parts of the path of the cache are parsed already (`parent` at line 240 has done it).  The remote that is told about the child is left
out (`Model/Graph` has it).
-/

namespace Verif.MakeChild

/-- A parsed path: `_drv`, `_root` and `_tail`, the components after both. -/
structure Parsed where
  drv : Str
  root : Str
  tail : List Str
  deriving DecidableEq, Repr

/-- What depends on the system: the separator, another one that is taken for it, and `splitroot` of `os.path` (drive, root and rest). -/
structure Flavour where
  sep : Char
  alt : Option Char
  split : Str → Str × Str × Str

/-- `_parse_path` of python 3.12.  The root of a network share that has none is left to `split`. -/
def Flavour.parse (F : Flavour) (s : Str) : Parsed :=
  let s := match F.alt with
    | none => s
    | some c => replaceC c F.sep s
  let (drv, root, rel) := F.split s
  ⟨drv, root, (splitC F.sep rel).filter fun w => w ≠ [] ∧ w ≠ ['.']⟩

/-- `join_parsed_parts` (caches.py 281-296).  `self` is a path, which has no method `casefold`. -/
def joinParsed (a b : Parsed) : Except PyErr Parsed :=
  if b.root ≠ [] then
    if b.drv = [] ∧ a.drv ≠ [] then .ok ⟨a.drv, b.root, (a.drv ++ b.root) :: b.tail.drop 1⟩ else .ok b
  else if b.drv ≠ [] then
    if b.drv = a.drv then .ok ⟨a.drv, a.root, a.tail ++ b.tail.drop 1⟩ else .error .attributeError
  else .ok ⟨a.drv, a.root, a.tail ++ b.tail⟩

/-- `_format_parsed_parts('', '', args)` (caches.py 300): a list is put before the tuple if the first part has a drive, which python refuses. -/
def Flavour.format (F : Flavour) (args : List Str) : Except PyErr Str :=
  match args with
  | [] => .ok []
  | first :: rest => if (F.split first).1 ≠ [] then .error .typeError else .ok (joinC F.sep (first :: rest))

/-- `_make_child` (caches.py 278-310): `_parse_path` wants exactly one argument. -/
def Flavour.makeChild (F : Flavour) (base : Parsed) : List Str → Except PyErr Parsed
  | [] => .error .typeError
  | [s] => joinParsed base (F.parse s)
  | args => match F.format args with
    | .error e => .error e
    | .ok s => joinParsed base (F.parse s)

/-- `cache / remote` (caches.py 233-253), for the parts of the remote. -/
def Flavour.child (F : Flavour) (base : Parsed) (args : List Str) : Except PyErr Parsed :=
  match F.makeChild base args with
  | .error .attributeError => .error .augPathlibError
  | r => r

/-- `posixpath.splitroot`, with no other separator. -/
def posix : Flavour where
  sep := '/'
  alt := none
  split
    | '/' :: '/' :: '/' :: r => ([], ['/'], '/' :: '/' :: r)
    | '/' :: '/' :: r => ([], ['/', '/'], r)
    | '/' :: r => ([], ['/'], r)
    | s => ([], [], s)

end Verif.MakeChild
