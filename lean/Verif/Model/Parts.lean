import Verif.Model.Basic

/-!
# The parts of a remote object

`augpathlib/remotes.py` lines 465-535.  A remote object is seen as itself and its ancestors, nearest first, and what the parent of the
topmost one is: that object itself (as for ssh remotes) or `None`.  Comparison is by id (`RemotePath.__eq__`); `None` is different from
every remote.
-/

namespace Verif.Parts

/-- Identifier and name of a remote object. -/
structure Node where
  id : Str
  name : Str
  deriving DecidableEq, Repr

/-- A remote object with its ancestors, nearest first; `looped`: the parent of the topmost object is itself. -/
structure Obj where
  self : Node
  ups : List Node
  looped : Bool

/-- `parent` -/
def Obj.parent (o : Obj) : Option Obj :=
  match o.ups with
  | [] => if o.looped then some o else none
  | p :: rest => some ⟨p, rest, o.looped⟩

/-- The loop of `parents` (remotes.py 529-535): it ends at an object whose parent is not different from it. -/
def chain (p : Node) : List Node → List Node
  | [] => [p]
  | q :: rest => if q.id = p.id then [p] else p :: chain q rest

/-- `parents` (remotes.py 526-535): a topmost object that is its own parent yields itself. -/
def Obj.parents (o : Obj) : List Node :=
  match o.ups with
  | [] => if o.looped then [o.self] else []
  | p :: rest => chain p rest

/-- What `_parts_relative_to` uses of the cached parent: what `id` gives and the names of its ancestors, nearest first (`None` for an
ancestor that is `None`). -/
structure CacheParent where
  id : Except PyErr (Option Str)
  names : List (Option Str)

/-- The loop over `cache_parent.parents` (remotes.py 474-481). -/
def cachedLoop (stop : Str) : List (Option Str) → List Str
  | [] => []
  | none :: rest => cachedLoop stop rest
  | some n :: rest => if n = stop then [n] else n :: cachedLoop stop rest

/-- The loop over `parent.parents` (remotes.py 484-496): the names, and whether `'file-deleted'` is
recorded because the loop ran to its end. -/
def plainLoop (remote : Str) : List Node → List Str × Bool
  | [] => ([], true)
  | p :: rest =>
    if p.id = remote then ([], false)
    else
      let (ns, e) := plainLoop remote rest
      (p.name :: ns, e)

/-- The names between the parent and the remote (remotes.py 474-496). -/
def namesUp (parent : Obj) (remote : Node) : Option CacheParent → Except PyErr (List Str × Bool)
  | none => .ok (plainLoop remote.id parent.parents)
  | some c => match c.id with
    | .error e => .error e
    | .ok i =>
      if i = some parent.self.id then .ok (cachedLoop remote.name c.names, false)
      else .ok (plainLoop remote.id parent.parents)

/-- `_parts_relative_to` (remotes.py 465-504): the parts, and whether `'file-deleted'` is recorded. -/
def partsRelativeTo (o : Obj) (remote : Node) (cacheParent : Option CacheParent) : Except PyErr (List Str × Bool) :=
  match o.parent with
  | none => .error .attributeError
  | some parent =>
    if parent.self.id ≠ remote.id then
      match namesUp parent remote cacheParent with
      | .error e => .error e
      | .ok (names, e) => .ok ((parent.self.name :: names).reverse ++ [o.self.name], e)
    else if o.self.id = parent.self.id then .ok ([[]], false)
    else .ok ([o.self.name], false)

/-- What `remote.cache` is (remotes.py 266-289): a `NullCache`, if the class of remotes has no anchor; `None`; or a cache, with its
parent. -/
inductive RCache where
  | null
  | absent
  | known (parent : CacheParent)

/-- `parts` (remotes.py 506-519) on an object without remembered parts.  A `NullCache` is truthy, and has no attribute `parent`. -/
def parts (o : Obj) (anchor : Node) (c : RCache) : Except PyErr (List Str × Bool) :=
  if o.self.id = anchor.id then .ok ([], false)
  else match c with
    | .null => .error .attributeError
    | .absent => partsRelativeTo o anchor none
    | .known p => partsRelativeTo o anchor (some p)

/-- `parts` (remotes.py 506-519) with the attribute `_parts`: what is given, and the attribute afterwards. -/
def partsKept (kept : Option (List Str)) (o : Obj) (anchor : Node) (c : RCache) : Except PyErr (List Str) × Option (List Str) :=
  if o.self.id = anchor.id then (.ok [], kept)
  else match kept with
    | some p => (.ok p, kept)
    | none => match parts o anchor c with
      | .error e => (.error e, none)
      | .ok (p, _) => (.ok p, some p)

end Verif.Parts
