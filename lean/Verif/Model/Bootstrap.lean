import Verif.Model.Shape

/-!
# Bootstrapping a cache (`augpathlib/caches.py` lines 401-570)

`CachePath._bootstrap`, `_bootstrap_recursive` and `_bootstrap_prepare_filesystem` of one object and the
tree of remote objects below it.  The lists `only`, `skip` and `sparse` hold ids; python passes `sparse`
on as a list or as `True`, and tests its truth value.

Simplified: there are no local directories that the remote does not have (the loop that refreshes them,
caches.py 477-493, is in `Model/Sweep`); objects are yielded in the order of the remote tree (the code sorts them
by the length of their paths unless sparse); an object is represented by its id, so an old cache that is
yielded for a moved file (caches.py 510-523) is not told apart from a new one (that and the order are in `Model/Yields`).
-/

namespace Verif.Bootstrap

abbrev Id := Str

/-- A remote object: its id, what it is, whether `_sparse_include()` wants it, and what
is in it. -/
inductive Obj where
  | mk (id : Id) (shape : Shape) (wanted : Bool) (kids : List Obj)

def Obj.id : Obj → Id
  | .mk i _ _ _ => i

def Obj.shape : Obj → Shape
  | .mk _ s _ _ => s

/-- `remote.is_dir()` -/
def Obj.dir (o : Obj) : Bool := o.shape = .dir

/-- `remote.is_file()` -/
def Obj.file (o : Obj) : Bool := o.shape = .file

def Obj.wanted : Obj → Bool
  | .mk _ _ i _ => i

def Obj.kids : Obj → List Obj
  | .mk _ _ _ k => k

/-- `remote._rchildren()`: everything below. -/
def Obj.descend : Obj → List Obj
  | .mk _ _ _ kids => go kids
where
  go : List Obj → List Obj
    | [] => []
    | k :: ks => k :: k.descend ++ go ks

/-- The argument `sparse`: a list of ids or `True`. -/
inductive Sparse where
  | listed (ids : List Id)
  | all

/-- `bool(sparse)` -/
def Sparse.truthy : Sparse → Bool
  | .listed ids => !ids.isEmpty
  | .all => true

/-- `id in sparse`; for `True` it is a `TypeError`, see `bootstrap`. -/
def Sparse.has (i : Id) : Sparse → Bool
  | .listed ids => ids.contains i
  | .all => false

/-- Whether `id in sparse` is a question that can be asked. -/
def Sparse.isList : Sparse → Bool
  | .listed _ => true
  | .all => false

/-- How an object passes the filter (caches.py 416-437): `none` if it is skipped, otherwise the value of
`sparse` from there on and whether `_is_sparse_root` was set. -/
def admit (isRoot : Bool) (i : Id) (only skip : List Id) (sparse : Sparse) : Option (Sparse × Bool) :=
  if !only.isEmpty || !skip.isEmpty || sparse.truthy then
    if isRoot then some (sparse, false)
    else if skip.contains i then none
    else if !only.isEmpty && !only.contains i then none
    else if sparse.truthy && sparse.has i then some (.all, true)
    else some (sparse, false)
  else some (sparse, false)

/-- The outcome of a bootstrap. -/
structure Out where
  /-- the ids of the caches that are yielded -/
  yielded : List Id
  /-- whether the directory of the object itself is created -/
  made : Bool
  /-- whether the object is marked as the root of a sparse tree -/
  marked : Bool
  deriving DecidableEq

/-- What is there before: whether the path exists and the id in its metadata. -/
structure Here where
  exists_ : Bool
  id : Option Id

/-- `_bootstrap_prepare_filesystem` (caches.py 535-570) without the data: whether a directory is created.  An object that is neither a
directory nor a file is refused. -/
def makes (o : Obj) (here : Here) (sparse : Sparse) : Except PyErr Bool :=
  if o.dir then .ok (!sparse.truthy && !here.exists_)
  else if o.file then .ok false
  else .error .baseException

/-- The objects that `_bootstrap_recursive` goes through (caches.py 463-533); `only` and `skip` are
arguments of it, but are not used. -/
def recursive (o : Obj) (_only _skip : List Id) (sparse : Sparse) : List Id :=
  (if sparse.truthy then o.descend.filter fun c => c.dir || (c.file && c.wanted) else o.descend).map Obj.id

/-- `_bootstrap` (caches.py 401-461) of an object with an id.  An object that is not the root and passes the filter is looked for in
`sparse` (caches.py 427), which raises if that is `True`. -/
def bootstrap (isRoot : Bool) (o : Obj) (here : Here) (only skip : List Id) (sparse : Sparse) (rec : Bool) :
    Except PyErr Out :=
  match admit isRoot o.id only skip sparse with
  | none => .ok ⟨[], false, false⟩
  | some (sparse', marked) =>
    if !isRoot && !sparse.isList then .error .typeError
    else if here.id ≠ none && !rec then .error .bootstrappingError
    else
      match (if here.exists_ && here.id == some o.id then .ok false else makes o here sparse') with
      | .error e => .error e
      | .ok made => .ok ⟨(if rec then recursive o only skip sparse' else []) ++ [o.id], made, marked⟩

end Verif.Bootstrap
