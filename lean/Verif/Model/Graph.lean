import Verif.Model.Basic

/-!
# How caches and remotes know each other

The attributes by which the objects of the library point at each other: `_remote`, `_id` and `_bootstrapping_id` of a
cache (`augpathlib/caches.py` lines 632-674, 743-757 and 1033-1050), `_id` and `_c_cache` of a remote
(`augpathlib/remotes.py` lines 233-341), and the places that make objects and set these attributes.  Objects are numbers
that are given out in order; an attribute that is missing is `none`.

Simplified: helper caches, which have no remote of their own and ask the cache that they were made from
(caches.py 636-637 and 679-684), are left out; paths are absolute; ids are texts; there is one remote class, so one
`_cache_anchor`; of the stored metadata only the id is kept.
-/

namespace Verif.Graph

/-- A location. -/
abbrev Loc := List Str

/-- A cache object. -/
structure CacheO where
  path : Loc
  /-- `_id` -/
  id : Option Str
  /-- `_bootstrapping_id` -/
  boot : Option Str
  /-- `_remote` -/
  remote : Option Nat
  deriving DecidableEq, Repr

/-- A remote object. -/
structure RemoteO where
  /-- `_id` -/
  id : Str
  /-- `_c_cache` -/
  cache : Option Nat
  deriving DecidableEq, Repr

/-- All objects, whether the remote class has a `_cache_anchor`, and the id in the metadata that is stored at each location. -/
structure Heap where
  caches : List CacheO
  remotes : List RemoteO
  anchored : Bool
  stored : Loc → Option Str

/-- No objects. -/
def Heap.empty : Heap := ⟨[], [], false, fun _ => none⟩

/-- Change one cache. -/
def Heap.onCache (h : Heap) (c : Nat) (f : CacheO → CacheO) : Heap := { h with caches := h.caches.modify c f }

/-- Change one remote. -/
def Heap.onRemote (h : Heap) (r : Nat) (f : RemoteO → RemoteO) : Heap := { h with remotes := h.remotes.modify r f }

/-- Store an id at a location, or remove it. -/
def Heap.store (h : Heap) (p : Loc) (i : Option Str) : Heap := { h with stored := fun q => if q = p then i else h.stored q }

/-- A new cache object (`_from_parsed_parts`, caches.py 306; `__new__` 96-124). -/
def Heap.addCache (h : Heap) (c : CacheO) : Nat × Heap := (h.caches.length, { h with caches := h.caches ++ [c] })

/-- `local.cache` (core.py 1014-1035) when `_cache` is not set, with `CachePath.__init__` without metadata (caches.py
1043-1050): there is no cache without stored metadata. -/
def cacheAt (h : Heap) (p : Loc) : Option Nat × Heap :=
  match h.stored p with
  | none => (none, h)
  | some _ => match h.addCache ⟨p, none, none, none⟩ with
    | (c, h) => (some c, h)

/-- `cache.id` (caches.py 743-757). -/
def cacheId (h : Heap) (c : Nat) : Option Str × Heap :=
  match h.caches[c]? with
  | none => (none, h)
  | some o => match o.id with
    | some i => (some i, h)
    | none => match h.stored o.path with
      | some i => (some i, h.onCache c fun o => { o with id := some i })
      | none => match o.boot with
        | some i => (some i, h.onCache c fun o => { o with boot := none })
        | none => (none, h)

/-- `RemotePath.__init__` (remotes.py 233-256).  Without a `_cache_anchor` the property `cache` is a new `NullCache`
(remotes.py 266-289), and it is that object whose `_remote` is set. -/
def newRemote (h : Heap) (i : Str) (cache : Option Nat) : Nat × Heap :=
  let r := h.remotes.length
  let h : Heap := { h with remotes := h.remotes ++ [⟨i, cache⟩] }
  match cache with
  | some c => (r, if h.anchored then h.onCache c fun o => { o with remote := some r } else h)
  | none => (r, h)

/-- `cache.remote` (caches.py 632-674).  `noAnchor`: `self.anchor` is `None`; `configured`: there is a remote class or a
factory for it. -/
def cacheRemote (noAnchor configured : Bool) (h : Heap) (c : Nat) : Option Nat × Heap :=
  match h.caches[c]? with
  | none => (none, h)
  | some o => match o.remote with
    | some r => (some r, h)
    | none => match cacheId h c with
      | (none, h) => (none, h)
      | (some i, h) =>
        let h := if noAnchor then h.onCache c fun o => { o with boot := some i } else h
        if configured then
          match newRemote h i (some c) with
          | (r, h) => (some r, h.onCache c fun o => { o with remote := some r })
        else (none, h)

/-- `remote.cache` (remotes.py 266-289 and 306-313): `none` for a `NullCache`, `some none` for `None`. -/
def remoteCache (h : Heap) (r : Nat) : Option (Option Nat) :=
  if h.anchored then
    match h.remotes[r]? with
    | some o => some o.cache
    | none => some none
  else none

/-- `remote._cache = cache` (remotes.py 315-326). -/
def setCache (h : Heap) (r c : Nat) : Heap := h.onRemote r fun o => { o with cache := some c }

/-- What became of `_meta_updater` in `_cache_setter`: it was not called, it went well, or it failed and left some id at the
location. -/
inductive Updated where
  | skipped
  | done
  | failed (left : Option Str)
  deriving DecidableEq

/-- `remote._cache_setter(cache, update_meta)` (remotes.py 328-341).  The metadata that is stored has the id of the remote
(caches.py 1361-1389), and the cache forgets the id that it had (1344-1345). -/
def cacheSetter (h : Heap) (r c : Nat) (u : Updated) : Except PyErr Unit × Heap :=
  match h.remotes[r]?, h.caches[c]? with
  | some ro, some co =>
    let h := h.onCache c fun o => { o with remote := some r }
    let h := setCache h r c
    match u with
    | .skipped => (.ok (), h)
    | .done => (.ok (), (h.store co.path (some ro.id)).onCache c fun o => { o with id := none })
    | .failed left => (.error .foreign, (h.store co.path left).onRemote r fun o => { o with cache := none })
  | _, _ => (.ok (), h)

/-- `_make_child` (caches.py 278-347): the child is a new object, and the remote gets it as its cache. -/
def makeChild (h : Heap) (p : Loc) (r : Nat) (u : Updated) : Except PyErr Nat × Heap :=
  match h.addCache ⟨p, none, none, none⟩ with
  | (c, h) => match cacheSetter h r c u with
    | (.ok _, h) => (.ok c, h)
    | (.error e, h) => (.error e, h)

/-- `cache._meta_setter` of a `PrimaryCache` (caches.py 1314-1345) with metadata that has an id.  `there`: something exists
at the location that is not a symlink. -/
def metaSetter (h : Heap) (c : Nat) (there : Bool) (i : Str) : Heap :=
  match h.caches[c]? with
  | none => h
  | some o =>
    let h := if there || o.remote.isSome then h else h.onCache c fun o => { o with boot := some i }
    (h.store o.path (some i)).onCache c fun o => { o with id := none }

/-- One step of `mkdir_cache` (core.py 1079-1082): a cache for a directory, with the remote of the directory, and another
remote with the same id for that cache. -/
def dirCache (h : Heap) (p : Loc) (parent : Nat) : Heap :=
  match h.remotes[parent]? with
  | none => h
  | some ro => match h.addCache ⟨p, none, none, some parent⟩ with
    | (c, h) => (newRemote (metaSetter h c true ro.id) ro.id (some c)).2

/-- The refusal in `move` (caches.py 932-984) that `remote.update_cache` asks its cache for (remotes.py 396): a cache for
the new location is made from the remote, and the mapping from the remote to its cache is restored. -/
def moveRefused (h : Heap) (r : Nat) (p : Loc) (u : Updated) : Heap :=
  match h.remotes[r]? with
  | some ⟨_, some c⟩ => match makeChild h p r u with
    | (.ok _, h) => setCache h r c
    | (.error _, h) => h
  | _ => h

/-- `mkdir_remote` with a parent that has a cache (core.py 1093-1104): a remote `i` is made on the other side; its cache is the cache of
the directory, unless it has one.  A `NullCache` is not `None`, so that nothing is done then. -/
def mkdirRemote (h : Heap) (p : Loc) (i : Str) : Heap :=
  match newRemote h i none with
  | (r, h) => match remoteCache h r with
    | some none =>
      let (c, h) := h.addCache ⟨p, none, none, none⟩
      let h := metaSetter h c true i
      match cacheAt h p with
      | (some c', h) => setCache h r c'
      | (none, h) => h
    | _ => h

/-! ## Histories -/

/-- What may happen to the objects. -/
inductive Op where
  /-- `local.cache` -/
  | open_ (p : Loc)
  /-- `cache.id` -/
  | askId (c : Nat)
  /-- `cache.remote` -/
  | askRemote (noAnchor configured : Bool) (c : Nat)
  /-- a remote without a cache, as remotes list their children -/
  | remote (i : Str)
  | makeChild (p : Loc) (r : Nat) (u : Updated)
  | setMeta (c : Nat) (there : Bool) (i : Str)
  | moveRefused (r : Nat) (p : Loc) (u : Updated)
  | dirCache (p : Loc) (parent : Nat)
  | mkdirRemote (p : Loc) (i : Str)
  /-- `_cache_setter` with a cache that may be in use -/
  | setter (r c : Nat) (u : Updated)
  /-- `dropAnchor`, `anchorTo` (remotes.py 78-196) and `weighAnchor` (198-214) -/
  | anchor (b : Bool)
  /-- something else changes the stored metadata -/
  | stored (p : Loc) (i : Option Str)
  deriving DecidableEq

/-- One step. -/
def step (h : Heap) : Op → Heap
  | .open_ p => (cacheAt h p).2
  | .askId c => (cacheId h c).2
  | .askRemote a b c => (cacheRemote a b h c).2
  | .remote i => (newRemote h i none).2
  | .makeChild p r u => (makeChild h p r u).2
  | .setMeta c t i => metaSetter h c t i
  | .moveRefused r p u => moveRefused h r p u
  | .dirCache p r => dirCache h p r
  | .mkdirRemote p i => mkdirRemote h p i
  | .setter r c u => (cacheSetter h r c u).2
  | .anchor b => { h with anchored := b }
  | .stored p i => h.store p i

/-- A history. -/
def run (h : Heap) (l : List Op) : Heap := l.foldl step h

end Verif.Graph
