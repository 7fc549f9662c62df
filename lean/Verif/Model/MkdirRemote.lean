import Verif.Model.Primary

/-!
# Making directories on both sides

`LocalPath.mkdir_remote` and `LocalPath.mkdir_cache` (`augpathlib/core.py` lines 1064-1125) with `cache_init` (1042-1062).
-/

namespace Verif.Cache
open Verif.FS

/-- A directory of the remote: its id, the id of its parent, and its name. -/
structure RDir where
  id : Str
  parent : Str
  name : Name
  deriving DecidableEq

/-- What the remote does. -/
structure RemoteSide where
  /-- `_mkdir_child`: the id of the new directory.  Implemented outside of the library (remotes.py 991-992). -/
  make : List RDir → Str → Name → Except PyErr Str
  /-- `remote.meta` -/
  info : Str → Meta
  /-- whether a call that fails on the way has been carried out nevertheless -/
  done : Nat → Bool

/-- Both sides. -/
structure World where
  local_ : Machine CObj
  dirs : List RDir

/-- A program on both sides. -/
abbrev Both (α : Type) := World → Except PyErr α × World

namespace Both

def pure {α : Type} (a : α) : Both α := fun w => (.ok a, w)

def throw {α : Type} (e : PyErr) : Both α := fun w => (.error e, w)

def bind {α β : Type} (p : Both α) (f : α → Both β) : Both β := fun w =>
  match p w with
  | (.ok a, w) => f a w
  | (.error e, w) => (.error e, w)

/-- A program on the local side. -/
def here {α : Type} (p : Prog CObj α) : Both α := fun w =>
  match p w.local_ with
  | (r, m) => (r, { w with local_ := m })

/-- A request to the remote that may fail on the way; `f` gives the reply and the directories after it. -/
def ask {α : Type} (C : PEnv) (R : RemoteSide) (f : List RDir → Except PyErr (α × List RDir)) : Both α := fun w =>
  let m : Machine CObj := ⟨w.local_.disk, w.local_.tick + 1⟩
  match C.F w.local_.tick, f w.dirs with
  | some e, .ok (_, ds) => (.error e, ⟨m, if R.done w.local_.tick then ds else w.dirs⟩)
  | some e, .error _ => (.error e, ⟨m, w.dirs⟩)
  | none, .ok (a, ds) => (.ok a, ⟨m, ds⟩)
  | none, .error e => (.error e, ⟨m, w.dirs⟩)

end Both

/-- `remote._mkdir_child(name)` of the remote directory `i`. -/
def PEnv.mkChild (C : PEnv) (R : RemoteSide) (i : Str) (n : Name) : Both Str :=
  .ask C R fun ds => match R.make ds i n with
    | .ok j => .ok (j, ds ++ [⟨j, i, n⟩])
    | .error e => .error e

/-- `remote.exists()`.  Simplified: only directories are asked about. -/
def PEnv.remoteThere (C : PEnv) (R : RemoteSide) (i : Str) : Both Bool := .ask C R fun ds => .ok (ds.any fun r => r.id = i, ds)

/-- `path.mkdir(exist_ok=True)` of pathlib. -/
def PEnv.mkdirOk (C : PEnv) (q : Path) : Prog CObj Unit :=
  .catch_ (.act C.F fun d => d.create q (.dir none)) fun e =>
    if e = .fileNotFoundError then .throw e
    else .bind (.look C.F fun d => .ok (isDirAt d q)) fun b => if b then .pure () else .throw e

/-- `cache_init(meta)` (core.py 1042-1062): the cache class stores the metadata when the instance is made (caches.py 1033-1041).
Simplified: `self.cache` and `self.cache.meta` are one look at the metadata. -/
def PEnv.cacheInit (C : PEnv) (q : Path) (m : Meta) : Prog CObj Unit :=
  .bind (C.getMeta q) fun o =>
  if o.isSome then .throw .cacheExistsError
  else
    .bind (.look C.F fun d => .ok (there d q)) fun ex =>
    if !ex then .throw .valueError
    else if !metaBool m then .bind (C.getMeta q) fun _ => .throw .noCachedMetadataError
    else .bind (C.metaUpdater q m true) fun _ => .pure ()

/-- One round of the loop (core.py 1111-1117) for the child `n` of the local directory `a`.  Simplified: without `parents` (core.py 1094-1104)
the same is done, as a remote that has just been made has no cache. -/
def PEnv.mkdirBoth (C : PEnv) (R : RemoteSide) (a : Path) (n : Name) : Both Str :=
  .bind (.here (C.getMeta a)) fun m =>
  match m.bind idIn with
  | none => .throw .attributeError
  | some i =>
    .bind (C.mkChild R i n) fun j =>
    .bind (.here (C.mkdirOk (a ++ [n]))) fun _ =>
    .bind (.here (C.cacheInit (a ++ [n]) (R.info j))) fun _ =>
    .pure j

/-- The loop (core.py 1111-1122); the last id is that of the returned remote. -/
def PEnv.mkdirChain (C : PEnv) (R : RemoteSide) (a : Path) (n : Name) : List Name → Both Str
  | [] => C.mkdirBoth R a n
  | n' :: ns => .bind (C.mkdirBoth R a n) fun _ => C.mkdirChain R (a ++ [n]) n' ns

/-- `for parent in self.parents: ... if parent.cache` (core.py 1108-1110): the nearest ancestor of `a ++ ns` with a cache, from `a` up, with
the names that lead from there. -/
def PEnv.nearestCached (C : PEnv) (a : Path) (ns : List Name) : Prog CObj (Option (Path × List Name)) :=
  .bind (C.getMeta a) fun m =>
  if m.isSome then .pure (some (a, ns))
  else if h : a = [] then .pure none
  else C.nearestCached a.dropLast (a.getLast h :: ns)
termination_by a.length
decreasing_by
  have := List.length_pos_iff.2 h
  simp; omega

/-- `mkdir_remote` (core.py 1084-1125): the id of the new remote directory, or nothing. -/
def PEnv.mkdirRemote (C : PEnv) (R : RemoteSide) (q : Path) (n : Name) (parents : Bool) : Both (Option Str) :=
  .bind (.here (C.getMeta (q ++ [n]))) fun m =>
  .bind (match m.bind idIn with
    | some i => C.remoteThere R i
    | none => .pure false) fun ex =>
  if ex then .throw .remotePathExistsError
  else
    .bind (.here (C.getMeta q)) fun pm =>
    if pm.isSome then .bind (C.mkdirBoth R q n) fun j => .pure (some j)
    else if parents then
      .bind (.here (C.nearestCached q [n])) fun found =>
      match found with
      | some (a, x :: ns) => .bind (C.mkdirChain R a x ns) fun j => .pure (some j)
      | _ => .pure none
    else .throw .fileNotFoundError

/-- One round of the loop of `mkdir_cache` (core.py 1076-1082).  The new cache stores the metadata when it is made (caches.py 1033-1042). -/
def PEnv.mkdirCacheOne (C : PEnv) (q : Path) (m : Meta) : Prog CObj Unit :=
  .bind (.look C.F fun d => .ok (there d q)) fun ex =>
  if ex then .pure ()
  else .bind (.act C.F fun d => d.create q (.dir none)) fun _ => C.setMeta q (some m)

/-- `mkdir_cache` (core.py 1064-1082), given the local paths and the metadata of the parents of the remote, the outermost first.
Simplified: the remote answers, and keeping the cache with the remote and the remote with the cache is left out. -/
def PEnv.mkdirCache (C : PEnv) (l : List (Path × Meta)) : Prog CObj Unit := .each (fun x => C.mkdirCacheOne x.1 x.2) l

end Verif.Cache
