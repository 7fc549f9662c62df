import Verif.Model.UpdateCache
import Verif.Model.Yields

/-!
# What a recursive bootstrap makes on disk

The loop of `_bootstrap_recursive` (`augpathlib/caches.py` lines 495-533) with `RemotePath.cache_init` (`augpathlib/remotes.py` lines
291-293) and `_cache_setter` (lines 328-341), on a disk with directories, files and symlinks; `Model/Yields` has the same loop with the
metadata alone.  Simplified: every remote object is a directory or a file (the cache raises for others).
-/

namespace Verif.Cache
open Verif.FS Verif.Sweep Verif.Yields

/-- What the remote objects answer: the data, the checksum, the exception of `cache_key`, and what `refresh` does. -/
structure Sent where
  chunks : Child → List (Except PyErr Bytes)
  sum : Child → Except PyErr Bytes
  key : Child → Option PyErr
  refresh : Child → Prog CObj Unit

/-- What a run depends on, for the cache of one remote object. -/
def PEnv.of (C : PEnv) (S : Sent) (c : Child) : PEnv :=
  { C with remoteIsDir := c.dir, chunks := S.chunks c, remoteSum := S.sum c, cacheKey := S.key c, refresh := S.refresh c }

/-- `child.cache_init()` for an anchor at `a` (remotes.py 291-293): `_cache_anchor / child` makes a cache, and `_cache_setter` updates
its metadata (remotes.py 328-341). -/
def PEnv.childInit (C : PEnv) (S : Sent) (a : Path) (c : Child) : Prog CObj Path :=
  (C.of S c).makeChild (a ++ c.path) c.info

/-- One pass of the loop (caches.py 506-533): the path of the cache that is yielded.  `files` are the local files and symlinks with
their ids. -/
def PEnv.strapOne (C : PEnv) (S : Sent) (a : Path) (files : List (Rel × Option Id)) (c : Child) : Prog CObj Path :=
  match c.link with
  | some p => .pure (a ++ p)
  | none =>
    if c.file then
      match lookup files c.id with
      | some p =>
        .bind (C.getMeta (a ++ p)) fun cmeta =>
        match cmeta with
        | none => .throw .attributeError
        | some m =>
          match updateMeta (some m) (some c.info) with
          | .error e => .throw e
          | .ok r => if r.1 then C.childInit S a c else .pure (a ++ p)
      | none => C.childInit S a c
    else C.childInit S a c

/-- The loop. -/
def PEnv.strapLoop (C : PEnv) (S : Sent) (a : Path) (files : List (Rel × Option Id)) : List Child → Prog CObj (List Path)
  | [] => .pure []
  | c :: cs =>
    .bind (C.strapOne S a files c) fun p =>
    .bind (C.strapLoop S a files cs) fun ps => .pure (p :: ps)

/-- `_bootstrap_recursive` after the old directories were cleared away. -/
def PEnv.strap (C : PEnv) (S : Sent) (a : Path) (files : List (Rel × Option Id)) (sparse : Bool) (rcs : List Child) : Prog CObj (List Path) :=
  C.strapLoop S a files (gen sparse rcs)

end Verif.Cache
