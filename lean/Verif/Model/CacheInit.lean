import Verif.Model.Mirror
import Verif.Model.MkdirRemote

/-!
# Making the cache of a remote object together with those of its parents

`RemotePath.cache_init(parents=True)` (`augpathlib/remotes.py` lines 291-305) with `LocalPath.cache_init` (`augpathlib/core.py` lines
1042-1062, in `Model/MkdirRemote`) on the disk of `Model/Primary`.  Simplified: the parents of a remote object are found by its path
below the anchor, and the object at the anchor has no parent, so that an error is raised as it is there (remote classes are free to answer
what they like).
-/

namespace Verif.Cache
open Verif.FS Verif.Sweep Verif.Yields

/-- `remote.cache_init(parents=parents)` for an anchor at `a`, given the remote object at each path below the anchor and the path of
this one, the last name first (remotes.py 291-305). -/
def PEnv.initUp (C : PEnv) (S : Sent) (a : Path) (kid : Rel → Child) (parents : Bool) : List Name → Prog CObj Path
  | [] => C.childInit S a (kid [])
  | n :: r =>
    .catch_ (C.childInit S a (kid (n :: r).reverse)) fun e =>
      if e = .fileNotFoundError ∧ parents = true then
        .bind (C.initUp S a kid parents r) fun q =>
        .bind ((C.of S (kid r.reverse)).cacheInit q (kid r.reverse).info) fun _ =>
        C.childInit S a (kid (n :: r).reverse)
      else .throw e

end Verif.Cache
