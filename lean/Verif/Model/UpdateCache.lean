import Verif.Model.Primary

/-!
# `RemotePath.update_cache` (`augpathlib/remotes.py` lines 350-405)

For a remote class that is anchored, so that `remote.cache` is the cache or `None` (remotes.py 267-289).  The remote answers: its name,
the id of its parent, its metadata and where it belongs below the anchor do not change meanwhile.  The anchor is an instance of the class
of the cache, as it is before python 3.12; from 3.12 on `Model/FreshClasses.lean` says when it is not, and then the move is refused.
-/

namespace Verif.Cache
open Verif.FS

/-- What a remote says about itself. -/
structure RemoteView where
  name : Name
  /-- `self.parent_id` (remotes.py 343-348) -/
  parentId : PyVal
  info : Meta
  /-- the path of `self.anchor / remote` (caches.py 943) -/
  dest : Path

/-- `cache.parent.id`: the id in the metadata of the directory (caches.py 743-757) -/
def PEnv.parentId (C : PEnv) (q : Path) : Prog CObj PyVal :=
  .bind (C.getMeta q.dropLast) fun m => .pure (match m with | some m => m .id | none => .none)

/-- A cache divided by a remote (caches.py 233-253, 323-347): `_cache_setter` updates the metadata of the cache that is made at `q`, so
that whatever is there gets the metadata of the remote (remotes.py 328-341).  An `AttributeError` becomes another one (caches.py 250-251). -/
def PEnv.makeChild (C : PEnv) (q : Path) (info : Meta) : Prog CObj Path :=
  .catch_ (.bind (C.metaUpdater q info true) fun _ => .pure q) fun e =>
    if e = .attributeError then .throw .augPathlibError else .throw e

/-- `self.anchor / remote` (caches.py 943) -/
def PEnv.home (C : PEnv) (r : RemoteView) : Prog CObj Path := C.makeChild r.dest r.info

/-- `cache.move(remote=self)` (caches.py 932-1019): the target is where the remote belongs. -/
def PEnv.moveHome (C : PEnv) (parents : Prog CObj Unit) (r : RemoteView) (q : Path) : Prog CObj Path :=
  .bind (C.home r) fun t => C.move parents q t none true false

/-- `update_cache` (remotes.py 357-405); `own` is `self.cache`, `given` is the argument.  `_on_cache_move_error` raises the error again
(remotes.py 353-355). -/
def PEnv.updateCache (C : PEnv) (parents : Prog CObj Unit) (r : RemoteView) (own given : Option Path) (fetch : Bool) : Prog CObj Bool :=
  if given.isSome && own.isSome then .throw .typeError
  else match given.or own with
    | none => .throw .attributeError
    | some q =>
      .bind (C.parentId q) fun i =>
      if own.isNone && q.getLast? ≠ some r.name then .throw .valueError
      else if own.isNone && !pyEq r.parentId i then .throw .valueError
      else
        .bind (C.metaUpdater q r.info fetch) fun different =>
        .bind (if q.getLast? ≠ some r.name || !pyEq r.parentId i then
            .bind (C.moveHome parents r q) fun _ => .pure ()
          else .pure ()) fun _ =>
        .pure different

end Verif.Cache
