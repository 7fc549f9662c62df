import Verif.Model.Stored
import Verif.Model.UpdateCache
import Verif.Model.Validate
import Verif.Model.MkdirRemote

/-!
# More functions down to the attributes and the texts of links

The functions of `Model/UpdateCache.lean`, `Model/Validate.lean` and those of `Model/MkdirRemote.lean` that work on the local side, again,
on the disk of `Model/Stored.lean`, with the same simplifications.
-/

namespace Verif.Cache
open Verif.FS

namespace XEnv

/-- `cache.parent.id` (caches.py 743-757) -/
def parentId (C : XEnv) (q : Path) : Prog XObj PyVal :=
  .bind (C.getMeta q.dropLast) fun m => .pure (match m with | some m => m .id | none => .none)

/-- `self.anchor / remote` (caches.py 233-253, 943, remotes.py 328-341) -/
def home (C : XEnv) (r : RemoteView) : Prog XObj Path :=
  .catch_ (.bind (C.metaUpdater r.dest r.info true) fun _ => .pure r.dest) fun e =>
    if e = .attributeError then .throw .augPathlibError else .throw e

/-- `cache.move(remote=self)` (caches.py 932-1019) -/
def moveHome (C : XEnv) (parents : Prog XObj Unit) (r : RemoteView) (q : Path) : Prog XObj Path :=
  .bind (C.home r) fun t => C.move parents q t none true false

/-- `update_cache` (remotes.py 357-405) -/
def updateCache (C : XEnv) (parents : Prog XObj Unit) (r : RemoteView) (own given : Option Path) (fetch : Bool) : Prog XObj Bool :=
  if given.isSome && own.isSome then .throw .typeError
  else match given.or own with
    | none => .throw .attributeError
    | some q =>
      .bind (C.parentId q) fun i =>
      if own.isNone && q.getLast? ≠ some r.name then .throw .valueError
      else if own.isNone && !pyEq r.parentId i then .throw .valueError
      else
        .bind (C.metaUpdater q r.info fetch) fun different =>
        .bind (if q.getLast? ≠ some r.name || !pyEq r.parentId i then
            .bind (C.moveHome parents r q) fun _ => .pure ()
          else .pure ()) fun _ =>
        .pure different

/-- `validate_file` (caches.py 598-629) -/
def validate (C : XEnv) (etag : PyVal → Bytes → Except PyErr (Bytes × Int)) (q : Path) : Prog XObj Unit :=
  .bind (C.getMeta q) fun m =>
  match m with
  | none => .throw .attributeError
  | some m =>
    if (m .etag).truthy then
      .bind (.look C.F fun d => etagOr etag (m .chunksize) (Stored.dataAt d q)) fun _ =>
      match unpackTwo (m .etag) with
      | .error e => .throw e
      | .ok _ => .pure ()
    else if (m .checksum).truthy then
      .bind (C.getMeta q) fun now =>
      match now with
      | none => .throw .attributeError
      | some now =>
        match C.cypher (now .checksum_cypher) with
        | .error e => .throw e
        | .ok h =>
          .bind (.look C.F fun d => .ok (sumVal h (Stored.dataAt d q))) fun lc =>
          .bind (C.getMeta q) fun now =>
          match now with
          | none => .throw .attributeError
          | some now => if now .checksum = lc then .pure () else .throw (noteErr m lc (now .checksum))
    else if m .size = .none then .pure ()
    else
      .bind (.look C.F fun d => .ok (sizeVal (Stored.sizeAt d q))) fun ls =>
      .bind (C.getMeta q) fun now =>
      match now with
      | none => .throw .attributeError
      | some now => if now .size = ls then .pure () else .throw .sizeError

/-- `_bootstrap_data(True)` (caches.py 572-581) -/
def bootstrapData (C : XEnv) (etag : PyVal → Bytes → Except PyErr (Bytes × Int)) (q : Path) (sizeKnown : Bool) : Prog XObj Unit :=
  .bind (if sizeKnown then .pure () else C.refreshX) fun _ =>
  .bind (C.setData q) fun _ =>
  C.validate etag q

/-- `cache_init(meta)` (core.py 1042-1062) -/
def cacheInit (C : XEnv) (q : Path) (m : Meta) : Prog XObj Unit :=
  .bind (C.getMeta q) fun o =>
  if o.isSome then .throw .cacheExistsError
  else
    .bind (.look C.F fun d => .ok (Stored.there d q)) fun ex =>
    if !ex then .throw .valueError
    else if !metaBool m then .bind (C.getMeta q) fun _ => .throw .noCachedMetadataError
    else .bind (C.metaUpdater q m true) fun _ => .pure ()

/-- One round of the loop of `mkdir_cache` (core.py 1076-1082) -/
def mkdirCacheOne (C : XEnv) (q : Path) (m : Meta) : Prog XObj Unit :=
  .bind (.look C.F fun d => .ok (Stored.there d q)) fun ex =>
  if ex then .pure ()
  else .bind (.act C.F fun d => d.create q (.dir [])) fun _ => C.setMeta q (some m)

/-- `mkdir_cache` (core.py 1064-1082) -/
def mkdirCache (C : XEnv) (l : List (Path × Meta)) : Prog XObj Unit := .each (fun x => C.mkdirCacheOne x.1 x.2) l

end XEnv

end Verif.Cache
