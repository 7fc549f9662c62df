import Verif.Model.Primary

/-!
# `validate_file` and `_bootstrap_data` (`augpathlib/caches.py` lines 572-629)

For a primary cache.  Formatting log messages, which also names the remote, does not raise.
-/

namespace Verif.Cache
open Verif.FS

/-- `local.etag(chunksize)` (core.py 1517-1530), unpacked (caches.py 601): for something that is not a file it is `None`. -/
def etagOr (etag : PyVal → Bytes → Except PyErr (Bytes × Int)) (chunksize : PyVal) : Except PyErr Bytes → Except PyErr (Bytes × Int)
  | .ok b => etag chunksize b
  | .error _ => .error .typeError

/-- `a, b = value` -/
def unpackTwo : PyVal → Except PyErr Unit
  | .etag _ _ => .ok ()
  | .str s => if s.length = 2 then .ok () else .error .valueError
  | .bytes b => if b.length = 2 then .ok () else .error .valueError
  | .strs l => if l.length = 2 then .ok () else .error .valueError
  | .none | .int _ | .dt _ => .error .typeError

/-- `local.checksum(cypher)` (core.py 796-823): `None` for something that is not a file. -/
def sumVal (h : Bytes → Bytes) : Except PyErr Bytes → PyVal
  | .ok b => .bytes (h b)
  | .error _ => .none

/-- `local.meta.size` (core.py 1226-1231 and 1283): `None` for what does not exist, a broken symlink included. -/
def sizeVal : Except PyErr Int → PyVal
  | .ok n => .int n
  | .error _ => .none

/-- What noting a wrong checksum raises (caches.py 613-618): both sides need a method `hex`, the errors have to be a tuple, and then
`self.meta` is assigned to, which for a primary cache has no setter (caches.py 1282). -/
def noteErr (m : Meta) (lc cc : PyVal) : PyErr :=
  match lc, cc, m .errors with
  | .bytes _, .bytes _, .strs _ => .attributeError
  | .bytes _, .bytes _, _ => .typeError
  | _, _, _ => .attributeError

/-- `validate_file` (caches.py 598-629); `etag` is `LocalPath.etag` with a chunk size (core.py 1517-1530). -/
def PEnv.validate (C : PEnv) (etag : PyVal → Bytes → Except PyErr (Bytes × Int)) (q : Path) : Prog CObj Unit :=
  .bind (C.getMeta q) fun m =>
  match m with
  | none => .throw .attributeError
  | some m =>
    if (m .etag).truthy then
      .bind (.look C.F fun d => etagOr etag (m .chunksize) (dataAt d q)) fun _ =>
      match unpackTwo (m .etag) with
      | .error e => .throw e
      | .ok _ => .pure ()
    else if (m .checksum).truthy then
      .bind (C.getMeta q) fun now =>
      match now with
      | none => .throw .attributeError
      | some now =>
        match C.cypher (now .checksum_cypher) with
        | .error e => .throw e
        | .ok h =>
          .bind (.look C.F fun d => .ok (sumVal h (dataAt d q))) fun lc =>
          .bind (C.getMeta q) fun now =>
          match now with
          | none => .throw .attributeError
          | some now => if now .checksum = lc then .pure () else .throw (noteErr m lc (now .checksum))
    else if m .size = .none then .pure ()
    else
      .bind (.look C.F fun d => .ok (sizeVal (sizeAt d q))) fun ls =>
      .bind (C.getMeta q) fun now =>
      match now with
      | none => .throw .attributeError
      | some now => if now .size = ls then .pure () else .throw .sizeError

/-- `_bootstrap_data(True)` (caches.py 572-581); `refresh` is `self.remote.refresh(update_cache=True)` -/
def PEnv.bootstrapData (C : PEnv) (etag : PyVal → Bytes → Except PyErr (Bytes × Int)) (q : Path) (sizeKnown : Bool) : Prog CObj Unit :=
  .bind (if sizeKnown then .pure () else C.refresh) fun _ =>
  .bind (C.setData q) fun _ =>
  C.validate etag q

end Verif.Cache
