import Verif.Model.Crumple
import Verif.Model.Merge

/-!
# The primary cache: updating metadata, fetching and moving

`PrimaryCache.meta`, `_meta_setter`, `_meta_updater` (`augpathlib/caches.py` lines 1282-1345 and 1401-1432),
`CachePath.fetch` and `move` (lines 867-1019), and the setter of `LocalPath.data` (`augpathlib/core.py` lines
1365-1402).  Here the metadata is part of the object that it is stored on; how it is encoded there is the subject of
`Model/EatCache.lean` and `Model/SymlinkCache.lean`.  Simplified: every symlink is broken, all values of metadata can
be stored, there is no backup cache, and formatting log messages does not raise.
-/

namespace Verif.Cache
open Verif.FS

instance : DecidableEq (Field → PyVal) := fun a b =>
  decidable_of_iff (∀ f ∈ Field.all, a f = b f)
    ⟨fun h => funext fun f => h f (by cases f <;> decide), fun h _ _ => h ▸ rfl⟩

/-- What is at a location, with the metadata that is stored on it: in extended attributes of a directory or file, in
the text of a symlink (`none` if the text is something else). -/
inductive CObj where
  | dir (m : Option (Field → PyVal))
  | file (data : Bytes) (m : Option (Field → PyVal))
  | link (m : Option (Field → PyVal))
  deriving DecidableEq

instance : Kinded CObj where
  isDir | .dir _ => true | _ => false

/-- `path.exists()` -/
def there (d : Disk CObj) (q : Path) : Bool :=
  match d.at_ q with | some (.dir _) | some (.file _ _) => true | _ => false

/-- `path.is_file()` -/
def isFile (d : Disk CObj) (q : Path) : Bool := match d.at_ q with | some (.file _ _) => true | _ => false

/-- `path.is_dir()` -/
def isDirAt (d : Disk CObj) (q : Path) : Bool := match d.at_ q with | some (.dir _) => true | _ => false

/-- `path.is_broken_symlink()` (core.py 465-469) -/
def isBroken (d : Disk CObj) (q : Path) : Bool := match d.at_ q with | some (.link _) => true | _ => false

/-- What a run depends on. -/
structure PEnv where
  /-- the calls that fail -/
  F : Nat → Option PyErr
  /-- the names that are too long -/
  long : Name → Bool
  /-- where the trash is -/
  loc : Path
  /-- whether the metadata of a symlink is replaced by other metadata (`replaceCheck`) -/
  replace : Meta → Meta → Except PyErr Bool
  /-- the cypher of the class -/
  hash : Bytes → Bytes
  /-- what `checksum` computes for a name (`_instance_cypher`, caches.py 586-596, and core.py 802-811; see `Model/Cyphers.lean`) -/
  cypher : PyVal → Except PyErr (Bytes → Bytes)
  /-- `self.checksum()` of the cache, which may read the remote file -/
  remoteSum : Except PyErr Bytes
  /-- whether the remote is a directory; otherwise it is a file -/
  remoteIsDir : Bool
  /-- `self.data`: what the generator does each time it is resumed -/
  chunks : List (Except PyErr Bytes)
  /-- the exception of `self.cache_key`, if it raises one (caches.py 759-762) -/
  cacheKey : Option PyErr
  /-- `self.refresh(update_data=True, force=True)` -/
  refresh : Prog CObj Unit

/-- The trash of the cache. -/
def PEnv.trash (C : PEnv) : Trash CObj := ⟨C.F, there, C.long, .dir none, C.loc⟩

/-- The metadata of an object without any. -/
def blank : Meta := fun f => if f = .errors then .strs [] else .none

/-- The fields that `as_xattrs` stores (meta.py 543-550). -/
def storedFields (m : Meta) : List Field := Field.all.filter fun f => m f ≠ .none ∧ !(m f).emptyIterable

/-- `PrimaryCache.meta` (caches.py 1282-1312); a symlink that does not hold metadata cannot be read. -/
def PEnv.getMeta (C : PEnv) (q : Path) : Prog CObj (Option Meta) :=
  .look C.F fun d => match d.at_ q with
    | some (.dir (some m)) | some (.file _ (some m)) => .ok (if metaBool m then some m else none)
    | some (.link (some m)) => .ok (some m)
    | some (.link none) => .error .valueError
    | _ => .ok none

/-- Setting one extended attribute. -/
def PEnv.setField (C : PEnv) (q : Path) (f : Field) (v : PyVal) : Prog CObj Unit :=
  .act C.F fun d => match d.at_ q with
    | some (.dir m) => .ok (d.put q (.dir (some (Verif.setField (m.getD blank) f v))))
    | some (.file b m) => .ok (d.put q (.file b (some (Verif.setField (m.getD blank) f v))))
    | _ => .error .fileNotFoundError

/-- `EatCache._meta_setter` on something that exists (caches.py 1081-1096) -/
def PEnv.setXattrs (C : PEnv) (q : Path) (m : Meta) : Prog CObj Unit :=
  .each (fun f => C.setField q f (m f)) (storedFields m)

/-- The id of a cache with this metadata, if it is text (caches.py 743-757) -/
def idIn (m : Meta) : Option Str := match m .id with | .str s => some s | _ => none

/-- `SymlinkCache` given metadata for a path where nothing but a symlink is (caches.py 1184-1274) -/
def PEnv.setLink (C : PEnv) (q : Path) (m : Meta) : Prog CObj Unit :=
  .bind (.look C.F fun d => .ok (d.at_ q)) fun o =>
  match o with
  | some (.link (some old)) =>
    match C.replace old m with
    | .error e => .throw e
    | .ok false => .pure ()
    | .ok true => .bind (C.trash.crumpleOr (idIn old) q) fun _ => .act C.F fun d => d.create q (.link (some m))
  | some (.link none) => .throw .valueError
  | some _ => .throw .pathExistsError
  | none => .act C.F fun d => d.create q (.link (some m))

/-- `_bootstrap_prepare_filesystem(parents=False, fetch_data=False, size_limit_mb=0)` (caches.py 535-570) -/
def PEnv.prepare (C : PEnv) (q : Path) : Prog CObj Unit :=
  if C.remoteIsDir then
    .bind (.look C.F fun d => .ok (there d q)) fun ex =>
      if ex then .pure () else .act C.F fun d => d.create q (.dir none)
  else
    .bind (.look C.F fun d => .ok (there d q.dropLast)) fun ex =>
      if ex then .pure () else .act C.F fun d => d.create q.dropLast (.dir none)

/-- `PrimaryCache._meta_setter` (caches.py 1314-1345) -/
def PEnv.setMeta (C : PEnv) (q : Path) : Option Meta → Prog CObj Unit
  | none => .pure ()
  | some m =>
    if !metaBool m then .pure ()
    else
      .bind (.look C.F fun d => .ok (there d q)) fun ex =>
      if ex then C.setXattrs q m
      else
        .bind (C.prepare q) fun _ =>
        .bind (.look C.F fun d => .ok (there d q)) fun ex =>
        if ex then C.setXattrs q m else C.setLink q m

/-! ## Writing data -/

/-- `open(self, 'wb')`: a file is made empty or made; its extended attributes stay. -/
def PEnv.openW (C : PEnv) (q : Path) : Prog CObj Unit :=
  .act C.F fun d => match d.at_ q with
    | some (.file _ m) => .ok (d.put q (.file [] m))
    | some (.dir _) => .error .isADirectoryError
    | some (.link _) => .error .fileNotFoundError
    | none => d.create q (.file [] none)

/-- `f.write(chunk)` -/
def PEnv.append (C : PEnv) (q : Path) (b : Bytes) : Prog CObj Unit :=
  .act C.F fun d => match d.at_ q with
    | some (.file x m) => .ok (d.put q (.file (x ++ b) m))
    | _ => .error .osError

/-- `_write_chunks_posix` (core.py 1365-1371) -/
def PEnv.writeChunks (C : PEnv) (q : Path) : Prog CObj Unit :=
  match C.chunks with
  | [] => .throw .stopIteration
  | .error e :: _ => .throw e
  | .ok b :: rest =>
    .bind (C.openW q) fun _ =>
    .bind (C.append q b) fun _ =>
    .each (fun r => match r with | .ok b => C.append q b | .error e => .throw e) rest

/-- The setter of `LocalPath.data` (core.py 1376-1402) for a path with a cache; the metadata of a primary cache
cannot be assigned to. -/
def PEnv.setData (C : PEnv) (q : Path) : Prog CObj Unit :=
  .bind (C.getMeta q) fun _ =>
  .bind (C.writeChunks q) fun _ =>
  .bind (C.getMeta q) fun now =>
    if now.isNone then .throw .attributeError else .pure ()

/-! ## Fetching -/

/-- `st_size` -/
def sizeAt (d : Disk CObj) (q : Path) : Except PyErr Int :=
  match d.at_ q with
  | some (.file b _) => .ok b.length
  | some (.dir _) => .ok 4096
  | _ => .error .fileNotFoundError

/-- The content of a file. -/
def dataAt (d : Disk CObj) (q : Path) : Except PyErr Bytes :=
  match d.at_ q with
  | some (.file b _) => .ok b
  | some (.dir _) => .error .isADirectoryError
  | _ => .error .fileNotFoundError

/-- The mark for a wrong checksum. -/
@[irreducible] def mismatch : Str := lit "checksum-mismatch"

/-- `'checksum-mismatch' in meta.errors` -/
def marked (m : Meta) : Bool := match m .errors with | .strs l => mismatch ∈ l | _ => false

/-- The metadata with the mark added to the errors `l` (caches.py 924-926) -/
def mark (m : Meta) (l : List Str) : Meta := Verif.setField m .errors (.strs (l ++ [mismatch]))

/-- The end of a fetch: the checksum (caches.py 912-927). -/
def PEnv.checkSum (C : PEnv) (q : Path) (m : Meta) : Prog CObj Unit :=
  if marked m then .pure ()
  else
    .bind (C.getMeta q) fun now =>
    match now with
    | none => .throw .attributeError
    | some now =>
      match C.cypher (now .checksum_cypher) with
      | .error e => .throw e
      | .ok h =>
        .bind (.look C.F fun d => dataAt d q) fun b =>
        match m .checksum with
        | .none => .pure ()
        | .bytes c =>
          if h b ≠ c then
            match m .errors with
            | .strs l => C.setMeta q (some (mark m l))
            | _ => .throw .typeError
          else .pure ()
        | _ => .throw .attributeError

/-- Writing and checking the data (caches.py 901-927) -/
def PEnv.download (C : PEnv) (q : Path) (m : Meta) : Prog CObj Unit :=
  match C.cacheKey with
  | some e => .throw e
  | none =>
    .bind (C.setData q) fun _ =>
    .bind (.look C.F fun d => sizeAt d q) fun n =>
    if m .size = .int n then C.checkSum q m else .throw .valueError

/-- Fetching the data (caches.py 894-927) -/
def PEnv.fetchData (C : PEnv) (q : Path) (m : Meta) : Prog CObj Unit :=
  .bind (.look C.F fun d => .ok (isBroken d q)) fun broken =>
  .bind (if broken then
      .bind (.act C.F fun d => d.unlink q) fun _ =>
      .bind (.act C.F fun d => d.create q (.file [] none)) fun _ => C.setMeta q (some m)
    else .pure ()) fun _ =>
  C.download q m

/-- `fetch` (caches.py 867-930).  The limit is in bytes. -/
def PEnv.fetch (C : PEnv) (q : Path) (limit : Option Int) : Prog CObj Unit :=
  .bind (C.getMeta q) fun m =>
  .bind (.look C.F fun d => .ok (isDirAt d q)) fun isDir =>
  if isDir then .throw .notImplementedError
  else match m with
    | none => .throw .noCachedMetadataError
    | some m =>
      if m .file_id = .none then C.refresh
      else match limit with
        | none => C.fetchData q m
        | some l => match m .size with
          | .int n => if n < l then C.fetchData q m else .pure ()
          | _ => .pure ()

/-! ## Updating metadata -/

/-- `self.local.content_different()` (core.py 1475-1484), for a file whose recorded metadata is `m` -/
def PEnv.contentDifferent (C : PEnv) (q : Path) : Prog CObj Bool :=
  .bind (C.getMeta q) fun m =>
  match m with
  | none => .throw .attributeError
  | some m =>
    .bind (.look C.F fun d => dataAt d q) fun b =>
    if (m .checksum).truthy then .pure (!pyEq (.bytes (C.hash b)) (m .checksum))
    else match C.remoteSum with
      | .error e => .throw e
      | .ok r => .pure (decide (C.hash b ≠ r))

/-- The check before the old file goes to the trash (caches.py 1408-1414) -/
def PEnv.localChanges (C : PEnv) (q : Path) (new : Meta) : Prog CObj Unit :=
  .catch_ (.bind (C.contentDifferent q) fun different =>
      if different then
        .bind (.look C.F fun d => dataAt d q) fun b =>
        if pyEq (.bytes (C.hash b)) (new .checksum) then .pure () else .throw .localChangesError
      else .pure ())
    fun e => if e = .noRemoteFileError then .pure () else .throw e

/-- `_meta_updater` (caches.py 1401-1432); a file exists, so that `self.exists()` is left out. -/
def PEnv.metaUpdater (C : PEnv) (q : Path) (new : Meta) (fetch : Bool) : Prog CObj Bool :=
  .bind (C.getMeta q) fun original =>
  match updateMeta original (some new) with
  | .error e => .throw e
  | .ok (different, updated) =>
    .bind (if different then .look C.F fun d => .ok (isFile d q) else .pure false) fun isf =>
    if isf && fetch then
      .bind (C.localChanges q new) fun _ =>
      .bind (C.trash.crumple (original.bind idIn) q) fun trashed =>
      .bind (.catch_ (.bind (C.setMeta q updated) fun _ => C.fetch q none) fun e =>
          .bind (.act C.F fun d => d.rename trashed q) fun _ => .throw e) fun _ =>
      .pure different
    else .bind (C.setMeta q updated) fun _ => .pure different

/-! ## Moving -/

/-- The name for the link that is at the target of a move (caches.py 1001) -/
def safeUnlink (t : Path) : Path := t.dropLast ++ [lit ".unlink-" ++ t.getLast?.getD []]

/-- `cache.id`, for a cache that has not been asked before (caches.py 743-757) -/
def idVal : Option Meta → PyVal
  | some m => m .id
  | none => .none

/-- The conflict check for a target where something is (caches.py 972-998) -/
def PEnv.conflict (C : PEnv) (q t : Path) (remote cast : Bool) : Prog CObj Unit :=
  .bind (C.getMeta t) fun mt =>
  .bind (C.getMeta q) fun mq =>
  if idVal mt = idVal mq then
    .bind (.look C.F fun d => .ok (isBroken d q)) fun broken =>
    if broken || cast then
      match mq with
      | some m => .bind (C.metaUpdater t m true) fun _ => .pure ()
      -- `_meta_updater(None)` writes what is there again
      | none => .bind (C.getMeta t) fun mt => C.setMeta t mt
    else .pure ()
  else
    .bind (.look C.F fun d => .ok (isBroken d t)) fun broken =>
    if broken then (if remote then .throw .whyDidntThisGetMovedBeforeError else .throw .attributeError)
    else .throw .pathExistsError

/-- The renames (caches.py 1002-1013): an exception of the first two is only logged. -/
def PEnv.renames (C : PEnv) (q t : Path) : Prog CObj Unit :=
  let safe := safeUnlink t
  let cleanup : Prog CObj Unit :=
    .bind (.look C.F fun d => .ok (isBroken d safe)) fun b =>
      if b then .act C.F fun d => d.unlink safe else .pure ()
  let body : Prog CObj Unit :=
    .catch_ (.bind (.look C.F fun d => .ok (isBroken d t)) fun b =>
        .bind (if b then .act C.F fun d => d.rename t safe else .pure ()) fun _ =>
        .act C.F fun d => d.rename q t)
      fun _ =>
        .bind (.look C.F fun d => .ok (isBroken d safe)) fun b =>
          if b then .act C.F fun d => d.rename safe t else .pure ()
  .bind (.catch_ body fun e => .bind cleanup fun _ => .throw e) fun _ => cleanup

/-- `move(remote=…, target=t, meta=…)` (caches.py 932-1019).  `cast` is for a target that is not a cache yet;
`parents` is `mkdir_cache`.  Simplified: `target` is given, and giving neither remote nor metadata is left out. -/
def PEnv.move (C : PEnv) (parents : Prog CObj Unit) (q t : Path) (given : Option Meta) (remote cast : Bool) :
    Prog CObj Path :=
  if t = q then .pure t
  else
    .bind (.look C.F fun d => .ok (there d t.dropLast)) fun ex =>
    .bind (if ex then .pure () else parents) fun _ =>
    .bind (if cast then
        match given with
        | some m => if metaBool m then .bind (C.metaUpdater t m true) fun _ => .pure () else
            .bind (C.getMeta t) fun mt => if mt.isNone then .throw .noCachedMetadataError else .pure ()
        | none => .bind (C.getMeta t) fun mt => if mt.isNone then .throw .noCachedMetadataError else .pure ()
      else .pure ()) fun _ =>
    .bind (.look C.F fun d => .ok (d.at_ t).isSome) fun occupied =>
    .bind (if occupied then C.conflict q t remote cast else .pure ()) fun _ =>
    .bind (.look C.F fun d => .ok (there d q)) fun ex =>
    .bind (if ex then C.renames q t
      else
        .bind (.look C.F fun d => .ok (isBroken d q)) fun b =>
          if b then .act C.F fun d => d.unlink q else .pure ()) fun _ =>
    .pure t

end Verif.Cache
