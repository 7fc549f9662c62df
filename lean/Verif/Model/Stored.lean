import Verif.Model.Primary
import Verif.Model.EatCache
import Verif.Model.SymlinkCache

/-!
# The primary cache down to the attributes and the texts of links

The functions of `Model/Primary.lean` again (`augpathlib/caches.py` lines 867-1019, 1282-1345 and 1401-1432, `augpathlib/core.py`
lines 1365-1402), with metadata in the form in which it is on the disk: extended attributes of files and directories
(`EatCache`, caches.py 1070-1102) and the texts of links (`SymlinkCache`, caches.py 1143-1274).  Every reading decodes and
every writing encodes.  Simplified: every symlink is broken, there is no backup cache, formatting log messages does not raise.
-/

namespace Verif.Cache
open Verif.FS

/-- What is at a location: the extended attributes of a directory, the content and the extended attributes of a file, the text of
a symlink. -/
inductive XObj where
  | dir (xattrs : Xattrs.Attrs)
  | file (data : Bytes) (xattrs : Xattrs.Attrs)
  | link (text : Str)
  deriving DecidableEq, Repr

instance : Kinded XObj where
  isDir | .dir _ => true | _ => false

namespace Stored

/-- `path.exists()` -/
def there (d : Disk XObj) (q : Path) : Bool :=
  match d.at_ q with | some (.dir _) | some (.file _ _) => true | _ => false

/-- `path.is_file()` -/
def isFile (d : Disk XObj) (q : Path) : Bool := match d.at_ q with | some (.file _ _) => true | _ => false

/-- `path.is_dir()` -/
def isDirAt (d : Disk XObj) (q : Path) : Bool := match d.at_ q with | some (.dir _) => true | _ => false

/-- `path.is_broken_symlink()` (core.py 465-469) -/
def isBroken (d : Disk XObj) (q : Path) : Bool := match d.at_ q with | some (.link _) => true | _ => false

/-- `st_size` -/
def sizeAt (d : Disk XObj) (q : Path) : Except PyErr Int :=
  match d.at_ q with
  | some (.file b _) => .ok b.length
  | some (.dir _) => .ok 4096
  | _ => .error .fileNotFoundError

/-- The content of a file. -/
def dataAt (d : Disk XObj) (q : Path) : Except PyErr Bytes :=
  match d.at_ q with
  | some (.file b _) => .ok b
  | some (.dir _) => .error .isADirectoryError
  | _ => .error .fileNotFoundError

end Stored

/-- What a run depends on: all that a run of `Model/Primary.lean` depends on except for `refresh`, which is now on this kind of
disk, with the environment of the metadata and the prefix of the attributes. -/
structure XEnv extends PEnv where
  env : Env
  pre : Option Str
  /-- `self.refresh(update_data=True, force=True)` -/
  refreshX : Prog XObj Unit

namespace XEnv

/-- The trash of the cache. -/
def trash (C : XEnv) : Trash XObj := ⟨C.F, Stored.there, C.long, .dir [], C.loc⟩

/-- The metadata in extended attributes, with the timestamps parsed (`PathMeta.from_xattrs`, meta.py 507-538) -/
def ofAttrs (C : XEnv) (a : Xattrs.Attrs) : Except PyErr Meta :=
  match Xattrs.fromXattrs C.env a C.pre with
  | .error e => .error e
  | .ok o => view C.env o

/-- The metadata in the text of a link, with the timestamps parsed (`PathMeta.from_symlink`, meta.py 421-447) -/
def ofLink (C : XEnv) (q : Path) (t : Str) : Except PyErr Meta :=
  match Symlink.fromSymlink (nameOf q) t false with
  | .error e => .error e
  | .ok o => view C.env o

/-- `PrimaryCache.meta` (caches.py 1282-1312) -/
def getMeta (C : XEnv) (q : Path) : Prog XObj (Option Meta) :=
  .look C.F fun d => match d.at_ q with
    | some (.dir a) | some (.file _ a) => match C.ofAttrs a with
      | .error e => .error e
      | .ok m => .ok (if metaBool m then some m else none)
    | some (.link t) => match C.ofLink q t with
      | .error e => .error e
      | .ok m => .ok (some m)
    | none => .ok none

/-- Setting one extended attribute. -/
def osSet (C : XEnv) (q : Path) (k v : Bytes) : Prog XObj Unit :=
  .act C.F fun d => match d.at_ q with
    | some (.dir a) => .ok (d.put q (.dir (setAttr k v a)))
    | some (.file b a) => .ok (d.put q (.file b (setAttr k v a)))
    | _ => .error .fileNotFoundError

/-- `EatCache._meta_setter` on something that exists (caches.py 1081-1096) -/
def setXattrs (C : XEnv) (q : Path) (m : Meta) : Prog XObj Unit :=
  match Xattrs.asXattrs C.env m C.pre with
  | .error e => .throw e
  | .ok xs => .each (fun kv => C.osSet q kv.1 kv.2) xs

/-- The end of the setter of `SymlinkCache` (caches.py 1270-1271) -/
def writeLink (C : XEnv) (q : Path) (m : Meta) : Prog XObj Unit :=
  match Symlink.asSymlink C.env m (some (nameOf q)) with
  | .error e => .throw e
  | .ok p => .act C.F fun d => d.create q (.link p.str)

/-- `SymlinkCache` given metadata for a path where nothing but a symlink is (caches.py 1184-1274) -/
def setLink (C : XEnv) (q : Path) (m : Meta) : Prog XObj Unit :=
  .bind (.look C.F fun d => .ok (d.at_ q)) fun o =>
  match o with
  | some (.link t) =>
    match C.ofLink q t with
    | .error e => .throw e
    | .ok old =>
      match C.replace old m with
      | .error e => .throw e
      | .ok false => .pure ()
      | .ok true => .bind (C.trash.crumpleOr (idIn old) q) fun _ => C.writeLink q m
  | some _ => .throw .pathExistsError
  | none => C.writeLink q m

/-- `_bootstrap_prepare_filesystem(parents=False, fetch_data=False, size_limit_mb=0)` (caches.py 535-570) -/
def prepare (C : XEnv) (q : Path) : Prog XObj Unit :=
  if C.remoteIsDir then
    .bind (.look C.F fun d => .ok (Stored.there d q)) fun ex =>
      if ex then .pure () else .act C.F fun d => d.create q (.dir [])
  else
    .bind (.look C.F fun d => .ok (Stored.there d q.dropLast)) fun ex =>
      if ex then .pure () else .act C.F fun d => d.create q.dropLast (.dir [])

/-- `PrimaryCache._meta_setter` (caches.py 1314-1345) -/
def setMeta (C : XEnv) (q : Path) : Option Meta → Prog XObj Unit
  | none => .pure ()
  | some m =>
    if !metaBool m then .pure ()
    else
      .bind (.look C.F fun d => .ok (Stored.there d q)) fun ex =>
      if ex then C.setXattrs q m
      else
        .bind (C.prepare q) fun _ =>
        .bind (.look C.F fun d => .ok (Stored.there d q)) fun ex =>
        if ex then C.setXattrs q m else C.setLink q m

/-! ## Writing data -/

/-- `open(self, 'wb')`: a file is made empty or made; its extended attributes stay. -/
def openW (C : XEnv) (q : Path) : Prog XObj Unit :=
  .act C.F fun d => match d.at_ q with
    | some (.file _ a) => .ok (d.put q (.file [] a))
    | some (.dir _) => .error .isADirectoryError
    | some (.link _) => .error .fileNotFoundError
    | none => d.create q (.file [] [])

/-- `f.write(chunk)` -/
def append (C : XEnv) (q : Path) (b : Bytes) : Prog XObj Unit :=
  .act C.F fun d => match d.at_ q with
    | some (.file x a) => .ok (d.put q (.file (x ++ b) a))
    | _ => .error .osError

/-- `_write_chunks_posix` (core.py 1365-1371) -/
def writeChunks (C : XEnv) (q : Path) : Prog XObj Unit :=
  match C.chunks with
  | [] => .throw .stopIteration
  | .error e :: _ => .throw e
  | .ok b :: rest =>
    .bind (C.openW q) fun _ =>
    .bind (C.append q b) fun _ =>
    .each (fun r => match r with | .ok b => C.append q b | .error e => .throw e) rest

/-- The setter of `LocalPath.data` (core.py 1376-1402) for a path with a cache -/
def setData (C : XEnv) (q : Path) : Prog XObj Unit :=
  .bind (C.getMeta q) fun _ =>
  .bind (C.writeChunks q) fun _ =>
  .bind (C.getMeta q) fun now =>
    if now.isNone then .throw .attributeError else .pure ()

/-! ## Fetching -/

/-- The end of a fetch: the checksum (caches.py 912-927). -/
def checkSum (C : XEnv) (q : Path) (m : Meta) : Prog XObj Unit :=
  if marked m then .pure ()
  else
    .bind (C.getMeta q) fun now =>
    match now with
    | none => .throw .attributeError
    | some now =>
      match C.cypher (now .checksum_cypher) with
      | .error e => .throw e
      | .ok h =>
        .bind (.look C.F fun d => Stored.dataAt d q) fun b =>
        match m .checksum with
        | .none => .pure ()
        | .bytes c =>
          if h b ≠ c then
            match m .errors with
            | .strs l => C.setMeta q (some (mark m l))
            | _ => .throw .typeError
          else .pure ()
        | _ => .throw .attributeError

/-- Writing and checking the data (caches.py 901-927) -/
def download (C : XEnv) (q : Path) (m : Meta) : Prog XObj Unit :=
  match C.cacheKey with
  | some e => .throw e
  | none =>
    .bind (C.setData q) fun _ =>
    .bind (.look C.F fun d => Stored.sizeAt d q) fun n =>
    if m .size = .int n then C.checkSum q m else .throw .valueError

/-- Fetching the data (caches.py 894-927) -/
def fetchData (C : XEnv) (q : Path) (m : Meta) : Prog XObj Unit :=
  .bind (.look C.F fun d => .ok (Stored.isBroken d q)) fun broken =>
  .bind (if broken then
      .bind (.act C.F fun d => d.unlink q) fun _ =>
      .bind (.act C.F fun d => d.create q (.file [] [])) fun _ => C.setMeta q (some m)
    else .pure ()) fun _ =>
  C.download q m

/-- `fetch` (caches.py 867-930).  The limit is in bytes. -/
def fetch (C : XEnv) (q : Path) (limit : Option Int) : Prog XObj Unit :=
  .bind (C.getMeta q) fun m =>
  .bind (.look C.F fun d => .ok (Stored.isDirAt d q)) fun isDir =>
  if isDir then .throw .notImplementedError
  else match m with
    | none => .throw .noCachedMetadataError
    | some m =>
      if m .file_id = .none then C.refreshX
      else match limit with
        | none => C.fetchData q m
        | some l => match m .size with
          | .int n => if n < l then C.fetchData q m else .pure ()
          | _ => .pure ()

/-! ## Updating metadata -/

/-- `self.local.content_different()` (core.py 1475-1484), for a file whose recorded metadata is `m` -/
def contentDifferent (C : XEnv) (q : Path) : Prog XObj Bool :=
  .bind (C.getMeta q) fun m =>
  match m with
  | none => .throw .attributeError
  | some m =>
    .bind (.look C.F fun d => Stored.dataAt d q) fun b =>
    if (m .checksum).truthy then .pure (!pyEq (.bytes (C.hash b)) (m .checksum))
    else match C.remoteSum with
      | .error e => .throw e
      | .ok r => .pure (decide (C.hash b ≠ r))

/-- The check before the old file goes to the trash (caches.py 1408-1414) -/
def localChanges (C : XEnv) (q : Path) (new : Meta) : Prog XObj Unit :=
  .catch_ (.bind (C.contentDifferent q) fun different =>
      if different then
        .bind (.look C.F fun d => Stored.dataAt d q) fun b =>
        if pyEq (.bytes (C.hash b)) (new .checksum) then .pure () else .throw .localChangesError
      else .pure ())
    fun e => if e = .noRemoteFileError then .pure () else .throw e

/-- `_meta_updater` (caches.py 1401-1432) -/
def metaUpdater (C : XEnv) (q : Path) (new : Meta) (fetch : Bool) : Prog XObj Bool :=
  .bind (C.getMeta q) fun original =>
  match updateMeta original (some new) with
  | .error e => .throw e
  | .ok (different, updated) =>
    .bind (if different then .look C.F fun d => .ok (Stored.isFile d q) else .pure false) fun isf =>
    if isf && fetch then
      .bind (C.localChanges q new) fun _ =>
      .bind (C.trash.crumple (original.bind idIn) q) fun trashed =>
      .bind (.catch_ (.bind (C.setMeta q updated) fun _ => C.fetch q none) fun e =>
          .bind (.act C.F fun d => d.rename trashed q) fun _ => .throw e) fun _ =>
      .pure different
    else .bind (C.setMeta q updated) fun _ => .pure different

/-! ## Moving -/

/-- The conflict check for a target where something is (caches.py 972-998) -/
def conflict (C : XEnv) (q t : Path) (remote cast : Bool) : Prog XObj Unit :=
  .bind (C.getMeta t) fun mt =>
  .bind (C.getMeta q) fun mq =>
  if Cache.idVal mt = Cache.idVal mq then
    .bind (.look C.F fun d => .ok (Stored.isBroken d q)) fun broken =>
    if broken || cast then
      match mq with
      | some m => .bind (C.metaUpdater t m true) fun _ => .pure ()
      -- `_meta_updater(None)` writes what is there again
      | none => .bind (C.getMeta t) fun mt => C.setMeta t mt
    else .pure ()
  else
    .bind (.look C.F fun d => .ok (Stored.isBroken d t)) fun broken =>
    if broken then (if remote then .throw .whyDidntThisGetMovedBeforeError else .throw .attributeError)
    else .throw .pathExistsError

/-- The end of the renames (caches.py 1012-1013) -/
def cleanup (C : XEnv) (t : Path) : Prog XObj Unit :=
  .bind (.look C.F fun d => .ok (Stored.isBroken d (safeUnlink t))) fun b =>
    if b then .act C.F fun d => d.unlink (safeUnlink t) else .pure ()

/-- The renames (caches.py 1002-1013): an exception of the first two is only logged. -/
def renames (C : XEnv) (q t : Path) : Prog XObj Unit :=
  let body : Prog XObj Unit :=
    .catch_ (.bind (.look C.F fun d => .ok (Stored.isBroken d t)) fun b =>
        .bind (if b then .act C.F fun d => d.rename t (safeUnlink t) else .pure ()) fun _ =>
        .act C.F fun d => d.rename q t)
      fun _ =>
        .bind (.look C.F fun d => .ok (Stored.isBroken d (safeUnlink t))) fun b =>
          if b then .act C.F fun d => d.rename (safeUnlink t) t else .pure ()
  .bind (.catch_ body fun e => .bind (C.cleanup t) fun _ => .throw e) fun _ => C.cleanup t

/-- `move(remote=…, target=t, meta=…)` (caches.py 932-1019), with the simplifications of `PEnv.move` -/
def move (C : XEnv) (parents : Prog XObj Unit) (q t : Path) (given : Option Meta) (remote cast : Bool) : Prog XObj Path :=
  if t = q then .pure t
  else
    .bind (.look C.F fun d => .ok (Stored.there d t.dropLast)) fun ex =>
    .bind (if ex then .pure () else parents) fun _ =>
    .bind (if cast then
        match given with
        | some m => if metaBool m then .bind (C.metaUpdater t m true) fun _ => .pure () else
            .bind (C.getMeta t) fun mt => if mt.isNone then .throw .noCachedMetadataError else .pure ()
        | none => .bind (C.getMeta t) fun mt => if mt.isNone then .throw .noCachedMetadataError else .pure ()
      else .pure ()) fun _ =>
    .bind (.look C.F fun d => .ok (d.at_ t).isSome) fun occupied =>
    .bind (if occupied then C.conflict q t remote cast else .pure ()) fun _ =>
    .bind (.look C.F fun d => .ok (Stored.there d q)) fun ex =>
    .bind (if ex then C.renames q t
      else
        .bind (.look C.F fun d => .ok (Stored.isBroken d q)) fun b =>
          if b then .act C.F fun d => d.unlink q else .pure ()) fun _ =>
    .pure t

end XEnv

end Verif.Cache
