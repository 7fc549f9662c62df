import Verif.Model.Crumple
import Verif.Model.MetaObj

/-!
# Metadata stored in broken symlinks

`SymlinkCache.meta` (`augpathlib/caches.py` lines 1143-1274).  Simplified: the helper cache never holds metadata in
memory (`_meta`), formatting the log messages does not raise, and the primary cache found by `self.local.cache`
reads its metadata from the same link (`PrimaryCache.meta`, lines 1295-1300).
-/

namespace Verif.Cache
open Verif.FS

/-- What is at a location: a directory, a file with its content and extended attributes, a symlink with its text. -/
inductive Obj where
  | dir
  | file (data : Bytes) (xattrs : List (Bytes × Bytes))
  | link (text : Str)
  deriving DecidableEq, Repr

instance : Kinded Obj where
  isDir | .dir => true | _ => false

/-- What a run depends on: the environment of the metadata and the trash (with the calls that fail and the locations
that lead to something). -/
structure LinkEnv where
  env : Env
  trash : Trash Obj

/-- `path.exists()` -/
def LinkEnv.exists_ (C : LinkEnv) (d : Disk Obj) (q : Path) : Bool :=
  match d.at_ q with
  | none => false
  | some (.link _) => C.trash.leads d q
  | some _ => true

/-- `path.is_symlink()` -/
def isLink (d : Disk Obj) (q : Path) : Bool := match d.at_ q with | some (.link _) => true | _ => false

/-- The name of a path. -/
def nameOf (q : Path) : Str := q.getLast?.getD []

/-- Metadata as its users see it: all attributes are read. -/
def view (env : Env) (m : PathMeta) : Except PyErr Meta :=
  match m.get env .created with
  | .error e => .error e
  | .ok c => match m.get env .updated with
    | .error e => .error e
    | .ok u => .ok fun f => if f = .created then c else if f = .updated then u else m.plain f

/-- The text of the link for some metadata: `pathmeta.as_symlink(local_name=self.local.name)` (caches.py 1269) -/
def linkText (env : Env) (m : PathMeta) (name : Str) : Except PyErr Str :=
  match view env m with
  | .error e => .error e
  | .ok v => match Symlink.asSymlink env v (some name) with
    | .error e => .error e
    | .ok p => .ok p.str

/-- The getter (caches.py 1159-1173) -/
def LinkEnv.getMeta (C : LinkEnv) (d : Disk Obj) (q : Path) : Except PyErr PathMeta :=
  match d.at_ q with
  | some (.link t) => if C.exists_ d q then .error .pathExistsError else Symlink.fromSymlink (nameOf q) t false
  | _ => .error .noCachedMetadataError

/-- The id of the primary cache (`_CachePath.id`, caches.py 743-757) -/
def idOf (m : PathMeta) : Option Str :=
  if m.bool then match m.plain .id with | .str s => some s | _ => none else none

/-- The comparison of timestamps for different ids (caches.py 1201-1237): `true` to go on, `false` to return without
a change. -/
def newerCheck (env : Env) (old new : PathMeta) : Except PyErr Bool := do
  let u ← old.get env .updated
  let v ← new.get env .updated
  if u = .none ∧ v = .none then .ok false
  else if ← pyLt v u then .ok false
  else if ← pyLt u v then .ok true
  else
    let c ← old.get env .created
    let c' ← new.get env .created
    if c ≠ .none ∧ c' ≠ .none then
      if ← pyLt c' c then .ok false
      else if ← pyLt c c' then .ok true
      else .ok false
    else if c ≠ .none then .ok false
    else if c' ≠ .none then .error .metadataIdMismatchError
    else .ok false

/-- Whether stored metadata is to be replaced (caches.py 1189-1242). -/
def replaceCheck (env : Env) (old new : PathMeta) : Except PyErr Bool := do
  if ← old.eq new then .ok false
  else
    let go ← if old.plain .id ≠ new.plain .id then newerCheck env old new else .ok true
    if !go then .ok false
    else if old.plain .size ≠ .none ∧ new.plain .size = .none then .ok false
    else .ok true

/-- The end of the setter (caches.py 1270-1271). -/
def LinkEnv.writeLink (C : LinkEnv) (q : Path) (new : PathMeta) : Prog Obj Unit :=
  match linkText C.env new (nameOf q) with
  | .error e => .throw e
  | .ok t => .act C.trash.F fun d => d.create q (.link t)

/-- The setter (caches.py 1184-1274) -/
def LinkEnv.setMeta (C : LinkEnv) (q : Path) (new : PathMeta) : Prog Obj Unit :=
  .bind (.look C.trash.F fun d => .ok (C.exists_ d q)) fun ex =>
  if ex then .throw .pathExistsError
  else
    .bind (.look C.trash.F fun d => .ok (isLink d q)) fun il =>
    if il then
      .bind (.look C.trash.F fun d => C.getMeta d q) fun old =>
      match replaceCheck C.env old new with
      | .error e => .throw e
      | .ok false => .pure ()
      | .ok true =>
        .bind (C.trash.crumpleOr (idOf old) q) fun _ => C.writeLink q new
    else C.writeLink q new

end Verif.Cache
