import Verif.Model.Anchor
import Verif.Model.Str

/-!
# Dropping anchor at a directory

`dropAnchor`, `smartAnchor` and `anchorTo` of `augpathlib/remotes.py` lines 98-196, with
`_get_local_root_path` (124-133) and `cache_init` (`augpathlib/core.py` 1042-1062).

The state is that of the two classes (`Anchor.St`) and of one place on disk, the path that has the name
of the remote root in the given directory.
-/

namespace Verif.Anchor
open Verif

/-- The place where the local root is to be. -/
structure Place where
  path : List Str
  /-- the names in the directory; `none` if there is nothing -/
  content : Option (List Str)
  /-- the id in the metadata that is stored on the directory -/
  meta_ : Option Id
  deriving DecidableEq

/-- `path.cache`: there if there is metadata (core.py 1014-1035).  Simplified: not memoized. -/
def Place.cache (p : Place) : Option Cache :=
  match p.content, p.meta_ with
  | some _, some i => some ⟨p.path, i⟩
  | _, _ => none

/-- What the remote root is. -/
inductive RootKind where
  | file | dir | other
  deriving DecidableEq

/-- The exceptions. -/
inductive AErr where
  | remoteAlreadyAnchored
  | directoryNotEmpty
  | cacheExists
  | notImplemented
  | attributeError
  | valueError
  | typeError
  | other (e : PyErr)
  deriving DecidableEq

/-- What the outside does during an attempt. -/
structure Outside where
  world : World
  kind : RootKind
  /-- whether the directory can be made -/
  mkdir : Bool

/-- The name of the local data directory (utils.py 27). -/
def dataDirName : Str := lit ".operations"

/-- The place once the metadata is written (`made`: and the local data directory is made). -/
def Place.mark (p : Place) (i : Id) (made : Bool) : Place :=
  { p with meta_ := some i
           content := p.content.map fun ns => if made && !ns.contains dataDirName then ns ++ [dataDirName] else ns }

/-- `path.cache_init(id, anchor=True)` (core.py 1042-1062).  The cache class writes the metadata as soon
as the instance is made; `anchorClassHere` makes the local data directory. -/
def cacheInit (split : Bool) (o : Outside) (i : Id) (s : St) (p : Place) : Except AErr Cache × St × Place :=
  match p.cache with
  | some _ => (.error .cacheExists, s, p)
  | none =>
    match p.content with
    | none => (.error .valueError, s, p)
    | some _ =>
      let c : Cache := ⟨p.path, i⟩
      let p := p.mark i (o.world.dataDir && (split || s.cache.isNone))
      match anchorClassHere split o.world c true s with
      | (.error e, s) => (.error (.other e), s, p)
      | (.ok _, s) => (.ok c, s, p)

/-- `dropAnchor` (remotes.py 162-196).  The local path has the name of the root, so that it is the
place. -/
def dropAnchor (split : Bool) (o : Outside) (s : St) (p : Place) : Except AErr Cache × St × Place :=
  match s.remote with
  | some _ => (.error .remoteAlreadyAnchored, s, p)
  | none =>
    match s.root with
    | none => (.error .attributeError, s, p)
    | some r =>
      let ready : Except AErr Place :=
        match p.content with
        | none =>
          match o.kind with
          | .file => .error .notImplemented
          | .dir => if o.mkdir then .ok { p with content := some [], meta_ := none } else .error (.other .osError)
          | .other => .error .notImplemented
        | some (_ :: _) => .error .directoryNotEmpty
        | some [] => .ok p
      match ready with
      | .error e => (.error e, s, p)
      | .ok p =>
        match cacheInit split o r s p with
        | (.error e, s, p) => (.error e, s, p)
        | (.ok c, s, p) => (.ok c, { s with remote := some c }, p)

/-- `smartAnchor` (remotes.py 136-160); two cache paths are equal if their paths are. -/
def smartAnchor (split : Bool) (o : Outside) (s : St) (p : Place) : Except AErr Cache × St × Place :=
  match dropAnchor split o s p with
  | (.ok c, s, p) => (.ok c, s, p)
  | (.error .remoteAlreadyAnchored, s, p) =>
    match s.root with
    | none => (.error .attributeError, s, p)
    | some _ =>
      match s.remote, p.cache with
      | some a, some c => if a.path = c.path then (.ok a, s, p) else (.error .remoteAlreadyAnchored, s, p)
      | _, _ => (.error .remoteAlreadyAnchored, s, p)
  | (.error .cacheExists, s, p) =>
    match p.cache with
    | some c => (.ok c, { s with remote := some c }, p)
    | none => (.error .cacheExists, s, p)
  | (.error .directoryNotEmpty, s, p) =>
    match p.cache with
    | some c => (.ok c, { s with remote := some c }, p)
    | none => (.error .directoryNotEmpty, s, p)
  | (.error e, s, p) => (.error e, s, p)

/-- `anchorTo` (remotes.py 99-121) for a local path; `named` says that its name is the name of the remote
root.  Simplified: `cls.root` is an object with a name; if it is a text, forming the message of the `ValueError` for another
name raises `AttributeError` instead. -/
def anchorTo (split : Bool) (o : Outside) (named create : Bool) (s : St) (p : Place) : Except AErr Cache × St × Place :=
  match p.cache with
  | some c =>
    match anchorToCache o.world c true s with
    | (.error e, s) => (.error (.other e), s, p)
    | (.ok _, s) => (.ok c, s, p)
  | none =>
    match s.root with
    | none => (.error .attributeError, s, p)
    | some _ =>
      if !named then (.error .valueError, s, p)
      else if create then dropAnchor split o s p
      else (.error .valueError, s, p)

end Verif.Anchor
