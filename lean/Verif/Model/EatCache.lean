import Verif.Model.Disk
import Verif.Model.Xattrs

/-!
# Metadata stored in extended attributes

`EatCache` (`augpathlib/caches.py` lines 1070-1102), with `XattrHelper.setxattrs` (`augpathlib/core.py` lines 293-304)
and `_CachePath._meta_setter` (caches.py 772-782).  The attributes of a file are those of the namespace `user`, by
name, each name at most once.  Simplified: the metadata that is set has timestamps that are already parsed.
-/

namespace Verif.Cache
open Verif.FS

/-- What is at a location: a file or directory with its extended attributes, or a symlink. -/
inductive AObj where
  | node (isDir : Bool) (data : Bytes) (xattrs : Xattrs.Attrs)
  | link
  deriving DecidableEq, Repr

instance : Kinded AObj where
  isDir | .node b _ _ => b | .link => false

/-- setxattr(2) on a list of attributes: the value of the name is replaced, or the name is new. -/
def setAttr (k v : Bytes) : Xattrs.Attrs → Xattrs.Attrs
  | [] => [(k, v)]
  | (k', w) :: l => if k' = k then (k, v) :: l else (k', w) :: setAttr k v l

/-- What a run depends on: the calls that fail, the environment of the metadata, the prefix of the attributes, and
where locations lead when symlinks are followed (`none` if nowhere). -/
structure EatEnv where
  F : Nat → Option PyErr
  env : Env
  pre : Option Str
  follow : Disk AObj → Path → Option Path

/-- The file or directory that a location leads to. -/
def EatEnv.target (C : EatEnv) (d : Disk AObj) (q : Path) : Option (Path × Bool × Bytes × Xattrs.Attrs) :=
  match d.at_ q with
  | some (.node b x a) => some (q, b, x, a)
  | some .link => match C.follow d q with
    | none => none
    | some q' => match d.at_ q' with
      | some (.node b x a) => some (q', b, x, a)
      | _ => none
  | none => none

/-- `xattr.set` with the namespace `user`: symlinks are followed. -/
def EatEnv.osSet (C : EatEnv) (q : Path) (k v : Bytes) : Prog AObj Unit :=
  .act C.F fun d => match C.target d q with
    | some (q', b, x, a) => .ok (d.put q' (.node b x (setAttr k v a)))
    | none => .error .fileNotFoundError

/-- `setxattrs` (core.py 302-304) -/
def EatEnv.setxattrs (C : EatEnv) (q : Path) (xs : Xattrs.Attrs) : Prog AObj Unit :=
  .each (fun kv => C.osSet q kv.1 kv.2) xs

/-- The getter (caches.py 1074-1079) -/
def EatEnv.meta (C : EatEnv) (q : Path) : Prog AObj (Option PathMeta) :=
  .bind (.look C.F fun d => .ok (C.target d q).isSome) fun ex =>
    if ex then
      .look C.F fun d => match C.target d q with
        | some (_, _, _, a) => match Xattrs.fromXattrs C.env a C.pre with
          | .ok o => .ok (some o)
          | .error e => .error e
        | none => .error .fileNotFoundError
    else .pure none

/-- `_meta_setter` (caches.py 1081-1102); the result is the metadata that is now in memory only, if any.  For a path
that does not exist the metadata of the cache is `None`, so that the ids are not compared (caches.py 778-782). -/
def EatEnv.metaSetter (C : EatEnv) (q : Path) (m : Meta) (memoryOnly : Bool) : Prog AObj (Option Meta) :=
  .bind (.look C.F fun d => .ok (C.target d q).isSome) fun ex =>
    if ex then
      .bind (.look C.F fun d => .ok (decide (d.at_ q = some .link))) fun isLink =>
        if isLink then .throw .typeError
        else match Xattrs.asXattrs C.env m C.pre with
          | .error e => .throw e
          | .ok xs => .bind (C.setxattrs q xs) fun _ => .pure none
    else if memoryOnly then .pure (some m)
    else .throw .typeError

end Verif.Cache
