import Verif.Model.Basic

/-!
# Anchoring (`augpathlib/caches.py` lines 65-88, `augpathlib/remotes.py` lines 67-95 and 198-213)

The class level state of one cache class and its remote class: `_anchor` in the namespace of the
abstract cache class, `_cache_anchor`, `_api` and `root` of the remote class.

`split` says that the instances belong to a subclass of the abstract class: always before python 3.12 (`...Posix`), and from
3.12 on for classes with extended attributes (`core.py` lines 933-941: `EatCache`, `SshCache`), for which every new path makes
a class of its own; instances of other caches belong to the class itself then.
-/

namespace Verif.Anchor

abbrev Id := Str

/-- A cache path, with its id. -/
structure Cache where
  path : List Str
  id : Id
  deriving DecidableEq

/-- The state of the two classes. -/
structure St where
  /-- `_anchor` of the cache class -/
  cache : Option Cache
  /-- `_cache_anchor` of the remote class -/
  remote : Option Cache
  /-- `root` of the remote class, there as soon as `_api` is -/
  root : Option Id
  /-- `_remote_root` of the remote class -/
  remoteRoot : Option Id
  deriving DecidableEq

/-- What the outside does during an attempt. -/
structure World where
  /-- the root id of the api for an id; `none` if making the api fails -/
  api : Id → Option Id
  /-- whether the local data directory can be made -/
  dataDir : Bool

/-- `RemotePath.anchorToCache` (remotes.py 77-95), with `init` (remotes.py 67-75).  The state after
an attempt that raises is part of the answer. -/
def anchorToCache (w : World) (c : Cache) (init : Bool) (s : St) : Except PyErr Unit × St :=
  match s.remote with
  | some _ => (.error .valueError, s)
  | none =>
    let bound : Except PyErr Unit × St :=
      if init && s.root.isNone then
        match w.api c.id with
        | none => (.error .foreign, s)
        | some r => (.ok (), { s with root := some r })
      else (.ok (), s)
    match bound with
    | (.error e, s) => (.error e, s)
    | (.ok _, s) =>
      match s.root with
      | none => (.ok (), { s with remote := some c })
      | some r =>
        if r ≠ c.id && s.remoteRoot ≠ some c.id then (.error .valueError, s)
        else (.ok (), { s with remote := some c })

/-- `anchorClassHere` (caches.py 75-88).  The test looks into the namespace of the class of the
instance, the assignment goes to the abstract class. -/
def anchorClassHere (split : Bool) (w : World) (c : Cache) (init : Bool) (s : St) : Except PyErr Unit × St :=
  if !split && s.cache.isSome then (.error .valueError, s)
  else
    let s := { s with cache := some c }
    if !w.dataDir then (.error .osError, s)
    else anchorToCache w c init s

/-- `_CachePath.weighAnchor` (caches.py 65-73) -/
def weighCache (s : St) : St := { s with cache := none }

/-- `RemotePath.weighAnchor` (remotes.py 198-213) -/
def weighRemote (s : St) : St := { s with remote := none }

/-- An operation of a program. -/
inductive Op where
  | anchor (w : World) (c : Cache) (init : Bool)
  | weighCache
  | weighRemote

def step (split : Bool) (s : St) : Op → Except PyErr Unit × St
  | .anchor w c init => anchorClassHere split w c init s
  | .weighCache => (.ok (), weighCache s)
  | .weighRemote => (.ok (), weighRemote s)

/-- A program that catches all exceptions: the results and the last state. -/
def run (split : Bool) (s : St) : List Op → List (Except PyErr Unit) × St
  | [] => ([], s)
  | o :: os =>
    let r := step split s o
    let rest := run split r.2 os
    (r.1 :: rest.1, rest.2)

end Verif.Anchor
