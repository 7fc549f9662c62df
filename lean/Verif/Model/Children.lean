import Verif.Model.Graph

/-!
# The children of a cache

`PrimaryCache.children` and `rchildren` (`augpathlib/caches.py` lines 1435-1459), which ask the remote for its children and make a cache
from each of them, on the objects of `Model/Graph`; and what `SshRemote.children` gives (`augpathlib/remotes.py` lines 965-988).

Simplified: all of the generator is consumed; where a child belongs relative to the cache (`_parts_relative_to`) and what becomes of the
update of its metadata are given with the child.
-/

namespace Verif.Graph

/-- A child as the remote lists it: the remote object, where it belongs relative to the cache, and what becomes of the update. -/
structure Listed where
  remote : Nat
  rel : Loc
  updated : Updated

/-- The loops (caches.py 1442-1444 and 1451-1459): the caches that are yielded, and the exception that ends it. -/
def childrenLoop (p : Loc) : List Listed → Heap → List Nat × Option PyErr × Heap
  | [], h => ([], none, h)
  | k :: ks, h => match makeChild h (p ++ k.rel) k.remote k.updated with
    | (.error e, h) => ([], some e, h)
    | (.ok c, h) => let r := childrenLoop p ks h; (c :: r.1, r.2)

/-- What the attribute `children` of a remote is. -/
inductive Kids where
  | remotes (l : List Listed)
  /-- a pair of two dicts (remotes.py 988) -/
  | dicts
  | none
  /-- asking for it raises -/
  | error (e : PyErr)

/-- `cache.children` (caches.py 1435-1444).  `cache / x` for something that is neither a remote nor a text is a `TypeError`
(caches.py 265-266), and `None` is no iterable. -/
def children (p : Loc) (kids : Kids) (h : Heap) : List Nat × Option PyErr × Heap :=
  match kids with
  | .remotes l => childrenLoop p l h
  | .dicts => ([], some .typeError, h)
  | .none => ([], some .typeError, h)
  | .error e => ([], some e, h)

/-- `SshRemote.children` (remotes.py 965-988), for a listing that can be parsed or not (see `Model/Remote`) -/
def sshChildren (isDir : Bool) (parsed : Except PyErr Unit) : Kids :=
  if isDir then match parsed with
    | .ok _ => .dicts
    | .error e => .error e
  else .none

end Verif.Graph
