import Verif.Model.Basic

/-!
# The classes of paths

Before python 3.12 a path belongs to a subclass of the class that was asked for, one for each kind of operating system:
`_bind_flavours`, `_get_flavours`, `_abstract_class` and `__new__` of `AugmentedPath` (`augpathlib/core.py` lines 342-423) and of
`SshRemote` (`augpathlib/remotes.py` lines 598-634), `RemotePath._new` and `init` (`augpathlib/remotes.py` lines 40-75), `weighAnchor`
of the caches (`augpathlib/caches.py` lines 65-73) and of the remotes (`augpathlib/remotes.py` lines 198-213).

Simplified: the helper classes have none of the attributes that matter here and are left out; classes are never collected; the private
attributes of `AugmentedPath` and those of `SshRemote`, which have different names, are not told apart, as no class has both.
-/

namespace Verif.Classes

/-- A class, numbered in the order in which they are made. -/
abbrev Cls := Nat

/-- `pathlib._posix_flavour` and `pathlib._windows_flavour` -/
inductive Flavour where
  | posix
  | windows
  deriving DecidableEq, Repr

/-- The attributes of classes. -/
inductive Slot where
  /-- `__abstractpath` -/
  | abstract_
  /-- `__posixpath` and `__windowspath` -/
  | of (f : Flavour)
  /-- `_local_class` -/
  | local_
  /-- `_cache_class` -/
  | cache
  /-- `_remote_class` -/
  | remote
  /-- `_anchor`, the value is a path -/
  | anchor
  /-- `_cache_anchor`, the value is a path -/
  | cacheAnchor
  /-- `_api`, the value is an api -/
  | api
  deriving DecidableEq, Repr

/-- A class: its bases, the order in which attributes are looked up (without the class itself, which comes first), the `_flavour` that
is found this way, which never changes, and its own attributes. -/
structure Class where
  bases : List Cls
  order : List Cls
  flavour : Option Flavour
  own : Slot → Option Nat

/-- All classes. -/
abbrev World := List Class

/-- An attribute in the `__dict__` of a class. -/
def World.own (w : World) (c : Cls) (a : Slot) : Option Nat := (w[c]?).bind (·.own a)

/-- `cls.attribute` -/
def World.get (w : World) (c : Cls) (a : Slot) : Option Nat :=
  match w[c]? with
  | none => none
  | some k => (c :: k.order).findSome? fun b => w.own b a

/-- `cls._flavour` -/
def World.flavour (w : World) (c : Cls) : Option Flavour := (w[c]?).bind (·.flavour)

/-- Assigning to an attribute of a class, or deleting it. -/
def World.set (w : World) (c : Cls) (a : Slot) (v : Option Nat) : World :=
  w.modify c fun k => { k with own := fun b => if b = a then v else k.own b }

/-- `cls.__subclasses__()`, the oldest first. -/
def World.subclasses (w : World) (c : Cls) : List Cls :=
  (List.range w.length).filter fun k => match w[k]? with | some k => k.bases.contains c | none => false

/-- `_get_flavours` (core.py 364-375, remotes.py 619-630) over the remaining subclasses. -/
def flavoursLoop (w : World) : List Cls → Option Cls × Option Cls → Except PyErr (Option Cls × Option Cls)
  | [], r => .ok r
  | k :: ks, (pos, win) =>
    match w.flavour k with
    | none => .error .attributeError
    | some .posix => flavoursLoop w ks (some k, win)
    | some .windows => flavoursLoop w ks (pos, some k)

def getFlavours (w : World) (c : Cls) : Except PyErr (Option Cls × Option Cls) := flavoursLoop w (w.subclasses c) (none, none)

/-- `type(name, (cls, AugmentedPathPosix), {})` and `type(name, (cls, AugmentedPathWindows), {})`: the flavour of the second base is
found only if `cls` has none. -/
def derive (w : World) (c : Cls) (f : Flavour) : Class :=
  ⟨[c], match w[c]? with | some k => c :: k.order | none => [], some ((w.flavour c).getD f), fun _ => none⟩

/-- A flavour that is there, or made now. -/
def ensure (w : World) (c : Cls) (f : Flavour) : Option Cls → Cls × World
  | some k => (k, w)
  | none => (w.length, w ++ [derive w c f])

/-- `_bind_flavours` (core.py 343-357, remotes.py 599-613) -/
def bind (w : World) (c : Cls) : Except PyErr Unit × World :=
  match getFlavours w c with
  | .error e => (.error e, w)
  | .ok (pos, win) =>
    let (pos, w) := ensure w c .posix pos
    let (win, w) := ensure w c .windows win
    (.ok (), ((w.set c .abstract_ (some c)).set c (.of .posix) (some pos)).set c (.of .windows) (some win))

/-- `AugmentedPath.__new__` (core.py 405-423): the class of the new path. -/
def newPath (os : Flavour) (w : World) (c : Cls) : Except PyErr Cls :=
  match w.get c .abstract_ with
  | none => .error .attributeError
  | some a =>
    match if c = a then w.get c (.of os) else some c with
    | none => .error .attributeError
    | some k =>
      match w.flavour k with
      | none => .error .attributeError
      | some f => if f = os then .ok k else .error .notImplementedError

/-- `SshRemote.__new__` (remotes.py 632-634): the class of the new remote. -/
def newRemote (os : Flavour) (w : World) (c : Cls) : Except PyErr Cls :=
  match w.flavour c with
  | some _ => .ok c
  | none => match w.get c (.of os) with
    | some k => .ok k
    | none => .error .attributeError

/-- `_CachePath.weighAnchor` (caches.py 65-73) -/
def weighCache (w : World) (c : Cls) : Except PyErr Unit × World :=
  match w.get c .abstract_ with
  | none => (.error .attributeError, w)
  | some a => (.ok (), w.set a .anchor none)

/-- `RemotePath.weighAnchor` (remotes.py 198-213).  An anchor that is inherited leads into the debugger, which is taken to end here. -/
def weighRemote (w : World) (r : Cls) : Except PyErr Unit × World :=
  match w.get r .cacheAnchor with
  | none => (.ok (), w)
  | some _ =>
    match w.own r .cacheAnchor with
    | some _ => (.ok (), w.set r .cacheAnchor none)
    | none => (.error .foreign, w)

/-- The class made by `_new` (remotes.py 52-55). -/
def fresh (w : World) (r l c : Cls) : Class :=
  ⟨[r], match w[r]? with | some k => r :: k.order | none => [], w.flavour r,
    fun a => if a = .local_ then some l else if a = .cache then some c else none⟩

/-- `RemotePath._new` (remotes.py 40-65) -/
def remoteNew (w : World) (r l c : Cls) : Except PyErr Cls × World :=
  let n := w.length
  let w := w ++ [fresh w r l c]
  let w := ((((w.set l .remote (some n)).set l .cache (some c)).set c .remote (some n)).set c .local_ (some l))
  match weighRemote w n with
  | (.error e, w) => (.error e, w)
  | (.ok _, w) =>
    match weighCache w c with
    | (.error e, w) => (.error e, w)
    | (.ok _, w) => (.ok n, w)

/-- `RemotePath.init` (remotes.py 67-75) with the api that is made. -/
def init (w : World) (r : Cls) (api : Nat) : Except PyErr Unit × World :=
  match w.get r .api with
  | some _ => (.error .valueError, w)
  | none => (.ok (), w.set r .api (some api))

/-- What a program does with classes. -/
inductive Op where
  /-- a `class` statement -/
  | define (bases order : List Cls) (flavour : Option Flavour)
  | bind (c : Cls)
  | remoteNew (r l c : Cls)
  | init (r : Cls) (api : Nat)
  /-- `_abstract_class()._anchor = path` (caches.py 83) -/
  | anchor (c : Cls) (path : Nat)
  | weighCache (c : Cls)
  | weighRemote (r : Cls)

/-- One operation. -/
def step (w : World) : Op → World
  | .define b o f => w ++ [⟨b, o, f, fun _ => none⟩]
  | .bind c => (bind w c).2
  | .remoteNew r l c => (remoteNew w r l c).2
  | .init r a => (init w r a).2
  | .anchor c p => match w.get c .abstract_ with | some a => w.set a .anchor (some p) | none => w
  | .weighCache c => (weighCache w c).2
  | .weighRemote r => (weighRemote w r).2

/-- A program. -/
def run (w : World) (ops : List Op) : World := ops.foldl step w

end Verif.Classes
