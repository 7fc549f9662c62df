import Verif.Model.Ssh
import Verif.Model.Symlink
import Verif.Model.Relative

/-!
# Where the paths of an ssh remote are put locally

`augpathlib/remotes.py` lines 632-806: an `SshRemote` is a pure path, which is absolute or relative to the anchor of the class.
`CachePath.__truediv__` and `_make_child` (`augpathlib/caches.py` lines 233-347) join its parts relative to the anchor to the local
anchor.  Simplified: the local anchor is an absolute path.
-/

namespace Verif.Ssh
open Verif.Symlink

/-- The class attributes that `init` binds. -/
structure Bound where
  host : Str
  anchor : Pure
  deriving DecidableEq

/-- `SshRemote.init` (remotes.py 669-700): `ValueError` without a colon.  The session is left out. -/
def init (hostPath : Str) : Except PyErr Bound :=
  match splitColon hostPath with
  | none => .error .valueError
  | some (h, p) => .ok ⟨h, parse p⟩

/-- `SshRemote(arg)` (remotes.py 632-657) -/
def Bound.new (S : Bound) (arg : Str) : Pure := parse (newPath S.host arg)

/-- `rpath` (remotes.py 753-780) before python 3.12 -/
def Bound.rpath (S : Bound) (p : Pure) : Str := (S.anchor.join p).str

/-- `id` (remotes.py 743-746) -/
def Bound.id (S : Bound) (p : Pure) : Str := sshId S.host (S.rpath p)

/-- `pathlib`'s `a.relative_to(b).parts` -/
def pureRelative (a b : Pure) : Except PyErr (List Str) :=
  if a.root = b.root then FS.relativeTo a.comps b.comps else .error .valueError

/-- `_parts_relative_to` before python 3.12 (remotes.py 783-792).  Remotes are compared by their ids. -/
def Bound.partsOld (S : Bound) (p remote : Pure) : Except PyErr (List Str) :=
  if S.id remote = S.id S.anchor then pureRelative p (ofParts S.anchor.parts) else pureRelative p remote

/-- `parent` (remotes.py 726-741), without the caches -/
def Bound.parent (_ : Bound) (p : Pure) : Pure := if p.parent.str = p.str then p else p.parent

/-- The path of `cache / remote` for the local anchor before python 3.12 (caches.py 233-253 and 322-347). -/
def Bound.place (S : Bound) (base p : Pure) : Except PyErr Pure :=
  match S.partsOld p S.anchor with
  | .error e => .error e
  | .ok r => .ok (base.join (ofParts r))

/-! ## Python 3.12

`init` binds the whole text `host:path` as the class attribute `root` (remotes.py 675), which hides the property `root` of pure paths.
From python 3.12 on `str` uses that property, so it uses the text instead. -/

/-- What `init` binds from python 3.12 on: the two texts (remotes.py 669-700). -/
structure Texts where
  host : Str
  path : Str
  deriving DecidableEq

/-- The class attribute `root` (remotes.py 675) -/
def Texts.root (T : Texts) : Str := sshId T.host T.path

/-- The root that instances are given (remotes.py 651): `root.split('/', 1)[0] + '/'`. -/
def Texts.slash (T : Texts) : Str := T.root.takeWhile (· ≠ '/') ++ ['/']

/-- A remote: the arguments it keeps (`_raw_paths`) and its attribute `root`. -/
structure Rem where
  raw : List Str
  root : Str
  deriving DecidableEq

/-- `os.path.join` -/
def posixJoin : List Str → Str
  | [] => []
  | a :: l => l.foldl (fun a b =>
      if b.head? = some '/' then b else if a = [] ∨ a.getLast? = some '/' then a ++ b else a ++ '/' :: b) a

/-- The path that the kept arguments are, as `pathlib.PurePath(remote)` has it. -/
def Rem.pure (o : Rem) : Pure := parse (posixJoin o.raw)

/-- `as_posix`: the attribute `root` and the components. -/
def Rem.str (o : Rem) : Str := o.root ++ joinC '/' o.pure.comps

/-- The root of a remote made with these arguments (remotes.py 646-651) -/
def Texts.rootOf (T : Texts) (raw : List Str) : Str := if raw.getLast?.any (·.head? = some '/') then T.slash else T.root

/-- `SshRemote(arg)` for a text (remotes.py 632-653) -/
def Texts.new (T : Texts) (arg : Str) : Rem := ⟨[newPath T.host arg], T.rootOf [newPath T.host arg]⟩

/-- The attribute `_anchor` (remotes.py 680-682); `__new__` of the class is not used. -/
def Texts.anchor (T : Texts) : Rem := ⟨[T.path], T.root⟩

/-- `self.anchor / self`: `__new__` sees the arguments of both (remotes.py 646-651), then `__init__` replaces those of the first by its
text (remotes.py 710-714 and 233-240). -/
def Texts.joined (T : Texts) (o : Rem) : Rem := ⟨T.anchor.str :: o.raw, T.rootOf (T.anchor.raw ++ o.raw)⟩

/-- `rpath` (remotes.py 753-780) -/
def Texts.rpath (T : Texts) (o : Rem) : Except PyErr Str :=
  if o.root = T.anchor.root ∧ o.raw = T.anchor.raw then
    match splitColon o.root with
    | none => .error .valueError
    | some (_, p) => .ok p
  else match splitColon (T.joined o).str with
    | none => .error .valueError
    | some (_, p) => .ok p

/-- `id` (remotes.py 743-746) -/
def Texts.id (T : Texts) (o : Rem) : Except PyErr Str :=
  match T.rpath o with
  | .error e => .error e
  | .ok p => .ok (sshId T.host p)

/-- `_parts_relative_to` (remotes.py 794-806) -/
def Texts.parts (T : Texts) (o remote : Rem) : Except PyErr (List Str) :=
  match T.rpath o, T.rpath remote with
  | .error e, _ => .error e
  | _, .error e => .error e
  | .ok p, .ok q => pureRelative (parse p) (parse q)

/-- `parent` (remotes.py 726-741), without the caches.  The parent of a path without components is the path itself. -/
def Texts.parent (T : Texts) (o : Rem) : Rem :=
  if o.pure.parent.str = o.str then o
  else
    let raw := if o.pure.comps = [] then o.raw else [o.pure.root ++ joinC '/' o.pure.comps.dropLast]
    ⟨raw, T.rootOf raw⟩

/-- The path of `cache / remote` for the local anchor (caches.py 233-253 and 279-312), whose remote is made from its id (caches.py 672).
`_parse_path` has to be given a text, so there is a `TypeError` without parts. -/
def Texts.place (T : Texts) (base : Pure) (o : Rem) : Except PyErr Pure :=
  match T.parts o (T.new T.root) with
  | .error e => .error e
  | .ok [] => .error .typeError
  | .ok r => .ok ⟨base.root, base.comps ++ (parse (joinC '/' r)).comps⟩

end Verif.Ssh
