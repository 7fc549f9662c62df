import Verif.Model.Pep440

/-!
# Releases of a package

`PackagePath` (`augpathlib/package.py` lines 159-482): which version comes next, and which version the tags
of the repository stand for.

Parsing a version is that of `packaging`, the order of versions is the order of its keys; both are
outside of the repository, the parser is a parameter.
-/

namespace Verif.Pep440

/-! ## The order of `packaging.version.Version` -/

/-- Nothing compared with a release number. -/
def cmpZero : List Nat → Ordering
  | [] => .eq
  | m :: ms => (compare 0 m).then (cmpZero ms)

/-- Release numbers, trailing zeros do not count. -/
def cmpRel : List Nat → List Nat → Ordering
  | [], ms => cmpZero ms
  | n :: ns, [] => (compare n 0).then (cmpRel ns [])
  | n :: ns, m :: ms => (compare n m).then (cmpRel ns ms)

/-- The key of the pre-release part. -/
def preKey (v : Version) : Nat × Nat :=
  match v.pre, v.post, v.dev with
  | some (.a, n), _, _ => (1, n)
  | some (.b, n), _, _ => (2, n)
  | some (.rc, n), _, _ => (3, n)
  | none, none, some _ => (0, 0)
  | none, _, _ => (4, 0)

/-- Missing first. -/
def cmpPost : Option Nat → Option Nat → Ordering
  | none, none => .eq
  | none, some _ => .lt
  | some _, none => .gt
  | some m, some n => compare m n

/-- Missing last. -/
def cmpDev : Option Nat → Option Nat → Ordering
  | none, none => .eq
  | none, some _ => .gt
  | some _, none => .lt
  | some m, some n => compare m n

/-- Texts by their characters. -/
def cmpStr : Str → Str → Ordering
  | [], [] => .eq
  | [], _ :: _ => .lt
  | _ :: _, [] => .gt
  | a :: as, b :: bs => (compare a.toNat b.toNat).then (cmpStr as bs)

/-- A segment of the local label. -/
def cmpSeg : Seg → Seg → Ordering
  | .num m, .num n => compare m n
  | .num _, .text _ => .gt
  | .text _, .num _ => .lt
  | .text s, .text t => cmpStr s t

def cmpLabel : List Seg → List Seg → Ordering
  | [], [] => .eq
  | [], _ :: _ => .lt
  | _ :: _, [] => .gt
  | a :: as, b :: bs => (cmpSeg a b).then (cmpLabel as bs)

def cmpLoc : Option (List Seg) → Option (List Seg) → Ordering
  | none, none => .eq
  | none, some _ => .lt
  | some _, none => .gt
  | some l, some m => cmpLabel l m

/-- The comparison of the keys of two versions. -/
def cmp (v w : Version) : Ordering :=
  (compare v.epoch w.epoch).then <| (cmpRel v.release w.release).then <|
    (compare (preKey v).1 (preKey w).1).then <| (compare (preKey v).2 (preKey w).2).then <|
    (cmpPost v.post w.post).then <| (cmpDev v.dev w.dev).then <| cmpLoc v.loc w.loc

/-- `v < w` -/
def vlt (v w : Version) : Bool := cmp v w == .lt

/-- `v == w` -/
def veq (v w : Version) : Bool := cmp v w == .eq

/-- Put `v` before the first version of a sorted list that is not less. -/
def place (v : Version) : List Version → List Version
  | [] => [v]
  | w :: ws => if vlt w v then w :: place v ws else v :: w :: ws

/-- `sorted(vs)`, which is stable. -/
def sorted : List Version → List Version
  | [] => []
  | v :: vs => place v (sorted vs)

/-- The last of `sorted(vs)`; `none` models `IndexError`. -/
def latest (vs : List Version) : Option Version := (sorted vs).getLast?

/-! ## The package index -/

/-- The reply of the package index: `info.version` and the keys of `releases`. -/
structure Index where
  version : Str
  releases : List Str

/-- What happens when the version is to be determined: the replies to the first and the second request
(`none`: not ok, as for a package that was never released), and the version in the repository. -/
structure Sources where
  first : Option Index
  second : Option Index
  repo : Str

/-- The exceptions of this part. -/
inductive PErr where
  | invalidVersion
  | indexError
  | assertion
  | version (e : PyErr)
  deriving DecidableEq

/-- `version_latest_pypi` (package.py 250-253) -/
def latestPypi (parse : Str → Option Version) : Option Index → Except PErr (Option Version)
  | none => .ok none
  | some i => match parse i.version with
    | none => .error .invalidVersion
    | some v => .ok (some v)

/-- `version_latest_released` (package.py 257-263) -/
def latestReleased (parse : Str → Option Version) : Option Index → Except PErr (Option Version)
  | none => .ok none
  | some i => match i.releases.mapM parse with
    | none => .error .invalidVersion
    | some vs => match latest vs with
      | none => .error .indexError
      | some v => .ok (some v)

/-- `version_next` (package.py 286-296).  The reply is kept if it is ok (201-215), otherwise the request is
made again.  A version is never false, so that the last branch is not reached. -/
def versionNext (parse : Str → Option Version) (s : Sources) (next comp : Word) : Except PErr Version :=
  match latestPypi parse s.first with
  | .error e => .error e
  | .ok vlp =>
    match latestReleased parse (if s.first.isSome then s.first else s.second) with
    | .error e => .error e
    | .ok vlr =>
      let same := match vlp, vlr with
        | none, none => true
        | some v, some w => veq v w
        | _, _ => false
      if !same then .error .assertion
      else match vlp with
        | some v => match nextVersion v next comp with
          | .ok w => .ok w
          | .error e => .error (.version e)
        | none => match parse s.repo with
          | some v => .ok v
          | none => .error .invalidVersion

/-! ## Tags -/

/-- `a in b` for texts. -/
def within (a : Str) : Str → Bool
  | [] => a.isPrefixOf []
  | c :: cs => a.isPrefixOf (c :: cs) || within a cs

/-- `c in '0123456789'` -/
def isDigit (c : Char) : Bool := (lit "0123456789").contains c

/-- `tag_latest_github` (package.py 274-284).  `tags` are the names of the tags of the releases, newest first;
`none`: no reply. -/
def tagLatestGithub (prefixed : Bool) (name : Str) : Option (List Str) → Except PErr (Option Str)
  | none => .ok none
  | some tags =>
    if prefixed then .ok (tags.filter (within name)).head?
    else if tags.any List.isEmpty then .error .indexError
    else .ok (tags.filter fun t => t.head?.any isDigit).head?

/-- A tag without the prefix (package.py 267-270 and 328-330); a tag that is empty is false. -/
def tagVersion (parse : Str → Option Version) (prefixed : Bool) (name : Str) : Option Str → Except PErr (Option Version)
  | none => .ok none
  | some t =>
    if t.isEmpty then .ok none
    else match parse (t.drop (if prefixed then name.length + 1 else 0)) with
      | none => .error .invalidVersion
      | some v => .ok (some v)

/-- `version_latest_github` (package.py 266-271) -/
def versionLatestGithub (parse : Str → Option Version) (prefixed : Bool) (name : Str) (tags : Option (List Str)) :
    Except PErr (Option Version) :=
  match tagLatestGithub prefixed name tags with
  | .error e => .error e
  | .ok t => tagVersion parse prefixed name t

/-- `tag` (package.py 305-324): `git describe --abbrev=0 --tags --match=...`.  `tags` are the tags that can be reached
from the current commit, nearest first.  The patterns are `name-*` and `[0-9]*`; there are no special
characters in the names of packages. -/
def tagNearest (prefixed : Bool) (name : Str) (tags : List Str) : Option Str :=
  tags.find? fun t => if prefixed then (name ++ ['-']).isPrefixOf t else t.head?.any isDigit

/-- `version_tag` (package.py 327-331) -/
def versionTag (parse : Str → Option Version) (prefixed : Bool) (name : Str) (tags : List Str) : Except PErr (Option Version) :=
  tagVersion parse prefixed name (tagNearest prefixed name tags)

/-! ## The folder of a package -/

/-- `folder` (package.py 419-430) for an absolute path without `..`; `here` says that a path is a directory with an
entry `setup.py`. -/
def folderAt (here : List Str → Bool) (p : List Str) : Except PyErr (List Str) :=
  if here p then .ok p
  else if h : p.dropLast = p then .error .valueError
  else folderAt here p.dropLast
termination_by p.length
decreasing_by
  cases p with
  | nil => exact absurd rfl h
  | cons x xs => simp

/-- `folder` (package.py 419-430).  `resolve` gives the path without links and `..`. -/
def folder (here : List Str → Bool) (resolve : List Str → List Str) (absolute : Bool) (p : List Str) : Except PyErr (List Str) :=
  folderAt here (if !absolute || p.contains (lit "..") then resolve p else p)

end Verif.Pep440
