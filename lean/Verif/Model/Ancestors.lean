import Verif.Model.Relative

/-!
# Functions that look at the ancestors of a path

Sparse marks (`augpathlib/core.py` 943-965, `augpathlib/caches.py` 233-266 and 376-395), the cache root
(`core.py` 1127-1153) and the git working directory (`augpathlib/repo.py` 60-142).
-/

namespace Verif.FS

/-! ## Sparse marks -/

/-- The attribute value that `_mark_sparse` sets (core.py 965). -/
def sparseOne : Bytes := [0x31]

/-- `EatPath._sparse_root` (core.py 943-956).  `get` is `getxattr` with the sparse key, at a location;
`base` is the working directory for a relative path and `[]` for an absolute one.  A path is its own
parent exactly when it has no component (`/` and `.`). -/
def sparseRoot (get : Path → Except PyErr Bytes) (base p : Path) : Except PyErr (Option Bool) :=
  if h : p = [] then .ok none
  else match get (base ++ p) with
    | .ok v => .ok (some (decide (v = sparseOne)))
    | .error .noStreamError => sparseRoot get base (parentOf p)
    | .error e => .error e
termination_by p.length
decreasing_by
  simp only [parentOf, List.length_dropLast]
  have := List.length_pos_iff.2 h
  omega

/-- `EatPath.is_sparse` (core.py 958-959) -/
def isSparse (get : Path → Except PyErr Bytes) (base p : Path) : Except PyErr Bool :=
  match sparseRoot get base p with
  | .error e => .error e
  | .ok r => .ok r.isSome

/-- The sparse attribute of every location; `none` where it is not set.  -/
abbrev Marks := Path → Option Bytes

/-- `getxattr` of the sparse key on existing paths (core.py 306-314). -/
def getMark (m : Marks) (p : Path) : Except PyErr Bytes :=
  match m p with
  | some v => .ok v
  | none => .error .noStreamError

/-- `_mark_sparse` (core.py 964-965) -/
def markSparse (m : Marks) (d : Path) : Marks := fun p => if p = d then some sparseOne else m p

/-- `_clear_sparse` (core.py 961-962); `delxattr` ignores a missing attribute. -/
def clearSparse (m : Marks) (d : Path) : Marks := fun p => if p = d then none else m p

/-- What the cache of a path, of a class without extended attributes, meets when it looks for its sparse mark: the exception that
`self.parent` and that `self.parent.meta` raise, if they do; whether the marker file is there (`child.exists() or
child.is_broken_symlink()`); whether `child.cache` is an object or `None`; and what `exists()` of that object says. -/
structure MarkerEnv where
  parent : Path → Option PyErr
  parentMeta : Path → Option PyErr
  marker : Path → Except PyErr Bool
  cached : Path → Except PyErr Bool
  there : Path → Except PyErr Bool

/-- `self / self._sparse_marker` (`__truediv__`, caches.py 233-266) with `.exists()` of the result: the text is not appended as in
pathlib, the cache of the file is asked for, which is `None` if the file has no metadata. -/
def MarkerEnv.child (E : MarkerEnv) (p : Path) : Except PyErr Bool :=
  match E.marker p with
  | .error e => .error e
  | .ok false => .error .fileNotFoundError
  | .ok true => match E.cached p with
    | .error e => .error e
    | .ok false => .error .attributeError
    | .ok true => E.there p

/-- `_CachePath._sparse_root` (caches.py 376-377): `self != self.parent and (self / self._sparse_marker).exists()` -/
def MarkerEnv.sparseRoot (E : MarkerEnv) (p : Path) : Except PyErr (Option Bool) :=
  match E.parent p with
  | some e => .error e
  | none =>
    if p = parentOf p then .ok (some false)
    else match E.parentMeta p with
      | none | some .noCachedMetadataError => (E.child p).map some
      | some e => .error e

/-- `_CachePath.is_sparse` (caches.py 379-380) -/
def MarkerEnv.isSparse (E : MarkerEnv) (p : Path) : Except PyErr Bool :=
  match E.sparseRoot p with
  | .error e => .error e
  | .ok r => .ok r.isSome

/-- `_CachePath._mark_sparse` (caches.py 386-395) in an existing directory: `touch` leaves a marker that is there as it is, and makes
an empty file, which has no metadata, otherwise. -/
def MarkerEnv.mark (E : MarkerEnv) (d : Path) : MarkerEnv :=
  match E.marker d with
  | .ok true => E
  | _ => { E with
    marker := fun p => if p = d then .ok true else E.marker p
    cached := fun p => if p = d then .ok false else E.cached p }

/-- `_CachePath._clear_sparse` (caches.py 382-384): a marker that is not there is an error, unlike in `EatPath`. -/
def MarkerEnv.clear (E : MarkerEnv) (d : Path) : Except PyErr MarkerEnv :=
  match E.marker d with
  | .error e => .error e
  | .ok false => .error .fileNotFoundError
  | .ok true => .ok { E with marker := fun p => if p = d then .ok false else E.marker p }

/-! ## The cache root -/

/-- What evaluating `parent.cache` gives: an object, `None`, one of the two exceptions that
`find_cache_root` catches, or another exception. -/
inductive CacheAns where
  | has
  | hasNot
  | lost
  | raises (e : PyErr)
  deriving DecidableEq

/-- The way the search goes on after one parent. -/
inductive Search where
  | goOn (found : Option Path)
  | returned (r : Path)
  | raised (e : PyErr)
  deriving DecidableEq

/-- The body of the inner loop (core.py 1138-1149). -/
def searchStep (cache : Path → CacheAns) (fail : Bool) (found : Option Path) (parent : Path) : Search :=
  match cache parent with
  | .has => .goOn (some parent)
  | .hasNot => .goOn found
  | .raises e => .raised e
  | .lost =>
    if fail then .raised .noCachedMetadataError
    else match found with
      | some f => if f ≠ [] then .returned f else .goOn found
      | none => .goOn found

/-- The inner loop over `chain((variant,), variant.parents)` (core.py 1137-1149) with its `else`
(1151-1153). -/
def searchParents (cache : Path → CacheAns) (fail : Bool) (found : Option Path) (variant : Path) : Search :=
  match searchStep cache fail found variant with
  | .goOn found =>
    if h : variant = [] then
      match found with
      | some f => if f ≠ [] then .returned f else .goOn found
      | none => .goOn found
    else searchParents cache fail found (parentOf variant)
  | r => r
termination_by variant.length
decreasing_by
  simp only [parentOf, List.length_dropLast]
  have := List.length_pos_iff.2 h
  omega

/-- The loop over the spellings of the path (core.py 1136); the order of a python set is arbitrary, so
the variants are a parameter. -/
def searchVariants (cache : Path → CacheAns) (fail : Bool) : Option Path → List Path → Except PyErr (Option Path)
  | _, [] => .ok none
  | found, v :: vs => match searchParents cache fail found v with
    | .returned r => .ok (some r)
    | .raised e => .error e
    | .goOn found => searchVariants cache fail found vs

/-- `find_cache_root` (core.py 1127-1153) for an absolute path; `variants` are its distinct spellings
`self`, `self.absolute()`, `self.resolve()`. -/
def findCacheRoot (cache : Path → CacheAns) (broken : Path → Bool) (variants : Path → List Path)
    (fail : Bool) (p : Path) : Except PyErr (Option Path) :=
  if h : broken p = true ∧ p ≠ [] then findCacheRoot cache broken variants fail (parentOf p)
  else searchVariants cache fail none (variants p)
termination_by p.length
decreasing_by
  simp only [parentOf, List.length_dropLast]
  have := List.length_pos_iff.2 h.2
  omega

/-! ## The git working directory -/

/-- The name `.git`. -/
def dotgit : Name := ['.', 'g', 'i', 't']

/-- `working_dir` of an absolute path (repo.py 110-130); `ex p` is `(p / '.git').exists()`. -/
def workingDirAbs (ex : Path → Except PyErr Bool) (p : Path) : Except PyErr (Option Path) :=
  match ex p with
  | .error e => .error e
  | .ok true => .ok (some p)
  | .ok false =>
    if h : p = [] then .ok none
    else workingDirAbs ex (parentOf p)
termination_by p.length
decreasing_by
  simp only [parentOf, List.length_dropLast]
  have := List.length_pos_iff.2 h
  omega

/-- `working_dir` (repo.py 110-130) in a file system.  `absolute()` puts the working directory in
front; the parent of an absolute path is taken on its text.  A leading `~` is not modelled. -/
def workingDir (L : Limits) (t : Tree) (cwd : Path) (p : UserPath) : Except PyErr (Option Path) :=
  let ex := fun q => pathExists L t cwd ⟨true, q ++ [dotgit]⟩
  if p.absolute then workingDirAbs ex p.comps
  else match pathExists L t cwd ⟨false, p.comps ++ [dotgit]⟩ with
    | .error e => .error e
    | .ok true => .ok (some (cwd ++ p.comps))
    | .ok false => workingDirAbs ex (parentOf (cwd ++ p.comps))

/-- `path.absolute()` -/
def absolute (cwd : Path) (p : UserPath) : Path := if p.absolute then p.comps else cwd ++ p.comps

/-- `repo_relative_path` (repo.py 132-142).  `repo.working_dir` is the path the repository was opened
with (repo.py 100-106). -/
def repoRelativePath (L : Limits) (t : Tree) (cwd : Path) (p : UserPath) : Except PyErr (List Name) :=
  match workingDir L t cwd p with
  | .error e => .error e
  | .ok none => .error .gitError
  | .ok (some wd) => relativeTo (absolute cwd p) wd

/-- `init` (repo.py 60-96), as far as it decides and acts on disk: `opens wd` is whether GitPython can
open the repository there (a bogus `.git` makes it raise), `create` is `git init` or `git clone`, an
arbitrary partial function on file systems.  `cached` are the keys of the class attribute `_repos`. -/
def gitInit (L : Limits) (t : Tree) (cwd : Path) (cached : Path → Bool) (opens : Path → Bool)
    (create : Tree → UserPath → Except PyErr Tree) (p : UserPath) : Except PyErr Tree :=
  match workingDir L t cwd p with
  | .error e => .error e
  | .ok none => create t p
  | .ok (some wd) =>
    if !cached wd && !opens wd then .error .gitError
    else match pathExists L t cwd p with
      | .error e => .error e
      | .ok true => .error .repoExistsError
      | .ok false =>
        -- `assert repo.working_dir == self.as_posix()`; `self._repos.pop(self)` succeeds as
        -- `self.repo` has just put it there
        if p.absolute = true ∧ p.comps = wd then create t p else .error .assertionError

end Verif.FS
