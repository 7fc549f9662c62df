import Verif.Model.Merge
import Verif.Model.Shape
import Verif.Model.Sweep

/-!
# What a recursive bootstrap goes through and yields

The end of `_bootstrap_recursive` (`augpathlib/caches.py` lines 470-472 and 495-533), `bootstrap` (lines 349-374) and
`RemotePath.cache_init` for a remote whose parents exist (`augpathlib/remotes.py` lines 291-293).

What is on disk is the metadata of every path below the anchor, with the timestamps parsed.  Simplified: the content of files is
left out (`_meta_updater` is modelled with it in `Model/Primary`), so that what a failed update of the metadata leaves at
the path is not fixed, and a cache is named by its path.
-/

namespace Verif.Yields
open Verif.Sweep

abbrev Id := Str

/-- A remote object below the one that is bootstrapped.  `link` is the path of `child.cache`, if it has one already. -/
structure Child where
  path : Rel
  id : Id
  shape : Shape
  wanted : Bool
  info : Meta
  link : Option Rel

/-- `child.is_dir()` -/
def Child.dir (c : Child) : Bool := c.shape = .dir

/-- `child.is_file()` -/
def Child.file (c : Child) : Bool := c.shape = .file

/-- The calls that fail, and what they leave at the path. -/
structure Env where
  F : Nat → Option PyErr
  left : Nat → Option Meta

/-- The metadata of the paths, and the number of updates so far. -/
structure St where
  disk : Rel → Option Meta
  tick : Nat

def St.put (s : St) (p : Rel) (m : Option Meta) : St := ⟨fun q => if q = p then m else s.disk q, s.tick + 1⟩

/-- `file_index = {f.cache_id:f for f in local_files}` (caches.py 472): the last file with an id wins. -/
def lookup (files : List (Rel × Option Id)) (i : Id) : Option Rel :=
  (files.reverse.find? fun f => f.2 = some i).map Prod.fst

/-- Put an object before the first one of a sorted list whose path is longer or as long. -/
def place (c : Child) : List Child → List Child
  | [] => [c]
  | d :: ds => if (posix d.path).length < (posix c.path).length then d :: place c ds else c :: d :: ds

/-- `sorted(rcs, key=lambda c: len(c.as_path().as_posix()))` (caches.py 504) -/
def byLength : List Child → List Child
  | [] => []
  | c :: cs => place c (byLength cs)

/-- `gen` (caches.py 495-504) -/
def gen (sparse : Bool) (rcs : List Child) : List Child :=
  if sparse then rcs.filter fun c => c.dir || (c.file && c.wanted) else byLength rcs

/-- `child.cache_init()`: `_cache_anchor / child`, which updates the metadata at the path (remotes.py 291-293, 328-341) -/
def Env.cacheInit (E : Env) (c : Child) (s : St) : Except PyErr Rel × St :=
  match updateMeta (s.disk c.path) (some c.info) with
  | .error e => (.error e, s)
  | .ok r => match E.F s.tick with
    | some e => (.error e, s.put c.path (E.left s.tick))
    | none => (.ok c.path, s.put c.path r.2)

/-- The old cache of a file that was moved, or a new one (caches.py 516-530) -/
def Env.moved (E : Env) (c : Child) (p : Rel) (s : St) : Except PyErr Rel × St :=
  match s.disk p with
  | none => (.error .attributeError, s)
  | some m => match updateMeta (some m) (some c.info) with
    | .error e => (.error e, s)
    | .ok r => if r.1 then E.cacheInit c s else (.ok p, s)

/-- One pass of the loop (caches.py 506-533): the cache that is yielded. -/
def Env.one (E : Env) (files : List (Rel × Option Id)) (c : Child) (s : St) : Except PyErr Rel × St :=
  match c.link with
  | some p => (.ok p, s)
  | none =>
    if c.file then
      match lookup files c.id with
      | some p => E.moved c p s
      | none => E.cacheInit c s
    else E.cacheInit c s

/-- The loop: what was yielded, and the exception that ended it. -/
def Env.loop (E : Env) (files : List (Rel × Option Id)) : List Child → St → List Rel × Option PyErr × St
  | [], s => ([], none, s)
  | c :: cs, s => match E.one files c s with
    | (.error e, s) => ([], some e, s)
    | (.ok p, s) => let r := E.loop files cs s; (p :: r.1, r.2)

/-- `_bootstrap_recursive` after the old directories were cleared away. -/
def Env.recursive (E : Env) (files : List (Rel × Option Id)) (sparse : Bool) (rcs : List Child) (s : St) : List Rel × Option PyErr × St :=
  E.loop files (gen sparse rcs) s

/-- The attributes that `bootstrap` sets and removes. -/
structure Attrs where
  inBootstrap : Bool
  info : Bool
  sparseRoot : Bool
  deriving DecidableEq

/-- `bootstrap` (caches.py 349-374).  `inner` is `list(self._bootstrap(...))` with the attributes that it leaves, `mark` is `_mark_sparse`.
The last part of the result says whether `_mark_sparse` was called. -/
def wrap {α : Type} (inner : Attrs → Except PyErr α × Attrs) (mark : Option PyErr) (a : Attrs) : Except PyErr α × Attrs × Bool :=
  let r := inner { a with inBootstrap := true }
  let b := { r.2 with inBootstrap := false, info := false }
  if b.sparseRoot then
    match mark with
    | some e => (.error e, b, true)
    | none => (r.1, { b with sparseRoot := false }, true)
  else (r.1, b, false)

end Verif.Yields
