import Verif.Model.Crumple
import Verif.Model.Str

/-!
# Sweeping local directories that the remote does not have

The loop of `_bootstrap_recursive` (`augpathlib/caches.py` lines 470-493) and the order in which it goes through what the remote has
(lines 495-506).  What `refresh` does is not fixed: it changes a state `σ` that says which directories have a cache.
-/

namespace Verif.Sweep
open Verif.FS

/-- A path relative to the anchor. -/
abbrev Rel := List Name

/-- `d.as_posix()` -/
def posix (d : Rel) : Str := if d = [] then ['.'] else joinC '/' d

/-- What a run depends on. -/
structure World (σ : Type) where
  /-- `ad.cache is not None` (caches.py 486) -/
  cached : σ → Rel → Bool
  /-- `ad.cache.refresh()` (caches.py 489) -/
  refresh : σ → Rel → Except PyErr σ
  /-- `sorted(old_local, key=...)` (caches.py 483), where the order of a set is unknown -/
  arrange : List Rel → List Rel
  /-- the directories of the remote (caches.py 478-480) -/
  remote : List Rel

variable {σ : Type}

/-- What the loop works on: the state, `local_dirs`, and the directories that were refreshed, the last one first. -/
structure At (σ : Type) where
  state : σ
  dirs : List Rel
  done : List Rel

/-- `old_local`, which is always `local_dirs - rd` (caches.py 481 and 493). -/
def World.old (W : World σ) (dirs : List Rel) : List Rel := dirs.filter fun d => d ∉ W.remote

/-- `not ld.as_posix().startswith(d.as_posix())` (caches.py 491-492) -/
def keeps (d ld : Rel) : Bool := !(posix d).isPrefixOf (posix ld)

/-- The `for` loop (caches.py 484-493), with the exception that ends it; `continue` for a directory without a cache. -/
def World.pass (W : World σ) : List Rel → At σ → Option PyErr × At σ
  | [], a => (none, a)
  | d :: ds, a =>
    if W.cached a.state d then
      match W.refresh a.state d with
      | .error e => (some e, { a with done := d :: a.done })
      | .ok s => W.pass ds ⟨s, a.dirs.filter (keeps d), d :: a.done⟩
    else W.pass ds a

/-- How far a run has come. -/
inductive Run (σ : Type) where
  | running (a : At σ)
  | ended (a : At σ)
  | raised (e : PyErr) (a : At σ)

/-- `while old_local:` (caches.py 482-493), at most `fuel` times around. -/
def World.loop (W : World σ) : Nat → At σ → Run σ
  | 0, a => if W.old a.dirs = [] then .ended a else .running a
  | fuel + 1, a =>
    if W.old a.dirs = [] then .ended a
    else match W.pass (W.arrange (W.old a.dirs)) a with
      | (some e, a) => .raised e a
      | (none, a) => W.loop fuel a

/-- The loop for these local directories (caches.py 475-481) -/
def World.sweep (W : World σ) (fuel : Nat) (s : σ) (dirs : List Rel) : Run σ := W.loop fuel ⟨s, dirs, []⟩

/-- Put a path before the first one of a sorted list that is longer or as long. -/
def place (p : Rel) : List Rel → List Rel
  | [] => [p]
  | q :: qs => if (posix q).length < (posix p).length then q :: place p qs else p :: q :: qs

/-- `sorted(rcs, key=lambda c: len(c.as_path().as_posix()))` (caches.py 504) -/
def byLength : List Rel → List Rel
  | [] => []
  | p :: ps => place p (byLength ps)

end Verif.Sweep
