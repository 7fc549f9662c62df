import Verif.Model.Merge
import Verif.Model.Str

/-!
# Refreshing a cache

`_CachePath.refresh` (`augpathlib/caches.py` lines 849-865) and the methods `refresh` of the remotes that are here
(`augpathlib/remotes.py` lines 427-436 and 808-810).

What is on disk and on the other side is a state `σ`; what the remote does with a request is not fixed.  The questions and calls that
change something are recorded.  Simplified: `breakpoint()` (caches.py 851) returns; a size limit is a number of megabytes or `None`.
-/

namespace Verif.Refresh

/-- The keyword arguments that a remote is asked with (caches.py 856-860). -/
structure Request where
  updateCache : Bool
  updateData : Bool
  updateDataOnCache : Bool
  sizeLimit : Option Int
  force : Bool
  deriving DecidableEq

/-- The names of the keyword arguments. -/
def keywords : List Str :=
  [lit "update_cache", lit "update_data", lit "update_data_on_cache", lit "size_limit_mb", lit "force"]

/-- What happens. -/
inductive Event where
  | asked (r : Request)
  | crumpled
  deriving DecidableEq

/-- What a run depends on. -/
structure World (σ ρ : Type) where
  /-- the size in the metadata of the cache, if there are metadata and if they have one, in bytes -/
  size : σ → Option (Option Nat)
  isFile : σ → Bool
  exists_ : σ → Bool
  /-- the keyword arguments of the method `refresh` of the remote, or `none` if the cache has no remote -/
  accepts : Option (List Str)
  /-- the body of the method: what it answers, `none` for `None`, and what it leaves -/
  run : Request → σ → Except PyErr (Option ρ) × σ
  /-- `crumple` (caches.py 151-169) -/
  crumple : σ → Except PyErr Unit × σ

variable {σ ρ : Type}

/-- The computation of `limit` (caches.py 853-855), in 1/1024 ** 2 megabytes; it is not used.  A limit of `None` cannot be compared. -/
def limit (size : Option Nat) (sizeLimit : Option Int) : Except PyErr (Option Int) :=
  match size with
  | none | some 0 => .ok (sizeLimit.map fun l => l * 1024 ^ 2)
  | some n => match sizeLimit with
    | none => .error .typeError
    | some l => if l * 1024 ^ 2 > n then .ok (some (l * 1024 ^ 2)) else .ok (some (n + 1024 ^ 2))

/-- `refresh` (caches.py 849-865) -/
def World.refresh (W : World σ ρ) (updateData : Bool) (sizeLimit : Option Int) (force : Bool) (s : σ) :
    Except PyErr (Option ρ) × List Event × σ :=
  match W.size s with
  | none => (.error .attributeError, [], s)
  | some size => match limit size sizeLimit with
    | .error e => (.error e, [], s)
    | .ok _ => match W.accepts with
      | none => (.error .attributeError, [], s)
      | some names =>
        let r : Request := ⟨true, updateData, W.isFile s && W.exists_ s, sizeLimit, force⟩
        if keywords.all fun k => names.contains k then
          match W.run r s with
          | (.error e, s) => (.error e, [.asked r], s)
          | (.ok (some new), s) => (.ok (some new), [.asked r], s)
          | (.ok none, s) => match W.crumple s with
            | (.error e, s) => (.error e, [.asked r, .crumpled], s)
            | (.ok _, s) => (.ok none, [.asked r, .crumpled], s)
        else (.error .typeError, [], s)

/-- The keyword arguments of `RemotePath.refresh` and `SshRemote.refresh` (remotes.py 427 and 808) -/
def remoteRefresh : List Str := []

end Verif.Refresh
