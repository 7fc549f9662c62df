import Verif.Model.Basic

/-!
# `CachePath.dedupe` (`augpathlib/caches.py` lines 687-737)

Simplified: timestamps are numbers (the instants that `datetime` objects compare by).  The call of
`_update_meta` at the end is for a log message only; it does not raise if the checksums are bytes
(`Model/Merge.lean`).
-/

namespace Verif.Dedupe

/-- What `dedupe` looks at in a cached path: `meta.id`, `meta.updated`, `meta.size` and
`local.meta.updated`. -/
structure Cand where
  path : List Str
  id : Str
  updated : Option Int
  localUpdated : Option Int
  size : Option Nat
  deriving DecidableEq

/-- `dedupe(self, other)`; `<` on a missing time raises `TypeError`. -/
def dedupe (self other : Cand) : Except PyErr Cand :=
  if self.id ≠ other.id then .error .valueError
  else match self.updated, other.updated with
    | some su, some ou =>
      if su < ou then .ok other
      else if ou < su then .ok self
      else match self.localUpdated, other.localUpdated with
        | none, none => .ok self
        | none, some _ => .ok other
        | some _, none => .ok self
        | some lsu, some lou =>
          if lsu < lou then .ok other
          else if lou < lsu then .ok self
          else match self.size, other.size with
            | some _, some _ => .ok self
            | none, _ => .ok other
            | some _, none => .ok self
    | _, _ => .error .typeError

end Verif.Dedupe
