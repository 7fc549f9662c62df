import Verif.Model.Relative

/-!
# What a path with dot-dot components denotes
-/

namespace Verif.Spec
open Verif.FS

/-- The location reached from `cur` when no component is a symlink: `..` goes to the parent, any
other name goes down. -/
def goes : Path → List Name → Path
  | cur, [] => cur
  | cur, n :: rest => if n = ['.', '.'] then goes cur.dropLast rest else goes (cur ++ [n]) rest

/-- All components are proper names. -/
def Plain (p : Path) : Prop := ∀ n ∈ p, n ≠ ['.'] ∧ n ≠ ['.', '.']

end Verif.Spec
