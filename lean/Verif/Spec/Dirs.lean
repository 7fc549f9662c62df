import Verif.Model.Dirs
import Verif.Spec.FS

/-!
# Vocabulary for the working directory properties
-/

namespace Verif.Spec
open Verif Verif.FS

/-- `d` is the location of a directory: it and everything above it are directories with proper
names. -/
def IsLocation (t : Tree) (d : Path) : Prop :=
  (∀ e, e <+: d → ∃ s, t e = some (.dir s)) ∧ ∀ n ∈ d, n ≠ ['.'] ∧ n ≠ ['.', '.']

/-- Sequences in which every `pushd` has its `popd()`. -/
inductive Balanced : List DirOp → Prop
  | nil : Balanced []
  | wrap {a b} (p : UserPath) : Balanced a → Balanced b →
      Balanced (.pushd p :: (a ++ .popd 0 :: b))

/-- The object `o` is used by a `with` statement in the program. -/
def Uses (o : Nat) : Script → Prop
  | .act _ => False
  | .seq a b => Uses o a ∨ Uses o b
  | .block o' _ body => o' = o ∨ Uses o body

/-- The process can go to the location `d` by its absolute path: all directories on the way may be
searched, and the names fit. -/
def Reachable (L : Limits) (t : Tree) (d : Path) : Prop :=
  (∀ e, e <+: d → t e = some (.dir true)) ∧ ∀ n ∈ d, FitsName L n

end Verif.Spec
