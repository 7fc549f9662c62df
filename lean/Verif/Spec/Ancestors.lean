import Verif.Spec.FS
import Verif.Model.Ancestors

/-!
# Vocabulary for the properties about ancestors
-/

namespace Verif.Spec
open Verif Verif.FS

/-- The directory `d` carries the mark that makes its subtree sparse. -/
def Marked (m : Marks) (d : Path) : Prop := m d = some [0x31]

/-- `r` is the highest location among `p` and its ancestors with property `P`. -/
def Topmost (P : Path → Prop) (p r : Path) : Prop :=
  r <+: p ∧ P r ∧ ∀ q, q <+: r → q ≠ r → ¬P q

/-- `r` is the lowest location among `p` and its ancestors with property `P`. -/
def Nearest' (P : Path → Prop) (p r : Path) : Prop :=
  r <+: p ∧ P r ∧ ∀ q, r <+: q → q <+: p → q ≠ r → ¬P q

/-- There is something with the name `.git` in `d`. -/
def HasGit (L : Limits) (t : Tree) (d : Path) : Prop :=
  ∃ x, LeadsTo L t [] ⟨true, d ++ [lit ".git"]⟩ x

/-- Looking for `.git` in `d` is denied. -/
def GitRefused (L : Limits) (t : Tree) (d : Path) : Prop := Refused L t [] ⟨true, d ++ [lit ".git"]⟩

end Verif.Spec
