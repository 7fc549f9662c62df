import Verif.Model.Basic

/-! # What rounding and safe names mean -/

namespace Verif.Spec

/-- `q` is the integer nearest to `n / d`, the even one of the two if there is a tie. -/
def Nearest (q n d : Nat) : Prop :=
  2 * (q * d) ≤ 2 * n + d ∧ 2 * n ≤ 2 * (q * d) + d ∧
  (2 * (q * d) = 2 * n + d → q % 2 = 0) ∧ (2 * n = 2 * (q * d) + d → q % 2 = 0)

/-- The characters that may not occur in a name that is safe on common file systems. -/
def unsafeChars : List Char :=
  [' ', '\n', '\t', '*', '|', ':', '\\', '/', '<', '>', '\'', '"', '?']

/-- The unit letters of sizes: bytes, kibi, mebi, gibi, tebi, pebi, exbi, zebi. -/
def units : List (List Char) := [[], ['K'], ['M'], ['G'], ['T'], ['P'], ['E'], ['Z']]

end Verif.Spec
