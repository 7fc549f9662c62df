import Verif.Model.Basic

/-!
# Specification vocabulary for file content
-/

namespace Verif.Spec

/-- Python index normalisation: a negative index counts from the end. -/
def normIndex (len : Nat) (i : Int) : Nat := if i < 0 then (len + i).toNat else i.toNat

/-- Python slice `content[start:stop]`, `none` for an open end. -/
def slice (content : Bytes) (start : Int) (stop : Option Int) : Bytes :=
  let s := normIndex content.length start
  match stop with
  | none => content.drop s
  | some e => (content.drop s).take (normIndex content.length e - s)

/-- A range a caller may ask for: inside the file on the left, not reversed, and not mixing an index
counted from the end with one counted from the start. -/
def ValidRange (content : Bytes) (start : Int) (stop : Option Int) : Prop :=
  0 ≤ content.length + start ∧
  match stop with
  | none => True
  | some e => start ≤ e ∧ (start < 0 → e < 0)

end Verif.Spec
