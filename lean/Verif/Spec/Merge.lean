import Verif.Model.MetaObj

/-! # What it means to merge metadata -/

namespace Verif.Spec
open Verif

/-- The value carries information: it is not missing and not an empty text, bytes or tuple. -/
def Carries : PyVal → Prop
  | .none => False
  | .str s => s ≠ []
  | .bytes b => b ≠ []
  | .strs l => l ≠ []
  | _ => True

instance (v : PyVal) : Decidable (Carries v) := by
  cases v <;> simp only [Carries] <;> infer_instance

/-- Some field is set. -/
def SomethingSet (m : Meta) : Prop := (∃ f, f ≠ .errors ∧ m f ≠ .none) ∨ Carries (m .errors)

/-- The two sides disagree about a field that is set on both. -/
def Conflict (old new : Meta) (f : Field) : Prop :=
  old f ≠ .none ∧ Carries (new f) ∧ pyEq (old f) (new f) = false

/-- The fields whose change means that the file itself is another one. -/
def IsContentField (f : Field) : Prop :=
  f = .created ∨ f = .updated ∨ f = .size ∨ f = .checksum ∨ f = .file_id

/-- The file is recognised as different. -/
def FileDiffers (old new : Meta) : Prop := ∃ f, IsContentField f ∧ Conflict old new f

/-- New information wins, old information is kept. -/
def overlay (old new : Meta) (f : Field) : PyVal := if Carries (new f) then new f else old f

end Verif.Spec
