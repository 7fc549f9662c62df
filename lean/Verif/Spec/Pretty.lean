import Verif.Model.Meta

/-!
# What a table of metadata shows
-/

namespace Verif.Spec
open Verif

/-- The fields in the order in which they are shown. -/
def tableOrder : List Field :=
  [.size, .created, .updated, .checksum, .checksum_cypher, .etag, .chunksize, .parent_id, .id,
   .file_id, .gid, .user_id, .mode, .name, .old_id, .multi, .errors]

/-- A field is set if it has a value other than nothing and the empty list. -/
def IsSet (v : PyVal) : Bool := v ≠ .none ∧ v ≠ .strs []

/-- How a value is written: numbers in decimal, bytes in hexadecimal, points in time in the format of
C14, an etag as its digest in hexadecimal, a dash and the count; a size for humans as in C67.  Texts
and lists of texts are shown as they are. -/
def written (human : Bool) (f : Field) : PyVal → PyVal
  | .int i => if f = .size ∧ human then .str (hr i) else .str (intStr i)
  | .bytes b => .str (hex b)
  | .dt d => .str (isoformat d)
  | .etag b n => .str (hex b ++ '-' :: intStr n)
  | v => v

end Verif.Spec
