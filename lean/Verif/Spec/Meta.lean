import Verif.Model.Meta

/-!
# Vocabulary for the metadata codecs

`HasType` says which values the library itself puts into each field.  `xattrReadBack` and
`symlinkReadBack` say, field by field, what storing a value and reading it back gives; a value
survives when the result is the value itself.
-/

namespace Verif.Spec
open Verif

/-- The values the library produces for a field. -/
def HasType : Field → PyVal → Prop
  | .errors, .strs _ => True
  | .errors, _ => False
  | _, .none => True
  | .created, .dt d | .updated, .dt d => d.Valid
  | .size, .int _ | .chunksize, .int _ | .multi, .int _ | .file_id, .int _ | .gid, .int _ => True
  | .user_id, .int _ | .user_id, .str _ => True
  | .checksum, .bytes _ => True
  | .etag, .etag _ n => 0 ≤ n
  | .name, .str _ | .checksum_cypher, .str _ | .parent_id, .str _ | .id, .str _ | .old_id, .str _
  | .mode, .str _ => True
  | _, _ => False

/-- Every field holds a value of its type. -/
def WellTyped (m : Meta) : Prop := ∀ f, HasType f (m f)

/-- The timestamp parser reads the timestamps that the library writes. -/
def ParsesIso (env : Env) : Prop := ∀ d : DateTime, d.Valid → env.dateparse (isoformat d) = .ok (.dt d)

/-- The non-empty pieces of a text between semicolons. -/
def pieces (s : Str) : List Str := (splitC ';' s).filter (· ≠ [])

/-- What comes back from extended attributes: empty texts and empty bytes are lost, a `user_id` that
reads as a number becomes that number, and error messages are cut at semicolons. -/
def xattrReadBack : Field → PyVal → PyVal
  | .user_id, .str s => match pyInt s with
    | some i => .int i
    | none => if s = [] then .none else .str s
  | _, .str s => if s = [] then .none else .str s
  | _, .bytes b => if b = [] then .none else .bytes b
  | _, .strs l => .strs (l.flatMap pieces)
  | _, v => v

/-- The values that survive being stored as an extended attribute. -/
def XattrStorable : Field → PyVal → Prop
  | .user_id, .str s => s ≠ [] ∧ pyInt s = none
  | _, .str s => s ≠ []
  | _, .bytes b => b ≠ []
  | _, .strs l => ∀ e ∈ l, e ≠ [] ∧ ';' ∉ e
  | _, _ => True

end Verif.Spec

namespace Verif.Spec
open Verif

/-- The values that survive being stored in a symlink. -/
def SymlinkStorable : Field → PyVal → Prop
  | .file_id, .int i => i ≠ 0
  | .name, .str s => s ≠ ['#'] ∧ '/' ∉ s ∧ '|' ∉ s ∧ '!' ∉ s
  | .id, .str s => s ≠ [] ∧ s ≠ ['#'] ∧ '|' ∉ s ∧ '!' ∉ s
  | .mode, .str s | .old_id, .str s | .parent_id, .str s => s ≠ ['#'] ∧ '|' ∉ s ∧ '!' ∉ s
  | .checksum_cypher, .str s => s ≠ ['#'] ∧ '/' ∉ s ∧ '.' ∉ s
  | .user_id, .str s => s ≠ ['#'] ∧ '/' ∉ s ∧ '.' ∉ s ∧ pyInt s = none
  | .errors, .strs l => l ≠ [['#']] ∧ ∀ e ∈ l, e ≠ [] ∧ ';' ∉ e ∧ '.' ∉ e ∧ '/' ∉ e
  | _, _ => True

/-- A name of a directory entry. -/
def IsName (n : Str) : Prop := n ≠ [] ∧ n ≠ ['.'] ∧ '/' ∉ n

/-- An attribute belongs to prefix `p` if its name is `p`, a dot, and more. -/
def Under (p : Str) (kv : Bytes × Bytes) : Bool :=
  match utf8? kv.1 with
  | some s => (p ++ ['.']).isPrefixOf s
  | none => false

end Verif.Spec
