import Verif.Model.Symlink

/-!
# Vocabulary for the versions of the symlink format
-/

namespace Verif.Symlink
open Verif

/-- The number in each version tag. -/
def numbered : List (Str × Int) :=
  [(lit "mdv1", 1), (lit "mdv2", 2), (lit "mdv3", 3), (lit "mdv4", 4), (lit "mdv5", 5), (lit "mdv6", 6)]

/-- The text of the column of field `f`, if the version lists it and the link has that many. -/
def columnOf (ord : List Field) (cols : List Str) (f : Field) : Option Str :=
  ((ord.zip cols).find? fun p => p.1 = f).map (·.2)

/-- The value a field was given: for timestamps the text that is parsed on first use. -/
def given (o : PathMeta) : Field → PyVal
  | .created => o.created.ok.getD o.created.raw
  | .updated => o.updated.ok.getD o.updated.raw
  | f => o.plain f

/-- An unset field. -/
def unset : Field → PyVal
  | .errors => .strs []
  | _ => .none

/-- A decoded column; the placeholder leaves the field unset. -/
def orUnset (f : Field) : PyVal → PyVal
  | .none => unset f
  | v => v

/-- A column put behind another one. -/
def after (a b : Field) : List Field → List Field
  | [] => []
  | f :: fs => if f = a then f :: b :: fs else f :: after a b fs

/-- The columns of the format, told as its history: what each version added to the one before it. -/
def history : Nat → List Field
  | 0 => [.file_id, .size, .created, .updated, .checksum, .old_id, .gid, .user_id, .mode, .errors]
  | n + 1 => match n + 1 with
    | 1 => after .checksum .chunksize (history n)
    | 2 => after .checksum .etag (history n)
    | 3 => after .mode .name (after .chunksize .parent_id (history n))
    | 4 => after .checksum .checksum_cypher (history n)
    | 6 => after .chunksize .multi (history n)
    | _ => history n

/-- What a character in a text column stands for: `|` stands for the slash that cannot be in a component (in names, which
have none, for a full stop), and since version 5 `!` stands for the full stop that separates columns. -/
def standsFor (n : Int) (f : Field) (c : Char) : Char :=
  if c = '|' then (if f = .name then '.' else '/') else if c = '!' ∧ 5 ≤ n then '.' else c

end Verif.Symlink
