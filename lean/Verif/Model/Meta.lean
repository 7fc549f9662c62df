import Verif.Model.Time
import Verif.Model.FileSize

/-!
# The metadata object `PathMeta` (`augpathlib/meta.py` lines 26-173)

Values are dynamically typed (`PyVal`), the seventeen attributes are enumerated by `Field`.
-/

namespace Verif

/-- The attributes of `PathMeta` (meta.py 38-55), in the order of the constructor. -/
inductive Field where
  | name | size | created | updated | checksum | checksum_cypher | etag | chunksize | multi
  | parent_id | id | file_id | old_id | gid | user_id | mode | errors
  deriving DecidableEq, Repr, Inhabited

/-- Constructor order (meta.py 38-55); the same tuple as `_PathMetaAsXattrs.fields` (466-482). -/
def Field.all : List Field :=
  [.name, .size, .created, .updated, .checksum, .checksum_cypher, .etag, .chunksize, .multi,
   .parent_id, .id, .file_id, .old_id, .gid, .user_id, .mode, .errors]

/-- The python name of an attribute. -/
def Field.toStr : Field → Str
  | .name => lit "name" | .size => lit "size" | .created => lit "created"
  | .updated => lit "updated" | .checksum => lit "checksum"
  | .checksum_cypher => lit "checksum_cypher" | .etag => lit "etag"
  | .chunksize => lit "chunksize" | .multi => lit "multi" | .parent_id => lit "parent_id"
  | .id => lit "id" | .file_id => lit "file_id" | .old_id => lit "old_id" | .gid => lit "gid"
  | .user_id => lit "user_id" | .mode => lit "mode" | .errors => lit "errors"

/-- The attribute with a given python name. -/
def Field.ofStr? (s : Str) : Option Field := Field.all.find? fun f => f.toStr == s

/-- The python values that occur in metadata.  `etag` is the pair `(digest, count)`, `strs` a tuple
or list of strings. -/
inductive PyVal where
  | none
  | str (s : Str)
  | int (i : Int)
  | bytes (b : Bytes)
  | etag (b : Bytes) (count : Int)
  | strs (l : List Str)
  | dt (d : DateTime)
  deriving DecidableEq, Repr, Inhabited

/-- `bool(value)` -/
def PyVal.truthy : PyVal → Bool
  | .none => false
  | .str s => s ≠ []
  | .int i => i ≠ 0
  | .bytes b => b ≠ []
  | .etag _ _ => true
  | .strs l => l ≠ []
  | .dt _ => true

/-- `hasattr(value, '__iter__') and not value` (meta.py 546, 564). -/
def PyVal.emptyIterable : PyVal → Bool
  | .str s => s = []
  | .bytes b => b = []
  | .strs l => l = []
  | _ => false

/-- What the code takes from its environment: `dateutil.parser.parse`, the legacy binary timestamps
(`datetime.fromtimestamp(struct.unpack('d', b))`, which depends on the local time zone) and `str(x)`
of values other than strings and integers. -/
structure Env where
  dateparse : Str → Except PyErr PyVal
  legacyTime : Bytes → Except PyErr PyVal
  repr : PyVal → Str

/-- `str(value)` -/
def pyStr (env : Env) : PyVal → Str
  | .str s => s
  | .int i => intStr i
  | v => env.repr v

/-- The two python attributes behind a timestamp: `_created_ok` (absent until known or parsed) and
`_created` (the raw value, `None` if the constructor was given a parsed one). -/
structure Slot where
  ok : Option PyVal
  raw : PyVal
  deriving DecidableEq, Repr, Inhabited

/-- A `PathMeta` instance: the plain attributes, the two timestamp slots, and the mapping of
unexpected keyword arguments (`_PathMeta__kwargs`, absent when empty).  `plain` is not consulted for
`created` and `updated`. -/
structure PathMeta where
  plain : Field → PyVal
  created : Slot
  updated : Slot
  kwargs : List (Str × PyVal)

/-- Metadata as its users see it: the value of every attribute. -/
abbrev Meta := Field → PyVal

/-- The last binding of a key, as in a python dict built from left to right. -/
def dictGet {α β : Type} [DecidableEq α] (k : α) : List (α × β) → Option β
  | [] => none
  | (k', v) :: l => match dictGet k l with
    | some w => some w
    | none => if k' = k then some v else none

/-- meta.py 60-70: which of the two attributes of a timestamp the constructor sets. -/
def mkSlot : PyVal → Slot
  | .none => ⟨some .none, .none⟩
  | .int i => ⟨some (.int i), .none⟩
  | .dt d => ⟨some (.dt d), .none⟩
  | v => ⟨.none, v⟩

/-- `FileSize(size)` (meta.py 79; an `int` subclass). -/
def mkSize : PyVal → Except PyErr PyVal
  | .none => .ok .none
  | .int i => .ok (.int i)
  | .str s => match pyInt s with
    | some i => .ok (.int i)
    | .none => .error .valueError
  | .bytes b => match pyIntBytes b with
    | some i => .ok (.int i)
    | .none => .error .valueError
  | _ => .error .typeError

/-- `tuple(errors) if errors else tuple()` (meta.py 94).  Simplified: only tuples and lists of
strings, strings and falsy values are accepted, everything else is a `TypeError`. -/
def mkErrors : PyVal → Except PyErr PyVal
  | .strs l => .ok (.strs l)
  | .str s => .ok (.strs (s.map fun c => [c]))
  | v => if v.truthy then .error .typeError else .ok (.strs [])

/-- `PathMeta.__init__` (meta.py 38-97) applied to keyword arguments. -/
def mkMeta (kwargs : List (Str × PyVal)) : Except PyErr PathMeta :=
  let arg (f : Field) : PyVal := (dictGet f.toStr kwargs).getD .none
  -- a keyword argument called self collides with the positional one
  if (dictGet (lit "self") kwargs).isSome then .error .typeError
  -- line 57: falsy, not None and not equal to 0
  else if !(arg .file_id).truthy ∧ arg .file_id ≠ .none ∧ arg .file_id ≠ .int 0 then
    .error .typeError
  else
    match arg .id with
    | .none | .str _ =>
      match mkSize (arg .size), mkErrors (arg .errors) with
      | .ok size, .ok errors =>
        .ok {
          plain := fun f => if f = .size then size else if f = .errors then errors else arg f
          created := mkSlot (arg .created)
          updated := mkSlot (arg .updated)
          kwargs := kwargs.filter fun kv => (Field.ofStr? kv.1).isNone }
      | .error e, _ => .error e
      | _, .error e => .error e
    | _ => .error .typeError

/-- Reading a timestamp property (meta.py 104-116): parse lazily.  `dateparser.parse` decodes bytes first; for
something that is neither text nor bytes it raises `TypeError`. -/
def Slot.get (env : Env) (s : Slot) : Except PyErr PyVal :=
  match s.ok with
  | some v => .ok v
  | .none => match s.raw with
    | .str t => env.dateparse t
    | .bytes b => match utf8? b with
      | some t => env.dateparse t
      | .none => .error .valueError
    | _ => .error .typeError

/-- The slot after the property was read successfully. -/
def Slot.force (env : Env) (s : Slot) : Slot :=
  match s.ok, s.get env with
  | .none, .ok v => { s with ok := some v }
  | _, _ => s

/-- `getattr(meta, field)` -/
def PathMeta.get (env : Env) (m : PathMeta) : Field → Except PyErr PyVal
  | .created => m.created.get env
  | .updated => m.updated.get env
  | f => .ok (m.plain f)

/-- An object shows metadata `v` if reading every attribute gives the value in `v`. -/
def PathMeta.Shows (env : Env) (m : PathMeta) (v : Meta) : Prop := ∀ f, m.get env f = .ok (v f)

/-- The encoder methods of `_EncodeByField` (meta.py 814-862) on a value that is not a string.
`AttributeError` inside a method or a missing method becomes `UnhandledTypeError`. -/
def strEncode (env : Env) (f : Field) (v : PyVal) : Except PyErr PyVal :=
  match v with
  | .str s => .ok (.str s)
  | v =>
    match f with
    | .name | .mode | .old_id | .checksum_cypher => .error .unhandledTypeError
    | .created | .updated => match v with
      | .dt d => .ok (.str (isoformat d))
      | _ => .error .typeError
    | .errors => match v with
      | .strs l => .ok (.str (joinC ';' l))
      | _ => .error .typeError
    | .id => .error .typeError
    | .checksum => .ok v
    | .etag => match v with
      | .etag b i => .ok (.str (hex b ++ '-' :: intStr i))
      | .bytes (_ :: _) | .strs (_ :: _) => .error .unhandledTypeError
      | .bytes [] | .strs [] => .error .indexError
      | _ => .error .typeError
    | .size | .chunksize | .multi | .parent_id | .file_id | .gid | .user_id => .ok (.str (pyStr env v))

end Verif
