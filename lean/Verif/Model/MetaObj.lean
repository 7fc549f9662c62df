import Verif.Model.Meta

/-!
# Methods of the metadata object (`augpathlib/meta.py` lines 118-173)
-/

namespace Verif

/-! ## Comparing values -/

/-- Days before January 1st of a year (CPython `_days_before_year`). -/
def daysBeforeYear (y : Nat) : Nat := (y - 1) * 365 + (y - 1) / 4 - (y - 1) / 100 + (y - 1) / 400

/-- Days before the first of a month in a year without February 29th. -/
def daysBeforeMonth : Nat → Nat
  | 2 => 31 | 3 => 59 | 4 => 90 | 5 => 120 | 6 => 151 | 7 => 181 | 8 => 212 | 9 => 243
  | 10 => 273 | 11 => 304 | 12 => 334 | _ => 0

/-- Leap years of the Gregorian calendar. -/
def isLeap (y : Nat) : Bool := y % 4 = 0 ∧ (y % 100 ≠ 0 ∨ y % 400 = 0)

/-- The wall clock reading as a number of microseconds (CPython `_ymd2ord` and the time of day). -/
def DateTime.wall (d : DateTime) : Nat :=
  let days := daysBeforeYear d.year + daysBeforeMonth d.month +
    (if 2 < d.month ∧ isLeap d.year then 1 else 0) + d.day
  (((days * 24 + d.hour) * 60 + d.minute) * 60 + d.second) * 1000000 + d.micro

/-- The point in time, in microseconds, of a datetime with zone. -/
def DateTime.instant (d : DateTime) (offset : Int) : Int := (d.wall : Int) - offset * 60000000

/-- `a == b` for python values.  Datetimes with zone are compared as points in time, naive ones by
their wall clock reading, a naive and an aware one are different. -/
def pyEq : PyVal → PyVal → Bool
  | .dt d, .dt e => match d.offset, e.offset with
    | some o, some p => d.instant o = e.instant p
    | none, none => d.wall = e.wall
    | _, _ => false
  | a, b => a = b

/-- `a < b` for python values: `TypeError` for values that are not comparable. -/
def pyLt : PyVal → PyVal → Except PyErr Bool
  | .dt d, .dt e => match d.offset, e.offset with
    | some o, some p => .ok (d.instant o < e.instant p)
    | none, none => .ok (d.wall < e.wall)
    | _, _ => .error .typeError
  | .int i, .int j => .ok (i < j)
  | _, _ => .error .typeError

/-! ## The instance dictionary -/

/-- The keys of `__dict__`. -/
inductive Key where
  | createdOk | updatedOk | createdRaw | updatedRaw
  | plain (f : Field)
  | kwargs
  deriving DecidableEq, Repr

/-- The values of `__dict__`: only the unexpected keyword arguments are a mapping. -/
inductive AttrVal where
  | val (v : PyVal)
  | dict (d : List (Str × PyVal))

/-- `a == b` on mappings: the same bindings. -/
def dictEq (a b : List (Str × PyVal)) : Bool :=
  (a.all fun kv => match dictGet kv.1 a, dictGet kv.1 b with
    | some v, some w => pyEq v w
    | _, _ => false) &&
  (b.all fun kv => (dictGet kv.1 a).isSome)

/-- `a == b` on attribute values. -/
def AttrVal.eq : AttrVal → AttrVal → Bool
  | .val a, .val b => pyEq a b
  | .dict a, .dict b => dictEq a b
  | _, _ => false

/-- The fields that are plain attributes, in the order in which the constructor sets them
(meta.py 78-94). -/
def plainFields : List Field :=
  [.name, .size, .checksum, .checksum_cypher, .etag, .chunksize, .multi, .parent_id, .id, .file_id,
   .old_id, .gid, .user_id, .mode, .errors]

/-- `getattr(obj, key)` for a key of some instance dictionary; `none` models `AttributeError`. -/
def PathMeta.attr (o : PathMeta) : Key → Option AttrVal
  | .createdOk => o.created.ok.map .val
  | .updatedOk => o.updated.ok.map .val
  | .createdRaw => some (.val o.created.raw)
  | .updatedRaw => some (.val o.updated.raw)
  | .plain f => some (.val (o.plain f))
  | .kwargs => if o.kwargs = [] then none else some (.dict o.kwargs)

/-- The keys of `__dict__` in insertion order: the parsed timestamps come first when the constructor
was given them, and last when they were parsed on first use (in which case their relative order,
which depends on the order of use, is simplified to created, updated). -/
def PathMeta.keys (o : PathMeta) : List Key :=
  (if o.created.ok.isSome ∧ o.created.raw = .none then [.createdOk] else []) ++
  (if o.updated.ok.isSome ∧ o.updated.raw = .none then [.updatedOk] else []) ++
  [.plain .name, .plain .size, .createdRaw, .updatedRaw] ++ (plainFields.drop 2).map .plain ++
  (if o.kwargs = [] then [] else [.kwargs]) ++
  (if o.created.ok.isSome ∧ o.created.raw ≠ .none then [.createdOk] else []) ++
  (if o.updated.ok.isSome ∧ o.updated.raw ≠ .none then [.updatedOk] else [])

/-- The loop of `__eq__` (meta.py 157-163) over the remaining keys. -/
def eqLoop (a b : PathMeta) : List Key → Except PyErr Bool
  | [] => .ok true
  | k :: ks =>
    match a.attr k, b.attr k with
    | _, none => .error .attributeError
    | none, some _ => .error .attributeError
    | some v, some w => if v.eq w then eqLoop a b ks else .ok false

/-- `a == b` (meta.py 157-163) for two metadata objects. -/
def PathMeta.eq (a b : PathMeta) : Except PyErr Bool := eqLoop a b a.keys

/-- `bool(meta)` (meta.py 165-173). -/
def PathMeta.bool (o : PathMeta) : Bool :=
  o.keys.any fun k => match o.attr k with
    | some (.val v) => if v = .none then false else if k = .plain .errors ∧ !v.truthy then false else true
    | some (.dict _) => true
    | none => false

/-- `content_different(self, other)` (meta.py 118-125). -/
def contentDifferent (env : Env) (a b : PathMeta) : Except PyErr Bool :=
  if (a.plain .checksum).truthy ∧ (b.plain .checksum).truthy then
    .ok (!pyEq (a.plain .checksum) (b.plain .checksum))
  else if !pyEq (a.plain .size) (b.plain .size) then .ok true
  else
    match a.get env .updated with
    | .error e => .error e
    | .ok u => match b.get env .updated with
      | .error e => .error e
      | .ok w => pyLt u w

/-! ## Mapping access -/

/-- `items()` (meta.py 127-129): the attributes that do not start with an underscore, then the two
timestamps. -/
def PathMeta.items (env : Env) (o : PathMeta) : Except PyErr (List (Str × PyVal)) :=
  match o.get env .created with
  | .error e => .error e
  | .ok c => match o.get env .updated with
    | .error e => .error e
    | .ok u => .ok (plainFields.map (fun f => (f.toStr, o.plain f)) ++
        [(Field.created.toStr, c), (Field.updated.toStr, u)])

/-- `__getitem__` (meta.py 141-145): the value is fetched and dropped, the method returns `None`.
Simplified: only field names are considered, so the `KeyError` branch is reached when a timestamp
property raises `AttributeError`, which it never does here. -/
def PathMeta.getItem (env : Env) (o : PathMeta) (f : Field) : Except PyErr PyVal :=
  match o.get env f with
  | .error .attributeError => .error .keyError
  | .error e => .error e
  | .ok _ => .ok .none

/-- `dict(meta)`: `keys()` gives the plain attributes (meta.py 138-139 and 147-148), each is looked
up with `__getitem__`. -/
def PathMeta.toDict (env : Env) (o : PathMeta) : List (Str × Except PyErr PyVal) :=
  plainFields.map fun f => (f.toStr, o.getItem env f)

end Verif
