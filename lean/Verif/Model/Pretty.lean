import Verif.Model.MetaObj

/-!
# Metadata as a table (`augpathlib/meta.py` lines 624-811)

The rows of the tables are modelled, the drawing of the table (`terminaltables3`) is not.
-/

namespace Verif.Pretty

/-- `_PathMetaAsPretty.fields` (meta.py 629-645): the order of the rows. -/
def order : List Field :=
  [.size, .created, .updated, .checksum, .checksum_cypher, .etag, .chunksize, .parent_id, .id,
   .file_id, .gid, .user_id, .mode, .name, .old_id, .multi, .errors]

/-- One row: the key and the text (or list of texts) beside it. -/
abbrev Row := Field × PyVal

/-- `_PathMetaAsPretty.encode` (meta.py 666-679).  `list(value)` for the errors is modelled for
tuples of texts and for texts only, everything else is a `TypeError`. -/
def encode (env : Env) (f : Field) (v : PyVal) : Except PyErr PyVal :=
  if f = .errors then
    match v with
    | .strs l => .ok (.strs l)
    | .str s => .ok (.strs (s.map fun c => [c]))
    | _ => .error .typeError
  else
    let v := match f, v with
      | .checksum, .bytes b => .str (hex b)
      | _, v => v
    match strEncode env f v with
    | .ok w => .ok w
    | .error .unhandledTypeError => .ok v
    | .error e => .error e

/-- The condition of the generator expression in `rows` (meta.py 693-695). -/
def kept (v : PyVal) : Bool := v ≠ .none ∧ v ≠ .strs []

/-- The value shown beside a key (meta.py 689-691).  Only the size is a `FileSize`. -/
def cell (env : Env) (human : Bool) (f : Field) (v : PyVal) : Except PyErr PyVal :=
  match f, v with
  | .size, .int i => if human then .ok (.str (hr i)) else encode env f v
  | _, _ => encode env f v

/-- The generator expression of `rows` over the remaining items. -/
def cells (env : Env) (human : Bool) : List (Field × PyVal) → Except PyErr (List Row)
  | [] => .ok []
  | (f, v) :: l =>
    if kept v then
      match cell env human f v with
      | .error e => .error e
      | .ok c => match cells env human l with
        | .error e => .error e
        | .ok rs => .ok ((f, c) :: rs)
    else cells env human l

/-- `meta.items()` (meta.py 127-129) with the fields in place of their names. -/
def items (env : Env) (o : PathMeta) : Except PyErr (List (Field × PyVal)) :=
  match o.get env .created with
  | .error e => .error e
  | .ok c => match o.get env .updated with
    | .error e => .error e
    | .ok u => .ok (plainFields.map (fun f => (f, o.plain f)) ++ [(.created, c), (.updated, u)])

/-- The comparison of the sort keys of two rows (meta.py 682-687).  Every key is in the list of fields
and no key occurs twice, so the position of the key decides. -/
def rowLe (a b : Row) : Bool := order.idxOf a.1 ≤ order.idxOf b.1

/-- `_PathMetaAsPretty.rows` (meta.py 681-696). -/
def rows (env : Env) (o : PathMeta) (human : Bool) : Except PyErr (List Row) :=
  match items env o with
  | .error e => .error e
  | .ok its => match cells env human its with
    | .error e => .error e
    | .ok rs => .ok (rs.mergeSort rowLe)

/-! ## The comparison of two objects -/

/-- An entry of `kind` and `okind` (meta.py 759-764): the key if the other side has it too, how far
away it is there, and the key. -/
abbrev Kind := Option Field × Int × Field

/-- `kind` for the keys `ks` from position `i` on, with the keys of the other side. -/
def kinds (other : List Field) (i : Nat) : List Field → List Kind
  | [] => []
  | k :: ks =>
    (if k ∈ other then (some k, (other.idxOf k : Int) - i, k) else (none, 0, k)) ::
      kinds other (i + 1) ks

/-- `l[i]` with python's negative indices; `none` is an `IndexError`. -/
def pyIndex {α : Type} (l : List α) (i : Int) : Option α :=
  if 0 ≤ i then l[i.toNat]? else if 0 ≤ i + l.length then l[(i + l.length).toNat]? else none

/-- `for j in range(v): aligned.append(short[i + j][-1])` (meta.py 781-782). -/
def takeFrom (short : List Kind) (i : Int) : Nat → Except PyErr (List Field)
  | 0 => .ok []
  | n + 1 => match pyIndex short i with
    | none => .error .indexError
    | some s => match takeFrom short (i + 1) n with
      | .error e => .error e
      | .ok l => .ok (s.2.2 :: l)

/-- The loop of `merge` (meta.py 771-787): what is appended to `aligned` from position `i` on;
`started` is `start_align is not None`. -/
def alignLoop (short : List Kind) (started : Bool) (offset : Int) (i : Nat) :
    List Kind → Except PyErr (List Field)
  | [] => .ok []
  | (k, v, av) :: rest =>
    let i' : Int := i - offset
    match k with
    | none =>
      if !started then
        match pyIndex short (i' + v) with
        | none => .error .indexError
        | some s => match alignLoop short started offset (i + 1) rest with
          | .error e => .error e
          | .ok l => .ok (av :: s.2.2 :: l)
      else match alignLoop short started offset (i + 1) rest with
        | .error e => .error e
        | .ok l => .ok (av :: l)
    | some _ =>
      if v ≤ 0 then
        match alignLoop short true offset (i + 1) rest with
        | .error e => .error e
        | .ok l => .ok (av :: l)
      else match takeFrom short i' v.toNat with
        | .error e => .error e
        | .ok taken => match alignLoop short started (offset + v) (i + 1) rest with
          | .error e => .error e
          | .ok l => .ok (taken ++ av :: l)

/-- The keys in the order in which the comparison shows them (meta.py 757-787). -/
def aligned (keys okeys : List Field) : Except PyErr (List Field) :=
  let kind := kinds okeys 0 keys
  let okind := kinds keys 0 okeys
  if okind.length < kind.length then alignLoop okind false 0 0 kind
  else alignLoop kind false 0 0 okind

/-- A row of the comparison: for each side a key with its value, or two empty cells. -/
abbrev DiffRow := Option Row × Option Row

/-- `kv[k] if k in kv else ([''] * lkv)` (meta.py 790-796); rows have two columns. -/
def side (rs : List Row) (k : Field) : Option Row := (dictGet k rs).map fun v => (k, v)

/-- `merge` (meta.py 756-797).  `a[0]` raises `IndexError` if there are no rows. -/
def merge (a b : List Row) : Except PyErr (List DiffRow) :=
  match aligned (a.map (·.1)) (b.map (·.1)) with
  | .error e => .error e
  | .ok ks =>
    if a = [] ∨ b = [] then .error .indexError
    else .ok (ks.map fun k => (side a k, side b k))

/-- `as_pretty_diff` (meta.py 745-808): whether the title is red, and the rows below the header. -/
def asPrettyDiff (env : Env) (o other : PathMeta) (human : Bool) :
    Except PyErr (Bool × List DiffRow) :=
  match contentDifferent env o other with
  | .error e => .error e
  | .ok red => match rows env o human with
    | .error e => .error e
    | .ok a => match rows env other human with
      | .error e => .error e
      | .ok b => match merge a b with
        | .error e => .error e
        | .ok l => .ok (red, l)

end Verif.Pretty
