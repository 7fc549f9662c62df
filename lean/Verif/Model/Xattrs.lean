import Verif.Model.Meta

/-!
# Metadata as extended attributes (`augpathlib/meta.py` lines 461-622 and 865-874)
-/

namespace Verif.Xattrs

/-- A set of extended attributes: a python dict from names to values, both bytes. -/
abbrev Attrs := List (Bytes × Bytes)

/-- `_EncodeByFieldBytes.__call__` (meta.py 865-874).  A result that is neither text nor bytes (the
checksum encoder returns its argument) is a `TypeError` here; the code returns it and the attribute
call fails later. -/
def bytesEncode (env : Env) (f : Field) (v : PyVal) : Except PyErr Bytes :=
  match v with
  | .bytes b => .ok b
  | v => match strEncode env f v with
    | .ok (.str s) => .ok (utf8 s)
    | .ok (.bytes b) => .ok b
    | .ok _ => .error .typeError
    | .error e => .error e

/-- `_PathMetaAsXattrs.encode` (meta.py 559-573). -/
def encode (env : Env) (f : Field) (v : PyVal) : Except PyErr Bytes :=
  if v = .none ∨ v.emptyIterable then .error .typeError else bytesEncode env f v

/-- The attribute name of a field (meta.py 549-554): `if prefix` is false for `None` and `''`. -/
def key (pre : Option Str) (f : Field) : Str :=
  match pre with
  | none | some [] => f.toStr
  | some p => p ++ '.' :: f.toStr

/-- One round of the loop of `as_xattrs` (meta.py 544-555): nothing, or one attribute. -/
def attr (env : Env) (pre : Option Str) (m : Meta) (f : Field) : Except PyErr Attrs :=
  if m f ≠ .none ∧ ¬(m f).emptyIterable then
    match encode env f (m f) with
    | .ok b => .ok [(utf8 (key pre f), b)]
    | .error e => .error e
  else .ok []

/-- The loop of `as_xattrs` over the remaining fields. -/
def attrs (env : Env) (pre : Option Str) (m : Meta) : List Field → Except PyErr Attrs
  | [] => .ok []
  | f :: fs =>
    match attr env pre m f with
    | .error e => .error e
    | .ok a => match attrs env pre m fs with
      | .error e => .error e
      | .ok as => .ok (a ++ as)

/-- `as_xattrs(meta, prefix)` (meta.py 540-557). -/
def asXattrs (env : Env) (m : Meta) (pre : Option Str) : Except PyErr Attrs :=
  attrs env pre m Field.all

/-- `bytes.decode()` -/
def text (b : Bytes) : Except PyErr Str :=
  match utf8? b with
  | some s => .ok s
  | none => .error .valueError

/-- `checksum, strcount = value.rsplit('-', 1); bytes.fromhex(checksum), int(strcount)`
(meta.py 353-356 and 593-598). -/
def decodeEtag (s : Str) : Except PyErr PyVal :=
  match rsplit1 '-' s with
  | none => .error .valueError
  | some (c, n) =>
    match pyInt n, fromHex c with
    | some i, some b => .ok (.etag b i)
    | _, _ => .error .valueError

/-- `_PathMetaAsXattrs.decode` (meta.py 575-622) for a known field. -/
def decode (env : Env) (f : Field) (b : Bytes) : Except PyErr PyVal :=
  match f with
  | .created | .updated =>
    if b.length = 8 then env.legacyTime b
    else (text b).map .str
  | .checksum => .ok (.bytes b)
  | .checksum_cypher => (text b).map .str
  | .etag => (text b).bind decodeEtag
  | .errors => (text b).map fun s => .strs ((splitC ';' s).filter (· ≠ []))
  | .user_id => match pyIntBytes b with
    | some i => .ok (.int i)
    | none => (text b).map .str
  | .id | .mode | .old_id | .parent_id | .name => (text b).map .str
  | .size | .chunksize | .multi | .file_id | .gid => match pyIntBytes b with
    | some i => .ok (.int i)
    | none => .error .valueError

/-- `decode` for an attribute name: a name that is not a field keeps its raw value (613-615). -/
def decodeNamed (env : Env) (k : Str) (b : Bytes) : Except PyErr PyVal :=
  match Field.ofStr? k with
  | some f => decode env f b
  | none => .ok (.bytes b)

/-- The key a name gets in the keyword arguments (meta.py 501-505 and 523-536): `none` if it is
filtered out. -/
def deprefix (pre : Option Str) (s : Str) : Option Str :=
  match pre with
  | none | some [] => some s
  | some p => if (p ++ ['.']).isPrefixOf s then some (s.drop (p.length + 1)) else none

/-- The dict comprehensions of meta.py 526-536. -/
def kwargs (env : Env) (pre : Option Str) : Attrs → Except PyErr (List (Str × PyVal))
  | [] => .ok []
  | (kraw, v) :: rest =>
    match text kraw with
    | .error e => .error e
    | .ok s =>
      match deprefix pre s with
      | none => kwargs env pre rest
      | some k =>
        match decodeNamed env k v with
        | .error e => .error e
        | .ok d => match kwargs env pre rest with
          | .error e => .error e
          | .ok l => .ok ((k, d) :: l)

/-- `from_xattrs(xattrs, prefix)` (meta.py 507-538) without a `path_object` that brings its own
decoder. -/
def fromXattrs (env : Env) (xattrs : Attrs) (pre : Option Str) : Except PyErr PathMeta :=
  match kwargs env pre xattrs with
  | .error e => .error e
  | .ok kw => mkMeta kw

end Verif.Xattrs
