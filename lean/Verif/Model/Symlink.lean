import Verif.Model.Xattrs

/-!
# Metadata as symlinks to nowhere (`augpathlib/meta.py` lines 187-458)
-/

namespace Verif.Symlink

/-! ## `pathlib.PurePosixPath` -/

/-- A parsed pure path: the root (`''`, `/` or `//`) and the components. -/
structure Pure where
  root : Str
  comps : List Str
  deriving DecidableEq, Repr

/-- `PurePosixPath(text)`: empty and `.` components vanish; one or at least three leading slashes
are the root `/`, exactly two are the root `//`. -/
def parse (s : Str) : Pure where
  root :=
    match s with
    | '/' :: '/' :: '/' :: _ => ['/']
    | '/' :: '/' :: _ => ['/', '/']
    | '/' :: _ => ['/']
    | _ => []
  comps := (splitC '/' s).filter fun w => w ≠ [] ∧ w ≠ ['.']

/-- `a / b` -/
def Pure.join (a b : Pure) : Pure :=
  if b.root ≠ [] then b else ⟨a.root, a.comps ++ b.comps⟩

/-- `str(path)` -/
def Pure.str (p : Pure) : Str :=
  if p.root = [] ∧ p.comps = [] then ['.'] else p.root ++ joinC '/' p.comps

/-- `path.parts` -/
def Pure.parts (p : Pure) : List Str := if p.root = [] then p.comps else p.root :: p.comps

/-- `path.parent` -/
def Pure.parent (p : Pure) : Pure := { p with comps := p.comps.dropLast }

/-- `PurePosixPath(*parts)` -/
def ofParts : List Str → Pure
  | [] => ⟨[], []⟩
  | p :: ps => ps.foldl (fun a s => a.join (parse s)) (parse p)

/-! ## The codec -/

/-- The columns of each version of the format (meta.py 199-286). -/
def versions : List (Str × List Field) :=
  [(lit "meta", [.file_id, .size, .created, .updated, .checksum, .old_id, .gid, .user_id, .mode,
      .errors]),
   (lit "mdv1", [.file_id, .size, .created, .updated, .checksum, .chunksize, .old_id, .gid,
      .user_id, .mode, .errors]),
   (lit "mdv2", [.file_id, .size, .created, .updated, .checksum, .etag, .chunksize, .old_id, .gid,
      .user_id, .mode, .errors]),
   (lit "mdv3", [.file_id, .size, .created, .updated, .checksum, .etag, .chunksize, .parent_id,
      .old_id, .gid, .user_id, .mode, .name, .errors]),
   (lit "mdv4", [.file_id, .size, .created, .updated, .checksum, .checksum_cypher, .etag,
      .chunksize, .parent_id, .old_id, .gid, .user_id, .mode, .name, .errors]),
   (lit "mdv6", [.file_id, .size, .created, .updated, .checksum, .checksum_cypher, .etag,
      .chunksize, .multi, .parent_id, .old_id, .gid, .user_id, .mode, .name, .errors]),
   (lit "mdv5", [.file_id, .size, .created, .updated, .checksum, .checksum_cypher, .etag,
      .chunksize, .parent_id, .old_id, .gid, .user_id, .mode, .name, .errors])]

/-- `order = versions['mdv6']` (meta.py 283-284). -/
def order : List Field :=
  [.file_id, .size, .created, .updated, .checksum, .checksum_cypher, .etag, .chunksize, .multi,
   .parent_id, .old_id, .gid, .user_id, .mode, .name, .errors]

/-- The escaping of a string value (meta.py 316-331). -/
def escape (isName : Bool) (s : Str) : Except PyErr Str :=
  if '/' ∈ s ∧ '|' ∈ s then .error .valueError
  else if '/' ∈ s ∧ isName then .error .valueError
  else
    let s := replaceC '/' '|' s
    if '.' ∈ s ∧ '!' ∈ s then .error .valueError
    else .ok (replaceC '.' '!' s)

/-- `encode(field, value)` (meta.py 300-333).  `errors` of a type other than text or a tuple of
texts, and checksums that are not bytes, raise.  The result of `_str_encode` is always text here
because `checksum` was handled before. -/
def encode (env : Env) (f : Field) (v : PyVal) : Except PyErr Str :=
  let v := if f = .file_id ∧ !v.truthy then .none else v
  match v with
  | .none => .ok ['#']
  | v =>
    match f with
    | .errors => match v with
      | .strs l => .ok (joinC ';' l)
      | .str s => .ok (joinC ';' (s.map fun c => [c]))
      | _ => .error .typeError
    | .checksum => match v with
      | .bytes b => .ok (hex b)
      | _ => .error .attributeError
    | f => match v with
      | .str s => escape (f == .name) s
      | v => match strEncode env f v with
        | .ok (.str s) => .ok s
        | .ok _ => .error .typeError
        | .error e => .error e

/-- `decode(field, value, version)` (meta.py 335-387). -/
def decode (f : Field) (value : Str) (version : Int) : Except PyErr PyVal :=
  if value = ['#'] then .ok .none
  else
    match f with
    | .errors => .ok (.strs ((splitC ';' value).filter (· ≠ [])))
    | .created | .updated => .ok (.str value)
    | .checksum => match fromHex value with
      | some b => .ok (.bytes b)
      | none => .error .valueError
    | .checksum_cypher => .ok (.str value)
    | .etag => Xattrs.decodeEtag value
    | .user_id => match pyInt value with
      | some i => .ok (.int i)
      | none => .ok (.str value)
    | .name =>
      if '|' ∈ value ∧ 5 ≤ version then .error .valueError
      else
        let value := replaceC '|' '.' value
        .ok (.str (if 5 ≤ version then replaceC '!' '.' value else value))
    | .id | .mode | .old_id | .parent_id =>
      let value := replaceC '|' '/' value
      .ok (.str (if 5 ≤ version then replaceC '!' '.' value else value))
    | .size | .chunksize | .multi | .file_id | .gid => match pyInt value with
      | some i => .ok (.int i)
      | none => .error .valueError

/-- The encoded columns (meta.py 410-411), without the trailing human readable size. -/
def columns (env : Env) (m : Meta) : List Field → Except PyErr (List Str)
  | [] => .ok []
  | f :: fs =>
    match encode env f (m f) with
    | .error e => .error e
    | .ok s => match columns env m fs with
      | .error e => .error e
      | .ok ss => .ok (s :: ss)

/-- The extra column `size.hr` (meta.py 279, 399-411): `None` without a size.  `encode` is called
with the field name `'size.hr'`, which has no special case. -/
def hrColumn (m : Meta) : Except PyErr Str :=
  match m .size with
  | .int i => escape false (hr i)
  | _ => .ok ['#']

/-- The text of the data component (meta.py 415). -/
def dataText (cols : List Str) : Str := lit ".mdv6." ++ joinC '.' cols

/-- `as_symlink(meta, local_name)` (meta.py 389-419).  The id is encoded after the generator was
created but before it is consumed. -/
def asSymlink (env : Env) (m : Meta) (localName : Option Str) : Except PyErr Pure :=
  match encode env .id (m .id) with
  | .error e => .error e
  | .ok id =>
    match columns env m order with
    | .error e => .error e
    | .ok cols =>
      match hrColumn m with
      | .error e => .error e
      | .ok h =>
        let symlinkMeta := parse (id ++ '/' :: dataText (cols ++ [h]))
        .ok (match localName with
          | none => symlinkMeta
          | some n => (parse n).join symlinkMeta)

/-- The decoded columns (meta.py 454-455): `zip` stops at the shorter list. -/
def zipDecode (vint : Int) : List Field → List Str → Except PyErr (List (Str × PyVal))
  | f :: fs, s :: ss =>
    match decode f s vint with
    | .error e => .error e
    | .ok v => match zipDecode vint fs ss with
      | .error e => .error e
      | .ok l => .ok ((f.toStr, v) :: l)
  | _, _ => .ok []

/-- `from_parts(parts)` (meta.py 449-458). -/
def fromParts (parts : List Str) : Except PyErr PathMeta :=
  match parts.getLast? with
  | none => .error .indexError
  | some data =>
    match splitC '.' data with
    | _ :: version :: suffixes =>
      match pyInt (version.drop 3) with
      | none => .error .valueError
      | some vint =>
        match versions.lookup version with
        | none => .error .keyError
        | some ord =>
          match zipDecode vint ord suffixes with
          | .error e => .error e
          | .ok kw =>
            match decode .id (ofParts parts).parent.str vint with
            | .error e => .error e
            | .ok id => mkMeta (kw ++ [(Field.id.toStr, id)])
    | _ => .error .valueError

/-- `from_symlink(path, match_name)` (meta.py 421-447) for a link called `name` with text `link`.
The refusal for a wrong name is always `CircularSymlinkNameError` here; the code raises
`FileNotFoundError` instead if the lower-cased parent exists. -/
def fromSymlink (name link : Str) (matchName : Bool) : Except PyErr PathMeta :=
  match (parse link).parts with
  | [] => .error .valueError
  | [x, y] => fromParts [x, y]
  | localName :: parts =>
    if matchName ∧ name ≠ localName then .error .circularSymlinkNameError
    else fromParts parts

end Verif.Symlink
