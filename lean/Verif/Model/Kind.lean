import Verif.Model.DataDir

/-!
# What a name says about a file: `mimetype` and `encoding` (`augpathlib/core.py` 748-775)

`mimetypes.guess_type` of the standard library is modelled as far as `file:` uris need it.
-/

namespace Verif.Kind

open Verif.FS

/-- The tables of the module `mimetypes`, by suffix with its dot. -/
structure Tables where
  types : Str → Option Str
  encodings : Str → Option Str
  suffixMap : Str → Option Str
  /-- `str.lower` -/
  lower : Str → Str

/-- `posixpath.splitext` of a name: the suffix starts at the last dot, unless there are only dots before it. -/
def splitext (n : Str) : Str × Str :=
  match rsplit1 '.' n with
  | none => (n, [])
  | some (a, b) => if a.all (· = '.') then (n, []) else (a, '.' :: b)

/-- A byte as it is written in a uri (`urllib.parse.quote_from_bytes`). -/
def quoteByte (b : UInt8) : Str :=
  let c := Char.ofNat b.toNat
  if (65 ≤ b.toNat ∧ b.toNat ≤ 90) ∨ (97 ≤ b.toNat ∧ b.toNat ≤ 122) ∨ (48 ≤ b.toNat ∧ b.toNat ≤ 57) ∨ c = '_' ∨ c = '.' ∨ c = '-' ∨ c = '~'
  then [c]
  else ['%', upHex (b.toNat / 16), upHex (b.toNat % 16)]
where
  upHex (d : Nat) : Char := if d < 10 then Char.ofNat (48 + d) else Char.ofNat (55 + d)

/-- The last component of `as_uri()`. -/
def quote (n : Name) : Str := (utf8 n).flatMap quoteByte

/-- `mimetypes.guess_type` of a name as it is in a uri.  Simplified: the map of suffixes (`.tgz` is `.tar.gz`) is applied once; python
goes on while the new suffix is in it too, which does not happen with the tables of the library. -/
def guessType (T : Tables) (n : Str) : Option Str × Option Str :=
  let be := splitext n
  let be := match T.suffixMap (T.lower be.2) with
    | some s => splitext (be.1 ++ s)
    | none => be
  match T.encodings be.2 with
  | some e => (T.types (T.lower (splitext be.1).2), some e)
  | none => (T.types (T.lower be.2), none)

/-- The name of an absolute path; that of the root is empty. -/
def lastName (p : Path) : Name := p.getLast?.getD []

/-- `tuple(path.suffixes)` of pathlib -/
def suffixes (n : Name) : List Str :=
  if n.getLast? = some '.' then []
  else ((splitC '.' (n.dropWhile (· = '.'))).drop 1).map ('.' :: ·)

/-- `inode/directory` -/
def directoryType : Str := lit "inode/directory"

/-- `mimetype` (core.py 748-766); `extra` is `_suffix_mimetypes`, `none` where a class has none. -/
def mimetype (T : Tables) (extra : List Str → Option Str) (L : Limits) (t : Tree) (cwd : Path) (p : UserPath) :
    Except PyErr (Option Str) :=
  match isDir L t cwd p with
  | .error e => .error e
  | .ok true => .ok (some directoryType)
  | .ok false =>
    let place : Except PyErr Path :=
      if p.absolute then .ok p.comps
      else match isBrokenSymlink L t cwd p with
        | .error e => .error e
        | .ok true => .ok (cwd ++ p.comps)
        | .ok false => realpath t L.maxLinks cwd p.comps
    match place with
    | .error e => .error e
    | .ok q => match (guessType T (quote (lastName q))).1 with
      | some m => .ok (some m)
      | none => .ok (extra (suffixes (lastName q)))

/-- `encoding` (core.py 768-775) -/
def encoding (T : Tables) (L : Limits) (t : Tree) (cwd : Path) (p : UserPath) : Except PyErr (Option Str) :=
  match (if p.absolute then .ok p.comps else realpath t L.maxLinks cwd p.comps) with
  | .error e => .error e
  | .ok q => .ok (guessType T (quote (lastName q))).2

end Verif.Kind
