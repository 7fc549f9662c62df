import Verif.Model.Zip

/-!
# What paths through archives remember

`ZipHelper` (`augpathlib/zip.py` lines 119-182) with the attributes `_c_zip_path` and `_c_zip_relative_path` of each object and the
dict `_zfc_cache` of all of them.  `Model/Zip` is about objects that nobody has used yet and archives that nobody has opened.
-/

namespace Verif.Zip
open Verif.Symlink

/-- `_zfc_cache`: for each archive that was opened, the entry names that were in it then, the latest first. -/
abbrev Opened := List (List Str × List Str)

/-- What an object remembers: `_c_zip_path` and `_c_zip_relative_path`, the latter with the entry names that its class has. -/
structure Memo where
  zipPath : Option (Option (List Str))
  rel : Option (Option (List Str × Pure))
  deriving DecidableEq, Repr

/-- A new object. -/
def Memo.fresh : Memo := ⟨none, none⟩

/-- The property `ZipInternalPath` (zip.py 128-134) for a `zip_path` that is not `None`; `ZipInternalPath._new` (zip.py 18-27) opens the
archive. -/
def open_ (d : Disk) (o : Opened) (zp : List Str) : Except PyErr (List Str) × Opened :=
  match o.lookup zp with
  | some names => (.ok names, o)
  | none =>
    match d zp with
    | .zip names => (.ok names, (zp, names) :: o)
    | .missing => (.error .fileNotFoundError, o)
    | .dir => (.error .isADirectoryError, o)
    | .file => (.error .foreign, o)

/-- `zip_path` (zip.py 153-167).  The parent is a new object each time.  The path is remembered before the archive is opened. -/
def zipPathM (d : Disk) (o : Opened) (m : Memo) : List Str → Except PyErr (Option (List Str)) × Memo × Opened
  | [] => match m.zipPath with
    | some v => (.ok v, m, o)
    | none => (.ok none, { m with zipPath := some none }, o)
  | n :: up => match m.zipPath with
    | some v => (.ok v, m, o)
    | none =>
      match zipPathM d o Memo.fresh up with
      | (.error e, _, o) => (.error e, m, o)
      | (.ok pzp, _, o) =>
        if (pzp = none ∧ suffix n = lit ".zip") ∨ isZipfile d (n :: up) then
          let m := { m with zipPath := some (some (n :: up)) }
          match open_ d o (n :: up) with
          | (.error e, o) => (.error e, m, o)
          | (.ok _, o) => (.ok (some (n :: up)), m, o)
        else (.ok pzp, { m with zipPath := some pzp }, o)

/-- `zip_relative_path` (zip.py 136-145): `None` is remembered before the archive is asked. -/
def relM (d : Disk) (o : Opened) (m : Memo) (p : List Str) : Except PyErr (Option (List Str × Pure)) × Memo × Opened :=
  match m.rel with
  | some r => (.ok r, m, o)
  | none =>
    match zipPathM d o { m with rel := some none } p with
    | (.error e, m, o) => (.error e, m, o)
    | (.ok none, m, o) => (.ok none, m, o)
    | (.ok (some zp), m, o) =>
      match open_ d o zp with
      | (.error e, o) => (.error e, m, o)
      | (.ok names, o) =>
        let r := some (names, (⟨[], (p.take (p.length - zp.length)).reverse⟩ : Pure))
        (.ok r, { m with rel := some r }, o)

/-- `exists` (zip.py 123-125). -/
def existsM (d : Disk) (o : Opened) (m : Memo) (p : List Str) : Except PyErr Bool × Memo × Opened :=
  match zipPathM d o m p with
  | (.error e, m, o) => (.error e, m, o)
  | (.ok zp, m, o) =>
    if zp = none ∧ d p ≠ .missing then (.ok true, m, o)
    else
      match relM d o m p with
      | (.error e, m, o) => (.error e, m, o)
      | (.ok none, m, o) => (.error .attributeError, m, o)
      | (.ok (some (names, q)), m, o) => (.ok (existsIn names q), m, o)

/-- All objects, each with its path, and the archives that were opened. -/
structure Objs where
  path : Nat → List Str
  memo : Nat → Memo
  opened : Opened

/-- No object was used and no archive was opened. -/
def Objs.start (path : Nat → List Str) : Objs := ⟨path, fun _ => .fresh, []⟩

/-- Asking object `i` whether it exists, while the disk is `d`. -/
def Objs.ask (s : Objs) (d : Disk) (i : Nat) : Except PyErr Bool × Objs :=
  match existsM d s.opened (s.memo i) (s.path i) with
  | (r, m, o) => (r, { s with memo := fun j => if j = i then m else s.memo j, opened := o })

/-- Asking objects one after the other, each time on another disk. -/
def Objs.asks (s : Objs) : List (Disk × Nat) → Objs
  | [] => s
  | (d, i) :: qs => ((s.ask d i).2).asks qs

end Verif.Zip
