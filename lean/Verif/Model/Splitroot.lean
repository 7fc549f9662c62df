import Verif.Model.Basic
import Verif.Model.Str

/-!
# Splitting Windows paths

`splitroot` of `augpathlib/core.py` lines 871-918, which replaces the one of `pathlib` before python
3.12 so that registry hives can be used like drives.
-/

namespace Verif.Splitroot
open Verif

/-- The default of `sep`. -/
def sep : Char := '\\'

/-- `s.find(c, k)`; `none` models `-1`. -/
def find (c : Char) (k : Nat) (s : Str) : Option Nat := ((s.drop k).findIdx? (· = c)).map (· + k)

/-- `_WindowsFlavour._split_extended_path` of python 3.7 to 3.11: the part after the prefix for extended
paths, and the prefix. -/
def splitExtended (s : Str) : Str × Str :=
  if (lit "\\\\?\\").isPrefixOf s then
    let pre := s.take 4
    let s := s.drop 4
    if (lit "UNC\\").isPrefixOf s then (pre ++ s.take 3, '\\' :: s.drop 3)
    else (pre, s)
  else ([], s)

/-- `index2 == -1 or index1 < index2` -/
def comesFirst (i1 : Nat) : Option Nat → Bool
  | none => true
  | some i2 => i1 < i2

/-- The part of `splitroot` about drives and roots (core.py 900-918). -/
def drive (letters : List Str) (pre part : Str) : Str × Str × Str :=
  let first := part.take 1
  let second := (part.drop 1).take 1
  let third := (part.drop 2).take 1
  let (drv, part, first) : Str × Str × Str :=
    if second = [':'] ∧ first ∈ letters then (part.take 2, part.drop 2, third)
    else
      match find ':' 0 part with
      | none => ([], part, first)
      | some i1 =>
        if comesFirst i1 (find sep 0 part) ∧ part.take i1 ∈ letters then
          (part.take i1, part.drop i1, (part.drop i1).take 1)
        else ([], part, first)
  if first = [sep] then (pre ++ drv, first, part.dropWhile (· = sep))
  else (pre ++ drv, [], part)

/-- `splitroot` (core.py 871-918): drive, root and the rest.  `letters` is `self.drive_letters`. -/
def splitroot (letters : List Str) (part : Str) : Str × Str × Str :=
  let ext := (part.drop 1).take 1 = [sep] ∧ part.take 1 = [sep]
  let pre := if ext then (splitExtended part).1 else []
  let part := if ext then (splitExtended part).2 else part
  if (part.drop 1).take 1 = [sep] ∧ part.take 1 = [sep] ∧ (part.drop 2).take 1 ≠ [sep] then
    match find sep 2 part with
    | none => drive letters pre part
    | some index =>
      match find sep (index + 1) part with
      | none =>
        if pre ≠ [] then (pre ++ (part.take part.length).drop 1, [sep], part.drop (part.length + 1))
        else (part.take part.length, [sep], part.drop (part.length + 1))
      | some index2 =>
        if index2 ≠ index + 1 then
          if pre ≠ [] then (pre ++ (part.take index2).drop 1, [sep], part.drop (index2 + 1))
          else (part.take index2, [sep], part.drop (index2 + 1))
        else drive letters pre part
  else drive letters pre part

end Verif.Splitroot
