import Verif.Model.Basic

/-!
# Python string and bytes primitives

These model the python builtins used by the codecs of `augpathlib/meta.py`.  They are part of the
trusted reading of python, not of augpathlib; `Verif/Lemmas/Str.lean` proves what is needed about
them.
-/

namespace Verif

/-- The decimal digit `d` (for `d < 10`). -/
def digitChar (d : Nat) : Char := Char.ofNat (48 + d)

/-- The value of a decimal digit (ASCII only; python's `int` also accepts other unicode digits). -/
def digitVal? (c : Char) : Option Nat :=
  if 48 ≤ c.toNat ∧ c.toNat ≤ 57 then some (c.toNat - 48) else none

/-- `str(n)` for a natural number. -/
def natStr (n : Nat) : Str :=
  if n < 10 then [digitChar n] else natStr (n / 10) ++ [digitChar (n % 10)]

/-- `str(i)` for an integer. -/
def intStr : Int → Str
  | .ofNat n => natStr n
  | .negSucc n => '-' :: natStr (n + 1)

/-- ASCII whitespace as stripped by `int(...)` and skipped by `bytes.fromhex`. -/
def isWs (c : Char) : Bool := c = ' ' || c = '\t' || c = '\n' || c = '\r' || c = '\x0b' || c = '\x0c'

/-- `str.strip()` restricted to ASCII whitespace. -/
def strip (s : Str) : Str := ((s.dropWhile isWs).reverse.dropWhile isWs).reverse

/-- Digits with single underscores between them, as accepted by `int(...)`.  `acc` is the value so
far, `prev` tells whether the previous character was a digit. -/
def digitsGo : Nat → Bool → Str → Option Nat
  | acc, prev, [] => if prev then some acc else none
  | acc, prev, c :: cs =>
    match digitVal? c with
    | some d => digitsGo (acc * 10 + d) true cs
    | none => if c = '_' ∧ prev then digitsGo acc false cs else none

/-- `int(s)`: `none` models `ValueError`.  Simplified: ASCII digits and whitespace only, no limit on
the number of digits. -/
def pyInt (s : Str) : Option Int :=
  match strip s with
  | '-' :: cs => (digitsGo 0 false cs).map fun n => -(n : Int)
  | '+' :: cs => (digitsGo 0 false cs).map fun n => (n : Int)
  | cs => (digitsGo 0 false cs).map fun n => (n : Int)

/-- The hexadecimal digit `d` (for `d < 16`). -/
def hexChar (d : Nat) : Char := if d < 10 then Char.ofNat (48 + d) else Char.ofNat (87 + d)

/-- The value of a hexadecimal digit. -/
def hexVal? (c : Char) : Option Nat :=
  let n := c.toNat
  if 48 ≤ n ∧ n ≤ 57 then some (n - 48)
  else if 97 ≤ n ∧ n ≤ 102 then some (n - 87)
  else if 65 ≤ n ∧ n ≤ 70 then some (n - 55)
  else none

/-- `bytes.hex()` -/
def hex : Bytes → Str
  | [] => []
  | b :: bs => hexChar (b.toNat / 16) :: hexChar (b.toNat % 16) :: hex bs

/-- `bytes.fromhex(s)`: pairs of hexadecimal digits, whitespace allowed between pairs; `none` models
`ValueError`. -/
def fromHex : Str → Option Bytes
  | [] => some []
  | [c] => if isWs c then some [] else none
  | c :: d :: rest =>
    if isWs c then fromHex (d :: rest)
    else
      match hexVal? c, hexVal? d with
      | some h, some l => (fromHex rest).map fun bs => UInt8.ofNat (16 * h + l) :: bs
      | _, _ => none
termination_by s => s.length

/-- `s.split(sep)` for a one character separator: never empty. -/
def splitC (sep : Char) : Str → List Str
  | [] => [[]]
  | c :: cs =>
    if c = sep then [] :: splitC sep cs
    else
      match splitC sep cs with
      | [] => [[c]]
      | w :: ws => (c :: w) :: ws

/-- `sep.join(parts)` for a one character separator. -/
def joinC (sep : Char) : List Str → Str
  | [] => []
  | [w] => w
  | w :: ws => w ++ sep :: joinC sep ws

/-- `s.replace(a, b)` for single characters. -/
def replaceC (a b : Char) (s : Str) : Str := s.map fun c => if c = a then b else c

/-- `s.replace(pat, rep)` for a non-empty pattern. -/
def replaceSub (pat rep : Str) (s : Str) : Str :=
  match s with
  | [] => []
  | c :: cs =>
    if pat ≠ [] ∧ pat.isPrefixOf (c :: cs) then rep ++ replaceSub pat rep ((c :: cs).drop pat.length)
    else c :: replaceSub pat rep cs
termination_by s.length
decreasing_by
  · rename_i h
    have : 0 < pat.length := List.length_pos_iff.2 h.1
    simp; omega
  · simp

/-- `s.rsplit(sep, 1)` where the result is unpacked into two: `none` models the `ValueError` of
unpacking when there is no separator. -/
def rsplit1 (sep : Char) (s : Str) : Option (Str × Str) :=
  match splitC sep s with
  | [] => none
  | [_] => none
  | ws => some (joinC sep ws.dropLast, ws.getLast?.getD [])

/-- `str.encode()` (UTF-8). -/
def utf8 (s : Str) : Bytes := s.flatMap String.utf8EncodeChar

/-- `bytes.decode()` (UTF-8): `none` models `UnicodeDecodeError` (a `ValueError`). -/
def utf8? (b : Bytes) : Option Str := b.toByteArray.utf8Decode?.map Array.toList

/-- `int(b)` for a bytes object: python requires ASCII text; `pyInt` rejects everything else. -/
def pyIntBytes (b : Bytes) : Option Int := (utf8? b).bind pyInt

/-- A string literal as python string. -/
abbrev lit (s : String) : Str := s.toList

end Verif
