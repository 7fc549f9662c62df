import Verif.Model.Str

/-!
# Human readable file sizes (`augpathlib/utils.py` lines 124-155)
-/

namespace Verif

/-- `n / d` rounded to the nearest integer, ties to even: the rounding of `"%0.0f"`. -/
def roundHalfEven (n d : Nat) : Nat :=
  let q := n / d
  let r := n % d
  if 2 * r < d then q
  else if d < 2 * r then q + 1
  else if q % 2 = 0 then q else q + 1

/-- `float(n)` for a non-negative integer: the nearest double (53 significant bits, ties to even), as
an exact integer.  Simplified: no upper bound, where python raises `OverflowError` from `2 ** 1024`
on. -/
def toDouble (n : Nat) : Nat :=
  if n < 2 ^ 53 then n
  else roundHalfEven n (2 ^ (n.log2 - 52)) * 2 ^ (n.log2 - 52)

/-- The loop of `sizeof_fmt` (utils.py 140-144) over the remaining units; `d` is the power of 1024
the number has been divided by so far.  Dividing a double by 1024 is exact, so the current value of
`num` is the quotient of `n` and `d`. -/
def hrLoop (n d : Nat) : List Str → Str
  | [] =>
    let t := roundHalfEven (10 * n) d
    natStr (t / 10) ++ '.' :: (natStr (t % 10) ++ ['Y', 'i'])
  | unit :: units =>
    if n < 1024 * d then natStr (roundHalfEven n d) ++ unit
    else hrLoop n (1024 * d) units

/-- The units of utils.py 140. -/
def hrUnits : List Str := [[], ['K'], ['M'], ['G'], ['T'], ['P'], ['E'], ['Z']]

/-- `FileSize.hr` (utils.py 135-149).  The first division by `1024.0` turns the integer into a
double; for a size below 1024, which is never divided, the conversion changes nothing. -/
def hr (size : Int) : Str :=
  if 0 ≤ size then hrLoop (toDouble size.toNat) 1 hrUnits else ['?', '?']

/-- `fs_safe_id` (utils.py 44-53). -/
def fsSafeId (s : Str) : Str :=
  [' ', '\n', '\t', '*', '|', ':', '\\', '/', '<', '>', '\'', '"', '?'].foldl
    (fun s evil => replaceC evil '-' s) s

end Verif
