import Verif.Model.Str

/-!
# Timestamps

Models `isoformat` of `augpathlib/meta.py` lines 14-23 on structured datetimes.
-/

namespace Verif

/-- A python `datetime` with a whole-minute utc offset (in minutes), or naive (`offset = none`).
Sub-minute offsets and the `fold` attribute are not modelled. -/
structure DateTime where
  year : Nat
  month : Nat
  day : Nat
  hour : Nat
  minute : Nat
  second : Nat
  micro : Nat
  offset : Option Int
  deriving DecidableEq, Repr

/-- The values the constructor of `datetime` admits (the dependence of the number of days on the
month is not needed and left out, so this is a superset). -/
structure DateTime.Valid (d : DateTime) : Prop where
  year : 1 ≤ d.year ∧ d.year ≤ 9999
  month : 1 ≤ d.month ∧ d.month ≤ 12
  day : 1 ≤ d.day ∧ d.day ≤ 31
  hour : d.hour < 24
  minute : d.minute < 60
  second : d.second < 60
  micro : d.micro < 1000000
  offset : ∀ o, d.offset = some o → -1440 < o ∧ o < 1440

/-- `n` as exactly `k` decimal digits. -/
def pad : Nat → Nat → Str
  | 0, _ => []
  | k + 1, n => pad k (n / 10) ++ [digitChar (n % 10)]

/-- The text of a utc offset in `datetime.isoformat()`: sign, hours, minutes. -/
def offsetStr : Option Int → Str
  | none => []
  | some o => (if o < 0 then '-' else '+') :: (pad 2 (o.natAbs / 60) ++ ':' :: pad 2 (o.natAbs % 60))

/-- `datetime.isoformat(timespec='auto')` of the standard library: the fraction is left out when the
microseconds are zero. -/
def stdIsoformat (d : DateTime) : Str :=
  pad 4 d.year ++ '-' :: (pad 2 d.month ++ '-' :: (pad 2 d.day ++ 'T' :: (pad 2 d.hour ++ ':' ::
    (pad 2 d.minute ++ ':' :: (pad 2 d.second ++
      ((if d.micro = 0 then [] else '.' :: pad 6 d.micro) ++ offsetStr d.offset))))))

/-- `isoformat(datetime_instance)` (meta.py 14-23). -/
def isoformat (d : DateTime) : Str :=
  replaceSub ['+', '0', '0', ':', '0', '0'] ['Z'] (replaceC '.' ',' (stdIsoformat d))

end Verif
