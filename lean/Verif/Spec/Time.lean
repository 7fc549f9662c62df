import Verif.Model.Time

/-!
# A reader for the timestamp text

`readIso` reads the text format `YYYY-MM-DDThh:mm:ss[,ffffff][Z|(+|-)hh:mm]`.  It is independent of
the writer and is used to say that the written text determines the timestamp.
-/

namespace Verif.Spec

/-- Read exactly `k` decimal digits, most significant first. -/
def readDigits : Nat → Nat → Str → Option (Nat × Str)
  | 0, acc, s => some (acc, s)
  | _ + 1, _, [] => none
  | k + 1, acc, c :: cs => (digitVal? c).bind fun d => readDigits k (acc * 10 + d) cs

/-- Read one given character. -/
def expect (c : Char) : Str → Option Str
  | [] => none
  | d :: ds => if d = c then some ds else none

/-- Read the optional fraction. -/
def readFraction : Str → Option (Nat × Str)
  | ',' :: s => readDigits 6 0 s
  | s => some (0, s)

/-- Read the zone up to the end of the text. -/
def readZone : Str → Option (Option Int)
  | [] => some none
  | ['Z'] => some (some 0)
  | c :: s => do
    let (h, s) ← readDigits 2 0 s
    let s ← expect ':' s
    let (m, s) ← readDigits 2 0 s
    if s ≠ [] then none
    else if c = '+' then some (some ((60 * h + m : Nat) : Int))
    else if c = '-' then some (some (-((60 * h + m : Nat) : Int)))
    else none

/-- Read a timestamp. -/
def readIso (s : Str) : Option DateTime := do
  let (y, s) ← readDigits 4 0 s
  let s ← expect '-' s
  let (mo, s) ← readDigits 2 0 s
  let s ← expect '-' s
  let (d, s) ← readDigits 2 0 s
  let s ← expect 'T' s
  let (h, s) ← readDigits 2 0 s
  let s ← expect ':' s
  let (mi, s) ← readDigits 2 0 s
  let s ← expect ':' s
  let (sec, s) ← readDigits 2 0 s
  let (us, s) ← readFraction s
  let o ← readZone s
  some ⟨y, mo, d, h, mi, sec, us, o⟩

end Verif.Spec
