import Verif.Model.Str

/-!
# How `setup.py` finds the version

`find_version` (`setup.py` lines 6-14).  The lines are those that iterating over the file gives; whether they end in a newline makes
no difference, since what comes after the last quote is not looked at.
-/

namespace Verif.Setup

/-- `['\"]` -/
def isQuote (c : Char) : Bool := c == '\'' || c == '"'

/-- What comes before the last quote of a text, if there is one: `(.*)['\"]`, where `.*` takes as much as it can. -/
def beforeLastQuote : Str → Option Str
  | [] => none
  | c :: cs => match beforeLastQuote cs with
    | some g => some (c :: g)
    | none => if isQuote c then some [] else none

/-- The text that has to come first. -/
@[irreducible] def assignStart : Str := lit "__version__ = "

/-- `s` without a given start -/
def stripStart : Str → Str → Option Str
  | [], s => some s
  | _ :: _, [] => none
  | a :: p, c :: s => if a = c then stripStart p s else none

/-- `_version_re.match(line).group(1)` (setup.py 7 and 10-12) for a line without newlines inside -/
def matchLine (line : Str) : Option Str :=
  match stripStart assignStart line with
  | some (c :: rest) => if isQuote c then beforeLastQuote rest else none
  | _ => none

/-- `find_version` (setup.py 6-14) -/
def findVersion (lines : List Str) : Option Str :=
  lines.foldl (fun last line => match matchLine line with | some g => some g | none => last) none

end Verif.Setup
