import Verif.Model.Remote

/-!
# Asking the stat command about a local path

`LocalPath._stat` and `LocalPath.size` (`augpathlib/core.py` lines 1192-1216).
Simplified: the output is text, so names that are not UTF-8 are left out.
-/

namespace Verif.Ssh

/-- `bytes.rstrip(b'"')` -/
def rstripQuotes (s : Str) : Str := (s.reverse.dropWhile (· = '"')).reverse

/-- `bytes.strip(b'"')` -/
def stripQuotes (s : Str) : Str := rstripQuotes (s.dropWhile (· = '"'))

/-- `bytes.rstrip()` -/
def rstripSpace (s : Str) : Str := (s.reverse.dropWhile (· ∈ [' ', '\t', '\n', '\r', '\x0b', '\x0c'])).reverse

/-- The command line (core.py 1196). -/
def localStatCmd (path : Str) : List Str := [lit "stat", path, lit "-c", statFormat]

/-- `LocalPath._stat` (core.py 1192-1205) on what the command wrote. -/
def localStat (out errs : Str) : Except PyErr StatResult :=
  let out := rstripQuotes (rstripSpace (stripQuotes out))
  if out = [] ∧ errs ≠ [] then .error .osError
  else match parseStat out with
    | some r => .ok r
    | none => .error .valueError

/-- `LocalPath.size` (core.py 1208-1216): `st` is what `os.stat` answers, its errors are all `OSError`s. -/
def localSize (st : Except PyErr Nat) (out errs : Str) : Except PyErr Int :=
  match st with
  | .ok n => .ok n
  | .error _ => (localStat out errs).map StatResult.size

end Verif.Ssh
