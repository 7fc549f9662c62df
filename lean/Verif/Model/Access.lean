import Verif.Model.Ssh

/-!
# Asking whether a path may be used

`augpathlib/core.py` lines 494-508 (`AugmentedPath.access`), and the argument of `augpathlib/remotes.py` lines 812-829
(`SshRemote.access`, whose answers are modelled in `Model/Ssh.lean`).

Simplified: an argument is a number, a string or something that is equal to neither a number nor a string.  Truth values are numbers
(`True` is `os.X_OK`).  What the system answers is a parameter.
-/

namespace Verif.Access

/-- The argument `mode`. -/
inductive Asked where
  | number (n : Int)
  | text (s : Str)
  | other
  deriving DecidableEq, Repr

/-- What the call of `os.access` is given, or the `TypeError` (core.py 496-505).  `os.R_OK`, `os.W_OK` and `os.X_OK` are 4, 2 and 1. -/
def localMode : Asked → Except PyErr Int
  | .number n => if n = 4 ∨ n = 2 ∨ n = 1 then .ok n else .error .typeError
  | .text s =>
    if s = lit "read" then .ok 4
    else if s = lit "write" then .ok 2
    else if s = lit "execute" then .ok 1
    else .error .typeError
  | .other => .error .typeError

/-- `AugmentedPath.access(mode, follow_symlinks)` (core.py 494-508): the answer, and what the system was asked.  `os` is `os.access`
for the path. -/
def localAccess (os : Int → Bool → Bool) (asked : Asked) (follow : Bool) : Except PyErr Bool × List (Int × Bool) :=
  match localMode asked with
  | .error e => (.error e, [])
  | .ok m => (.ok (os m follow), [(m, follow)])

/-- `mode` as `SshRemote.access` looks at it: each of the three summands is there if `mode` is the number or the word for it
(remotes.py 820-823). -/
def remoteMode : Asked → Ssh.Mode
  | .number n => if n = 4 then .read else if n = 2 then .write else if n = 1 then .execute else .other
  | .text s =>
    if s = lit "read" then .read else if s = lit "write" then .write else if s = lit "execute" then .execute else .other
  | .other => .other

end Verif.Access
