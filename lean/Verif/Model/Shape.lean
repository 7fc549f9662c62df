import Verif.Model.Basic

/-!
# What a remote object is
-/

namespace Verif

/-- What `is_dir()` and `is_file()` say about a remote object.  It may be neither: `SshRemote` compares with the words `directory` and
`regular file` of stat (`augpathlib/remotes.py` lines 955-963), which says `regular empty file` of an empty file. -/
inductive Shape where
  | dir | file | other
  deriving DecidableEq, Repr

end Verif
