import Verif.Model.Etag
import Verif.Model.Str

/-!
# The text of an etag

Models `etag.hexdigest` (`augpathlib/utils.py` lines 254-256).
-/

namespace Verif.Etag

/-- `etag.hexdigest()` (utils.py 254-256): the object after the call and the returned text. -/
def hexdigest (H : Bytes → Bytes) (s : Obj) : Obj × Str :=
  let (s, digest, count) := digest H s
  (s, hex digest ++ '-' :: natStr count)

end Verif.Etag
