import Verif.Model.Symlink

/-!
# The id of the machine and the ids of local paths

`augpathlib/utils.py` lines 56-121 and `core.py` lines 1177-1186.
Simplified: of the file system only the two files that can hold the id of the machine are modelled, and of these only what
the code asks for.
-/

namespace Verif.SysId
open Verif

/-- A file that may hold the id of the machine; `readable` and `writable` say what this process may do. -/
structure File where
  readable : Bool
  writable : Bool
  content : Bytes
  deriving DecidableEq, Repr

/-- `/etc/machine-id` and `/var/tmp/machine-id`; `canMake` says that the latter can be created if it is missing. -/
structure Machine where
  etc : Option File
  failover : Option File
  canMake : Bool
  deriving DecidableEq, Repr

inductive Which where
  | etc
  | failover
  deriving DecidableEq, Repr

/-- `option.exists() and accessf(option) and option.stat().st_size > 0` (utils.py 76-78) -/
def usable : Option File → Bool
  | some f => f.readable && decide (f.content.length > 0)
  | none => false

/-- `open(failover, 'wt')` and `f.write(uuid.hex)` (utils.py 82-83): the file is truncated or created. -/
def writeFailover (uuid : Bytes) (m : Machine) : Except PyErr Which × Machine :=
  match m.failover with
  | some f => if f.writable then (.ok .failover, { m with failover := some { f with content := uuid } })
    else (.error .permissionError, m)
  | none => if m.canMake then (.ok .failover, { m with failover := some ⟨true, true, uuid⟩ }) else (.error .permissionError, m)

/-- `sysidpath` (utils.py 56-85); `uuid` is the fresh random id (its 32 digits) that this call would draw. -/
def sysidpath (ignoreOptions : Bool) (uuid : Bytes) (m : Machine) : Except PyErr Which × Machine :=
  if ignoreOptions then writeFailover uuid m
  else if usable m.etc then (.ok .etc, m)
  else if usable m.failover then (.ok .failover, m)
  else writeFailover uuid m

def Machine.file (m : Machine) : Which → Option File
  | .etc => m.etc
  | .failover => m.failover

/-- `cls(sysidpath(path_class=cls)).checksum()[:16]` (utils.py 111-112); `H` is the hash function of `checksum`. -/
def rawId (H : Bytes → Bytes) (uuid : Bytes) (m : Machine) : Except PyErr Bytes × Machine :=
  match sysidpath false uuid m with
  | (.error e, m) => (.error e, m)
  | (.ok w, m) => match m.file w with
    | some f => if f.readable then (.ok ((H f.content).take 16), m) else (.error .permissionError, m)
    | none => (.error .fileNotFoundError, m)

/-- The digits of base64 for urls. -/
def alphabet : List Char :=
  lit "ABCDEFGHIJKLMNOPQRSTUVWXYZabcdefghijklmnopqrstuvwxyz0123456789-_"

def digit (n : Nat) : Char := alphabet.getD n '='

/-- `base64.urlsafe_b64encode` -/
def b64 : Bytes → Str
  | [] => []
  | [a] => [digit (a.toNat / 4), digit (a.toNat % 4 * 16), '=', '=']
  | [a, b] => [digit (a.toNat / 4), digit (a.toNat % 4 * 16 + b.toNat / 16), digit (b.toNat % 16 * 4), '=']
  | a :: b :: c :: r =>
    digit (a.toNat / 4) :: digit (a.toNat % 4 * 16 + b.toNat / 16) :: digit (b.toNat % 16 * 4 + c.toNat / 64) ::
      digit (c.toNat % 64) :: b64 r

/-- `base64.urlsafe_b64encode(raw)[:-2].decode()` (utils.py 117-119) -/
def text (raw : Bytes) : Str := (b64 raw).take ((b64 raw).length - 2)

/-- `_bind_sysid_` (utils.py 115-121) on a class whose `sysid` is `cls`. -/
def bindSysid (H : Bytes → Bytes) (uuid : Bytes) (cls : Option Str) (m : Machine) : Except PyErr Unit × Option Str × Machine :=
  match cls with
  | some _ => (.error .valueError, cls, m)
  | none => match rawId H uuid m with
    | (.error e, m) => (.error e, none, m)
    | (.ok r, m) => (.ok (), some (text r), m)

/-- `_raw_id` on windows (utils.py 98-107) with `machine_guid` (utils.py 88-93): the digest is not shortened; `H` is the hash
function of the cache class, or the default one. -/
def windowsRawId (H : Bytes → Bytes) (guid : Str) : Bytes := H (utf8 guid)

/-- `LocalPath.id` (core.py 1177-1182) of the path with this text on posix. -/
def localId (sysid : Str) (path : Str) : Str := sysid ++ ':' :: (Symlink.parse path).str

end Verif.SysId
