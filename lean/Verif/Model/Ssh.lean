import Verif.Model.Str

/-!
# Ssh remotes: permission check, stat output, ids

`augpathlib/remotes.py` lines 632-644, 670-673, 743-780, 812-829, `augpathlib/utils.py` lines 111-121
and 158-196, `augpathlib/core.py` lines 1178-1182.
-/

namespace Verif.Ssh

/-! ## access -/

/-- The argument of `access`. -/
inductive Mode where
  | read | write | execute
  | other
  deriving DecidableEq, Repr

/-- The parts of the stat result that `access` uses. -/
structure Stat where
  mode : Nat
  uid : Nat
  gid : Nat

/-- `bool * int` of python. -/
def times (b : Bool) (n : Nat) : Nat := if b then n else 0

/-- The local variable `current` (remotes.py 820-824).  In python `*` binds tighter than `&`. -/
def current (mode : Nat) (m : Mode) : Nat :=
  let r := 0x124
  let w := 0x92
  let x := 0x49
  let read := ((r &&& mode) >>> 2) &&& times (m = .read) x
  let write := ((w &&& mode) >>> 1) &&& times (m = .write) x
  let execute := (x &&& mode) &&& times (m = .execute) x
  read + write + execute

/-- `SshRemote.access` (remotes.py 812-829), as a truth value (python returns one of the operands of
`and` and `or`).  `st` is the outcome of `self.stat()`. -/
def access (st : Except PyErr Stat) (me : Nat) (gids : List Nat) (m : Mode) : Except PyErr Bool :=
  match st with
  | .error .permissionError => .ok false
  | .error .fileNotFoundError => .ok false
  | .error e => .error e
  | .ok st =>
    let c := current st.mode m
    let u := 0x40
    let g := 0x8
    let e := 0x1
    .ok ((u &&& c != 0 && st.uid == me) || (g &&& c != 0 && gids.contains st.gid) || e &&& c != 0)

/-! ## The output of the stat command -/

/-- `s.split('  ')` -/
def splitTwo : Str → List Str
  | [] => [[]]
  | ' ' :: ' ' :: cs => [] :: splitTwo cs
  | c :: cs =>
    match splitTwo cs with
    | [] => [[c]]
    | w :: ws => (c :: w) :: ws

/-- A decimal number `num / 10 ^ scale`.  python's `float` rounds it to the nearest double, which is
not modelled. -/
structure Dec where
  num : Int
  scale : Nat
  deriving DecidableEq, Repr

/-- `float(s)` for texts of the form digits, point, digits with an optional sign; `none` models
`ValueError`, other texts that python accepts (exponents, `inf`) are not modelled. -/
def pyFloat (s : Str) : Option Dec :=
  match splitC '.' s with
  | [a, b] =>
    match a with
    | '-' :: a' => (digitsGo 0 false (a' ++ b)).map fun (n : Nat) => (⟨-(n : Int), b.length⟩ : Dec)
    | _ => (digitsGo 0 false (a ++ b)).map fun (n : Nat) => (⟨(n : Int), b.length⟩ : Dec)
  | _ => none

/-- `ns(hr)` (utils.py 179-182) -/
def ns (hr : Str) : Option Str :=
  match splitC ' ' hr with
  | [_, time, _] => match splitC '.' time with
    | [_, ns] => some ('.' :: ns)
    | _ => none
  | _ => none

/-- `float(secs + ns(hr))` -/
def stamp (secs hr : Str) : Option Dec := (ns hr).bind fun n => pyFloat (secs ++ n)

/-- `int.from_bytes(b, 'big')` -/
def fromBytesBig (b : Bytes) : Nat := b.foldl (fun acc x => acc * 256 + x.toNat) 0

/-- The attributes of a `StatResult`. -/
structure StatResult where
  name : Str
  ino : Int
  blksize : Int
  size : Int
  atime : Dec
  mtime : Dec
  ctime : Dec
  gid : Int
  uid : Int
  mode : Nat
  birthtime : Option Dec
  deriving DecidableEq, Repr

/-- `StatResult.__init__` (utils.py 167-196) after decoding; every failure is a `ValueError`. -/
def parseStat (out : Str) : Option StatResult :=
  match splitTwo out with
  | [name, ino, hint, size, hb, birth, ha, acc, hm, modified, hc, changed, gid, uid, rawMode] => do
    let ino ← pyInt ino
    let hint ← pyInt hint
    let size ← pyInt size
    let atime ← stamp acc ha
    let mtime ← stamp modified hm
    let ctime ← stamp changed hc
    let gid ← pyInt gid
    let uid ← pyInt uid
    let mode ← (fromHex rawMode).map fromBytesBig
    if hb ≠ ['-'] ∧ birth ≠ ['0'] then do
      let b ← stamp birth hb
      some ⟨name, ino, hint, size, atime, mtime, ctime, gid, uid, mode, some b⟩
    else some ⟨name, ino, hint, size, atime, mtime, ctime, gid, uid, mode, none⟩
  | _ => none

/-! ## Ids -/

/-- The urlsafe base64 alphabet. -/
def b64Char (n : Nat) : Char :=
  if n < 26 then Char.ofNat (65 + n)
  else if n < 52 then Char.ofNat (97 + (n - 26))
  else if n < 62 then Char.ofNat (48 + (n - 52))
  else if n = 62 then '-' else '_'

/-- `base64.urlsafe_b64encode` -/
def b64 : Bytes → Str
  | a :: b :: c :: rest =>
    b64Char (a.toNat / 4) :: b64Char (a.toNat % 4 * 16 + b.toNat / 16) ::
      b64Char (b.toNat % 16 * 4 + c.toNat / 64) :: b64Char (c.toNat % 64) :: b64 rest
  | [a, b] => [b64Char (a.toNat / 4), b64Char (a.toNat % 4 * 16 + b.toNat / 16), b64Char (b.toNat % 16 * 4), '=']
  | [a] => [b64Char (a.toNat / 4), b64Char (a.toNat % 4 * 16), '=', '=']
  | [] => []

/-- The `sysid` that `_bind_sysid_` sets (utils.py 111-121) from the checksum of the machine id
file: the first 16 bytes, encoded, without the last two characters. -/
def sysid (checksum : Bytes) : Str :=
  let e := b64 (checksum.take 16)
  e.take (e.length - 2)

/-- `LocalPath.id` (core.py 1178-1182); `path` is `as_posix()`. -/
def localId (sysid path : Str) : Str := sysid ++ ':' :: path

/-- `SshRemote.id` (remotes.py 743-746); `path` is `rpath` (753-780), the path joined to the anchor. -/
def sshId (host path : Str) : Str := host ++ ':' :: path

/-- `s.split(':', 1)` unpacked into two: `none` models `ValueError`. -/
def splitColon : Str → Option (Str × Str)
  | [] => none
  | c :: cs => if c = ':' then some ([], cs) else (splitColon cs).map fun (a, b) => (c :: a, b)

/-- The path text that `SshRemote.__new__` (remotes.py 632-644) takes from its first argument. -/
def newPath (host arg : Str) : Str :=
  if (host ++ [':']).isPrefixOf arg then
    match splitColon arg with
    | some (_, p) => p
    | none => arg
  else arg

end Verif.Ssh
