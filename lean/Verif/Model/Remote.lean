import Verif.Model.Ssh

/-!
# The commands that an ssh remote sends, and the listing of a directory

`augpathlib/remotes.py` lines 847-924 and 965-989.
-/

namespace Verif.Ssh

/-! ## `repr` of a text -/

/-- Hexadecimal digits of `n`, padded with zeros to `k` places. -/
def hexPad : Nat → Nat → Str
  | 0, _ => []
  | k + 1, n => hexPad k (n / 16) ++ [hexChar (n % 16)]

/-- How `repr` writes one character of a text in the given quotes.  `printable` is
`str.isprintable` for characters beyond ASCII. -/
def reprChar (printable : Char → Bool) (quote c : Char) : Str :=
  if c = quote ∨ c = '\\' then ['\\', c]
  else if c = '\t' then lit "\\t"
  else if c = '\n' then lit "\\n"
  else if c = '\r' then lit "\\r"
  else if c.toNat < 32 ∨ c.toNat = 127 then '\\' :: 'x' :: hexPad 2 c.toNat
  else if c.toNat < 127 then [c]
  else if printable c then [c]
  else if c.toNat ≤ 0xff then '\\' :: 'x' :: hexPad 2 c.toNat
  else if c.toNat ≤ 0xffff then '\\' :: 'u' :: hexPad 4 c.toNat
  else '\\' :: 'U' :: hexPad 8 c.toNat

/-- `repr(s)` (CPython `unicode_repr`): single quotes unless the text has single quotes and no double
quotes. -/
def pyRepr (printable : Char → Bool) (s : Str) : Str :=
  let quote := if '\'' ∈ s ∧ '"' ∉ s then '"' else '\''
  quote :: s.flatMap (reprChar printable quote) ++ [quote]

/-! ## Commands -/

/-- The remote command of `SshRemote.data` (remotes.py 849), run by the shell on the other side. -/
def dataCmd (printable : Char → Bool) (rpath : Str) : Str := lit "cat " ++ pyRepr printable rpath

/-- The fields that `StatResult.stat_format` asks for (utils.py 159). -/
def statFields : Str := lit "%n  %i  %o  %s  %w  %W  %x  %X  %y  %Y  %z  %Z  %g  %u  %f"

/-- `StatResult.stat_format` (utils.py 159), with its quotes. -/
def statFormat : Str := '"' :: statFields ++ ['"']

/-- `_stat_cmd` (remotes.py 897-908).  `path` is `self.rpath` unless another one was given. -/
def statCmd (darwin : Bool) (format path : Str) : Str :=
  (if darwin then lit "gstat" else lit "stat") ++ lit " -c " ++ format ++
    (if path = [] then [] else lit " \"" ++ path ++ ['"'])

/-- The remote command of `checksum` (remotes.py 890-891); `cypher` is `b2sum` or `sha256sum`
(utils.py 33-34). -/
def checksumCmd (cypher rpath : Str) : Str :=
  cypher ++ ' ' :: rpath ++ lit " | awk '{ print $1 }';"

/-- The remote command of `children` (remotes.py 974-978). -/
def childrenCmd (darwin : Bool) (cypher rpath : Str) : Str :=
  lit "cd " ++ rpath ++ ';' :: statCmd darwin statFormat [] ++ lit " {.,}*;echo '----';" ++ cypher ++
    lit " {.,}*;cd \"${OLDPWD}\""

/-! ## The session -/

/-- `_ssh` (remotes.py 865-876): refuse long commands, send, and take what came back after the echo of
the command line.  `before` is what `session.before` holds after the prompt came back.  `sendline`
returns the number of bytes sent, the command and a newline. -/
def sshReply (cols : Nat) (cmd : Str) (before : Bytes) : Except PyErr Bytes :=
  if cols < cmd.length then .error .valueError
  else
    let isSpace (b : UInt8) : Bool := b ∈ [32, 9, 10, 13, 11, 12]
    let out := before.drop ((utf8 cmd).length + 1 + 1)
    .ok ((out.dropWhile isSpace).reverse.dropWhile isSpace).reverse

/-! ## Looking at a path -/

/-- `b.endswith(suffix)` -/
def endsWith (suffix s : Str) : Bool := suffix.isSuffixOf s

/-- `SshRemote.stat` (remotes.py 910-924) on the reply.  Simplified: the reply is text. -/
def remoteStat (out : Str) : Except PyErr StatResult :=
  match parseStat out with
  | some r => .ok r
  | none =>
    if endsWith (lit "Permission denied") out then .error .permissionError
    else if endsWith (lit "No such file or directory") out then .error .fileNotFoundError
    else .error .valueError

/-- `SshRemote.exists` (remotes.py 926-931), as a truth value. -/
def remoteExists (out : Str) : Except PyErr Bool :=
  match remoteStat out with
  | .ok _ => .ok true
  | .error .fileNotFoundError => .ok false
  | .error e => .error e

/-- `SshRemote.is_dir` (remotes.py 955-958) on the reply to the type question. -/
def remoteIsDir (out : Str) : Bool := out == lit "directory"

/-- `SshRemote.is_file` (remotes.py 960-963). -/
def remoteIsFile (out : Str) : Bool := out == lit "regular file"

/-! ## Listing -/

/-- `s.split(sep)` for a non-empty separator. -/
def splitOn (sep : Str) (s : Str) : List Str :=
  match s with
  | [] => [[]]
  | c :: cs =>
    if sep ≠ [] ∧ sep.isPrefixOf (c :: cs) then [] :: splitOn sep ((c :: cs).drop sep.length)
    else match splitOn sep cs with
      | [] => [[c]]
      | w :: ws => (c :: w) :: ws
termination_by s.length
decreasing_by
  · rename_i h
    have : 0 < sep.length := List.length_pos_iff.2 h.1
    simp; omega
  · simp

/-- `needle in s` -/
def contains (needle : Str) : Str → Bool
  | [] => needle = []
  | c :: cs => needle.isPrefixOf (c :: cs) || contains needle cs

/-- The dict comprehension over the stat lines (remotes.py 983-984). -/
def parseStats : List Str → Option (List (Str × StatResult))
  | [] => some []
  | l :: ls => match parseStat l, parseStats ls with
    | some r, some rs => some ((r.name, r) :: rs)
    | _, _ => none

/-- `cs, fn = line.split('  ', 1)` -/
def splitTwo1 : Str → Option (Str × Str)
  | ' ' :: ' ' :: cs => some ([], cs)
  | [] => none
  | c :: cs => (splitTwo1 cs).map fun (a, b) => (c :: a, b)

/-- The dict comprehension over the checksum lines (remotes.py 985-987). -/
def parseChecks : List Str → Option (List (Str × Bytes))
  | [] => some []
  | l :: ls =>
    if contains (lit "Is a directory") l then parseChecks ls
    else match splitTwo1 l with
      | none => none
      | some (cs, fn) => match fromHex cs, parseChecks ls with
        | some b, some rs => some ((fn, b) :: rs)
        | _, _ => none

/-- `children` (remotes.py 981-989) on the output of the command, as text; `none` models a
`ValueError`.  Simplified: the output is UTF-8. -/
def parseChildren (out : Str) : Option (List (Str × StatResult) × List (Str × Bytes)) :=
  match splitOn (lit "\r\n----\r\n") out with
  | [stats, checks] =>
    match parseStats (splitOn (lit "\r\n") stats), parseChecks (splitOn (lit "\r\n") checks) with
    | some s, some c => some (s, c)
    | _, _ => none
  | _ => none

end Verif.Ssh
