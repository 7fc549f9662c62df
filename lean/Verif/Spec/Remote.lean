import Verif.Spec.Ssh

/-!
# What the commands on a remote print

GNU coreutils: `stat -c %F`, the error messages of `stat`, `b2sum` (`sha256sum` alike) and the order
in which bash expands `{.,}*`.
-/

namespace Verif.Ssh.Spec
open Verif Verif.Ssh

/-- The type of a file. -/
inductive Kind where
  | regular | directory | link | fifo | socket | block | char
  deriving DecidableEq, Repr

/-- `%F` -/
def typeText (k : Kind) (size : Nat) : Str :=
  match k with
  | .regular => if size = 0 then lit "regular empty file" else lit "regular file"
  | .directory => lit "directory"
  | .link => lit "symbolic link"
  | .fifo => lit "fifo"
  | .socket => lit "socket"
  | .block => lit "block special file"
  | .char => lit "character special file"

/-- What stat prints if there is nothing at the path. -/
def missing (cmd path : Str) : Str :=
  cmd ++ lit ": cannot statx '" ++ path ++ lit "': No such file or directory"

/-- What stat prints if the path cannot be reached. -/
def denied (cmd path : Str) : Str :=
  cmd ++ lit ": cannot statx '" ++ path ++ lit "': Permission denied"

/-- Something in a directory: what stat knows about it, and the checksum of its content if it is a file. -/
structure Entry where
  file : File
  sum : Option Bytes

/-- The line of the checksum command for an entry: names with backslashes in them are marked. -/
def Entry.check (cypher : Str) (e : Entry) : Str :=
  match e.sum with
  | none => cypher ++ lit ": " ++ e.file.name ++ lit ": Is a directory"
  | some b =>
    if '\\' ∈ e.file.name then '\\' :: (hex b ++ ' ' :: ' ' :: e.file.name.flatMap fun c => if c = '\\' then ['\\', '\\'] else [c])
    else hex b ++ ' ' :: ' ' :: e.file.name

/-- Lines on a terminal. -/
def lines : List Str → Str
  | [] => []
  | [l] => l
  | l :: ls => l ++ '\r' :: '\n' :: lines ls

/-- What comes back for a listing: `dotted` are the entries with a leading dot, among them the directory
itself, and `plain` the others.  A pattern that nothing matches is taken literally. -/
def listing (cmd cypher : Str) (dotted plain : List Entry) : Str :=
  lines (dotted.map (·.file.print) ++
    if plain = [] then [missing cmd ['*']] else plain.map (·.file.print)) ++
  lit "\r\n----\r\n" ++
  lines (dotted.map (Entry.check cypher) ++
    if plain = [] then [cypher ++ lit ": '*': No such file or directory"] else plain.map (Entry.check cypher))

end Verif.Ssh.Spec
