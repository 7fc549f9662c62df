import Verif.Model.Git
import Verif.Model.Str

/-!
# Names of refs, versions of files, and changes

`currentRefName`, `getRef` (`augpathlib/repo_patch.py` lines 7-41), `show` (`augpathlib/repo.py` lines 343-351), `modified`,
`has_uncommitted_changes` and `_do_diff` (`repo.py` lines 218-242), on top of what git and GitPython do: `git name-rev` prints a
short name of a ref with a suffix that says how to get from there to the commit, GitPython takes one newline off the end of
what a command prints and decodes it as UTF-8 with `surrogateescape`, and `git diff` does not list files that are not in the
index.
-/

namespace Verif.Versions
open Verif Git

/-! ## Names of refs -/

/-- `ref.name` of GitPython -/
def refName : Ref → Str
  | .head n => n
  | .remote n => n
  | .tag n => n

/-- The name with which `git name-rev` speaks about a ref. -/
def shortName : Ref → Str
  | .head n => n
  | .remote n => ['r', 'e', 'm', 'o', 't', 'e', 's', '/'] ++ n
  | .tag n => ['t', 'a', 'g', 's', '/'] ++ n

/-- What `HEAD` is, and for a detached one what `git name-rev` says about its commit: a ref and the way from there (like
`~2` or `^0`), or nothing. -/
inductive At where
  | branch (name : Str)
  | detached (rev : Option (Ref × Str))

/-- `self.head.commit.name_rev.split()[1:2]`: git says `undefined` if there is no name. -/
def nameRev : Option (Ref × Str) → Str
  | some (r, way) => shortName r ++ way
  | none => ['u', 'n', 'd', 'e', 'f', 'i', 'n', 'e', 'd']

/-- `s.split('/', 1)`, if there is a slash -/
def splitSlash : Str → Option (Str × Str)
  | [] => none
  | c :: cs => if c = '/' then some ([], cs) else (splitSlash cs).map fun (a, b) => (c :: a, b)

/-- `currentRefName` (repo_patch.py 15-41); names of refs have no white space. -/
def currentRefName : At → Option Str
  | .branch n => some n
  | .detached rev => match splitSlash (nameRev rev) with
    | none => none
    | some (tags, tag) =>
      if tags = ['t', 'a', 'g', 's'] then some tag
      else if '~' ∈ tag then none
      else some (nameRev rev)

/-- `getRef` (repo_patch.py 7-13); `refs` are in the order of GitPython. -/
def getRef (refs : List Ref) (name : Str) : Except PyErr Ref :=
  match refs.find? fun r => refName r = name with
  | some r => .ok r
  | none => .error .valueError

/-! ## Decoding and encoding -/

/-- A continuation byte -/
def cont (b : UInt8) : Bool := 0x80 ≤ b.toNat && b.toNat ≤ 0xBF

/-- The first two bytes of a sequence of three: no overlong forms and no surrogates. -/
def three (a b : UInt8) : Bool :=
  cont b && ((a.toNat = 0xE0 && decide (0xA0 ≤ b.toNat)) || (a.toNat = 0xED && decide (b.toNat ≤ 0x9F)) ||
    (decide (0xE1 ≤ a.toNat) && decide (a.toNat ≤ 0xEF) && decide (a.toNat ≠ 0xED)))

/-- The first two bytes of a sequence of four: no overlong forms and nothing above the last code point. -/
def four (a b : UInt8) : Bool :=
  cont b && ((a.toNat = 0xF0 && decide (0x90 ≤ b.toNat)) || (a.toNat = 0xF4 && decide (b.toNat ≤ 0x8F)) ||
    (decide (0xF1 ≤ a.toNat) && decide (a.toNat ≤ 0xF3)))

/-- The code point at the front that `bytes.decode('utf-8', 'surrogateescape')` finds, and how many bytes after the first
belong to it: a byte that starts no UTF-8 sequence becomes `0xDC00` plus the byte. -/
def front (a : UInt8) : Bytes → Nat × Nat
  | b :: c :: d :: _ =>
    if a.toNat < 0x80 then (a.toNat, 0)
    else if 0xC2 ≤ a.toNat ∧ a.toNat ≤ 0xDF ∧ cont b = true then ((a.toNat - 0xC0) * 64 + (b.toNat - 0x80), 1)
    else if three a b = true ∧ cont c = true then
      ((a.toNat - 0xE0) * 4096 + (b.toNat - 0x80) * 64 + (c.toNat - 0x80), 2)
    else if four a b = true ∧ cont c = true ∧ cont d = true then
      ((a.toNat - 0xF0) * 262144 + (b.toNat - 0x80) * 4096 + (c.toNat - 0x80) * 64 + (d.toNat - 0x80), 3)
    else (0xDC00 + a.toNat, 0)
  | [b, c] =>
    if a.toNat < 0x80 then (a.toNat, 0)
    else if 0xC2 ≤ a.toNat ∧ a.toNat ≤ 0xDF ∧ cont b = true then ((a.toNat - 0xC0) * 64 + (b.toNat - 0x80), 1)
    else if three a b = true ∧ cont c = true then
      ((a.toNat - 0xE0) * 4096 + (b.toNat - 0x80) * 64 + (c.toNat - 0x80), 2)
    else (0xDC00 + a.toNat, 0)
  | [b] =>
    if a.toNat < 0x80 then (a.toNat, 0)
    else if 0xC2 ≤ a.toNat ∧ a.toNat ≤ 0xDF ∧ cont b = true then ((a.toNat - 0xC0) * 64 + (b.toNat - 0x80), 1)
    else (0xDC00 + a.toNat, 0)
  | [] => if a.toNat < 0x80 then (a.toNat, 0) else (0xDC00 + a.toNat, 0)

/-- `bytes.decode('utf-8', 'surrogateescape')` to code points -/
def decodeEscape : Bytes → List Nat
  | [] => []
  | a :: r => (front a r).1 :: decodeEscape (r.drop (front a r).2)
termination_by b => b.length
decreasing_by simp; omega

/-- The bytes of one code point under `str.encode('utf-8', 'surrogateescape')`. -/
def encodePoint (n : Nat) : Except PyErr Bytes :=
  if n < 0x80 then .ok [.ofNat n]
  else if n < 0x800 then .ok [.ofNat (0xC0 + n / 64), .ofNat (0x80 + n % 64)]
  else if 0xDC80 ≤ n ∧ n ≤ 0xDCFF then .ok [.ofNat (n - 0xDC00)]
  else if 0xD800 ≤ n ∧ n ≤ 0xDFFF then .error .valueError
  else if n < 0x10000 then .ok [.ofNat (0xE0 + n / 4096), .ofNat (0x80 + n / 64 % 64), .ofNat (0x80 + n % 64)]
  else .ok [.ofNat (0xF0 + n / 262144), .ofNat (0x80 + n / 4096 % 64), .ofNat (0x80 + n / 64 % 64), .ofNat (0x80 + n % 64)]

/-- `str.encode('utf-8', 'surrogateescape')` -/
def encodeEscape : List Nat → Except PyErr Bytes
  | [] => .ok []
  | n :: ns => match encodePoint n with
    | .error e => .error e
    | .ok b => match encodeEscape ns with
      | .error e => .error e
      | .ok bs => .ok (b ++ bs)

/-! ## Versions of a file -/

/-- What GitPython makes of what a command prints: without a newline at the end. -/
def stripNewline (b : Bytes) : Bytes := if b.getLast? = some 10 then b.dropLast else b

/-- The versions that `show` knows: the file itself (`None`), the index (the empty text) or a commit. -/
inductive Version where
  | work
  | index
  | commit (c : Commit)

/-- The files of a version -/
def Version.tree (r : Repo) : Version → Tree
  | .work => r.work
  | .index => r.index
  | .commit c => c.tree

/-- `show(ref)` (repo.py 343-351) of a file.  `git show` fails for a file that is not in the version. -/
def showFile (r : Repo) (v : Version) (p : File) : Except PyErr Bytes :=
  match v with
  | .work => match r.work p with
    | some b => .ok b
    | none => .error .fileNotFoundError
  | v => match v.tree r p with
    | some b => encodeEscape (decodeEscape (stripNewline b))
    | none => .error .gitError

/-! ## Changes -/

/-- The entry of `git diff` for one file, both sides: nothing if they are equal. -/
def entry (a b : Option Bytes) : Option (Option Bytes × Option Bytes) := if a = b then none else some (a, b)

/-- The working directory as `git diff` sees it: without the files that are not in the index. -/
def seen (r : Repo) (p : File) : Option Bytes := if (r.index p).isSome then r.work p else none

/-- `_do_diff(this, None)` (repo.py 235-242) of a file, for `this` with the files `t`. -/
def doDiff (r : Repo) (t : Tree) (p : File) : Except PyErr (Option (Option Bytes × Option Bytes)) :=
  if (r.work p).isSome then .ok (entry (t p) (seen r p)) else .error .fileNotFoundError

/-- `modified()` (repo.py 220-223) -/
def modified (r : Repo) (p : File) : Except PyErr (Option (Option Bytes × Option Bytes)) := doDiff r r.index p

/-- `has_uncommitted_changes()` (repo.py 230-233) in a repository with a commit. -/
def hasUncommitted (r : Repo) (p : File) : Except PyErr (Option (Option Bytes × Option Bytes)) := doDiff r r.tree p

end Verif.Versions
