import Verif.Model.Url
import Verif.Model.Ancestors

/-!
# Web addresses of files in clones of clones

`_remote_uri` and `remote_uri_api` (`augpathlib/repo.py` lines 164-194) where the remote of a repository is another one on the
same disk, which `Model/Url` leaves out.

Simplified: paths are absolute and without `..`, symlinks and a leading `~`; repositories have a remote, and can be opened; the
reference is not checked, which only logs.
-/

namespace Verif.CloneUrl
open Verif.FS

/-- A disk: what exists, which directories have a `.git`, and of those the address of the remote and the active branch, where asking
for it raises if `HEAD` is detached. -/
structure Disk where
  there : Path → Bool
  git : Path → Bool
  url : Path → Str
  branch : Path → Except PyErr Str

/-- `working_dir` (repo.py 110-130) -/
def Disk.workingDir (d : Disk) (p : Path) : Option Path :=
  match workingDirAbs (fun q => .ok (d.git q)) p with
  | .ok r => r
  | .error _ => none

/-- `repo.active_branch.name` for no reference and for `HEAD` (repo.py 172-173) -/
def Disk.refOf (d : Disk) (wd : Path) : Option Str → Except PyErr Str
  | none => d.branch wd
  | some r => if r = [] ∨ r = lit "HEAD" then d.branch wd else .ok r

/-- `_remote_uri` (repo.py 164-188); `depth`: how many calls python allows inside each other. -/
def Disk.remoteUri (d : Disk) (pre : Str) (infix_ : Option Str) (ref : Option Str) : Nat → Path → Except PyErr Str
  | 0, _ => .error .runtimeError
  | depth + 1, p =>
    match d.workingDir p with
    | none => .error .augPathlibError
    | some wd =>
      match Url.remoteHelper (d.url wd) with
      | .error e => .error e
      | .ok (netloc, _) =>
        if netloc = lit "github.com" then
          match d.refOf wd ref with
          | .error e => .error e
          | .ok r => Url.remoteUri pre infix_ (d.url wd) r ⟨[], p.drop wd.length⟩
        else if (lit "/").isPrefixOf (d.url wd) && d.there (Symlink.parse (d.url wd)).comps then
          d.remoteUri pre infix_ ref depth ((Symlink.parse (d.url wd)).comps ++ p.drop wd.length)
        else .error .notImplementedError

/-- `remote_uri_human` (repo.py 196-197) -/
def Disk.human (d : Disk) (depth : Nat) (ref : Option Str) (p : Path) : Except PyErr Str :=
  d.remoteUri (lit "https://github.com") (some (lit "blob")) ref depth p

/-- `remote_uri_api` (repo.py 190-194) -/
def Disk.api (d : Disk) (p : Path) : Except PyErr Str :=
  match d.workingDir p with
  | none => .error .augPathlibError
  | some wd => Url.remoteUriApi (d.url wd)

end Verif.CloneUrl
