import Verif.Model.Ssh
import Verif.Model.Zip

/-!
# Addresses of remotes

`augpathlib/repo.py` lines 32-38 and 146-200.
-/

namespace Verif.Url

open Verif.Symlink

/-- `urlparse(url)`: host part and path.  Simplified: a url without `scheme://` has no host part, the
scheme is everything before the first colon, parameters after `;` are not split off. -/
def urlparse (url : Str) : Str × Str :=
  match Ssh.splitColon url with
  | some (_, '/' :: '/' :: rest) =>
    let netloc := rest.takeWhile fun c => c ≠ '/' ∧ c ≠ '?' ∧ c ≠ '#'
    let path := (rest.drop netloc.length).takeWhile fun c => c ≠ '?' ∧ c ≠ '#'
    (netloc, path)
  | some (_, rest) => ([], rest)
  | none => ([], url)

/-- `_remote_helper` (repo.py 146-162): host part and path; unpacking `netloc.split(':')` raises
`ValueError` unless there are two parts. -/
def remoteHelper (url : Str) : Except PyErr (Str × Str) :=
  let url := if (lit "git@").isPrefixOf url then lit "ssh://" ++ url else url
  let (netloc, path) := urlparse url
  if (lit "git@github.com").isPrefixOf netloc then
    match splitC ':' netloc with
    | [_, group] => .ok (lit "github.com", '/' :: group ++ path)
    | _ => .error .valueError
  else .ok (netloc, path)

/-- `path.with_suffix('')`; raises `ValueError` on a path without name. -/
def withoutSuffix (p : Pure) : Except PyErr Pure :=
  match p.comps.getLast? with
  | none => .error .valueError
  | some n => .ok { p with comps := p.comps.dropLast ++ [Zip.stem n] }

/-- `_remote_uri` (repo.py 164-188) for a reference that is given (not `HEAD`) and known; only remotes
on github are modelled, for others the code raises or looks at another repository on disk. -/
def remoteUri (pre : Str) (infix_ : Option Str) (url ref : Str) (rel : Pure) : Except PyErr Str :=
  match remoteHelper url with
  | .error e => .error e
  | .ok (netloc, path) =>
    if netloc = lit "github.com" then
      match withoutSuffix (parse path) with
      | .error e => .error e
      | .ok p =>
        let p := match infix_ with
          | some i => p.join (parse i)
          | none => p
        .ok (pre ++ ((p.join (parse ref)).join rel).str)
    else .error .notImplementedError

/-- `remote_uri_human` (repo.py 196-197) -/
def remoteUriHuman (url ref : Str) (rel : Pure) : Except PyErr Str :=
  remoteUri (lit "https://github.com") (some (lit "blob")) url ref rel

/-- `remote_uri_machine` (repo.py 199-200) -/
def remoteUriMachine (url ref : Str) (rel : Pure) : Except PyErr Str :=
  remoteUri (lit "https://raw.githubusercontent.com") none url ref rel

/-- `remote_uri_api` (repo.py 190-194) without endpoint. -/
def remoteUriApi (url : Str) : Except PyErr Str :=
  match remoteHelper url with
  | .error e => .error e
  | .ok (_, path) =>
    match withoutSuffix (parse path) with
    | .error e => .error e
    | .ok p => .ok (lit "https://api.github.com/repos" ++ p.str)

/-- The name of the folder that `clone_path` (repo.py 32-38) picks. -/
def cloneName (url : Str) : Str := match (parse url).comps.getLast? with
  | some n => Zip.stem n
  | none => []

end Verif.Url
