import Verif.Model.Package
import Verif.Model.Url

/-!
# What a package has done since its last release, and the next one

`commits_since_last_release`, `module`, `arg_org`, `arg_repo`, `command` and `bump` (`augpathlib/package.py` lines 380-410 and 432-482).

Simplified: the history is linear, as in `Model/Git`, and all of it is below `HEAD`; names of files have none of the characters
`*?[\`, which git reads as patterns; `breakpoint()` goes on.
-/

namespace Verif.Pep440

/-! ## The commits -/

/-- A commit: what `%aI`, `%an`, `%h` and `%s` print, the tags on it, and the files that it changes, from the working directory. -/
structure Rec where
  date : Str
  author : Str
  hash : Str
  subject : Str
  tags : List Str
  changes : List (List Str)
  deriving DecidableEq

/-- What is printed for a commit, quotes included, since no shell takes them away. -/
def Rec.printed (c : Rec) : Str := '\'' :: (c.date ++ ' ' :: (c.author ++ ' ' :: (c.hash ++ ' ' :: (c.subject ++ ['\'']))))

/-- Which commits `tag..HEAD` stands for; the latest comes first.  With nothing on the left it is `HEAD..HEAD`. -/
def range (history : List Rec) : Option Str → List Rec
  | none => []
  | some t => history.takeWhile fun c => !c.tags.contains t

/-- `git log --format=... tag..HEAD -- paths`: a path stands for itself and what is below it.  Before the first commit there is
no `HEAD`. -/
def gitLog (history : List Rec) (tag : Option Str) (paths : List (List Str)) : Except PyErr Str :=
  if history.isEmpty then .error .gitError
  else .ok (joinC '\n' (((range history tag).filter fun c => c.changes.any fun f => paths.any fun p => p.isPrefixOf f).map Rec.printed))

/-- `e[1:-1]` -/
def unquote (e : Str) : Str := (e.drop 1).dropLast

/-- The paths whose commits are looked for (package.py 380-384); `files` is `release_files`, from the folder of the package. -/
def releasePaths (folder : List Str) : Except PyErr (List (List Str)) → Except PyErr (List (List Str))
  | .ok fs => .ok (fs.map (folder ++ ·))
  | .error e => if e = .fileNotFoundError then .ok [folder] else .error e

/-- `_tag if _tag else ''` (package.py 386-387); `none` stands for the empty text. -/
def tagText : Option Str → Option Str
  | some [] => none
  | t => t

/-- `commits_since_last_release` (package.py 379-392) -/
def commitsSince (prefixed : Bool) (name : Str) (folder : List Str) (files : Except PyErr (List (List Str))) (history : List Rec) :
    Except PyErr (List Str) :=
  match releasePaths folder files with
  | .error e => .error e
  | .ok rfs =>
    match gitLog history (tagText (tagNearest prefixed name (history.flatMap Rec.tags))) rfs with
    | .error e => .error e
    | .ok log => .ok (((splitC '\n' log).map unquote).filter fun e => e ≠ [])

/-! ## The next release -/

/-- What `bump` ends with when it does not end normally. -/
inductive BErr where
  | next (e : PErr)
  | released
  | bumped
  | noModule
  deriving DecidableEq

/-- `module` (package.py 399-413), whether it is found -/
def hasModule (name : Str) (packages : List Str) : Bool := packages.any fun p => p = name

/-- `bump` (package.py 468-480).  `third`: the reply to the request for the releases that follows the two of `version_next`, which is
made if those were not ok. -/
def bump (parse : Str → Option Version) (s : Sources) (third : Option Index) (next comp : Word) (pretend : Bool) (name : Str)
    (packages : List Str) : Except BErr Unit :=
  match versionNext parse s next comp with
  | .error e => .error (.next e)
  | .ok nv =>
    match latestReleased parse (if s.first.isSome then s.first else if s.second.isSome then s.second else third) with
    | .error e => .error (.next e)
    | .ok vlr =>
      if vlr.any fun v => veq nv v then .error .released
      else match parse s.repo with
        | none => .error (.next .invalidVersion)
        | some r =>
          if veq nv r then .error .bumped
          else if pretend && !hasModule name packages then .error .noModule
          else .ok ()

/-- `_, org, repo, *_ = u.path.split('/')` of the address (package.py 432-442) -/
def orgRepo (url ref : Str) (rel : Symlink.Pure) : Except PyErr (Str × Str) :=
  match Url.remoteUriHuman url ref rel with
  | .error e => .error e
  | .ok a => match splitC '/' (Url.urlparse a).2 with
    | _ :: org :: repo :: _ => .ok (org, repo)
    | _ => .error .valueError

/-- `command` (package.py 460-466): the text.  `folder` is `arg_folder`: the name of the working directory and the way from there;
`version` is the text of the next version. -/
def command (url ref : Str) (rel : Symlink.Pure) (folder : List Str) (name version : Str) : Except PyErr Str :=
  match orgRepo url ref rel with
  | .error e => .error e
  | .ok (org, repo) =>
    .ok (lit "build-release " ++ org ++ ' ' :: (repo ++ ' ' :: (joinC '/' folder ++ ' ' :: (name ++ ' ' :: version))))

end Verif.Pep440
