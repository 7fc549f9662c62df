import Verif.Model.Release

/-!
# What a package path remembers

`augpathlib/package.py` lines 179-296 and 333-338: the replies of the package index and of the hosting site, the session of the requests, and what
the setup file said are kept on the path object (`_pypi_json`, `_github_json`, `_cache_github_session`, `_setup_dist`).

Everything outside of the process (the setup file, the index, the site, the token, the address of the remote) may change between
any two times that it is looked at: it is a function of the number of times something was looked at.  Simplified: the reply of the index
has `info.version` and `releases`, that of the site is a list of releases with tags; modules can be imported; `tag_prefix` does not
change.
-/

namespace Verif.PackMemo
open Verif.Pep440

/-- What `requests` gives: it raises, or a response that is ok or not. -/
inductive Reply (α : Type)
  | raises (e : PyErr)
  | notOk
  | ok (a : α)

/-- What the setup file says (package.py 163-185): name, version, packages. -/
structure Dist where
  name : Str
  version : Str
  packages : List Str

/-- What is outside. -/
structure Env where
  parse : Str → Option Version
  /-- `_github_do_auth` (package.py 217) -/
  auth : Bool
  /-- `tag_prefix` (package.py 299-302) -/
  prefixed : Bool
  setup : Nat → Except PyErr Dist
  index : Nat → Reply Index
  token : Nat → Except PyErr Str
  uri : Nat → Except PyErr Str
  hub : Nat → Reply (List Str)

/-- The attributes of a path. -/
structure Obj where
  setup : Option Dist
  pypi : Option Index
  session : Option (Option Str)
  github : Option (List Str)

/-- A new path. -/
def Obj.fresh : Obj := ⟨none, none, none, none⟩

/-- What was looked at, by which path; for the site also with which token. -/
inductive Event
  | setup (i : Nat) (r : Except PyErr Dist)
  | index (i : Nat) (name : Str) (r : Reply Index)
  | token (i : Nat) (r : Except PyErr Str)
  | uri (i : Nat) (r : Except PyErr Str)
  | hub (i : Nat) (token : Option Str) (uri : Str) (r : Reply (List Str))

/-- The paths, and what was looked at, the latest first. -/
structure State where
  objs : Nat → Obj
  seen : List Event

def State.init : State := ⟨fun _ => .fresh, []⟩

def State.saw (s : State) (e : Event) : State := { s with seen := e :: s.seen }

def State.set (s : State) (i : Nat) (o : Obj) : State := { s with objs := fun j => if j = i then o else s.objs j }

/-- How many times something was looked at. -/
def State.now (s : State) : Nat := s.seen.length

/-- Exceptions: of the setup file, of the requests, of finding the token or the address, and those of versions. -/
inductive Err
  | outside (e : PyErr)
  | inside (e : BErr)

abbrev M (α : Type) := State → Except Err α × State

def M.bind {α β : Type} (m : M α) (f : α → M β) : M β := fun s =>
  match m s with
  | (.ok a, s) => f a s
  | (.error e, s) => (.error e, s)

/-- What is computed from values that are there already. -/
def M.lift {α : Type} (r : Except PErr α) : M α := fun s =>
  match r with
  | .ok a => (.ok a, s)
  | .error e => (.error (.inside (.next e)), s)

def M.fail {α : Type} (e : BErr) : M α := fun s => (.error (.inside e), s)

def M.pure {α : Type} (a : α) : M α := fun s => (.ok a, s)

variable (E : Env)

/-- `setup_dist` (package.py 179-185; 188-194 is the same with the arguments) -/
def setupDist (i : Nat) : M Dist := fun s =>
  match (s.objs i).setup with
  | some d => (.ok d, s)
  | none => match E.setup s.now with
    | .error e => (.error (.outside e), s.saw (.setup i (.error e)))
    | .ok d => (.ok d, (s.saw (.setup i (.ok d))).set i { s.objs i with setup := some d })

/-- The request to the index (package.py 205-215), kept if it is ok -/
def askIndex (i : Nat) (name : Str) : M (Option Index) := fun s =>
  match E.index s.now with
  | .raises e => (.error (.outside e), s.saw (.index i name (.raises e)))
  | .notOk => (.ok none, s.saw (.index i name .notOk))
  | .ok x => (.ok (some x), (s.saw (.index i name (.ok x))).set i { s.objs i with pypi := some x })

/-- `pypi_json` (package.py 201-215) -/
def pypiJson (i : Nat) : M (Option Index) := fun s =>
  match (s.objs i).pypi with
  | some x => (.ok (some x), s)
  | none => M.bind (setupDist E i) (fun d => askIndex E i d.name) s

/-- `_github_session` (package.py 218-232) -/
def githubSession (i : Nat) : M (Option Str) := fun s =>
  match (s.objs i).session with
  | some t => (.ok t, s)
  | none =>
    if E.auth then match E.token s.now with
      | .error e => (.error (.outside e), s.saw (.token i (.error e)))
      | .ok t => (.ok (some t), (s.saw (.token i (.ok t))).set i { s.objs i with session := some (some t) })
    else (.ok none, s.set i { s.objs i with session := some none })

/-- `self.remote_uri_api('/releases')` (package.py 238) -/
def remoteUri (i : Nat) : M Str := fun s =>
  match E.uri s.now with
  | .error e => (.error (.outside e), s.saw (.uri i (.error e)))
  | .ok u => (.ok u, s.saw (.uri i (.ok u)))

/-- The request to the site (package.py 238-245), kept if it is ok -/
def askHub (i : Nat) (t : Option Str) (u : Str) : M (Option (List Str)) := fun s =>
  match E.hub s.now with
  | .raises e => (.error (.outside e), s.saw (.hub i t u (.raises e)))
  | .notOk => (.ok none, s.saw (.hub i t u .notOk))
  | .ok x => (.ok (some x), (s.saw (.hub i t u (.ok x))).set i { s.objs i with github := some x })

/-- `github_json` (package.py 235-247) -/
def githubJson (i : Nat) : M (Option (List Str)) := fun s =>
  match (s.objs i).github with
  | some x => (.ok (some x), s)
  | none => M.bind (githubSession E i) (fun t => M.bind (remoteUri E i) fun u => askHub E i t u) s

/-- `version_latest_pypi` (package.py 249-254) -/
def versionLatestPypi (i : Nat) : M (Option Version) := M.bind (pypiJson E i) fun x => .lift (latestPypi E.parse x)

/-- `version_latest_released` (package.py 256-263) -/
def versionLatestReleased (i : Nat) : M (Option Version) := M.bind (pypiJson E i) fun x => .lift (latestReleased E.parse x)

/-- `version_repo` (package.py 333-338) -/
def versionRepo (i : Nat) : M Version := M.bind (setupDist E i) fun d => .lift (match E.parse d.version with
  | some v => .ok v
  | none => .error .invalidVersion)

/-- `vlp == vlr` -/
def sameLatest : Option Version → Option Version → Bool
  | none, none => true
  | some v, some w => veq v w
  | _, _ => false

/-- `version_next` (package.py 285-296); a version is never false. -/
def versionNext (i : Nat) (next comp : Word) : M Version :=
  M.bind (versionLatestPypi E i) fun vlp =>
  M.bind (versionLatestReleased E i) fun vlr =>
  if sameLatest vlp vlr then match vlp with
    | some v => .lift (match nextVersion v next comp with
      | .ok w => .ok w
      | .error e => .error (.version e))
    | none => versionRepo E i
  else .lift (.error .assertion)

/-- `bump` (package.py 468-480) with `module` (399-413) -/
def bump (i : Nat) (next comp : Word) (pretend : Bool) : M Unit :=
  M.bind (versionNext E i next comp) fun nv =>
  M.bind (versionLatestReleased E i) fun vlr =>
  if vlr.any fun v => veq nv v then .fail .released
  else M.bind (versionRepo E i) fun r =>
    if veq nv r then .fail .bumped
    else M.bind (setupDist E i) fun d => if pretend && !hasModule d.name d.packages then .fail .noModule else .pure ()

/-- `tag_latest_github` (package.py 273-283): the name is asked for if there is a tag to compare it with. -/
def tagLatestGithub (i : Nat) : M (Option Str) :=
  M.bind (githubJson E i) fun x =>
  if E.prefixed && x.any (fun l => !l.isEmpty) then M.bind (setupDist E i) fun d => .lift (Pep440.tagLatestGithub true d.name x)
  else .lift (Pep440.tagLatestGithub E.prefixed [] x)

/-- `version_latest_github` (package.py 265-271) -/
def versionLatestGithub (i : Nat) : M (Option Version) :=
  if E.prefixed then
    M.bind (setupDist E i) fun d => M.bind (tagLatestGithub E i) fun t => .lift (tagVersion E.parse true d.name t)
  else M.bind (tagLatestGithub E i) fun t => .lift (tagVersion E.parse false [] t)

/-- The calls. -/
inductive Call
  | pypiJson
  | githubJson
  | latestPypi
  | latestReleased
  | repo
  | next (phase comp : Word)
  | bump (phase comp : Word) (pretend : Bool)
  | tagGithub
  | latestGithub

/-- What is left after a call; its result is not of interest here. -/
def call (s : State) (i : Nat) : Call → State
  | .pypiJson => (pypiJson E i s).2
  | .githubJson => (githubJson E i s).2
  | .latestPypi => (versionLatestPypi E i s).2
  | .latestReleased => (versionLatestReleased E i s).2
  | .repo => (versionRepo E i s).2
  | .next n c => (versionNext E i n c s).2
  | .bump n c p => (bump E i n c p s).2
  | .tagGithub => (tagLatestGithub E i s).2
  | .latestGithub => (versionLatestGithub E i s).2

/-- A history of calls by any number of paths. -/
def run (s : State) : List (Nat × Call) → State
  | [] => s
  | (i, c) :: cs => run (call E s i c) cs

end Verif.PackMemo
