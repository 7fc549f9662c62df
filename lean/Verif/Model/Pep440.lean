import Verif.Model.Str

/-!
# The next version

`augpathlib/package.py` lines 44-155.
-/

namespace Verif.Pep440

/-- The words for phases and release components, `other` stands for any other string. -/
inductive Word where
  | dev | a | b | rc | release | major | minor | micro | post | loc | current | pre | other
  deriving DecidableEq, Repr

/-- The kinds of pre-release. -/
inductive Pre where
  | a | b | rc
  deriving DecidableEq, Repr

def Pre.word : Pre → Word
  | .a => .a
  | .b => .b
  | .rc => .rc

/-- A segment of a local version label. -/
inductive Seg where
  | num (n : Nat)
  | text (s : Str)
  deriving DecidableEq, Repr

/-- The parts of a `packaging.version.Version`.  The release is never empty. -/
structure Version where
  epoch : Nat
  release : List Nat
  pre : Option (Pre × Nat)
  post : Option Nat
  dev : Option Nat
  loc : Option (List Seg)
  deriving DecidableEq, Repr

/-- `vinc` of an int or `None` (package.py 44-56). -/
def vinc : Option Nat → Nat
  | none => 0
  | some n => n + 1

/-- `current_state` (package.py 59-64) -/
def currentState (v : Version) : Word :=
  if v.loc.isSome then .loc
  else if v.post.isSome then .post
  else match v.pre with
    | some (k, _) => k.word
    | none => if v.dev.isSome then .dev else .release

/-- The result of `logic`: one step, two steps (a tuple) or `None`. -/
inductive Next where
  | one (w : Word)
  | two (c w : Word)
  | trunc
  deriving DecidableEq, Repr

/-- `cstate > next_phase` for the strings `'a' < 'b' < 'rc'`. -/
def later : Word → Word → Bool
  | .b, .a => true
  | .rc, .a => true
  | .rc, .b => true
  | _, _ => false

/-- `logic` (package.py 67-96); `none` models `ValueError`. -/
def logic (cstate next comp : Word) : Option Next :=
  match next with
  | .current => some (.one cstate)
  | .dev =>
    if cstate = .dev then some (.one cstate)
    else if cstate = .release ∨ cstate = .post ∨ cstate = .loc then some (.two comp next)
    else none
  | .pre =>
    if cstate = .dev then some (.one .a)
    else if cstate = .a then some (.one .b)
    else if cstate = .b then some (.one .rc)
    else if cstate = .rc then some (.one .rc)
    else if cstate = .release ∨ cstate = .post ∨ cstate = .loc then some (.two comp .a)
    else none
  | .a | .b | .rc =>
    if cstate = .dev then some (.one next)
    else if (cstate = .a ∨ cstate = .b ∨ cstate = .rc) ∧ later cstate next then none
    else some (.two comp next)
  | .release =>
    if cstate = .dev ∨ cstate = .a ∨ cstate = .b ∨ cstate = .rc then some .trunc
    else some (.one next)
  | .major | .minor | .micro => some (.one next)
  | .post => if cstate = .release then some (.one next) else none
  | .loc => some (.one next)
  | .other => none

/-- `release = (*release[:-1], vinc(release[-1]))` -/
def bumpLast : List Nat → List Nat
  | [] => []
  | [n] => [n + 1]
  | n :: ns => n :: bumpLast ns

/-- Increment the component at a position and reset the following ones; `none` models `IndexError`. -/
def bumpAt : Nat → List Nat → Option (List Nat)
  | _, [] => none
  | 0, n :: ns => some ((n + 1) :: ns.map fun _ => 0)
  | i + 1, n :: ns => (bumpAt i ns).map (n :: ·)

/-- `cons_next` (package.py 99-130); `d` is the version under construction. -/
def consNext (d ver : Version) (next : Word) : Except PyErr Version :=
  match next with
  | .a => .ok { d with pre := some (.a, vinc (ver.pre.map Prod.snd)) }
  | .b => .ok { d with pre := some (.b, vinc (ver.pre.map Prod.snd)) }
  | .rc => .ok { d with pre := some (.rc, vinc (ver.pre.map Prod.snd)) }
  | .dev => .ok { d with dev := some (vinc ver.dev) }
  | .post => .ok { d with post := some (vinc ver.post) }
  | .release => .ok { d with release := bumpLast d.release }
  | .major => match bumpAt 0 d.release with
    | some r => .ok { d with release := r }
    | none => .error .indexError
  | .minor => match bumpAt 1 d.release with
    | some r => .ok { d with release := r }
    | none => .error .indexError
  | .micro => match bumpAt 2 d.release with
    | some r => .ok { d with release := r }
    | none => .error .indexError
  | .loc =>
    -- `ver.local` is a string or `None`; incrementing a string raises `TypeError`
    match ver.loc with
    | some _ => .error .typeError
    | none => .ok { ver with loc := some [.num 0] }
  | _ => .error .valueError

/-- `next_version` (package.py 133-155).  Writing the new version out and parsing it again is the
identity on these values. -/
def nextVersion (ver : Version) (next comp : Word) : Except PyErr Version :=
  match logic (currentState ver) next comp with
  | none => .error .valueError
  | some n =>
    let d : Version := ⟨ver.epoch, ver.release, none, none, none, none⟩
    match n with
    | .trunc => .ok d
    | .one w => consNext d ver w
    | .two c w => match consNext d ver c with
      | .ok d' => consNext d' ver w
      | .error e => .error e

end Verif.Pep440
