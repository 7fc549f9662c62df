import Verif.Model.Git

/-!
# Ref objects as context managers

`_Reference.__enter__` and `__exit__` (`augpathlib/repo_patch.py` lines 51-87) once more, with the object: what `__enter__` keeps
for `__exit__` is in two attributes of the ref, so that a block inside another one with the same object writes over them.
-/

namespace Verif.Git

/-- The two attributes of a ref object; none if the attribute is not there, which it is not until the first `__enter__`. -/
structure RefObj where
  /-- `__original_branch` -/
  original : Option Str
  /-- `__stash`: whether it is something else than `None` -/
  stash : Option Bool
  deriving DecidableEq

/-- A program that has a ref object. -/
abbrev OProg (α : Type) := RefObj × Machine → Except PyErr α × RefObj × Machine

namespace OProg
variable {α β : Type}

def pure (a : α) : OProg α := fun s => (.ok a, s)

def throw (e : PyErr) : OProg α := fun s => (.error e, s)

def bind (m : OProg α) (f : α → OProg β) : OProg β := fun s =>
  match m s with
  | (.ok a, s) => f a s
  | (.error e, s) => (.error e, s)

/-- `try: m finally: f` -/
def finally_ (m : OProg α) (f : OProg Unit) : OProg α := fun s =>
  match m s with
  | (r, s) => match f s with
    | (.ok (), s) => (r, s)
    | (.error e, s) => (.error e, s)

/-- A program that does not use the object. -/
def lift (m : Prog α) : OProg α := fun s =>
  match m s.2 with
  | (r, m') => (r, s.1, m')

/-- An attribute of the object; an `AttributeError` if it is not there. -/
def get (f : RefObj → Option α) : OProg α := fun s =>
  match f s.1 with
  | some a => (.ok a, s)
  | none => (.error .attributeError, s)

/-- Assignment to an attribute -/
def set (f : RefObj → RefObj) : OProg Unit := fun s => (.ok (), f s.1, s.2)

end OProg

variable (E : Env)

/-- `_Reference.__enter__` (repo_patch.py 51-71), with the attributes of `self`. -/
noncomputable def Env.enterObj (ref : Ref) : OProg Unit :=
  .bind (.lift fun s => (.ok (s.repo.refs ref).isSome, s)) fun valid =>
  if valid then
    .bind (.lift activeBranch) fun branch =>
    .bind (.set fun o => { o with original := some branch }) fun _ =>
    .bind (.lift (E.stash true)) fun stashed =>
    .bind (.set fun o => { o with stash := some stashed }) fun _ =>
    .bind (.get RefObj.original) fun original =>
    if ref = .head original then .pure ()
    else .lift (E.checkout ref)
  else .throw .nameError

/-- `_Reference.__exit__` (repo_patch.py 73-87), with the attributes of `self`. -/
noncomputable def Env.exitObj (ref : Ref) : OProg Unit :=
  .bind (.lift (E.stash true)) fun again =>
  let k := if again then 1 else 0
  .bind (.get RefObj.original) fun original =>
  .bind (if Ref.head original = ref then .pure () else .lift (E.checkout (.head original))) fun _ =>
  .bind (.get RefObj.stash) fun stashed =>
  .bind (if stashed then .lift (E.pop k) else .pure ()) fun _ =>
  .set fun o => { o with stash := some false }

/-- `with ref: body`, where the body may use the same object. -/
noncomputable def Env.visitObj {α : Type} (ref : Ref) (body : OProg α) : OProg α :=
  .bind (E.enterObj ref) fun _ => .finally_ body (E.exitObj ref)

/-- `n` blocks inside each other, all with the same object. -/
noncomputable def Env.sameObj {α : Type} (ref : Ref) (body : OProg α) : Nat → OProg α
  | 0 => body
  | n + 1 => E.visitObj ref (Env.sameObj ref body n)

/-- Blocks inside each other, each with an object of its own; `objs` are their attributes before. -/
noncomputable def Env.ownObjs {α : Type} (body : Prog α) : List (Ref × RefObj) → Prog α
  | [] => body
  | (ref, o) :: rest => fun m =>
    match E.visitObj ref (.lift (Env.ownObjs body rest)) (o, m) with
    | (r, _, m') => (r, m')

end Verif.Git
