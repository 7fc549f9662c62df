import Verif.Model.Ancestors

/-!
# What becomes of failures when attributes are asked for

`XattrHelper.delxattr` and `getxattr` (`augpathlib/core.py` lines 286-291 and 306-314), with the number of the failure, and
`EatPath.is_sparse` (`augpathlib/core.py` lines 943-959) on top of it.  `Model/Attrs.lean` has what they do to a file that is there.

The system follows symbolic links, so a path is there if what it leads to is.
-/

namespace Verif.Attrs

/-- What the `errno` module of the platform has, and the number with which the platform says that an attribute is not there. -/
structure Platform where
  enodata : Option Nat
  enoattr : Option Nat
  missing : Nat

/-- Linux: `errno.ENODATA` is 61 and there is no `errno.ENOATTR`. -/
def linux : Platform := ⟨some 61, none, 61⟩

/-- macOS: `errno.ENODATA` is 96 and `errno.ENOATTR`, which the system uses, is 93. -/
def macOS : Platform := ⟨some 96, some 93, 93⟩

/-- What is raised. -/
inductive Failure where
  /-- the `OSError` of the system, with its number -/
  | os (errno : Nat)
  | noStream
  | attributeError
  deriving DecidableEq, Repr

/-- `getxattr` (core.py 306-314) for what the system answers.  `errno.ENOATTR` is looked up unless the number is `errno.ENODATA`. -/
def get (P : Platform) : Except Nat Bytes → Except Failure Bytes
  | .ok v => .ok v
  | .error e =>
    match P.enodata with
    | none => .error .attributeError
    | some d =>
      if e = d then .error .noStream
      else match P.enoattr with
        | none => .error .attributeError
        | some a => if e = a then .error .noStream else .error (.os e)

/-- `delxattr` (core.py 286-291) for what the system answers. -/
def del (fail : Bool) : Except Nat Unit → Except Failure Unit
  | .ok _ => .ok ()
  | .error e => if fail || e ≠ 61 then .error (.os e) else .ok ()

/-- The exceptions as the rest of the model has them; `named` is the exception python makes of a number. -/
def Failure.toPy (named : Nat → PyErr) : Failure → PyErr
  | .os e => named e
  | .noStream => .noStreamError
  | .attributeError => .attributeError

def toPy (named : Nat → PyErr) : Except Failure Bytes → Except PyErr Bytes
  | .ok v => .ok v
  | .error f => .error (f.toPy named)

/-- What the system answers when asked for the sparse mark: `fails` says which paths cannot be asked, and why. -/
def answer (P : Platform) (fails : FS.Path → Option Nat) (m : FS.Marks) (p : FS.Path) : Except Nat Bytes :=
  match fails p with
  | some e => .error e
  | none => match m p with
    | some v => .ok v
    | none => .error P.missing

/-- `is_sparse` (core.py 958-959) -/
def isSparse (P : Platform) (named : Nat → PyErr) (fails : FS.Path → Option Nat) (m : FS.Marks) (base p : FS.Path) : Except PyErr Bool :=
  FS.isSparse (fun q => toPy named (get P (answer P fails m q))) base p

end Verif.Attrs
