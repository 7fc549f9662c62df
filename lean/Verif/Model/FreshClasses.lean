import Verif.Model.Classes

/-!
# The classes of paths with extended attributes from python 3.12 on

`EatPath.__new__` (`augpathlib/core.py` lines 933-941) and what asks for the class of such a path: `_CachePath.move`
(`augpathlib/caches.py` lines 939-943 and 968-970), `LocalPath.copy_to` and `copy_from` (`augpathlib/core.py` lines 1420 and 1434).
`LocalPath`, `EatCache`, `SshCache` and their subclasses are classes of this kind.

Simplified: the attributes of the helper are looked up last.  Python puts the helper before the classes it is derived from, but has it
after the class that was asked for as well, and neither has an attribute the other ones have.
-/

namespace Verif.Classes

/-- `cls.mro()` -/
def World.mro (w : World) (c : Cls) : List Cls :=
  match w[c]? with
  | some k => c :: k.order
  | none => [c]

/-- `isinstance(path, cls)`, for a path of class `o`. -/
def World.isInstance (w : World) (o c : Cls) : Bool := (w.mro o).contains c

/-- `EatPath.__new__` (core.py 934-941): the class of the new path.  `h` is `ADSHelper` or `XattrHelper`. -/
def newEat (h : Cls) (w : World) (c : Cls) : Cls × World :=
  if (w.mro c).contains h then (c, w)
  else (w.length, w ++ [⟨[c, h], w.mro c ++ w.mro h, w.flavour c, fun _ => none⟩])

/-- The classes, and the class of each path that was made. -/
structure Paths where
  classes : World
  objs : List Cls

/-- What makes paths, and what sets attributes of classes meanwhile. -/
inductive PathOp where
  /-- `cls(...)` -/
  | call (c : Cls)
  /-- `path / name`, `path.parent` and the other ones that go through `with_segments` (caches.py 314-321, and pathlib's own, which is
  `type(self)(...)`), which asks `__new__` for the class of `path`; `path.__class__(...)` does as well. -/
  | derive (i : Nat)
  /-- `cls.attribute = value` -/
  | assign (c : Cls) (a : Slot) (v : Option Nat)

def Paths.step (h : Cls) (s : Paths) : PathOp → Paths
  | .call c => ⟨(newEat h s.classes c).2, s.objs ++ [(newEat h s.classes c).1]⟩
  | .derive i => match s.objs[i]? with
    | some c => ⟨(newEat h s.classes c).2, s.objs ++ [(newEat h s.classes c).1]⟩
    | none => s
  | .assign c a v => { s with classes := s.classes.set c a v }

def Paths.run (h : Cls) (s : Paths) (ops : List PathOp) : Paths := ops.foldl (Paths.step h) s

/-- What `move` asks when it gets no target (caches.py 940-941): `anchor` is the class of `self.anchor`, `c` that of `self`. -/
def moveCheck (w : World) (anchor c : Cls) : Except PyErr Unit := if w.isInstance anchor c then .ok () else .error .typeError

/-- `do_cast` (caches.py 968) -/
def doCast (w : World) (target c : Cls) : Bool := !w.isInstance target c

/-- Whether `copy_to` and `copy_from` make another path first (core.py 1420 and 1434). -/
def copyCasts (a b : Cls) : Bool := a != b

end Verif.Classes
