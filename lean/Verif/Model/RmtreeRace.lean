import Verif.Model.Rmtree

/-!
# `AugmentedPath.rmtree` while other processes change the disk (`augpathlib/core.py` lines 650-706)

The function of `Model/Rmtree`, with something that others do to the disk before each of its system calls.
-/

namespace Verif.FS

/-- What other processes do to the disk before call number `n`. -/
abbrev Others := Nat → Disk Node → Disk Node

/-- A call before which the others have their turn. -/
def turn {α : Type} (A : Others) (m : Prog Node α) : Prog Node α := fun s => m ⟨A s.tick s.disk, s.tick⟩

/-- The `except` clauses (core.py 696-706), as `Env.handle` -/
def Env.handleAmid (E : Env) (A : Others) (ignore : Bool) (h : Handler) (bound : Option UserPath) (e : PyErr) : Prog Node Unit :=
  if e = .willNotRemovePathError then .throw e
  else if ignore then .pure ()
  else match h with
    | none => .throw e
    | some r => match bound with
      | none => .throw .unboundLocalError
      | some p => .bind (turn A (E.isDir p)) fun _ s => (r, s)

/-- The loop over the entries and the removal of the directory itself (core.py 680-691), as `Env.loop`; `rec` is the removal of an entry. -/
def Env.loopAmid (E : Env) (A : Others) (ignore : Bool) (h : Handler) (rec : UserPath → Prog Node Unit) (p : UserPath) : List UserPath → Prog Node Unit
  | [] => .catch_ (turn A (E.rmdir p)) (E.handleAmid A ignore h (some p))
  | k :: ks => fun s =>
    match (Prog.bind (turn A (E.isSymlink k)) fun b => if b then turn A (E.unlink k) else rec k) s with
    | (.ok _, s) => E.loopAmid A ignore h rec p ks s
    | (.error e, s) => E.handleAmid A ignore h (some k) e s

/-- `rmtree` (core.py 650-706), as `Env.rmtree` -/
def Env.rmtreeAmid (E : Env) (A : Others) (danger ignore : Bool) (h : Handler) : Nat → UserPath → Prog Node Unit
  | 0, _ => .throw .runtimeError
  | fuel + 1, p =>
    if E.refuses danger p then .throw .willNotRemovePathError
    else
      .bind (.catch_ (.bind (turn A (E.isDir p)) fun b => .pure (some b)) fun e =>
          .bind (E.handleAmid A ignore h none e) fun _ => .pure none) fun
        | none => .pure ()
        | some false => .catch_ (turn A (E.unlink p)) (E.handleAmid A ignore h (some p))
        | some true =>
          .bind (.catch_ (.bind (turn A (E.isSymlink p)) fun b =>
              if b then .throw .osError else .bind (turn A (E.iterdir p)) fun ks => .pure (some ks)) fun e =>
              .bind (E.handleAmid A ignore h none e) fun _ => .pure none) fun
            | none => .pure ()
            | some ks => E.loopAmid A ignore h (E.rmtreeAmid A danger ignore h fuel) p ks

end Verif.FS
