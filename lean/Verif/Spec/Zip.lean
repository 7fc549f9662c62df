import Verif.Model.Zip

/-!
# Archives as trees
-/

namespace Verif.Zip.Spec

open Verif.Symlink Verif.Zip

/-- `q` is a proper ancestor of `p`. -/
def Above (q p : Pure) : Prop := q.root = p.root ∧ ∃ n ns, p.comps = q.comps ++ n :: ns

/-- The transitive closure of a relation. -/
inductive Below {α : Type} (r : α → α → Prop) : α → α → Prop
  | single {a b} : r a b → Below r a b
  | step {a b c} : Below r a b → r b c → Below r a c

/-- What is in the tree of an archive: the entries and their ancestors. -/
def InTree (names : List Str) (p : Pure) : Prop := ∃ n ∈ names, p = parse n ∨ Above p (parse n)

/-- The disk is a tree: only directories have something in them. -/
def Tree (d : Disk) : Prop := ∀ n up, d (n :: up) ≠ .missing → d up = .dir

/-- `z` is the archive that contains `p` (or is `p`). -/
def Archive (d : Disk) (names : List Str) (z p : List Str) : Prop := z <:+ p ∧ d z = .zip names

/-- What `exists` should say. -/
def Present (d : Disk) (p : List Str) : Prop :=
  d p ≠ .missing ∨ ∃ names z rel, Archive d names z p ∧ p = rel ++ z ∧ InTree names ⟨[], rel.reverse⟩

end Verif.Zip.Spec
