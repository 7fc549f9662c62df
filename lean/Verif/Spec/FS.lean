import Verif.Model.FS

/-!
# Where a path leads

Path resolution as a relation, without error codes and without a limit on the number of links.
-/

namespace Verif.Spec
open Verif Verif.FS

/-- A proper file name that the file system can hold. -/
def FitsName (L : Limits) (n : Name) : Prop := n ≠ ['.'] ∧ n ≠ ['.', '.'] ∧ (utf8 n).length ≤ L.nameMax

/-- `Leads L t k cur rest q`: from the directory `cur` the components `rest` lead to the location
`q`, passing through exactly `k` symlinks. -/
inductive Leads (L : Limits) (t : Tree) : Nat → Path → List Name → Path → Prop
  | here (cur) : Leads L t 0 cur [] cur
  | dot {k cur rest q} : t cur = some (.dir true) → Leads L t k cur rest q →
      Leads L t k cur (['.'] :: rest) q
  | up {k cur rest q} : t cur = some (.dir true) → Leads L t k cur.dropLast rest q →
      Leads L t k cur (['.', '.'] :: rest) q
  | down {k cur n rest q x} : t cur = some (.dir true) → FitsName L n → t (cur ++ [n]) = some x →
      (∀ l, x ≠ .link l) → Leads L t k (cur ++ [n]) rest q → Leads L t k cur (n :: rest) q
  | follow {k cur n rest q l} : t cur = some (.dir true) → FitsName L n →
      t (cur ++ [n]) = some (.link l) →
      Leads L t k (start cur l.absolute) (l.comps ++ rest) q →
      Leads L t (k + 1) cur (n :: rest) q

/-- Why looking at a path is denied. -/
inductive Denial where
  | search | long

/-- `Denied L t w k cur rest`: the resolution passes `k` symlinks and then needs to look into a
directory that is not searchable, or needs a name that is too long, as `w` says. -/
inductive Denied (L : Limits) (t : Tree) : Denial → Nat → Path → List Name → Prop
  | search {cur n rest} : t cur = some (.dir false) → Denied L t .search 0 cur (n :: rest)
  | long {cur n rest} : t cur = some (.dir true) → n ≠ ['.'] → n ≠ ['.', '.'] →
      L.nameMax < (utf8 n).length → Denied L t .long 0 cur (n :: rest)
  | dot {w k cur rest} : t cur = some (.dir true) → Denied L t w k cur rest →
      Denied L t w k cur (['.'] :: rest)
  | up {w k cur rest} : t cur = some (.dir true) → Denied L t w k cur.dropLast rest →
      Denied L t w k cur (['.', '.'] :: rest)
  | down {w k cur n rest x} : t cur = some (.dir true) → FitsName L n → t (cur ++ [n]) = some x →
      (∀ l, x ≠ .link l) → Denied L t w k (cur ++ [n]) rest → Denied L t w k cur (n :: rest)
  | follow {w k cur n rest l} : t cur = some (.dir true) → FitsName L n →
      t (cur ++ [n]) = some (.link l) →
      Denied L t w k (start cur l.absolute) (l.comps ++ rest) →
      Denied L t w (k + 1) cur (n :: rest)

/-- The path leads, through no more links than the system follows, to an object. -/
def LeadsTo (L : Limits) (t : Tree) (cwd : Path) (p : UserPath) (x : Node) : Prop :=
  ∃ k q, k ≤ L.maxLinks ∧ Leads L t k (start cwd p.absolute) p.comps q ∧ t q = some x

/-- Looking at the path is denied for a reason. -/
def RefusedFor (w : Denial) (L : Limits) (t : Tree) (cwd : Path) (p : UserPath) : Prop :=
  ∃ k, k ≤ L.maxLinks ∧ Denied L t w k (start cwd p.absolute) p.comps

/-- Looking at the path is denied. -/
def Refused (L : Limits) (t : Tree) (cwd : Path) (p : UserPath) : Prop := ∃ w, RefusedFor w L t cwd p

/-- The last component of the path is the name of a symlink. -/
def NamesLink (L : Limits) (t : Tree) (cwd : Path) (p : UserPath) (l : Target) : Prop :=
  ∃ parent n d k, p.comps = parent ++ [n] ∧ FitsName L n ∧ k ≤ L.maxLinks ∧
    Leads L t k (start cwd p.absolute) parent d ∧ t d = some (.dir true) ∧
    t (d ++ [n]) = some (.link l)

end Verif.Spec

namespace Verif.Spec
open Verif Verif.FS

/-- The path names the location `q`: its parent leads to a directory in which `q` is the last component
(whatever is there, also a symlink), or it has no last component or one that is not a name, and leads to
`q`. -/
def NamesLoc (L : Limits) (t : Tree) (cwd : Path) (p : UserPath) (q : Path) : Prop :=
  (∃ parent n m k, p.comps = parent ++ [n] ∧ FitsName L n ∧ k ≤ L.maxLinks ∧
    Leads L t k (start cwd p.absolute) parent m ∧ t m = some (.dir true) ∧ q = m ++ [n]) ∨
  (p.comps = [] ∧ q = start cwd p.absolute) ∨
  (∃ parent n k, p.comps = parent ++ [n] ∧ (n = ['.'] ∨ n = ['.', '.']) ∧ k ≤ L.maxLinks ∧
    Leads L t k (start cwd p.absolute) p.comps q)

end Verif.Spec

namespace Verif.Spec
open Verif Verif.FS

/-- A directory without content: there are only directories in it, at any depth. -/
def Hollow (t : Tree) (q : Path) : Prop :=
  (∃ b, t q = some (.dir b)) ∧ ∀ r x, q <+: r → t r = some x → ∃ b, x = .dir b

end Verif.Spec
