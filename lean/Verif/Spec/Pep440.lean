import Verif.Model.Pep440

/-!
# The order of versions (PEP 440)

Only the type of versions is shared with the model.
-/

namespace Verif.Pep440.Spec

open Verif.Pep440

/-- Release numbers are compared component by component, missing components count as zero. -/
def RelLt (r s : List Nat) : Prop := ∃ i, r.getD i 0 < s.getD i 0 ∧ ∀ j, j < i → r.getD j 0 = s.getD j 0

def RelEq (r s : List Nat) : Prop := ∀ i, r.getD i 0 = s.getD i 0

/-- The place of the pre-release kinds. -/
def kind : Pre → Nat
  | .a => 1
  | .b => 2
  | .rc => 3

/-- The place in the cycle of one release: development releases of the release come first (0), then
the pre-releases, then the release and its post releases (4). -/
def phase (v : Version) : Nat × Nat :=
  match v.pre with
  | some (k, n) => (kind k, n)
  | none => if v.post = none ∧ v.dev ≠ none then (0, 0) else (4, 0)

/-- No post release before all post releases. -/
def postRank (v : Version) : Nat := match v.post with
  | none => 0
  | some n => n + 1

/-- Development releases come before what they develop. -/
def DevLt : Option Nat → Option Nat → Prop
  | some m, some n => m < n
  | some _, none => True
  | none, _ => False

/-- Local labels: none before any; segment by segment, numbers after texts, numbers by value, texts
alphabetically, a proper prefix first. -/
inductive LabelLt : List Seg → List Seg → Prop
  | nil {x xs} : LabelLt [] (x :: xs)
  | num {m n xs ys} : m < n → LabelLt (.num m :: xs) (.num n :: ys)
  | mixed {s n xs ys} : LabelLt (.text s :: xs) (.num n :: ys)
  | text {s t xs ys} : s < t → LabelLt (.text s :: xs) (.text t :: ys)
  | tail {x xs ys} : LabelLt xs ys → LabelLt (x :: xs) (x :: ys)

def LocLt : Option (List Seg) → Option (List Seg) → Prop
  | none, some _ => True
  | some l, some m => LabelLt l m
  | _, none => False

/-- `v` is an earlier version than `w`. -/
def Lt (v w : Version) : Prop :=
  v.epoch < w.epoch ∨ v.epoch = w.epoch ∧
  (RelLt v.release w.release ∨ RelEq v.release w.release ∧
  ((phase v).1 < (phase w).1 ∨ (phase v).1 = (phase w).1 ∧
  ((phase v).2 < (phase w).2 ∨ (phase v).2 = (phase w).2 ∧
  (postRank v < postRank w ∨ postRank v = postRank w ∧
  (DevLt v.dev w.dev ∨ v.dev = w.dev ∧ LocLt v.loc w.loc)))))

/-- The words that name a part of the release number. -/
def IsComponent (w : Word) : Prop := w = .release ∨ w = .major ∨ w = .minor ∨ w = .micro

/-- Where a version stands in its cycle, if it is not released: development releases first. -/
def stage (v : Version) : Option Nat :=
  if v.loc ≠ none ∨ v.post ≠ none then none
  else match v.pre with
    | some (k, _) => some (kind k)
    | none => if v.dev ≠ none then some 0 else none

/-- The stage a phase asks for. -/
def asked : Word → Option Nat
  | .dev => some 0
  | .a => some 1
  | .b => some 2
  | .rc => some 3
  | _ => none

end Verif.Pep440.Spec
