import Verif.Model.Crumple
import Verif.Lemmas.Disk

/-!
# Programs that do the same on two kinds of disk

Two disks are alike when they have the same locations in the same order, with objects that are related.  Two programs are alike
when, on disks that are alike and after the same number of system calls, they return the same value or raise the same exception
after the same number of calls, and leave disks that are alike.
-/

namespace Verif.FS

variable {ν μ : Type}

/-- The same locations in the same order, with related objects. -/
inductive Alike (R : ν → μ → Prop) : Disk ν → Disk μ → Prop
  | nil : Alike R [] []
  | cons (q : Path) {x : ν} {y : μ} {d : Disk ν} {a : Disk μ} : R x y → Alike R d a → Alike R ((q, x) :: d) ((q, y) :: a)

namespace Alike
variable {R : ν → μ → Prop} {d : Disk ν} {a : Disk μ}

/-- What is at a location is related. -/
theorem at_ (h : Alike R d a) (q : Path) :
    (d.at_ q = none ∧ a.at_ q = none) ∨ ∃ x y, d.at_ q = some x ∧ a.at_ q = some y ∧ R x y := by
  induction h with
  | nil => exact .inl ⟨rfl, rfl⟩
  | @cons r x y d a hr _ ih =>
    rw [Disk.at_cons, Disk.at_cons]
    by_cases hq : r = q
    · exact .inr ⟨x, y, by simp [hq], by simp [hq], hr⟩
    · simpa [hq] using ih

theorem names (h : Alike R d a) (q : Path) : d.names q = a.names q := by
  induction h with
  | nil => rfl
  | cons r _ _ ih =>
    unfold Disk.names at ih ⊢
    simp only [List.filterMap_cons]
    rw [ih]

theorem filter (h : Alike R d a) (p : Path → Bool) : Alike R (d.filter fun e => p e.1) (a.filter fun e => p e.1) := by
  induction h with
  | nil => exact .nil
  | cons r hr _ ih =>
    by_cases hp : p r
    · simpa [List.filter_cons, hp] using Alike.cons r hr ih
    · simpa [List.filter_cons, hp] using ih

theorem erase (h : Alike R d a) (q : Path) : Alike R (d.erase q) (a.erase q) := h.filter fun p => decide (p ≠ q)

theorem put (h : Alike R d a) (q : Path) {x : ν} {y : μ} (hr : R x y) : Alike R (d.put q x) (a.put q y) := .cons q hr (h.erase q)

theorem mapPath (h : Alike R d a) (f : Path → Path) :
    Alike R (d.map fun e => (f e.1, e.2)) (a.map fun e => (f e.1, e.2)) := by
  induction h with
  | nil => exact .nil
  | cons r hr _ ih => exact .cons (f r) hr ih

theorem move (h : Alike R d a) (src dst : Path) : Alike R (d.move src dst) (a.move src dst) := by
  have h1 := (h.filter fun p => decide (¬ dst <+: p)).mapPath fun p => if src <+: p then dst ++ p.drop src.length else p
  have e : ∀ {κ : Type} (l : Disk κ), (l.map fun e => if src <+: e.1 then (dst ++ e.1.drop src.length, e.2) else e) =
      l.map fun e => ((if src <+: e.1 then dst ++ e.1.drop src.length else e.1), e.2) := by
    intro κ l
    apply List.map_congr_left
    intro e _
    split <;> rfl
  unfold Disk.move
  rw [e, e]
  exact h1

end Alike

/-- The result of a system call on disks that are alike. -/
def AlikeRes (R : ν → μ → Prop) : Except PyErr (Disk ν) → Except PyErr (Disk μ) → Prop
  | .ok d, .ok a => Alike R d a
  | .error e, .error e' => e = e'
  | _, _ => False

variable [Kinded ν] [Kinded μ]

/-- Related objects are both directories or both not. -/
def SameKind (R : ν → μ → Prop) : Prop := ∀ x y, R x y → Kinded.isDir x = Kinded.isDir y

namespace Alike
variable {R : ν → μ → Prop} {d : Disk ν} {a : Disk μ}

theorem unlink (hk : SameKind R) (h : Alike R d a) (q : Path) : AlikeRes R (d.unlink q) (a.unlink q) := by
  unfold Disk.unlink
  rcases h.at_ q with ⟨h1, h2⟩ | ⟨x, y, h1, h2, hr⟩
  · simp [h1, h2, AlikeRes]
  · simp only [h1, h2, hk _ _ hr]
    split
    · rfl
    · exact h.erase q

theorem create (hk : SameKind R) (h : Alike R d a) (q : Path) {x : ν} {y : μ} (hr : R x y) :
    AlikeRes R (d.create q x) (a.create q y) := by
  unfold Disk.create
  rcases h.at_ q with ⟨h1, h2⟩ | ⟨_, _, h1, h2, _⟩
  · simp only [h1, h2]
    rcases h.at_ q.dropLast with ⟨h3, h4⟩ | ⟨x', y', h3, h4, hr'⟩
    · simp [h3, h4, AlikeRes]
    · simp only [h3, h4, hk _ _ hr']
      split
      · exact h.put q hr
      · rfl
  · simp [h1, h2, AlikeRes]

theorem rename (hk : SameKind R) (h : Alike R d a) (src dst : Path) : AlikeRes R (d.rename src dst) (a.rename src dst) := by
  unfold Disk.rename
  rcases h.at_ src with ⟨h1, h2⟩ | ⟨x, y, h1, h2, hr⟩
  · simp [h1, h2, AlikeRes]
  rcases h.at_ dst.dropLast with ⟨h3, h4⟩ | ⟨x', y', h3, h4, hr'⟩
  · simp [h1, h2, h3, h4, AlikeRes]
  simp only [h1, h2, h3, h4, hk _ _ hr', hk _ _ hr, h.names]
  split
  · rfl
  split
  · exact h
  split
  · rfl
  split
  · rfl
  rcases h.at_ dst with ⟨h5, h6⟩ | ⟨x2, y2, h5, h6, hr2⟩
  · simp only [h5, h6]
    exact h.move src dst
  · simp only [h5, h6, hk _ _ hr2]
    split
    · split
      · rfl
      split
      · rfl
      · exact h.move src dst
    · split
      · rfl
      · exact h.move src dst

end Alike

omit [Kinded ν] [Kinded μ]

/-- The programs do the same, and the returned value satisfies `Q`. -/
def Sim {α : Type} (R : ν → μ → Prop) (p : Prog ν α) (p' : Prog μ α) (Q : α → Prop) : Prop :=
  ∀ d a k, Alike R d a → ∃ (r : Except PyErr α) (d' : Disk ν) (a' : Disk μ) (k' : Nat),
    p ⟨d, k⟩ = (r, ⟨d', k'⟩) ∧ p' ⟨a, k⟩ = (r, ⟨a', k'⟩) ∧ Alike R d' a' ∧ ∀ x, r = .ok x → Q x

namespace Sim
variable {α β : Type} {R : ν → μ → Prop} {Q : α → Prop} {Q' : β → Prop}

theorem pure_ {x : α} (h : Q x) : Sim R (.pure x) (.pure x) Q :=
  fun d a k hd => ⟨.ok x, d, a, k, rfl, rfl, hd, fun y hy => by injection hy with hy; exact hy ▸ h⟩

theorem throw_ {e : PyErr} : Sim R (.throw e) (.throw e) Q :=
  fun d a k hd => ⟨.error e, d, a, k, rfl, rfl, hd, fun y hy => by simp at hy⟩

theorem bind_ {p : Prog ν α} {p' : Prog μ α} {f : α → Prog ν β} {f' : α → Prog μ β} (h : Sim R p p' Q)
    (hf : ∀ x, Q x → Sim R (f x) (f' x) Q') : Sim R (.bind p f) (.bind p' f') Q' := by
  intro d a k hd
  obtain ⟨r, d1, a1, k1, h1, h2, h3, h4⟩ := h d a k hd
  cases r with
  | error e => exact ⟨.error e, d1, a1, k1, by simp [Prog.bind, h1], by simp [Prog.bind, h2], h3, fun y hy => by simp at hy⟩
  | ok x =>
    obtain ⟨r, d2, a2, k2, h5, h6, h7, h8⟩ := hf x (h4 x rfl) d1 a1 k1 h3
    exact ⟨r, d2, a2, k2, by simp [Prog.bind, h1, h5], by simp [Prog.bind, h2, h6], h7, h8⟩

theorem catch_ {p : Prog ν α} {p' : Prog μ α} {f : PyErr → Prog ν α} {f' : PyErr → Prog μ α} (h : Sim R p p' Q)
    (hf : ∀ e, Sim R (f e) (f' e) Q) : Sim R (.catch_ p f) (.catch_ p' f') Q := by
  intro d a k hd
  obtain ⟨r, d1, a1, k1, h1, h2, h3, h4⟩ := h d a k hd
  cases r with
  | ok x => exact ⟨.ok x, d1, a1, k1, by simp [Prog.catch_, h1], by simp [Prog.catch_, h2], h3, h4⟩
  | error e =>
    obtain ⟨r, d2, a2, k2, h5, h6, h7, h8⟩ := hf e d1 a1 k1 h3
    exact ⟨r, d2, a2, k2, by simp [Prog.catch_, h1, h5], by simp [Prog.catch_, h2, h6], h7, h8⟩

theorem look_ {F : Nat → Option PyErr} {f : Disk ν → Except PyErr α} {f' : Disk μ → Except PyErr α}
    (h : ∀ d a, Alike R d a → f d = f' a ∧ ∀ x, f' a = .ok x → Q x) : Sim R (.look F f) (.look F f') Q := by
  intro d a k hd
  obtain ⟨h1, h2⟩ := h d a hd
  cases hF : F k with
  | some e => exact ⟨.error e, d, a, k + 1, by simp [Prog.look, Prog.sys, hF], by simp [Prog.look, Prog.sys, hF], hd, fun y hy => by simp at hy⟩
  | none =>
    refine ⟨f' a, d, a, k + 1, ?_, ?_, hd, h2⟩
    · simp only [Prog.look, Prog.sys, hF, h1]
      cases f' a <;> rfl
    · simp only [Prog.look, Prog.sys, hF]
      cases f' a <;> rfl

theorem act_ {F : Nat → Option PyErr} {f : Disk ν → Except PyErr (Disk ν)} {f' : Disk μ → Except PyErr (Disk μ)} {Q : Unit → Prop}
    (h : ∀ d a, Alike R d a → AlikeRes R (f d) (f' a)) (hq : Q ()) : Sim R (.act F f) (.act F f') Q := by
  intro d a k hd
  have h1 := h d a hd
  cases hF : F k with
  | some e => exact ⟨.error e, d, a, k + 1, by simp [Prog.act, Prog.sys, hF], by simp [Prog.act, Prog.sys, hF], hd, fun y hy => by simp at hy⟩
  | none =>
    cases hf : f d with
    | error e =>
      cases hf' : f' a with
      | error e' =>
        rw [hf, hf'] at h1
        have h1 : e = e' := h1
        subst h1
        exact ⟨.error e, d, a, k + 1, by simp [Prog.act, Prog.sys, hF, hf], by simp [Prog.act, Prog.sys, hF, hf'], hd, fun y hy => by simp at hy⟩
      | ok a' => rw [hf, hf'] at h1; exact h1.elim
    | ok d' =>
      cases hf' : f' a with
      | error e' => rw [hf, hf'] at h1; exact h1.elim
      | ok a' =>
        rw [hf, hf'] at h1
        exact ⟨.ok (), d', a', k + 1, by simp [Prog.act, Prog.sys, hF, hf], by simp [Prog.act, Prog.sys, hF, hf'], h1, fun _ _ => hq⟩

theorem ite_ {c : Prop} [Decidable c] {p q : Prog ν α} {p' q' : Prog μ α} (h1 : c → Sim R p p' Q) (h2 : ¬ c → Sim R q q' Q) :
    Sim R (if c then p else q) (if c then p' else q') Q := by
  by_cases h : c
  · rw [if_pos h, if_pos h]; exact h1 h
  · rw [if_neg h, if_neg h]; exact h2 h

theorem mono {p : Prog ν α} {p' : Prog μ α} {Q0 : α → Prop} (h : Sim R p p' Q0) (hq : ∀ x, Q0 x → Q x) : Sim R p p' Q := by
  intro d a k hd
  obtain ⟨r, d1, a1, k1, h1, h2, h3, h4⟩ := h d a k hd
  exact ⟨r, d1, a1, k1, h1, h2, h3, fun x hx => hq x (h4 x hx)⟩

theorem each_ {γ : Type} {f : γ → Prog ν Unit} {f' : γ → Prog μ Unit} : ∀ (l : List γ),
    (∀ x ∈ l, Sim R (f x) (f' x) fun _ => True) → Sim R (.each f l) (.each f' l) fun _ => True
  | [], _ => pure_ trivial
  | x :: l, h => by
    unfold Prog.each
    exact bind_ (h x List.mem_cons_self) fun _ _ => each_ l fun y hy => h y (List.mem_cons_of_mem _ hy)

end Sim

end Verif.FS

namespace Verif.Cache
open Verif.FS

variable {ν μ : Type} [Kinded ν] [Kinded μ] {R : ν → μ → Prop}

/-- The same trash, seen on two kinds of disk. -/
structure TrashAlike (R : ν → μ → Prop) (T : Trash ν) (T' : Trash μ) : Prop where
  F : T.F = T'.F
  long : T.long = T'.long
  loc : T.loc = T'.loc
  leads : ∀ d a q, Alike R d a → T.leads d q = T'.leads a q
  newDir : R T.newDir T'.newDir
  kind : SameKind R

namespace TrashAlike
variable {T : Trash ν} {T' : Trash μ} (h : TrashAlike R T T')
include h

theorem path (s : Name) : T.path s = T'.path s := by simp [Trash.path, h.loc]

theorem place (s : Name) : T.place s = T'.place s := by simp [Trash.place, h.loc, h.path]

theorem osMkdir (q : Path) : Sim R (T.osMkdir q) (T'.osMkdir q) fun _ => True := by
  unfold Trash.osMkdir
  rw [h.F]
  exact .act_ (fun d a hd => hd.create h.kind q h.newDir) trivial

theorem tolerate (q : Path) (existOk : Bool) (e : PyErr) : Sim R (T.tolerate q existOk e) (T'.tolerate q existOk e) fun _ => True := by
  unfold Trash.tolerate
  refine .ite_ (fun _ => ?_) fun _ => .throw_
  rw [h.F]
  refine .bind_ (Q := fun _ => True) (.look_ fun d a hd => ⟨?_, fun _ _ => trivial⟩) fun b _ => .ite_ (fun _ => .pure_ trivial) fun _ => .throw_
  rcases hd.at_ q with ⟨h1, h2⟩ | ⟨x, y, h1, h2, hr⟩
  · simp [h1, h2]
  · simp [h1, h2, h.kind _ _ hr, h.leads d a q hd]

theorem mkdirs : ∀ (l : List Name) (existOk : Bool), Sim R (T.mkdirs l existOk) (T'.mkdirs l existOk) fun _ => True
  | [], existOk => by
    unfold Trash.mkdirs
    exact .catch_ (h.osMkdir []) fun e => h.tolerate [] existOk e
  | n :: r, existOk => by
    unfold Trash.mkdirs
    refine .catch_ (h.osMkdir _) fun e => .ite_ (fun _ => .bind_ (mkdirs r true) fun _ _ => .catch_ (h.osMkdir _) fun e => ?_) fun _ => h.tolerate _ _ _
    exact .ite_ (fun _ => .throw_) fun _ => h.tolerate _ _ _

theorem osRename (src dst : Path) : Sim R (T.osRename src dst) (T'.osRename src dst) fun _ => True := by
  unfold Trash.osRename
  rw [h.F, h.long]
  refine .act_ (fun d a hd => ?_) trivial
  have hren := hd.rename h.kind src dst
  rcases hd.at_ src with ⟨h1, h2⟩ | ⟨x, y, h1, h2, hr⟩
  · simpa only [h1, h2] using hren
  rcases hd.at_ dst.dropLast with ⟨h3, h4⟩ | ⟨x', y', h3, h4, hr'⟩
  · simpa only [h1, h2, h3, h4] using hren
  simp only [h1, h2, h3, h4, h.kind _ _ hr']
  split
  · rfl
  · exact hren

theorem crumple (id : Option Str) (src : Path) : Sim R (T.crumple id src) (T'.crumple id src) fun _ => True := by
  unfold Trash.crumple
  cases id with
  | none => exact .throw_
  | some i =>
    simp only [h.path, h.place]
    rw [h.F]
    refine .bind_ (Q := fun _ => True) (.look_ fun d a hd => ⟨?_, fun _ _ => trivial⟩) fun b _ => ?_
    · rw [h.leads d a _ hd]
    refine .bind_ (Q := fun _ => True) (.ite_ (fun _ => .pure_ trivial) fun _ => h.mkdirs _ _) fun _ _ => ?_
    refine .bind_ (Q := fun _ => True) (.catch_ (h.osRename _ _) fun e => ?_) fun _ _ => .pure_ trivial
    exact .ite_ (fun _ => h.osRename _ _) fun _ => .throw_

theorem crumpleOr (id : Option Str) (q : Path) : Sim R (T.crumpleOr id q) (T'.crumpleOr id q) fun _ => True := by
  unfold Trash.crumpleOr
  refine .catch_ (.bind_ (h.crumple id q) fun _ _ => .pure_ trivial) fun e => .ite_ (fun _ => ?_) fun _ => .throw_
  rw [h.F]
  exact .act_ (fun d a hd => hd.unlink h.kind q) trivial

end TrashAlike

end Verif.Cache
