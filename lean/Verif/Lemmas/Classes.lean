import Verif.Model.Classes

/-!
# Attributes of classes after each operation
-/

namespace Verif.Classes

@[simp] theorem length_set (w : World) (c : Cls) (a : Slot) (v : Option Nat) : (w.set c a v).length = w.length := by
  simp [World.set]

theorem getElem_set (w : World) (c : Cls) (a : Slot) (v : Option Nat) (b : Cls) :
    (w.set c a v)[b]? = (w[b]?).map fun k => if c = b then { k with own := fun s => if s = a then v else k.own s } else k := by
  unfold World.set
  rw [List.getElem?_modify]
  cases w[b]? with
  | none => rfl
  | some k => by_cases h : c = b <;> simp [h]

theorem own_set (w : World) (c : Cls) (a : Slot) (v : Option Nat) (b : Cls) (s : Slot) :
    (w.set c a v).own b s = if c = b ∧ s = a ∧ b < w.length then v else w.own b s := by
  unfold World.own
  rw [getElem_set]
  by_cases hl : b < w.length
  · rw [List.getElem?_eq_getElem hl]
    by_cases hc : c = b
    · by_cases hs : s = a <;> simp [hc, hs, hl]
    · simp [hc]
  · rw [List.getElem?_eq_none (Nat.le_of_not_lt hl)]
    simp [hl]

/-- What never changes about a class. -/
def shape (w : World) (c : Cls) : Option (List Cls × List Cls × Option Flavour) := (w[c]?).map fun k => (k.bases, k.order, k.flavour)

@[simp] theorem shape_set (w : World) (c : Cls) (a : Slot) (v : Option Nat) (b : Cls) : shape (w.set c a v) b = shape w b := by
  unfold shape
  rw [getElem_set]
  cases w[b]? with
  | none => rfl
  | some k => by_cases h : c = b <;> simp [h]

theorem shape_append {w : World} {c : Cls} (h : c < w.length) (k : Class) : shape (w ++ [k]) c = shape w c := by
  unfold shape; rw [List.getElem?_append_left h]

theorem own_append {w : World} {c : Cls} (h : c < w.length) (k : Class) (a : Slot) : World.own (w ++ [k]) c a = w.own c a := by
  unfold World.own; rw [List.getElem?_append_left h]

theorem shape_last (w : World) (k : Class) : shape (w ++ [k]) w.length = some (k.bases, k.order, k.flavour) := by
  simp [shape]

theorem own_last (w : World) (k : Class) (a : Slot) : World.own (w ++ [k]) w.length a = k.own a := by
  simp [World.own]

theorem own_beyond {w : World} {c : Cls} (h : w.length ≤ c) (a : Slot) : w.own c a = none := by
  simp [World.own, h]

theorem flavour_shape (w : World) (c : Cls) : w.flavour c = (shape w c).bind (·.2.2) := by
  unfold World.flavour shape; cases w[c]? <;> rfl

theorem get_shape (w : World) (c : Cls) (a : Slot) :
    w.get c a = match shape w c with | none => none | some (_, o, _) => (c :: o).findSome? fun b => w.own b a := by
  unfold World.get shape; cases w[c]? <;> rfl

theorem subclasses_shape (w : World) (c : Cls) :
    w.subclasses c = (List.range w.length).filter fun k => match shape w k with | some (b, _, _) => b.contains c | none => false := by
  unfold World.subclasses shape
  congr 1
  funext k
  cases w[k]? <;> rfl

theorem flavoursLoop_congr {w w' : World} : ∀ (l : List Cls) (r : Option Cls × Option Cls), (∀ k ∈ l, w'.flavour k = w.flavour k) →
    flavoursLoop w' l r = flavoursLoop w l r
  | [], _, _ => rfl
  | k :: l, (p, q), h => by
    unfold flavoursLoop
    rw [h k List.mem_cons_self]
    have ih := fun r => flavoursLoop_congr l r fun j hj => h j (List.mem_cons_of_mem _ hj)
    split
    · rfl
    · exact ih _
    · exact ih _

@[simp] theorem getFlavours_set (w : World) (c : Cls) (a : Slot) (v : Option Nat) (b : Cls) : getFlavours (w.set c a v) b = getFlavours w b := by
  unfold getFlavours
  rw [subclasses_shape, subclasses_shape]
  simp only [length_set, shape_set]
  exact flavoursLoop_congr _ _ fun k _ => by simp only [flavour_shape, shape_set]

theorem subclasses_lt {w : World} {c k : Cls} (h : k ∈ w.subclasses c) : k < w.length := by
  unfold World.subclasses at h
  exact List.mem_range.1 (List.mem_filter.1 h).1

theorem subclasses_append (w : World) (k : Class) (c : Cls) :
    World.subclasses (w ++ [k]) c = w.subclasses c ++ if k.bases.contains c then [w.length] else [] := by
  rw [subclasses_shape, subclasses_shape, List.length_append, List.length_singleton, List.range_succ, List.filter_append]
  congr 1
  · refine List.filter_congr fun j hj => ?_
    rw [shape_append (List.mem_range.1 hj)]
  · rw [List.filter_cons, shape_last]
    simp

theorem flavoursLoop_append (w : World) : ∀ (l m : List Cls) (r : Option Cls × Option Cls),
    flavoursLoop w (l ++ m) r = match flavoursLoop w l r with | .error e => .error e | .ok r => flavoursLoop w m r
  | [], _, _ => rfl
  | k :: l, m, (p, q) => by
    rw [List.cons_append, flavoursLoop, flavoursLoop]
    cases w.flavour k with
    | none => rfl
    | some f => cases f <;> exact flavoursLoop_append w l m _

theorem getFlavours_append (w : World) (k : Class) (c : Cls) :
    getFlavours (w ++ [k]) c = match getFlavours w c with
      | .error e => .error e
      | .ok r => if k.bases.contains c then flavoursLoop (w ++ [k]) [w.length] r else .ok r := by
  have h : flavoursLoop (w ++ [k]) (w.subclasses c) (none, none) = flavoursLoop w (w.subclasses c) (none, none) :=
    flavoursLoop_congr _ _ fun j hj => by rw [flavour_shape, flavour_shape, shape_append (subclasses_lt hj)]
  unfold getFlavours
  rw [subclasses_append, flavoursLoop_append, h]
  cases flavoursLoop w (w.subclasses c) (none, none) with
  | error e => rfl
  | ok r =>
    dsimp only
    split <;> rfl

/-- The flavours that are found are direct subclasses with that flavour. -/
theorem flavoursLoop_found {w : World} : ∀ {l : List Cls} {r s : Option Cls × Option Cls}, flavoursLoop w l r = .ok s →
    (∀ k, s.1 = some k → r.1 = some k ∨ (k ∈ l ∧ w.flavour k = some .posix)) ∧
    (∀ k, s.2 = some k → r.2 = some k ∨ (k ∈ l ∧ w.flavour k = some .windows))
  | [], r, s, h => by
    simp only [flavoursLoop, Except.ok.injEq] at h
    subst h
    exact ⟨fun k h => .inl h, fun k h => .inl h⟩
  | j :: l, (p, q), s, h => by
    rw [flavoursLoop] at h
    cases hj : w.flavour j with
    | none => rw [hj] at h; simp at h
    | some f =>
      rw [hj] at h
      cases f with
      | posix =>
        obtain ⟨h1, h2⟩ := flavoursLoop_found h
        refine ⟨fun k hk => ?_, fun k hk => ?_⟩
        · rcases h1 k hk with h | ⟨h, h'⟩
          · simp only [Option.some.injEq] at h; subst h
            exact .inr ⟨List.mem_cons_self, hj⟩
          · exact .inr ⟨List.mem_cons_of_mem _ h, h'⟩
        · rcases h2 k hk with h | ⟨h, h'⟩
          · exact .inl h
          · exact .inr ⟨List.mem_cons_of_mem _ h, h'⟩
      | windows =>
        obtain ⟨h1, h2⟩ := flavoursLoop_found h
        refine ⟨fun k hk => ?_, fun k hk => ?_⟩
        · rcases h1 k hk with h | ⟨h, h'⟩
          · exact .inl h
          · exact .inr ⟨List.mem_cons_of_mem _ h, h'⟩
        · rcases h2 k hk with h | ⟨h, h'⟩
          · simp only [Option.some.injEq] at h; subst h
            exact .inr ⟨List.mem_cons_self, hj⟩
          · exact .inr ⟨List.mem_cons_of_mem _ h, h'⟩

theorem mem_subclasses {w : World} {c k : Cls} : k ∈ w.subclasses c ↔ ∃ b o f, shape w k = some (b, o, f) ∧ c ∈ b := by
  rw [subclasses_shape, List.mem_filter, List.mem_range]
  constructor
  · rintro ⟨-, h⟩
    cases hs : shape w k with
    | none => rw [hs] at h; simp at h
    | some x =>
      obtain ⟨b, o, f⟩ := x
      rw [hs] at h
      exact ⟨b, o, f, rfl, by simpa using h⟩
  · rintro ⟨b, o, f, hs, h⟩
    rw [hs]
    refine ⟨?_, by simpa using h⟩
    unfold shape at hs
    by_cases hl : k < w.length
    · exact hl
    · rw [List.getElem?_eq_none (Nat.le_of_not_lt hl)] at hs
      simp at hs

end Verif.Classes
