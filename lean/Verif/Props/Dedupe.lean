import Verif.Lemmas.Decide
import Verif.Model.Dedupe

/-!
# C38: dedupe
-/

namespace Verif.Dedupe

/-! ## Specification -/

/-- `a` was updated later than `b`. -/
def Later (a b : Cand) : Prop := ∃ x y, a.updated = some x ∧ b.updated = some y ∧ y < x

/-- Something known about the two copies tells them apart when their update times do not: a local time
on one side only, different local times, or (local times known and equal) a size on one side only. -/
def Distinguished (a b : Cand) : Prop :=
  a.localUpdated ≠ b.localUpdated ∨
    (a.localUpdated ≠ none ∧ a.localUpdated = b.localUpdated ∧ (a.size = none ↔ b.size ≠ none))

/-! ## Theorems -/

/-- C38: copies with different ids are refused; otherwise, if both update times are known, the answer
is one of the two. -/
theorem C38_one_of_the_two (a b : Cand) :
    (a.id ≠ b.id → dedupe a b = .error .valueError) ∧
    (a.id = b.id → a.updated ≠ none → b.updated ≠ none → dedupe a b = .ok a ∨ dedupe a b = .ok b) := by
  refine ⟨fun h => by simp [dedupe, h], fun h ha hb => ?_⟩
  obtain ⟨x, hx⟩ := Option.ne_none_iff_exists'.1 ha
  obtain ⟨y, hy⟩ := Option.ne_none_iff_exists'.1 hb
  simp only [dedupe, h, ne_eq, not_true_eq_false, if_false, hx, hy]
  grind

/-- C38: the copy that was updated later is chosen, whichever way it is asked. -/
theorem C38_later_wins (a b : Cand) (hid : a.id = b.id) (h : Later a b) :
    dedupe a b = .ok a ∧ dedupe b a = .ok a := by
  obtain ⟨x, y, hx, hy, hlt⟩ := h
  have : ¬ x < y := by omega
  simp [dedupe, hid, hx, hy, hlt, this]

/-- C38 (part): when the update times are equal, the answer is independent of the order exactly when
something else tells the two copies apart.  (Full claim: it is always independent.) -/
theorem C38_symmetric_partial (a b : Cand) (hid : a.id = b.id) (t : Int) (ha : a.updated = some t)
    (hb : b.updated = some t) (hne : a ≠ b) :
    dedupe a b = dedupe b a ↔ Distinguished a b := by
  obtain ⟨pa, ia, ua, la, sa⟩ := a
  obtain ⟨pb, ib, ub, lb, sb⟩ := b
  simp only at hid ha hb
  subst hid; subst ha; subst hb
  simp only [dedupe, ne_eq, not_true_eq_false, if_false, Int.lt_irrefl, Distinguished]
  cases la with
  | none => cases lb with
    | none => simpa using hne
    | some y => simp
  | some x => cases lb with
    | none => simp
    | some y =>
      by_cases h1 : x < y
      · have : x ≠ y := by omega
        have h2 : ¬ y < x := by omega
        simp [h1, h2, this]
      · by_cases h2 : y < x
        · have : x ≠ y := by omega
          simp [h1, h2, this]
        · have : x = y := by omega
          subst this
          have hne' := fun h => hne (Eq.symm h)
          cases sa <;> cases sb <;> simp_all [eq_comm]

/-- C38 (part): among copies updated at the same time the one whose local file is newer is chosen; a
copy without a local file loses. -/
theorem C38_local_later_wins (a b : Cand) (hid : a.id = b.id) (t : Int) (ha : a.updated = some t)
    (hb : b.updated = some t)
    (h : (∃ x, a.localUpdated = some x ∧ ∀ y, b.localUpdated = some y → y < x)) :
    dedupe a b = .ok a ∧ dedupe b a = .ok a := by
  obtain ⟨x, hx, hy⟩ := h
  cases hb' : b.localUpdated with
  | none => simp [dedupe, hid, ha, hb, hx, hb']
  | some y =>
    have := hy y hb'
    have : ¬ x < y := by omega
    simp [dedupe, hid, ha, hb, hx, hb', this, hy]

def copyA : Cand := ⟨[['a']], ['i'], some 5, some 7, none⟩
def copyB : Cand := ⟨[['b']], ['i'], some 5, some 8, none⟩

example : Later { copyA with updated := some 6 } copyB := ⟨6, 5, rfl, rfl, by decide⟩
example : copyA.id = copyB.id ∧ copyA.updated = some 5 ∧ copyB.updated = some 5 ∧ copyA ≠ copyB ∧
    Distinguished copyA copyB := ⟨rfl, rfl, rfl, by decide, .inl (by decide)⟩
example : ∃ x, copyB.localUpdated = some x ∧ ∀ y, copyA.localUpdated = some y → y < x :=
  ⟨8, rfl, by simp [copyA]⟩

/-- C38: when neither time tells the copies apart, the one with a known size is kept, whichever way it is asked. -/
theorem C38_size_wins (a b : Cand) (hid : a.id = b.id) (t x : Int) (ha : a.updated = some t) (hb : b.updated = some t)
    (hla : a.localUpdated = some x) (hlb : b.localUpdated = some x) (n : Nat) (hsa : a.size = some n) (hsb : b.size = none) :
    dedupe a b = .ok a ∧ dedupe b a = .ok a := by
  simp [dedupe, hid, ha, hb, hla, hlb, hsa, hsb]

/-- C38 is false for copies that agree in everything that is looked at: the answer depends on the
order in which they are given. -/
theorem C38_tie_counterexample (a b : Cand) (hne : a ≠ b) (hid : a.id = b.id) (t : Int)
    (ha : a.updated = some t) (hb : b.updated = some t) (hl : a.localUpdated = b.localUpdated)
    (hs : a.size = b.size) : dedupe a b ≠ dedupe b a := by
  rw [Ne, C38_symmetric_partial a b hid t ha hb hne]
  rintro (h | ⟨-, -, h⟩)
  · exact h hl
  · rw [hs] at h
    cases b.size <;> simp at h

/-- C38 is false when an update time is missing: it raises. -/
theorem C38_missing_time_counterexample (a b : Cand) (hid : a.id = b.id) (ha : a.updated = none) :
    dedupe a b = .error .typeError ∧ dedupe b a = .error .typeError := by
  simp only [dedupe, hid, ha]
  cases b.updated <;> simp

/-- C38: the answer does not depend on the order in which the two are given exactly if it is an error either way (other ids, a
missing time), or the two are the same, or one of the times, or a size, tells them apart. -/
theorem C38_symmetric_iff (a b : Cand) :
    dedupe a b = dedupe b a ↔
      a.id ≠ b.id ∨ a.updated = none ∨ b.updated = none ∨ a = b ∨ a.updated ≠ b.updated ∨ Distinguished a b := by
  by_cases hid : a.id = b.id
  · by_cases he : a = b
    · simp [he]
    cases ha : a.updated with
    | none =>
      simp only [true_or, or_true, iff_true]
      have := C38_missing_time_counterexample a b hid ha
      rw [this.1, this.2]
    | some t =>
      cases hb : b.updated with
      | none =>
        simp only [true_or, or_true, iff_true]
        have := C38_missing_time_counterexample b a hid.symm hb
        rw [this.1, this.2]
      | some u =>
        by_cases htu : t = u
        · subst htu
          rw [C38_symmetric_partial a b hid t ha hb he]
          simp [hid, he]
        · have : dedupe a b = dedupe b a := by
            rcases Int.lt_or_gt_of_ne htu with h | h
            · have := C38_later_wins b a hid.symm ⟨u, t, hb, ha, h⟩
              rw [this.1, this.2]
            · have := C38_later_wins a b hid ⟨t, u, ha, hb, h⟩
              rw [this.1, this.2]
          simp [this, htu]
  · have h1 := (C38_one_of_the_two a b).1 hid
    have h2 := (C38_one_of_the_two b a).1 (fun h => hid h.symm)
    simp [h1, h2, hid]

end Verif.Dedupe
