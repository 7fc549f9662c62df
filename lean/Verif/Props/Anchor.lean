import Verif.Lemmas.Decide
import Verif.Model.Anchor

/-!
# C43: anchoring
-/

namespace Verif.Anchor


/-- The classes are anchored to `c`. -/
def AnchoredTo (s : St) (c : Cache) : Prop := s.cache = some c ∧ s.remote = some c

theorem anchorToCache_cache (w : World) (c : Cache) (init : Bool) (s : St) :
    (anchorToCache w c init s).2.cache = s.cache := by
  simp only [anchorToCache]
  grind

theorem anchorToCache_ok (w : World) (c : Cache) (init : Bool) (s : St)
    (h : (anchorToCache w c init s).1 = .ok ()) : (anchorToCache w c init s).2.remote = some c ∧ s.remote = none ∧
      ((anchorToCache w c init s).2.root = none ∨ (anchorToCache w c init s).2.root = some c.id ∨
        (anchorToCache w c init s).2.remoteRoot = some c.id) ∧
      (init = true → (anchorToCache w c init s).2.root ≠ none) := by
  simp only [anchorToCache] at h ⊢
  grind

/-- C43 (instances that belong to the class itself): anchoring an anchored class raises and changes nothing. -/
theorem C43_second_refused (w : World) (c : Cache) (init : Bool) (s : St) (h : s.cache ≠ none) :
    anchorClassHere false w c init s = (.error .valueError, s) := by
  cases hc : s.cache with
  | none => exact absurd hc h
  | some a => simp [anchorClassHere, hc]

/-- C43: an attempt that succeeds anchors both classes to the given cache, and needs both to be
unanchored before. -/
theorem C43_success (w : World) (c : Cache) (init : Bool) (s : St)
    (h : (anchorClassHere false w c init s).1 = .ok ()) :
    AnchoredTo (anchorClassHere false w c init s).2 c ∧ s.cache = none ∧ s.remote = none := by
  simp only [anchorClassHere] at h ⊢
  split at h
  · simp at h
  · rename_i h1
    simp only [h1]
    split at h
    · simp at h
    · rename_i h2
      simp only [h2]
      have := anchorToCache_ok _ _ _ _ h
      refine ⟨⟨?_, this.1⟩, ?_, this.2.1⟩
      · exact anchorToCache_cache w c init _
      · simpa using h1

/-- C43: as long as the anchor of the cache class is not weighed, whatever else is tried, every further
attempt fails and the anchor of the cache class stays. -/
theorem C43_once_at_a_time (s : St) (c : Cache) (hc : s.cache = some c) (ops : List Op) (hw : ∀ o ∈ ops, o ≠ .weighCache) :
    (run false s ops).2.cache = some c ∧
    ∀ (i : Nat) (w : World) (d : Cache) (init : Bool), ops[i]? = some (.anchor w d init) →
      (run false s ops).1[i]? = some (.error .valueError) := by
  induction ops generalizing s with
  | nil => exact ⟨hc, by simp⟩
  | cons o os ih =>
    have hos : ∀ o ∈ os, o ≠ .weighCache := fun x hx => hw x (by simp [hx])
    cases o with
    | weighCache => exact absurd rfl (hw .weighCache (by simp))
    | weighRemote =>
      have := ih (weighRemote s) hc hos
      refine ⟨this.1, ?_⟩
      intro i w d init hi
      cases i with
      | zero => simp at hi
      | succ i => exact this.2 i w d init (by simpa using hi)
    | anchor w d init =>
      have h2 := C43_second_refused w d init s (by simp [hc])
      have := ih s hc hos
      simp only [run, step, h2]
      refine ⟨this.1, ?_⟩
      intro i w d init hi
      cases i with
      | zero => rfl
      | succ i => exact this.2 i w d init (by simpa using hi)

/-- C43: after both anchors were weighed, a class that was anchored to `c` can be anchored to `c` again. -/
theorem C43_again (w w' : World) (c : Cache) (init init' : Bool) (s : St)
    (h : (anchorClassHere false w c init s).1 = .ok ()) (hd : w'.dataDir = true)
    (hi : init' = true → init = true) :
    let s' := weighRemote (weighCache (anchorClassHere false w c init s).2)
    (anchorClassHere false w' c init' s').1 = .ok () ∧ AnchoredTo (anchorClassHere false w' c init' s').2 c := by
  intro s'
  have hs := C43_success w c init s h
  have key : (anchorClassHere false w' c init' s').1 = .ok () := by
    have hr : (s'.root = none ∨ s'.root = some c.id ∨ s'.remoteRoot = some c.id) ∧ (init = true → s'.root ≠ none) := by
      have h' := h
      simp only [anchorClassHere, hs.2.1, Option.isSome_none, Bool.and_false, Bool.false_eq_true, if_false] at h'
      simp only [s', anchorClassHere, hs.2.1, Option.isSome_none, Bool.and_false, Bool.false_eq_true, if_false,
        weighRemote, weighCache]
      split at h'
      · simp at h'
      · rename_i hd'
        simp only [hd']
        exact (anchorToCache_ok _ _ _ _ h').2.2
    have hc : s'.cache = none := rfl
    have hm : s'.remote = none := rfl
    obtain ⟨sc, sr, ro, rr⟩ := s'
    simp only at hr hc hm
    subst hc; subst hm
    simp only [anchorClassHere, anchorToCache, hd]
    cases ro with
    | none =>
      have : init' = false := by
        cases init' with
        | false => rfl
        | true => exact absurd rfl (hr.2 (hi rfl))
      simp [this]
    | some r =>
      have : r = c.id ∨ rr = some c.id := by simpa using hr.1
      have h3 : (decide (r ≠ c.id) && decide (rr ≠ some c.id)) = false := by
        rcases this with h | h <;> simp [h]
      simp only [Option.isNone_some, Bool.and_false, Option.isSome_none, Bool.not_true, Bool.false_eq_true,
        if_false, h3]
  exact ⟨key, (C43_success _ _ _ _ key).1⟩

/-- C43 (part): an attempt that fails because the class is anchored leaves everything as it was; a
failed attempt never changes the anchor of the remote class; and weighing the cache's anchor
after a failed attempt undoes it but for a bound api.  (Full claim: a failed attempt changes nothing.) -/
theorem C43_failure_partial (w : World) (c : Cache) (init : Bool) (s : St) (e : PyErr)
    (h : (anchorClassHere false w c init s).1 = .error e) :
    (s.cache ≠ none → (anchorClassHere false w c init s).2 = s) ∧
    (anchorClassHere false w c init s).2.remote = s.remote ∧
    (s.cache = none → s.root ≠ none ∨ init = false → weighCache (anchorClassHere false w c init s).2 = s) := by
  refine ⟨fun hn => by rw [C43_second_refused w c init s hn], ?_, ?_⟩
  · simp only [anchorClassHere, anchorToCache] at h ⊢
    grind
  · intro h1 h2
    obtain ⟨sc, sr, ro, rr⟩ := s
    simp only at h1
    subst h1
    have hb : (init && ro.isNone) = false := by
      rcases h2 with h2 | h2
      · cases ro <;> simp_all
      · simp [h2]
    simp only [anchorClassHere, anchorToCache, hb, Option.isSome_none, Bool.and_false, Bool.false_eq_true,
      if_false] at h ⊢
    cases hd : w.dataDir with
    | false => simp [weighCache]
    | true =>
      simp only [hd, Bool.not_true, Bool.false_eq_true, if_false] at h ⊢
      cases sr with
      | some a => rfl
      | none =>
        cases ro with
        | none => simp at h
        | some r =>
          simp only at h ⊢
          split
          · rfl
          · rename_i h3; rw [if_neg h3] at h; simp at h

def home : Cache := ⟨[['h']], ['i']⟩
def other : Cache := ⟨[['o']], ['j']⟩
def plain : World := ⟨some, true⟩
def fresh : St := ⟨none, none, none, none⟩

example : (anchorClassHere false plain home true fresh).1 = .ok () := by decide
example : (anchorClassHere false plain other true (anchorClassHere false plain home true fresh).2).1 =
    .error .valueError := by decide
example : ∀ o ∈ [Op.weighRemote, Op.anchor plain home true], o ≠ .weighCache := by simp

/-- C43 is false: whenever the remote class refuses (here: because it is still anchored), the cache
class is anchored all the same. -/
theorem C43_half_anchored_counterexample (w : World) (c a : Cache) (init : Bool) (s : St) (hd : w.dataDir = true)
    (hc : s.cache = none) (hr : s.remote = some a) :
    anchorClassHere false w c init s = (.error .valueError, { s with cache := some c }) := by
  simp [anchorClassHere, hc, hd, anchorToCache, hr]

/-- C43 is false: "weighing the anchor allows anchoring again" does not hold for the cache class, whose
`weighAnchor` leaves the remote class anchored: the next attempt, even at the same place, raises, and
the one after it raises too. -/
theorem C43_weigh_again_counterexample (w w' : World) (c : Cache) (init init' : Bool) (s : St)
    (hd : w'.dataDir = true) (h : (anchorClassHere false w c init s).1 = .ok ()) :
    let s' := weighCache (anchorClassHere false w c init s).2
    (anchorClassHere false w' c init' s').1 = .error .valueError ∧
    (anchorClassHere false w' c init' s').2.cache = some c ∧
    (anchorClassHere false w' c init' (anchorClassHere false w' c init' s').2).1 = .error .valueError := by
  intro s'
  have hr : s'.remote = some c := (C43_success w c init s h).1.2
  have h1 := C43_half_anchored_counterexample w' c c init' s' hd rfl hr
  refine ⟨by rw [h1], by rw [h1], ?_⟩
  rw [C43_second_refused _ _ _ _ (by rw [h1]; simp)]

/-- C43 is false: when the root of the api is another one than the anchor's id, the attempt raises, but
leaves the cache class anchored and the api bound. -/
theorem C43_mismatch_counterexample (w : World) (c : Cache) (r : Id) (hd : w.dataDir = true) (ha : w.api c.id = some r)
    (hr : r ≠ c.id) :
    anchorClassHere false w c true fresh = (.error .valueError, ⟨some c, none, some r, none⟩) := by
  simp [anchorClassHere, anchorToCache, fresh, hd, ha, hr]

/-- C43 is false before python 3.12, and from then on for caches with extended attributes, where an instance belongs to a
subclass of the class that holds the anchor: the test never finds it, and anchoring an anchored class replaces the anchor of the cache
class (and then raises). -/
theorem C43_replaced_counterexample (w : World) (c a : Cache) (init : Bool) (s : St) (hd : w.dataDir = true)
    (h : AnchoredTo s a) :
    anchorClassHere true w c init s = (.error .valueError, { s with cache := some c }) := by
  simp [anchorClassHere, hd, anchorToCache, h.2]

/-- C43 is false: when the data directory cannot be made, the attempt raises, but leaves the cache class anchored, so that
the next attempt raises too, at whatever place and although the directory can be made by then. -/
theorem C43_data_dir_counterexample (w w' : World) (c c' : Cache) (init init' : Bool) (s : St) (hd : w.dataDir = false)
    (hc : s.cache = none) :
    anchorClassHere false w c init s = (.error .osError, { s with cache := some c }) ∧
    (anchorClassHere false w' c' init' { s with cache := some c }).1 = .error .valueError := by
  constructor
  · simp [anchorClassHere, hc, hd]
  · simp [anchorClassHere]

example : (⟨some, false⟩ : World).dataDir = false ∧ fresh.cache = none := ⟨rfl, rfl⟩

/-- C43: exactly when anchoring succeeds: nothing is anchored yet, the data directory can be made, and the root of the api that is bound,
or is bound now, is the anchor's id, or is given as the root of the remote. -/
theorem C43_ok_iff (w : World) (c : Cache) (init : Bool) (s : St) : (anchorClassHere false w c init s).1 = .ok () ↔
    s.cache = none ∧ s.remote = none ∧ w.dataDir = true ∧ (init = true → s.root = none → w.api c.id ≠ none) ∧
    ∀ r, s.root = some r ∨ (s.root = none ∧ init = true ∧ w.api c.id = some r) → r = c.id ∨ s.remoteRoot = some c.id := by
  obtain ⟨sc, sr, ro, rr⟩ := s
  cases sc with
  | some _ => simp [anchorClassHere]
  | none =>
  cases hd : w.dataDir with
  | false => simp [anchorClassHere, hd]
  | true =>
  cases sr with
  | some _ => simp [anchorClassHere, anchorToCache, hd]
  | none =>
  have key : ∀ r : Id, (if decide (r ≠ c.id) && decide (rr ≠ some c.id) then (Except.error PyErr.valueError : Except PyErr Unit) else .ok ()) = .ok () ↔
      r = c.id ∨ rr = some c.id := by
    intro r
    by_cases h1 : r = c.id <;> by_cases h2 : rr = some c.id <;> simp [h1, h2]
  cases ro with
  | some r =>
    have := key r
    simp only [anchorClassHere, anchorToCache, hd, Option.isSome_none, Option.isNone_some, Bool.and_false, Bool.false_eq_true, if_false, Bool.not_true,
      apply_ite Prod.fst]
    rw [this]
    simp
  | none =>
    cases init with
    | false => simp [anchorClassHere, anchorToCache, hd]
    | true =>
      cases ha : w.api c.id with
      | none => simp [anchorClassHere, anchorToCache, hd, ha]
      | some r =>
        have := key r
        simp only [anchorClassHere, anchorToCache, hd, ha, Option.isSome_none, Option.isNone_none, Bool.and_false, Bool.and_true, Bool.false_eq_true, if_false, if_true, Bool.not_true,
          apply_ite Prod.fst]
        rw [this]
        simp

/-- C43: which exception an attempt raises: that of the disk if the data directory cannot be made, that of the api if it cannot be
made, and otherwise `ValueError`. -/
theorem C43_exceptions (w : World) (c : Cache) (init : Bool) (s : St) (e : PyErr) (h : (anchorClassHere false w c init s).1 = .error e) :
    (e = .osError ↔ s.cache = none ∧ w.dataDir = false) ∧
    (e = .foreign ↔ s.cache = none ∧ w.dataDir = true ∧ s.remote = none ∧ s.root = none ∧ init = true ∧ w.api c.id = none) ∧
    (e = .osError ∨ e = .foreign ∨ e = .valueError) := by
  obtain ⟨sc, sr, ro, rr⟩ := s
  have fin : ∀ {x : PyErr}, (Except.error x : Except PyErr Unit) = .error e → e = x := fun hx => by injection hx with hx; exact hx.symm
  cases sc with
  | some _ => simp [anchorClassHere] at h; subst h; simp
  | none =>
  cases hd : w.dataDir with
  | false => simp [anchorClassHere, hd] at h; subst h; simp
  | true =>
  cases sr with
  | some _ => simp [anchorClassHere, anchorToCache, hd] at h; subst h; simp
  | none =>
  cases ro with
  | some r =>
    simp only [anchorClassHere, anchorToCache, hd, Option.isSome_none, Option.isNone_some, Bool.and_false, Bool.false_eq_true, if_false, Bool.not_true,
      apply_ite Prod.fst] at h
    split at h
    · obtain rfl := fin h; simp
    · simp at h
  | none =>
    cases init with
    | false => simp [anchorClassHere, anchorToCache, hd] at h
    | true =>
      cases ha : w.api c.id with
      | none => simp [anchorClassHere, anchorToCache, hd, ha] at h; subst h; simp
      | some r =>
        simp only [anchorClassHere, anchorToCache, hd, ha, Option.isSome_none, Option.isNone_none, Bool.and_false, Bool.and_true, Bool.false_eq_true, if_false, if_true, Bool.not_true,
          apply_ite Prod.fst] at h
        split at h
        · obtain rfl := fin h; simp
        · simp at h

/-- Each of the three happens. -/
example : (anchorClassHere false ⟨some, false⟩ home true fresh).1 = .error .osError ∧ (anchorClassHere false ⟨fun _ => none, true⟩ home true fresh).1 = .error .foreign ∧
    (anchorClassHere false ⟨fun _ => some ['k'], true⟩ home true fresh).1 = .error .valueError := by decide

/-! ## When instances belong to a subclass -/

/-- C43, when instances belong to a subclass: the anchor of the cache class is not looked at, an attempt is what it would be without it.
(With **C43_ok_iff** and **C43_exceptions** this says what every attempt does.) -/
theorem C43_split (w : World) (c : Cache) (init : Bool) (s : St) :
    anchorClassHere true w c init s = anchorClassHere false w c init { s with cache := none } ∧
    (anchorClassHere true w c init s).2.cache = some c := by
  refine ⟨by simp [anchorClassHere], ?_⟩
  simp only [anchorClassHere, Bool.not_true, Bool.false_and, Bool.false_eq_true, if_false]
  split
  · rfl
  · exact anchorToCache_cache w c init _

/-- C43 (part), when instances belong to a subclass: as long as the anchor of the remote class is not weighed, whatever else is tried,
every attempt fails and the anchor of the remote class stays.  (Full claim: and that of the cache class, see
`C43_replaced_counterexample`.) -/
theorem C43_split_once_partial (s : St) (a : Cache) (ha : s.remote = some a) (ops : List Op) (hw : ∀ o ∈ ops, o ≠ .weighRemote) :
    (run true s ops).2.remote = some a ∧
    ∀ (i : Nat) (w : World) (d : Cache) (init : Bool), ops[i]? = some (.anchor w d init) →
      (run true s ops).1[i]? = some (.error (if w.dataDir then .valueError else .osError)) := by
  induction ops generalizing s with
  | nil => exact ⟨ha, by simp⟩
  | cons o os ih =>
    have hos : ∀ o ∈ os, o ≠ .weighRemote := fun x hx => hw x (by simp [hx])
    cases o with
    | weighRemote => exact absurd rfl (hw .weighRemote (by simp))
    | weighCache =>
      have := ih (weighCache s) ha hos
      refine ⟨this.1, ?_⟩
      intro i w d init hi
      cases i with
      | zero => simp at hi
      | succ i => exact this.2 i w d init (by simpa using hi)
    | anchor w d init =>
      have h2 : anchorClassHere true w d init s = (.error (if w.dataDir then .valueError else .osError), { s with cache := some d }) := by
        cases hd : w.dataDir <;> simp [anchorClassHere, anchorToCache, hd, ha]
      have := ih { s with cache := some d } ha hos
      simp only [run, step, h2]
      refine ⟨this.1, ?_⟩
      intro i w' d' init' hi
      cases i with
      | zero =>
        simp only [List.getElem?_cons_zero, Option.some.injEq, Op.anchor.injEq] at hi
        obtain ⟨rfl, rfl, rfl⟩ := hi
        rfl
      | succ i => exact this.2 i w' d' init' (by simpa using hi)

example : (anchorClassHere true plain home true fresh).2.remote = some home ∧
    ∀ o ∈ [Op.weighCache, Op.anchor plain other true], o ≠ .weighRemote := ⟨by decide, by simp⟩

end Verif.Anchor
