import Verif.Spec.Calendar
import Verif.Lemmas.MetaObj

/-!
# C20 – C23: equality, truth value, content comparison and mapping access of metadata
-/

namespace Verif
open Verif.Spec

/-! ## C20 -/

/-- **C20 is false**: two objects that show the same fields, one built from a datetime and one from
the text that was stored on disk.  Comparing them one way raises, the other way says they differ, and
after the text was parsed they are still different. -/
theorem C20_equality_counterexample (env : Env) (hp : ParsesIso env) (d : DateTime) (hd : d.Valid) :
    ∃ a b, mkMeta [(lit "created", .dt d)] = .ok a ∧
      mkMeta [(lit "created", .str (isoformat d))] = .ok b ∧
      (∀ f, a.get env f = b.get env f) ∧
      a.eq b = .error .attributeError ∧ b.eq a = .ok false ∧
      (PathMeta.eq { b with created := b.created.force env } a = .ok false) ∧
      (a.eq { b with created := b.created.force env } = .ok false) := by
  have hpd := hp d hd
  revert hpd
  generalize isoformat d = t
  intro hpd
  refine ⟨_, _, mkMeta_onlyCreated_dt d, mkMeta_onlyCreated_str t, ?_, ?_, ?_, ?_, ?_⟩
  · intro f
    cases f <;> simp [PathMeta.get, onlyCreated, Slot.get, hpd]
  · simp [PathMeta.eq, PathMeta.keys, eqLoop, PathMeta.attr, onlyCreated]
  · simp [PathMeta.eq, PathMeta.keys, eqLoop, PathMeta.attr, onlyCreated, AttrVal.eq, pyEq]
  · simp [PathMeta.eq, PathMeta.keys, eqLoop, PathMeta.attr, onlyCreated, AttrVal.eq, pyEq,
      Slot.force, Slot.get, hpd]
  · have hq : pyEq (.dt d) (.dt d) = true := pyEq_refl _
    simp [PathMeta.eq, PathMeta.keys, eqLoop, PathMeta.attr, onlyCreated, AttrVal.eq,
      Slot.force, Slot.get, hpd, hq]
    simp [pyEq]

/-- **C20 is not symmetric** for objects with unexpected keyword arguments either. -/
theorem C20_asymmetry_counterexample :
    ∃ a b, mkMeta [(lit "id", .str (lit "x"))] = .ok a ∧
      mkMeta [(lit "id", .str (lit "x")), (lit "extra", .int 1)] = .ok b ∧
      a.eq b = .ok true ∧ b.eq a = .error .attributeError := by
  refine ⟨_, _, rfl, rfl, by rfl, by rfl⟩

/-- **C20**, reflexivity: every object equals itself. -/
theorem C20_equality_refl (a : PathMeta) : a.eq a = .ok true := eq_refl a

/-- **C20**, soundness of a positive answer: if two objects, however constructed and whether or not
their timestamps were already parsed, compare equal then every field agrees (including which field
cannot be read). -/
theorem C20_equal_means_same_fields (env : Env) (a b : PathMeta) (ha : a.Reachable env)
    (hb : b.Reachable env) (h : a.eq b = .ok true) (f : Field) :
    (∃ v w, a.get env f = .ok v ∧ b.get env f = .ok w ∧ pyEq v w) ∨
      (∃ e, a.get env f = .error e ∧ b.get env f = .error e) := equal_fields env a b ha hb h f

/-- **C20**, the part that holds: on objects built from parsed timestamps and without unexpected
keyword arguments, comparison never raises and says equal exactly when all fields are equal (with
timestamps compared as points in time).  Missing from the full claim: objects whose timestamps were
read from disk, and unexpected keyword arguments. -/
theorem C20_equality_partial (env : Env) (a b : PathMeta) (ha : a.Parsed) (hb : b.Parsed) :
    ∃ r, a.eq b = .ok r ∧ (r = true ↔ ∀ f, ∃ v w, a.get env f = .ok v ∧ b.get env f = .ok w ∧ pyEq v w) :=
  parsed_eq env a b ha hb

/-- **C20**: timestamps are compared as points in time: with the clock and the zone both `k` hours on it is the same time, with
only the clock it is another one. -/
theorem C20_points_in_time (d : DateTime) (o : Int) (h k : Nat) :
    pyEq (.dt { d with hour := h, offset := some o }) (.dt { d with hour := h + k, offset := some (o + 60 * k) }) = true ∧
    (0 < k → pyEq (.dt { d with hour := h, offset := some o }) (.dt { d with hour := h + k, offset := some o }) = false) := by
  constructor
  · unfold pyEq
    refine decide_eq_true ?_
    simp only [DateTime.instant, DateTime.wall]
    omega
  · intro hk
    unfold pyEq
    refine decide_eq_false ?_
    simp only [DateTime.instant, DateTime.wall]
    omega

/-- **C20**, corollary: on such objects equality is symmetric and transitive. -/
theorem C20_equivalence_partial (env : Env) (a b c : PathMeta) (ha : a.Parsed) (hb : b.Parsed)
    (hc : c.Parsed) :
    (a.eq b = b.eq a) ∧ (a.eq b = .ok true → b.eq c = .ok true → a.eq c = .ok true) := by
  obtain ⟨r1, h1, i1⟩ := C20_equality_partial env a b ha hb
  obtain ⟨r2, h2, i2⟩ := C20_equality_partial env b a hb ha
  obtain ⟨r3, h3, i3⟩ := C20_equality_partial env b c hb hc
  obtain ⟨r4, h4, i4⟩ := C20_equality_partial env a c ha hc
  constructor
  · rw [h1, h2]
    congr 1
    rw [Bool.eq_iff_iff, i1, i2]
    constructor
    · intro h f
      obtain ⟨v, w, p, q, e⟩ := h f
      exact ⟨w, v, q, p, by rw [pyEq_comm]; exact e⟩
    · intro h f
      obtain ⟨v, w, p, q, e⟩ := h f
      exact ⟨w, v, q, p, by rw [pyEq_comm]; exact e⟩
  · intro e1 e2
    rw [h1] at e1; rw [h3] at e2; rw [h4]
    simp only [Except.ok.injEq] at e1 e2 ⊢
    rw [i4]
    intro f
    obtain ⟨v, w, p, q, e⟩ := i1.1 e1 f
    obtain ⟨v', w', p', q', e'⟩ := i3.1 e2 f
    rw [q] at p'; cases p'
    exact ⟨v, w', p, q', pyEq_trans e e'⟩

example : ∃ a b : PathMeta, a.Parsed ∧ b.Parsed ∧ a.eq b = .ok true ∧
    mkMeta [(lit "id", .str (lit "x")), (lit "updated", .dt ⟨2020, 2, 29, 23, 30, 0, 0, some 0⟩)] = .ok a ∧
    mkMeta [(lit "id", .str (lit "x")), (lit "updated", .dt ⟨2020, 3, 1, 0, 30, 0, 0, some 60⟩)] = .ok b := by
  refine ⟨_, _, ?_, ?_, ?_, rfl, rfl⟩
  · exact ⟨⟨_, rfl⟩, ⟨_, rfl⟩, rfl, rfl, rfl⟩
  · exact ⟨⟨_, rfl⟩, ⟨_, rfl⟩, rfl, rfl, rfl⟩
  · rfl

/-! ## C21 -/

/-- **C21**: an object is false exactly when the constructor was given no field value (other than an
empty collection of errors, or a falsy errors argument) and no unexpected keyword argument. -/
theorem C21_truth_value (kw : List (Str × PyVal)) (o : PathMeta) (h : mkMeta kw = .ok o) :
    o.bool = false ↔
      (∀ f : Field, f ≠ .errors → (dictGet f.toStr kw).getD .none = .none) ∧
      ((dictGet Field.errors.toStr kw).getD .none).truthy = false ∧
      (∀ kv ∈ kw, (Field.ofStr? kv.1).isSome) := bool_iff kw o h

example : (∃ o, mkMeta [(lit "errors", .strs []), (lit "name", .none)] = .ok o ∧ o.bool = false) ∧
    (∃ o, mkMeta [(lit "size", .int 0)] = .ok o ∧ o.bool = true) :=
  ⟨⟨_, rfl, by rfl⟩, ⟨_, rfl, by rfl⟩⟩

/-! ## C22 -/

/-- **C22**, first half: when both sides have a checksum it alone decides, whatever the sizes and
times (even unreadable ones). -/
theorem C22_checksum_decides (env : Env) (a b : PathMeta) (x y : Bytes) (hx : x ≠ []) (hy : y ≠ [])
    (ha : a.plain .checksum = .bytes x) (hb : b.plain .checksum = .bytes y) :
    contentDifferent env a b = .ok (decide (x ≠ y)) := by
  simp [contentDifferent, ha, hb, PyVal.truthy, hx, hy, pyEq]

/-- **C22**, second half, for objects with comparable update times: a difference is reported exactly
when the sizes differ or self was updated strictly before other.  Partial because the full claim has
no condition on the update times, see the counterexample. -/
theorem C22_size_or_time_partial (env : Env) (a b : PathMeta)
    (hc : (a.plain .checksum).truthy = false ∨ (b.plain .checksum).truthy = false)
    (d e : DateTime) (ha : a.get env .updated = .ok (.dt d)) (hb : b.get env .updated = .ok (.dt e))
    (o p : Int) (ho : d.offset = some o) (hp : e.offset = some p) :
    contentDifferent env a b =
      .ok (decide (pyEq (a.plain .size) (b.plain .size) = false ∨ d.instant o < e.instant p)) := by
  have hn : ¬((a.plain .checksum).truthy = true ∧ (b.plain .checksum).truthy = true) := by
    rintro ⟨h1, h2⟩; rcases hc with h | h <;> simp_all
  unfold contentDifferent
  rw [if_neg hn]
  cases hs : pyEq (a.plain .size) (b.plain .size) with
  | false => simp
  | true => simp [ha, hb, pyLt, ho, hp]

/-- **C22 is false** when an update time is missing: equal sizes, no checksum, and the comparison
raises instead of answering. -/
theorem C22_no_time_counterexample (env : Env) :
    ∃ a, mkMeta [(lit "size", .int 3)] = .ok a ∧ contentDifferent env a a = .error .typeError :=
  ⟨_, rfl, by rfl⟩

example (env : Env) : ∃ a b, mkMeta [(lit "size", .int 3), (lit "updated", .dt ⟨2020, 1, 1, 0, 0, 0, 0, some 0⟩)] = .ok a ∧
    mkMeta [(lit "size", .int 3), (lit "updated", .dt ⟨2020, 1, 1, 0, 0, 0, 1, some 0⟩)] = .ok b ∧
    contentDifferent env a b = .ok true ∧ contentDifferent env b a = .ok false := by
  refine ⟨_, _, rfl, rfl, ?_, ?_⟩
  · refine (C22_size_or_time_partial env _ _ (.inl rfl) _ _ rfl rfl 0 0 rfl rfl).trans ?_
    refine congrArg Except.ok (decide_eq_true ?_)
    right; decide +kernel
  · refine (C22_size_or_time_partial env _ _ (.inl rfl) _ _ rfl rfl 0 0 rfl rfl).trans ?_
    refine congrArg Except.ok (decide_eq_false ?_)
    rintro (h | h)
    · exact absurd h (by decide)
    · exact absurd h (by decide +kernel)

/-! ## C23 -/

/-- **C23**, `items()`: every field appears exactly once, with its value. -/
theorem C23_items (env : Env) (o : PathMeta) (l : List (Str × PyVal)) (h : o.items env = .ok l) :
    (∀ f, ∃ v, o.get env f = .ok v ∧ l.filter (fun kv => kv.1 = f.toStr) = [(f.toStr, v)]) ∧
      l.length = Field.all.length := by
  unfold PathMeta.items at h
  cases hc : o.get env .created with
  | error e => simp [hc] at h
  | ok c =>
    cases hu : o.get env .updated with
    | error e => simp [hc, hu] at h
    | ok u =>
      simp only [hc, hu, Except.ok.injEq] at h
      subst h
      refine ⟨?_, rfl⟩
      intro f
      cases f <;> refine ⟨_, by first | exact hc | exact hu | rfl, ?_⟩ <;>
        simp [plainFields, List.filter_cons, Field.toStr_inj]

/-- **C23 is false** for mapping access: `meta[key]` is `None` for every field and every object (or
raises), so `dict(meta)` loses every value. -/
theorem C23_getitem_counterexample (env : Env) :
    (∀ (o : PathMeta) (f : Field) (v : PyVal), o.getItem env f = .ok v → v = .none) ∧
    ∃ o, mkMeta [(lit "id", .str (lit "x"))] = .ok o ∧ o.get env .id = .ok (.str (lit "x")) ∧
      o.getItem env .id = .ok .none ∧
      (Field.id.toStr, Except.ok .none) ∈ o.toDict env := by
  constructor
  · intro o f v h
    unfold PathMeta.getItem at h
    split at h
    · cases h
    · cases h
    · simpa using h.symm
  · refine ⟨_, rfl, by rfl, by rfl, ?_⟩
    simp only [PathMeta.toDict, plainFields, List.map_cons, List.mem_cons]
    right; right; right; right; right; right; right; right; left
    rfl

theorem isLeap_iff (y : Nat) : isLeap y = true ↔ LeapYear y := by
  simp only [isLeap, LeapYear, decide_eq_true_eq]
  omega

theorem daysBeforeYear_succ (y : Nat) (hy : 1 ≤ y) :
    daysBeforeYear (y + 1) = daysBeforeYear y + 365 + (if LeapYear y then 1 else 0) := by
  obtain ⟨z, rfl⟩ : ∃ z, y = z + 1 := ⟨y - 1, by omega⟩
  simp only [daysBeforeYear, Nat.add_sub_cancel]
  by_cases h : LeapYear (z + 1)
  · rw [if_pos h]
    unfold LeapYear at h
    omega
  · rw [if_neg h]
    unfold LeapYear at h
    omega

/-- The day of a date, counted from the beginning. -/
def ordinal (d : DateTime) : Nat :=
  daysBeforeYear d.year + daysBeforeMonth d.month + (if 2 < d.month ∧ isLeap d.year then 1 else 0) + d.day

theorem wall_eq (d : DateTime) :
    d.wall = (((ordinal d * 24 + d.hour) * 60 + d.minute) * 60 + d.second) * 1000000 + d.micro := rfl

theorem month_cases {m : Nat} (h : 1 ≤ m ∧ m ≤ 12) : m = 1 ∨ m = 2 ∨ m = 3 ∨ m = 4 ∨ m = 5 ∨ m = 6 ∨ m = 7 ∨ m = 8 ∨
    m = 9 ∨ m = 10 ∨ m = 11 ∨ m = 12 := by omega

theorem ordinal_tomorrow (d : DateTime) (h : OnCalendar d) : ordinal (tomorrow d) = ordinal d + 1 := by
  obtain ⟨y, m, day, hh, mi, s, us, o⟩ := d
  obtain ⟨hy, hm, hd⟩ := h
  dsimp only at hy hm hd
  have hs := daysBeforeYear_succ y hy
  have hl := isLeap_iff y
  unfold tomorrow ordinal
  dsimp only
  by_cases hL : LeapYear y
  · have hl' : isLeap y = true := hl.2 hL
    rw [if_pos hL] at hs
    rcases month_cases hm with rfl | rfl | rfl | rfl | rfl | rfl | rfl | rfl | rfl | rfl | rfl | rfl <;>
      (simp only [monthLength, hL] at hd ⊢; simp at hd ⊢; split) <;>
      simp_all [daysBeforeMonth] <;> omega
  · have hl' : isLeap y = false := by simpa [hL] using hl
    rw [if_neg hL] at hs
    rcases month_cases hm with rfl | rfl | rfl | rfl | rfl | rfl | rfl | rfl | rfl | rfl | rfl | rfl <;>
      (simp only [monthLength, hL] at hd ⊢; simp at hd ⊢; split) <;>
      simp_all [daysBeforeMonth] <;> omega

theorem tomorrow_clock (d : DateTime) : (tomorrow d).hour = d.hour ∧ (tomorrow d).minute = d.minute ∧
    (tomorrow d).second = d.second ∧ (tomorrow d).micro = d.micro := by
  unfold tomorrow
  split
  · simp
  · split <;> simp

/-- **C20**: the calendar is followed: a time `k` hours further east whose clock shows the next day is the same point in time. -/
theorem C20_next_day (d : DateTime) (h : OnCalendar d) (o : Int) (a b k : Nat) (hk : a + k = b + 24) :
    pyEq (.dt { d with hour := a, offset := some o }) (.dt { tomorrow d with hour := b, offset := some (o + 60 * k) }) = true := by
  have h1 := ordinal_tomorrow d h
  obtain ⟨-, h2, h3, h4⟩ := tomorrow_clock d
  have ha : DateTime.wall { d with hour := a, offset := some o } =
      (((ordinal d * 24 + a) * 60 + d.minute) * 60 + d.second) * 1000000 + d.micro := rfl
  have hb : DateTime.wall { tomorrow d with hour := b, offset := some (o + 60 * (k : Int)) } =
      (((ordinal (tomorrow d) * 24 + b) * 60 + (tomorrow d).minute) * 60 + (tomorrow d).second) * 1000000 + (tomorrow d).micro := rfl
  rw [h1, h2, h3, h4] at hb
  unfold pyEq
  refine decide_eq_true ?_
  unfold DateTime.instant
  rw [ha, hb]
  omega

theorem ordinal_within (d : DateTime) (h : OnCalendar d) :
    daysBeforeYear d.year < ordinal d ∧ ordinal d ≤ daysBeforeYear (d.year + 1) := by
  obtain ⟨y, m, day, hh, mi, s, us, o⟩ := d
  obtain ⟨hy, hm, hd⟩ := h
  dsimp only at hy hm hd
  have hs := daysBeforeYear_succ y hy
  have hl := isLeap_iff y
  unfold ordinal
  dsimp only
  by_cases hL : LeapYear y
  · have hl' : isLeap y = true := hl.2 hL
    rw [if_pos hL] at hs
    rcases month_cases hm with rfl | rfl | rfl | rfl | rfl | rfl | rfl | rfl | rfl | rfl | rfl | rfl <;>
      (simp only [monthLength, hL] at hd; simp [hl', daysBeforeMonth] at hd ⊢; omega)
  · have hl' : isLeap y = false := by simpa [hL] using hl
    rw [if_neg hL] at hs
    rcases month_cases hm with rfl | rfl | rfl | rfl | rfl | rfl | rfl | rfl | rfl | rfl | rfl | rfl <;>
      (simp only [monthLength, hL] at hd; simp [hl', daysBeforeMonth] at hd ⊢; omega)

theorem daysBeforeYear_mono {x y : Nat} (hx : 1 ≤ x) (h : x ≤ y) : daysBeforeYear x ≤ daysBeforeYear y := by
  obtain ⟨j, rfl⟩ : ∃ j, y = x + j := ⟨y - x, by omega⟩
  clear h
  induction j with
  | zero => exact Nat.le_refl _
  | succ j ih =>
    have := daysBeforeYear_succ (x + j) (by omega)
    rw [show x + (j + 1) = x + j + 1 from rfl]
    omega

theorem ordinal_month {d e : DateTime} (hd : OnCalendar d) (he : OnCalendar e) (hy : d.year = e.year) (hm : d.month < e.month) :
    ordinal d < ordinal e := by
  obtain ⟨y, m, day, hh, mi, s, us, o⟩ := d
  obtain ⟨y', m', day', hh', mi', s', us', o'⟩ := e
  dsimp only at hy hm
  subst hy
  obtain ⟨-, hm1, hd1⟩ := hd
  obtain ⟨-, hm2, hd2⟩ := he
  dsimp only at hm1 hd1 hm2 hd2
  have hl := isLeap_iff y
  unfold ordinal
  dsimp only
  -- the day of the year is below the number of days before the next month
  have key : ∀ n, 1 ≤ n ∧ n < 12 → daysBeforeMonth n + (if 2 < n ∧ isLeap y then 1 else 0) + monthLength y n =
      daysBeforeMonth (n + 1) + (if 2 < n + 1 ∧ isLeap y then 1 else 0) := by
    intro n hn
    have : n = 1 ∨ n = 2 ∨ n = 3 ∨ n = 4 ∨ n = 5 ∨ n = 6 ∨ n = 7 ∨ n = 8 ∨ n = 9 ∨ n = 10 ∨ n = 11 := by omega
    by_cases hL : LeapYear y
    · have hl' : isLeap y = true := hl.2 hL
      rcases this with rfl | rfl | rfl | rfl | rfl | rfl | rfl | rfl | rfl | rfl | rfl <;> simp [monthLength, hL, hl', daysBeforeMonth]
    · have hl' : isLeap y = false := by simpa [hL] using hl
      rcases this with rfl | rfl | rfl | rfl | rfl | rfl | rfl | rfl | rfl | rfl | rfl <;> simp [monthLength, hL, hl', daysBeforeMonth]
  have mono : ∀ n, 1 ≤ n → ∀ j, n + j ≤ 12 → daysBeforeMonth n + (if 2 < n ∧ isLeap y then 1 else 0) ≤
      daysBeforeMonth (n + j) + (if 2 < n + j ∧ isLeap y then 1 else 0) := by
    intro n hn j
    induction j with
    | zero => intro _; exact Nat.le_refl _
    | succ j ih =>
      intro hj
      have h1 := ih (by omega)
      have h2 := key (n + j) (by omega)
      rw [show n + (j + 1) = n + j + 1 from rfl, ← h2]
      omega
  have h1 := key m (by omega)
  have h2 := mono (m + 1) (by omega) (m' - (m + 1)) (by omega)
  rw [show m + 1 + (m' - (m + 1)) = m' by omega] at h2
  omega

theorem ordinal_lt {d e : DateTime} (hd : OnCalendar d) (he : OnCalendar e)
    (h : d.year < e.year ∨ d.year = e.year ∧ (d.month < e.month ∨ d.month = e.month ∧ d.day < e.day)) :
    ordinal d < ordinal e := by
  rcases h with h | ⟨h, h' | ⟨h', h''⟩⟩
  · have h1 := (ordinal_within d hd).2
    have h2 := (ordinal_within e he).1
    have h3 := daysBeforeYear_mono (x := d.year + 1) (y := e.year) (by omega) h
    omega
  · exact ordinal_month hd he h h'
  · unfold ordinal
    rw [h, h']
    omega

theorem wall_lt {d e : DateTime} (hd : OnCalendar d) (he : OnCalendar e) (cd : OnClock d) (h : Earlier d e) :
    d.wall < e.wall := by
  rw [wall_eq, wall_eq]
  have c1 := cd.hour; have c2 := cd.minute; have c3 := cd.second; have c4 := cd.micro
  have ho : ordinal d < ordinal e ∨ ordinal d = ordinal e ∧ (d.hour < e.hour ∨ d.hour = e.hour ∧ (d.minute < e.minute ∨ d.minute = e.minute ∧
      (d.second < e.second ∨ d.second = e.second ∧ d.micro < e.micro))) := by
    unfold Earlier at h
    rcases h with h | ⟨h1, h | ⟨h2, h | ⟨h3, h⟩⟩⟩
    · exact .inl (ordinal_lt hd he (.inl h))
    · exact .inl (ordinal_lt hd he (.inr ⟨h1, .inl h⟩))
    · exact .inl (ordinal_lt hd he (.inr ⟨h1, .inr ⟨h2, h⟩⟩))
    · exact .inr ⟨by unfold ordinal; rw [h1, h2, h3], h⟩
  generalize ordinal d = a at *
  generalize ordinal e = b at *
  omega

theorem earlier_total (d e : DateTime) (ho : d.offset = e.offset) : Earlier d e ∨ d = e ∨ Earlier e d := by
  obtain ⟨y, m, day, hh, mi, s, us, o⟩ := d
  obtain ⟨y', m', day', hh', mi', s', us', o'⟩ := e
  dsimp only at ho
  subst ho
  simp only [Earlier, DateTime.mk.injEq, and_true]
  omega

/-- **C20**: of two times in the same zone (or without zone) the earlier one is the one with the earlier year, month, day, hour,
minute, second and microsecond, in this order, and they are equal only if they are the same. -/
theorem C20_order (d e : DateTime) (ho : d.offset = e.offset) (hd : OnCalendar d) (he : OnCalendar e) (cd : OnClock d) (ce : OnClock e) :
    pyLt (.dt d) (.dt e) = .ok (decide (Earlier d e)) ∧ (pyEq (.dt d) (.dt e) = true ↔ d = e) := by
  have hw : (d.wall < e.wall ↔ Earlier d e) ∧ (d.wall = e.wall ↔ d = e) := by
    rcases earlier_total d e ho with h | rfl | h
    · have := wall_lt hd he cd h
      refine ⟨by simp [h, this], ?_⟩
      constructor
      · intro h'; omega
      · rintro rfl; omega
    · refine ⟨?_, by simp⟩
      constructor
      · intro h; omega
      · intro h; simp [Earlier] at h
    · have := wall_lt he hd ce h
      refine ⟨?_, ?_⟩
      · constructor
        · intro h'; omega
        · intro h'; have := wall_lt hd he cd h'; omega
      · constructor
        · intro h'; omega
        · rintro rfl; omega
  cases hdo : d.offset with
  | none =>
    rw [hdo] at ho
    simp only [pyLt, pyEq, hdo, ← ho, decide_eq_true_eq]
    exact ⟨by rw [decide_eq_decide.2 hw.1], hw.2⟩
  | some o =>
    rw [hdo] at ho
    have h1 : d.instant o < e.instant o ↔ Earlier d e := by
      rw [← hw.1]
      unfold DateTime.instant
      omega
    have h2 : d.instant o = e.instant o ↔ d = e := by
      rw [← hw.2]
      unfold DateTime.instant
      omega
    simp only [pyLt, pyEq, hdo, ← ho, decide_eq_true_eq]
    exact ⟨by rw [decide_eq_decide.2 h1], h2⟩

/-- The last day of February in a leap year, and the last of the year. -/
example : OnCalendar ⟨2024, 2, 29, 0, 0, 0, 0, none⟩ ∧ OnCalendar ⟨1900, 12, 31, 0, 0, 0, 0, none⟩ ∧
    tomorrow ⟨2024, 2, 28, 0, 0, 0, 0, none⟩ = ⟨2024, 2, 29, 0, 0, 0, 0, none⟩ ∧
    tomorrow ⟨1900, 2, 28, 0, 0, 0, 0, none⟩ = ⟨1900, 3, 1, 0, 0, 0, 0, none⟩ ∧
    Earlier ⟨1999, 12, 31, 23, 59, 59, 999999, none⟩ ⟨2000, 1, 1, 0, 0, 0, 0, none⟩ :=
  ⟨⟨by decide, by decide, by decide⟩, ⟨by decide, by decide, by decide⟩, by decide, by decide, by decide⟩

theorem dictGet_key {α β : Type} [DecidableEq α] {k : α} {l : List (α × β)} (h : dictGet k l ≠ none) : ∃ kv ∈ l, kv.1 = k := by
  by_cases hh : ∃ kv ∈ l, kv.1 = k
  · exact hh
  · exact absurd (dictGet_none_of fun kv hm he => hh ⟨kv, hm, he⟩) h

/-- **C20**: unexpected keyword arguments are compared too: objects that compare equal have the same ones. -/
theorem C20_equal_means_same_extras (a b : PathMeta) (h : a.eq b = .ok true) (hk : a.kwargs ≠ []) (k : Str) :
    (∃ v w, dictGet k a.kwargs = some v ∧ dictGet k b.kwargs = some w ∧ pyEq v w = true) ∨
      dictGet k a.kwargs = none ∧ dictGet k b.kwargs = none := by
  rw [PathMeta.eq, eqLoop_true] at h
  obtain ⟨v, w, e1, e2, e3⟩ := h .kwargs (by simp [PathMeta.keys, hk])
  simp only [PathMeta.attr, if_neg hk, Option.some.injEq] at e1
  subst e1
  by_cases hb : b.kwargs = []
  · simp [PathMeta.attr, hb] at e2
  simp only [PathMeta.attr, if_neg hb, Option.some.injEq] at e2
  subst e2
  simp only [AttrVal.eq, dictEq, Bool.and_eq_true, List.all_eq_true] at e3
  obtain ⟨e3, e4⟩ := e3
  by_cases ha : dictGet k a.kwargs = none
  · by_cases hbk : dictGet k b.kwargs = none
    · exact .inr ⟨ha, hbk⟩
    · obtain ⟨kv, hm, rfl⟩ := dictGet_key hbk
      have := e4 kv hm
      rw [ha] at this
      simp at this
  · obtain ⟨kv, hm, rfl⟩ := dictGet_key ha
    have := e3 kv hm
    split at this
    · rename_i v w h1 h2
      exact .inl ⟨v, w, h1, h2, this⟩
    · simp at this

/-- Times that python can put in order: numbers, or points in time that both have a zone or both have none. -/
inductive Spec.Comparable : PyVal → PyVal → Prop where
  | num (i j : Int) : Spec.Comparable (.int i) (.int j)
  | aware (d e : DateTime) (o p : Int) (hd : d.offset = some o) (he : e.offset = some p) : Spec.Comparable (.dt d) (.dt e)
  | naive (d e : DateTime) (hd : d.offset = none) (he : e.offset = none) : Spec.Comparable (.dt d) (.dt e)

/-- `u` is strictly before `w`. -/
inductive Spec.ValBefore : PyVal → PyVal → Prop where
  | num (i j : Int) (h : i < j) : Spec.ValBefore (.int i) (.int j)
  | aware (d e : DateTime) (o p : Int) (hd : d.offset = some o) (he : e.offset = some p) (h : d.instant o < e.instant p) :
      Spec.ValBefore (.dt d) (.dt e)
  | naive (d e : DateTime) (hd : d.offset = none) (he : e.offset = none) (h : d.wall < e.wall) : Spec.ValBefore (.dt d) (.dt e)

theorem pyLt_ok (u w : PyVal) (x : Bool) : pyLt u w = .ok x ↔ Spec.Comparable u w ∧ (x = true ↔ Spec.ValBefore u w) := by
  constructor
  · intro h
    unfold pyLt at h
    split at h
    · rename_i d e
      split at h
      · rename_i o p hd he
        injection h with h
        subst h
        refine ⟨.aware d e o p hd he, ?_⟩
        rw [decide_eq_true_iff]
        refine ⟨.aware d e o p hd he, ?_⟩
        intro h
        cases h with
        | aware _ _ o' p' hd' he' h =>
          rw [hd] at hd'; rw [he] at he'
          injection hd' with hd'; injection he' with he'
          subst hd' he'; exact h
        | naive _ _ hd' he' h => rw [hd] at hd'; exact nomatch hd'
      · rename_i hd he
        injection h with h
        subst h
        refine ⟨.naive d e hd he, ?_⟩
        rw [decide_eq_true_iff]
        refine ⟨.naive d e hd he, ?_⟩
        intro h
        cases h with
        | aware _ _ o' p' hd' he' h => rw [hd] at hd'; exact nomatch hd'
        | naive _ _ hd' he' h => exact h
      · exact nomatch h
    · rename_i i j
      injection h with h
      subst h
      refine ⟨.num i j, ?_⟩
      rw [decide_eq_true_iff]
      exact ⟨.num i j, fun h => by cases h; assumption⟩
    · exact nomatch h
  · rintro ⟨hc, hx⟩
    cases hc with
    | num i j =>
      have : x = decide (i < j) := by
        rw [Bool.eq_iff_iff, hx, decide_eq_true_iff]
        exact ⟨fun h => by cases h; assumption, .num i j⟩
      simp [pyLt, this]
    | aware d e o p hd he =>
      have : x = decide (d.instant o < e.instant p) := by
        rw [Bool.eq_iff_iff, hx, decide_eq_true_iff]
        refine ⟨fun h => ?_, .aware d e o p hd he⟩
        cases h with
        | aware _ _ o' p' hd' he' h =>
          rw [hd] at hd'; rw [he] at he'
          injection hd' with hd'; injection he' with he'
          subst hd' he'; exact h
        | naive _ _ hd' he' h => rw [hd] at hd'; exact nomatch hd'
      simp [pyLt, hd, he, this]
    | naive d e hd he =>
      have : x = decide (d.wall < e.wall) := by
        rw [Bool.eq_iff_iff, hx, decide_eq_true_iff]
        refine ⟨fun h => ?_, .naive d e hd he⟩
        cases h with
        | aware _ _ o' p' hd' he' h => rw [hd] at hd'; exact nomatch hd'
        | naive _ _ hd' he' h => exact h
      simp [pyLt, hd, he, this]

/-- **C22**, exactly: without two checksums there is an answer exactly when the sizes differ, which is a difference whatever the times, or the update
times can be read and compared, and then the answer is whether self was updated strictly before other. -/
theorem C22_answer_iff (env : Env) (a b : PathMeta) (x : Bool)
    (hc : (a.plain .checksum).truthy = false ∨ (b.plain .checksum).truthy = false) :
    contentDifferent env a b = .ok x ↔
      (pyEq (a.plain .size) (b.plain .size) = false ∧ x = true) ∨
      (pyEq (a.plain .size) (b.plain .size) = true ∧ ∃ u w, a.get env .updated = .ok u ∧ b.get env .updated = .ok w ∧
        Spec.Comparable u w ∧ (x = true ↔ Spec.ValBefore u w)) := by
  have hn : ¬((a.plain .checksum).truthy = true ∧ (b.plain .checksum).truthy = true) := by
    rintro ⟨h1, h2⟩; rcases hc with h | h <;> simp_all
  unfold contentDifferent
  rw [if_neg hn]
  cases hs : pyEq (a.plain .size) (b.plain .size) with
  | false => simp [eq_comm]
  | true =>
    simp only [Bool.not_true, Bool.false_eq_true, if_false, false_and, true_and, false_or, Bool.true_eq_false]
    cases ha : a.get env .updated with
    | error e => simp
    | ok u =>
      cases hb : b.get env .updated with
      | error e => simp
      | ok w =>
        dsimp only
        rw [pyLt_ok]
        simp

/-- What reading a timestamp gives that was passed as `v` -/
inductive ReadsAs (env : Env) : PyVal → Except PyErr PyVal → Prop where
  | none : ReadsAs env .none (.ok .none)
  | int (i : Int) : ReadsAs env (.int i) (.ok (.int i))
  | dt (d : DateTime) : ReadsAs env (.dt d) (.ok (.dt d))
  | str (t : Str) : ReadsAs env (.str t) (env.dateparse t)
  | bytes (b : Bytes) (t : Str) : utf8? b = some t → ReadsAs env (.bytes b) (env.dateparse t)
  | badBytes (b : Bytes) : utf8? b = none → ReadsAs env (.bytes b) (.error .valueError)
  | etag (b : Bytes) (i : Int) : ReadsAs env (.etag b i) (.error .typeError)
  | strs (l : List Str) : ReadsAs env (.strs l) (.error .typeError)

/-- **C23**: what `created` and `updated` of a new object give: what was passed if it is `None`, a number or a datetime, the parsed text if it is text or bytes of text, and a `TypeError`
for everything else, which only comes up when the field is read. -/
theorem C23_timestamps (env : Env) (kw : List (Str × PyVal)) (o : PathMeta) (h : mkMeta kw = .ok o) :
    ReadsAs env ((dictGet (lit "created") kw).getD .none) (o.get env .created) ∧ ReadsAs env ((dictGet (lit "updated") kw).getD .none) (o.get env .updated) := by
  obtain ⟨size, errors, hs, he, hplain, hcr, hup, hkw⟩ := mkMeta_inv kw o h
  have key : ∀ v, ReadsAs env v ((mkSlot v).get env) := by
    intro v
    cases v with
    | none => exact .none
    | int i => exact .int i
    | dt d => exact .dt d
    | str t => exact .str t
    | etag b i => exact .etag b i
    | strs l => exact .strs l
    | bytes b =>
      unfold mkSlot Slot.get
      dsimp only
      cases hb : utf8? b with
      | none => exact .badBytes b hb
      | some t => exact .bytes b t hb
  refine ⟨?_, ?_⟩
  · show ReadsAs env _ (o.created.get env)
    rw [hcr]; exact key _
  · show ReadsAs env _ (o.updated.get env)
    rw [hup]; exact key _

example : ∃ o, mkMeta [(lit "created", .strs [lit "2020"])] = .ok o := ⟨_, rfl⟩

/-- What the constructor refuses, and how: an argument named self, an id that is not text, a `file_id` that is empty text or the like, and a size that is not a number. -/
theorem C23_refused (kw : List (Str × PyVal)) :
    ((dictGet (lit "self") kw).isSome → mkMeta kw = .error .typeError) ∧
    (∀ v, dictGet (lit "id") kw = some v → v ≠ .none → (∀ s, v ≠ .str s) → mkMeta kw = .error .typeError) ∧
    (∀ v, dictGet (lit "file_id") kw = some v → v.truthy = false → v ≠ .none → v ≠ .int 0 → mkMeta kw = .error .typeError) ∧
    (dictGet (lit "self") kw = none → (∀ v, dictGet (lit "id") kw = some v → v = .none ∨ ∃ s, v = .str s) →
      (∀ v, dictGet (lit "file_id") kw = some v → v.truthy = true ∨ v = .none ∨ v = .int 0) →
      (∀ s, dictGet (lit "size") kw = some (.str s) → pyInt s = none → mkMeta kw = .error .valueError) ∧
      (∀ b, dictGet (lit "size") kw = some (.bytes b) → pyIntBytes b = none → mkMeta kw = .error .valueError) ∧
      (∀ l, dictGet (lit "size") kw = some (.strs l) → mkMeta kw = .error .typeError)) := by
  have hid : Field.id.toStr = lit "id" := rfl
  have hfid : Field.file_id.toStr = lit "file_id" := rfl
  have hsz : Field.size.toStr = lit "size" := rfl
  refine ⟨fun h => by simp [mkMeta, h], fun v h h1 h2 => ?_, fun v h h1 h2 h3 => ?_, fun h1 h2 h3 => ?_⟩
  · unfold mkMeta
    dsimp only
    rw [hid, h]
    split
    · rfl
    · split
      · rfl
      · cases v <;> simp at h1 h2 ⊢
  · unfold mkMeta
    dsimp only
    split
    · rfl
    · rw [if_pos (by rw [hfid, h]; simp [h1, h2, h3])]
  · have key : ∀ v e, dictGet (lit "size") kw = some v → mkSize v = .error e → mkMeta kw = .error e := by
      intro v e hv he
      unfold mkMeta
      dsimp only
      rw [h1, if_neg (by simp), if_neg]
      · rw [hid, hsz, hv]
        cases hi : dictGet (lit "id") kw with
        | none => simp [he]
        | some w =>
          rcases h2 w hi with rfl | ⟨s, rfl⟩ <;> simp [he]
      · rw [hfid]
        cases hf : dictGet (lit "file_id") kw with
        | none => simp
        | some w =>
          rcases h3 w hf with h | rfl | rfl
          · simp [h]
          · simp
          · simp
    exact ⟨fun s h hs => key _ _ h (by simp [mkSize, hs]), fun b h hb => key _ _ h (by simp [mkSize, hb]), fun l h => key _ _ h rfl⟩

example : pyInt (lit "ten") = none ∧ dictGet (lit "size") [(lit "size", PyVal.str (lit "ten"))] = some (PyVal.str (lit "ten")) := by decide

end Verif
