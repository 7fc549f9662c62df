import Verif.Model.CopyRace
import Verif.Lemmas.Decide
import Verif.Props.Copy

/-!
# C139: copies from several processes to the same target
-/

namespace Verif.CopyRace

/-- The process has opened the target. -/
def Opened (s : State) (i : Nat) : Prop := (∃ off, s.pc i = .writing off) ∨ s.pc i = .returned

/-- How many bytes of its source a process has written. -/
def progress (src : Nat → Bytes) (s : State) (i : Nat) : Option Nat :=
  match s.pc i with
  | .writing off => some off
  | .returned => some (src i).length
  | _ => none

theorem goto_self (s : State) (i : Nat) (pc : Pc) : (s.goto i pc).pc i = pc := by simp [State.goto]

theorem goto_other (s : State) {i j : Nat} (h : j ≠ i) (pc : Pc) : (s.goto i pc).pc j = s.pc j := by simp [State.goto, h]

/-! ## How steps change the state -/

/-- Every step is one of these. -/
theorem step_cases (src : Nat → Bytes) (s : State) (i k : Nat) :
    (step src s i k = s ∧ (s.pc i = .returned ∨ ∃ e, s.pc i = .raised e)) ∨
    (∃ pc, step src s i k = s.goto i pc ∧ progress src s i = none ∧ (∀ off, pc ≠ .writing off) ∧ pc ≠ .returned) ∨
    (step src s i k = { s.goto i (.writing 0) with target := some [] } ∧ s.pc i = .passed ∧ src i ≠ []) ∨
    (∃ off, s.pc i = .writing off ∧ off < (src i).length ∧ step src s i k =
      { s.goto i (.writing (off + (((src i).drop off).take (k + 1)).length)) with
        target := s.target.map fun t => overwrite t off (((src i).drop off).take (k + 1)) }) ∨
    (∃ off, s.pc i = .writing off ∧ (src i).length ≤ off ∧ step src s i k = s.goto i .returned) := by
  unfold step
  cases h : s.pc i with
  | start =>
    refine .inr (.inl ⟨_, rfl, by simp [progress, h], ?_, ?_⟩)
    · intro off; split <;> simp
    · split <;> simp
  | absent => exact .inr (.inl ⟨_, rfl, by simp [progress, h], by simp, by simp⟩)
  | passed =>
    by_cases he : src i = []
    · exact .inr (.inl ⟨.raised .stopIteration, by simp [he], by simp [progress, h], by simp, by simp⟩)
    · exact .inr (.inr (.inl ⟨by simp [he], rfl, he⟩))
  | writing off =>
    by_cases hl : off < (src i).length
    · exact .inr (.inr (.inr (.inl ⟨off, rfl, hl, by simp [hl]⟩)))
    · exact .inr (.inr (.inr (.inr ⟨off, rfl, by omega, by simp [hl]⟩)))
  | returned => exact .inl ⟨rfl, .inl rfl⟩
  | raised e => exact .inl ⟨rfl, .inr ⟨e, rfl⟩⟩

theorem overwrite_length (t : Bytes) (off : Nat) (b : Bytes) : (overwrite t off b).length = max (t.length) (off + b.length) := by
  unfold overwrite
  simp only [List.length_append, List.length_take, List.length_replicate, List.length_drop]
  omega

theorem overwrite_get (t : Bytes) (off : Nat) (b : Bytes) (j : Nat) :
    (overwrite t off b)[j]? = if j < off then (if j < t.length then t[j]? else some 0)
      else if j < off + b.length then b[j - off]? else t[j]? := by
  have hl : (t.take off ++ List.replicate (off - t.length) 0).length = off := by simp; omega
  unfold overwrite
  by_cases h1 : j < off
  · rw [if_pos h1, List.append_assoc, List.getElem?_append_left (by omega)]
    by_cases h2 : j < t.length
    · rw [if_pos h2, List.getElem?_append_left (by simp; omega), List.getElem?_take_of_lt h1]
    · rw [if_neg h2, List.getElem?_append_right (by simp; omega), List.getElem?_replicate]
      rw [if_pos (by simp; omega)]
  · rw [if_neg h1]
    by_cases h2 : j < off + b.length
    · rw [if_pos h2, List.getElem?_append_left (by simp only [List.length_append] at hl ⊢; omega),
        List.getElem?_append_right (by omega), hl]
    · rw [if_neg h2, List.getElem?_append_right (by simp only [List.length_append] at hl ⊢; omega), List.getElem?_drop]
      congr 1
      simp only [List.length_append] at hl ⊢
      omega

/-! ## Who may write -/

/-- **C139**: the target is never taken away again. -/
theorem step_some (src : Nat → Bytes) (s : State) (i k : Nat) (h : s.target.isSome = true) : (step src s i k).target.isSome = true := by
  rcases step_cases src s i k with ⟨e, -⟩ | ⟨pc, e, -⟩ | ⟨e, -⟩ | ⟨off, -, -, e⟩ | ⟨off, -, -, e⟩ <;> rw [e]
  · exact h
  · exact h
  · rfl
  · simpa using h
  · exact h

/-- **C139**: a process that begins when there is a file at the target, be it one that another process is just writing, is refused. -/
theorem C139_late (src : Nat → Bytes) (sched : List (Nat × Nat)) (s : State) (i : Nat) (h : s.target.isSome = true) (hi : s.pc i = .start) :
    (run src s sched).pc i = .start ∨ (run src s sched).pc i = .raised .pathExistsError := by
  have key : ∀ (sched : List (Nat × Nat)) (s : State), s.target.isSome = true → (s.pc i = .start ∨ s.pc i = .raised .pathExistsError) →
      (run src s sched).pc i = .start ∨ (run src s sched).pc i = .raised .pathExistsError := by
    intro sched
    induction sched with
    | nil => intro s _ h; exact h
    | cons x sched ih =>
      intro s hs h
      obtain ⟨j, k⟩ := x
      refine ih _ (step_some src s j k hs) ?_
      by_cases hj : i = j
      · subst hj
        rcases h with h | h
        · right
          simp only [step, h, hs, if_true]
          exact goto_self _ _ _
        · right
          simp only [step, h]
      · have : (step src s j k).pc i = s.pc i := by
          rcases step_cases src s j k with ⟨e, -⟩ | ⟨pc, e, -⟩ | ⟨e, -⟩ | ⟨off, -, -, e⟩ | ⟨off, -, -, e⟩ <;> rw [e]
          all_goals exact goto_other _ hj _
        rw [this]
        exact h
  exact key sched s h (.inl hi)

/-- **C139**: if there is a file at the target to begin with, all processes are refused and it stays as it is. -/
theorem C139_existing (src : Nat → Bytes) (sched : List (Nat × Nat)) (t : Bytes) :
    (run src (.init (some t)) sched).target = some t ∧
    ∀ i, (run src (.init (some t)) sched).pc i = .start ∨ (run src (.init (some t)) sched).pc i = .raised .pathExistsError := by
  refine ⟨?_, fun i => C139_late src sched _ i rfl rfl⟩
  have key : ∀ (sched : List (Nat × Nat)) (s : State), s.target = some t → (∀ i, s.pc i = .start ∨ s.pc i = .raised .pathExistsError) →
      (run src s sched).target = some t := by
    intro sched
    induction sched with
    | nil => intro s h _; exact h
    | cons x sched ih =>
      intro s hs h
      obtain ⟨j, k⟩ := x
      have e : step src s j k = s ∨ step src s j k = s.goto j (.raised .pathExistsError) := by
        rcases h j with h | h
        · right; simp [step, h, hs]
        · left; simp [step, h]
      refine ih _ ?_ fun i => ?_
      · rcases e with e | e <;> rw [e]
        · exact hs
        · exact hs
      · rcases e with e | e <;> rw [e]
        · exact h i
        · by_cases hij : i = j
          · subst hij; right; exact goto_self _ _ _
          · rw [goto_other _ hij]; exact h i
  exact key sched _ rfl fun i => .inl rfl

/-! ## The same content -/

theorem opened_goto {src : Nat → Bytes} {s : State} {i k j : Nat} (h : Opened s j) : Opened (step src s i k) j := by
  by_cases hj : j = i
  · subst hj
    rcases step_cases src s j k with ⟨e, -⟩ | ⟨pc, e, hp, -⟩ | ⟨e, hp, -⟩ | ⟨off, -, -, e⟩ | ⟨off, -, -, e⟩ <;> rw [e]
    · exact h
    · exfalso
      rcases h with ⟨off, h⟩ | h <;> simp [progress, h] at hp
    · exact .inl ⟨0, goto_self _ _ _⟩
    · exact .inl ⟨_, goto_self _ _ _⟩
    · exact .inr (goto_self _ _ _)
  · have : (step src s i k).pc j = s.pc j := by
      rcases step_cases src s i k with ⟨e, -⟩ | ⟨pc, e, -⟩ | ⟨e, -⟩ | ⟨off, -, -, e⟩ | ⟨off, -, -, e⟩ <;> rw [e]
      all_goals exact goto_other _ hj _
    unfold Opened
    rw [this]
    exact h

theorem opened_run {src : Nat → Bytes} {j : Nat} : ∀ {sched : List (Nat × Nat)} {s : State}, Opened s j → Opened (run src s sched) j
  | [], _, h => h
  | (i, k) :: sched, _, h => opened_run (sched := sched) (opened_goto (i := i) (k := k) h)

/-- While all who have opened the target copy the same: the one that opened it last has written the beginning, and nobody is beyond the
end. -/
structure Alike (src : Nat → Bytes) (c : Bytes) (s : State) : Prop where
  within : ∀ i off, s.pc i = .writing off → off ≤ c.length
  last : ∀ t, s.target = some t → t.length ≤ c.length ∧ ∃ i off, progress src s i = some off ∧ off ≤ t.length ∧ ∀ j, j < off → t[j]? = c[j]?
  none : s.target = none → ∀ i, progress src s i = none

theorem alike_step {src : Nat → Bytes} {c : Bytes} {s : State} {i k : Nat} (h : Alike src c s)
    (hsame : ∀ j, Opened (step src s i k) j → src j = c) : Alike src c (step src s i k) := by
  have hother : ∀ {s' : State} {j : Nat} {pc : Pc} {x : Option Bytes}, j ≠ i → s' = { s.goto i pc with target := x } →
      progress src s' j = progress src s j := by
    rintro s' j pc x hj rfl
    unfold progress
    rw [show ({ s.goto i pc with target := x } : State).pc j = s.pc j from goto_other s hj pc]
  rcases step_cases src s i k with ⟨e, -⟩ | ⟨pc, e, hp, hpc, hpc2⟩ | ⟨e, hp, hne⟩ | ⟨off, hp, hlt, e⟩ | ⟨off, hp, hge, e⟩
  · rw [e]; exact h
  · have e' : step src s i k = { s.goto i pc with target := s.target } := e
    have hi : progress src (step src s i k) i = none := by
      unfold progress
      rw [e, goto_self]
      cases pc with
      | writing off => exact absurd rfl (hpc off)
      | returned => exact absurd rfl hpc2
      | _ => rfl
    refine ⟨fun j off hj => ?_, fun t ht => ?_, fun ht j => ?_⟩
    · by_cases hji : j = i
      · subst hji
        rw [e, goto_self] at hj
        exact absurd hj (hpc off)
      · rw [e, goto_other s hji] at hj
        exact h.within j off hj
    · rw [e] at ht
      obtain ⟨h1, l, off, h2, h3⟩ := h.last t ht
      refine ⟨h1, l, off, ?_, h3⟩
      by_cases hl : l = i
      · subst hl; rw [hp] at h2; cases h2
      · rw [hother hl e']; exact h2
    · rw [e] at ht
      by_cases hji : j = i
      · subst hji; exact hi
      · rw [hother hji e']; exact h.none ht j
  · refine ⟨fun j off hj => ?_, fun t ht => ?_, fun ht => ?_⟩
    · by_cases hji : j = i
      · subst hji
        rw [e] at hj
        have : off = 0 := by
          have h2 := goto_self s j (.writing 0)
          have h3 : (s.goto j (.writing 0)).pc j = .writing off := hj
          rw [h2] at h3
          cases h3
          rfl
        omega
      · rw [e] at hj
        have : s.pc j = .writing off := by rw [← goto_other s hji (.writing 0)]; exact hj
        exact h.within j off this
    · rw [e] at ht
      cases ht
      refine ⟨Nat.zero_le _, i, 0, ?_, Nat.zero_le _, fun j hj => absurd hj (Nat.not_lt_zero j)⟩
      unfold progress
      rw [e, show ({ s.goto i (.writing 0) with target := some [] } : State).pc i = .writing 0 from goto_self _ _ _]
    · rw [e] at ht
      cases ht
  · have hc : src i = c := hsame i (opened_goto (.inl ⟨off, hp⟩))
    rw [hc] at e hlt
    generalize hb : (c.drop off).take (k + 1) = b at e
    have hbl : off + b.length ≤ c.length := by rw [← hb]; simp; omega
    have hbg : ∀ j, off ≤ j → j < off + b.length → b[j - off]? = c[j]? := by
      intro j h1 h2
      rw [← hb] at h2 ⊢
      rw [List.length_take, List.length_drop] at h2
      rw [List.getElem?_take_of_lt (by omega), List.getElem?_drop]
      congr 1
      omega
    have hpc : (step src s i k).pc i = .writing (off + b.length) := by rw [e]; exact goto_self _ _ _
    refine ⟨fun j o hj => ?_, fun t ht => ?_, fun ht => ?_⟩
    · by_cases hji : j = i
      · subst hji
        rw [hpc] at hj
        cases hj
        exact hbl
      · have : s.pc j = .writing o := by
          rw [e] at hj
          rw [← goto_other s hji (.writing (off + b.length))]
          exact hj
        exact h.within j o this
    · rw [e] at ht
      cases ht0 : s.target with
      | none => rw [show (Option.map (fun t => overwrite t off b) s.target) = none by rw [ht0]; rfl] at ht; cases ht
      | some t0 =>
        have htt : t = overwrite t0 off b := by
          have : Option.map (fun t => overwrite t off b) s.target = some t := ht
          rw [ht0] at this
          cases this
          rfl
        obtain ⟨h1, l, o, h2, h3, h4⟩ := h.last t0 ht0
        refine ⟨by rw [htt, overwrite_length]; omega, ?_⟩
        by_cases hl : l = i
        · subst hl
          have ho : o = off := by
            unfold progress at h2
            rw [hp] at h2
            cases h2
            rfl
          subst ho
          refine ⟨l, o + b.length, by unfold progress; rw [hpc], by rw [htt, overwrite_length]; omega, fun j hj => ?_⟩
          rw [htt, overwrite_get]
          by_cases hjo : j < o
          · rw [if_pos hjo, if_pos (by omega)]
            exact h4 j hjo
          · rw [if_neg hjo, if_pos hj]
            exact hbg j (by omega) hj
        · refine ⟨l, o, by rw [hother hl e]; exact h2, by rw [htt, overwrite_length]; omega, fun j hj => ?_⟩
          rw [htt, overwrite_get]
          by_cases h5 : j < off
          · rw [if_pos h5, if_pos (by omega)]
            exact h4 j hj
          · rw [if_neg h5]
            by_cases h6 : j < off + b.length
            · rw [if_pos h6]
              exact hbg j (by omega) h6
            · rw [if_neg h6]
              exact h4 j hj
    · rw [e] at ht
      have ht0 : s.target = none := by
        cases h0 : s.target with
        | none => rfl
        | some t0 =>
          have : Option.map (fun t => overwrite t off b) s.target = none := ht
          rw [h0] at this
          cases this
      have := h.none ht0 i
      unfold progress at this
      rw [hp] at this
      cases this
  · have hc : src i = c := hsame i (opened_goto (.inl ⟨off, hp⟩))
    have e' : step src s i k = { s.goto i .returned with target := s.target } := e
    have hoff := h.within i off hp
    have hpc : (step src s i k).pc i = .returned := by rw [e]; exact goto_self _ _ _
    refine ⟨fun j o hj => ?_, fun t ht => ?_, fun ht => ?_⟩
    · by_cases hji : j = i
      · subst hji; rw [hpc] at hj; cases hj
      · rw [e, goto_other s hji] at hj
        exact h.within j o hj
    · rw [e] at ht
      obtain ⟨h1, l, o, h2, h3, h4⟩ := h.last t ht
      refine ⟨h1, l, o, ?_, h3, h4⟩
      by_cases hl : l = i
      · subst hl
        unfold progress at h2 ⊢
        rw [hp] at h2
        rw [hpc]
        cases h2
        rw [hc] at hge ⊢
        show some c.length = some off
        congr 1
        omega
      · rw [hother hl e']; exact h2
    · rw [e] at ht
      have := h.none ht i
      unfold progress at this
      rw [hp] at this
      cases this

theorem alike_run {src : Nat → Bytes} {c : Bytes} : ∀ {sched : List (Nat × Nat)} {s : State}, Alike src c s →
    (∀ j, Opened (run src s sched) j → src j = c) → Alike src c (run src s sched)
  | [], _, h, _ => h
  | (i, k) :: sched, s, h, hs =>
    alike_run (sched := sched) (alike_step (i := i) (k := k) h fun j hj => hs j (opened_run (sched := sched) hj)) hs

/-- **C139**: if all processes that get to write copy the same content, in whatever order they make their steps and however much they write at
once, then when at least one of them has returned and none is still writing the target has exactly this content. -/
theorem C139_same (src : Nat → Bytes) (sched : List (Nat × Nat)) (c : Bytes) (hsame : ∀ i, Opened (run src (.init none) sched) i → src i = c)
    {i : Nat} (hi : (run src (.init none) sched).pc i = .returned) (hdone : ∀ j off, (run src (.init none) sched).pc j ≠ .writing off) :
    (run src (.init none) sched).target = some c := by
  have h := alike_run (src := src) (c := c) (sched := sched) (s := .init none)
    ⟨fun _ _ h => (nomatch h), fun _ h => (nomatch h), fun _ _ => rfl⟩ hsame
  generalize run src (.init none) sched = s at h hi hdone hsame
  cases ht : s.target with
  | none =>
    have := h.none ht i
    unfold progress at this
    rw [hi] at this
    cases this
  | some t =>
    obtain ⟨h1, l, off, h2, h3, h4⟩ := h.last t ht
    have hoff : off = c.length := by
      unfold progress at h2
      cases hp : s.pc l with
      | writing o => exact absurd hp (hdone l o)
      | returned =>
        rw [hp] at h2
        cases h2
        rw [hsame l (.inr hp)]
      | _ => rw [hp] at h2; cases h2
    subst hoff
    congr 1
    apply List.ext_getElem?
    intro j
    by_cases hj : j < c.length
    · exact h4 j hj
    · rw [List.getElem?_eq_none (by omega), List.getElem?_eq_none (by omega)]

/-- **C139**: whatever is copied and whoever stops on the way, each byte of the target is that of one of the sources at the same place, or zero. -/
theorem C139_bytes (src : Nat → Bytes) (sched : List (Nat × Nat)) (t : Bytes) (h : (run src (.init none) sched).target = some t) (j : Nat) (x : UInt8)
    (hx : t[j]? = some x) : x = 0 ∨ ∃ i, Opened (run src (.init none) sched) i ∧ (src i)[j]? = some x := by
  have key : ∀ (sched : List (Nat × Nat)) (s : State), (∀ (t : Bytes) (j : Nat) (x : UInt8), s.target = some t → t[j]? = some x →
      x = 0 ∨ ∃ i, Opened s i ∧ (src i)[j]? = some x) → ∀ (t : Bytes) (j : Nat) (x : UInt8), (run src s sched).target = some t → t[j]? = some x →
      x = 0 ∨ ∃ i, Opened (run src s sched) i ∧ (src i)[j]? = some x := by
    intro sched
    induction sched with
    | nil => intro s h; exact h
    | cons y sched ih =>
      intro s h
      obtain ⟨i, k⟩ := y
      refine ih _ fun t j x ht hx => ?_
      have old : ∀ t0, s.target = some t0 → t0[j]? = some x → x = 0 ∨ ∃ l, Opened (step src s i k) l ∧ (src l)[j]? = some x := by
        intro t0 h0 h1
        rcases h t0 j x h0 h1 with h2 | ⟨l, h2, h3⟩
        · exact .inl h2
        · exact .inr ⟨l, opened_goto h2, h3⟩
      rcases step_cases src s i k with ⟨e, -⟩ | ⟨pc, e, -⟩ | ⟨e, -⟩ | ⟨off, hp, hlt, e⟩ | ⟨off, -, -, e⟩ <;> rw [e] at ht
      · exact old t ht hx
      · exact old t ht hx
      · cases ht
        cases hx
      · cases h0 : s.target with
        | none =>
          have : Option.map (fun t => overwrite t off (((src i).drop off).take (k + 1))) s.target = some t := ht
          rw [h0] at this
          cases this
        | some t0 =>
          have : Option.map (fun t => overwrite t off (((src i).drop off).take (k + 1))) s.target = some t := ht
          rw [h0] at this
          cases this
          rw [overwrite_get] at hx
          split at hx
          · split at hx
            · exact old t0 h0 hx
            · cases hx; exact .inl rfl
          · split at hx
            · next h1 h2 =>
              refine .inr ⟨i, opened_goto (.inl ⟨off, hp⟩), ?_⟩
              rw [List.length_take, List.length_drop] at h2
              rw [List.getElem?_take_of_lt (by omega), List.getElem?_drop] at hx
              rw [← hx]
              congr 1
              omega
            · exact old t0 h0 hx
      · exact old t ht hx
  exact key sched _ (fun _ _ _ h => by cases (h : none = some _)) t j x h hx

/-! ## What does not hold, and cases -/

/-- **C139 is false**: two processes that copy different things both return, and the target is neither, but the beginning of one, a zero and
the end of the other. -/
theorem C139_mixture_counterexample : ∃ (src : Nat → Bytes) (sched : List (Nat × Nat)),
    src 0 = [1, 1, 1] ∧ src 1 = [3] ∧ (run src (.init none) sched).pc 0 = .returned ∧ (run src (.init none) sched).pc 1 = .returned ∧
    (run src (.init none) sched).target = some [3, 0, 1] :=
  ⟨fun i => if i = 0 then [1, 1, 1] else [3], [(0, 0), (1, 0), (0, 0), (1, 0), (0, 0), (0, 1), (1, 0), (0, 0), (1, 0), (0, 0), (1, 0)],
    by decide, by decide, by decide, by decide, by decide⟩

/-- **C139 is false** also of copies of the same content if one of them stops on the way: the other one returns, and the target has zeros at its
beginning. -/
theorem C139_stopped_counterexample : ∃ (src : Nat → Bytes) (sched : List (Nat × Nat)),
    (∀ i, src i = [1, 2, 3]) ∧ (run src (.init none) sched).pc 0 = .returned ∧ (run src (.init none) sched).target = some [0, 0, 3] :=
  ⟨fun _ => [1, 2, 3], [(0, 0), (1, 0), (0, 0), (1, 0), (0, 0), (0, 1), (1, 0), (0, 0), (0, 0)], fun _ => rfl, by decide, by decide⟩

/-- **C139**: nothing is written for an empty source, and `StopIteration` is raised. -/
theorem C139_empty (src : Nat → Bytes) (s : State) (i k : Nat) (h : src i = []) (hp : s.pc i = .passed) :
    (step src s i k).target = s.target ∧ (step src s i k).pc i = .raised .stopIteration := by
  simp [step, hp, h, State.goto]

-- C139_same: three processes copy the same, two of which write at the same time and one comes later
example : ∃ r, r = run (fun _ => [1, 2, 3]) (.init none)
      [(0, 0), (1, 0), (0, 0), (1, 0), (0, 0), (0, 1), (2, 0), (1, 0), (0, 0), (1, 0), (0, 0), (1, 1), (1, 0)] ∧
    r.pc 0 = .returned ∧ r.pc 1 = .returned ∧ r.pc 2 = .raised .pathExistsError ∧ r.target = some [1, 2, 3] :=
  ⟨_, rfl, by decide, by decide, by decide, by decide⟩

/-- How many system calls a process has before it at most. -/
def left (src : Nat → Bytes) (s : State) (i : Nat) : Nat :=
  match s.pc i with
  | .start => (src i).length + 4
  | .absent => (src i).length + 3
  | .passed => (src i).length + 2
  | .writing off => (src i).length - off + 1
  | .returned | .raised _ => 0

theorem left_own (src : Nat → Bytes) (s : State) (i k : Nat) : left src (step src s i k) i ≤ left src s i - 1 := by
  unfold left
  unfold step
  cases h : s.pc i with
  | start => simp only [goto_self]; split <;> simp_all <;> (split at * <;> simp_all)
  | absent => simp only [goto_self]; omega
  | passed =>
    by_cases he : src i = []
    · simp [he, goto_self]
    · simp [he, State.goto]
  | writing off =>
    by_cases hl : off < (src i).length
    · simp only [hl, if_true, State.goto]
      rw [List.length_take, List.length_drop]
      omega
    · simp [hl, goto_self]
  | returned => simp [h]
  | raised e => simp [h]

theorem left_other (src : Nat → Bytes) (s : State) {i j k : Nat} (h : j ≠ i) : left src (step src s i k) j = left src s j := by
  have : (step src s i k).pc j = s.pc j := by
    rcases step_cases src s i k with ⟨e, -⟩ | ⟨pc, e, -⟩ | ⟨e, -⟩ | ⟨off, -, -, e⟩ | ⟨off, -, -, e⟩ <;> rw [e]
    all_goals exact goto_other _ h _
  unfold left
  rw [this]

/-- **C139**: no process waits for another: one that has made as many steps as its source has bytes, and four, has returned or raised. -/
theorem C139_ends (src : Nat → Bytes) (sched : List (Nat × Nat)) (target : Option Bytes) (i : Nat)
    (h : (src i).length + 4 ≤ sched.countP fun x => x.1 == i) :
    (run src (.init target) sched).pc i = .returned ∨ ∃ e, (run src (.init target) sched).pc i = .raised e := by
  have key : ∀ (sched : List (Nat × Nat)) (s : State), left src (run src s sched) i ≤ left src s i - sched.countP fun x => x.1 == i := by
    intro sched
    induction sched with
    | nil => intro s; exact Nat.le_refl _
    | cons x sched ih =>
      intro s
      obtain ⟨j, k⟩ := x
      have := ih (step src s j k)
      rw [List.countP_cons]
      show left src (run src (step src s j k) sched) i ≤ _
      by_cases hj : j = i
      · subst hj
        have h1 := left_own src s j k
        simp only [beq_self_eq_true, if_true]
        omega
      · rw [left_other src s (Ne.symm hj)] at this
        have : (j == i) = false := by simp [hj]
        simp only [this, Bool.false_eq_true, if_false, Nat.add_zero]
        assumption
  have h0 := key sched (.init target)
  have h1 : left src (.init target) i = (src i).length + 4 := rfl
  have h2 : left src (run src (.init target) sched) i = 0 := by omega
  unfold left at h2
  cases hp : (run src (.init target) sched).pc i with
  | returned => exact .inl rfl
  | raised e => exact .inr ⟨e, rfl⟩
  | _ => rw [hp] at h2; simp at h2

/-- A process that runs alone, with nothing at the target, does not raise. -/
theorem run_calm (src : Nat → Bytes) (i : Nat) (hb : src i ≠ []) (sched : List (Nat × Nat)) (hs : ∀ x ∈ sched, x.1 = i) : ∀ (s : State),
    (s.pc i = .start → s.target = none) → (∀ e, s.pc i ≠ .raised e) → (∀ j, j ≠ i → s.pc j = .start) →
    (∀ e, (run src s sched).pc i ≠ .raised e) ∧ ∀ j, j ≠ i → (run src s sched).pc j = .start := by
  induction sched with
  | nil => exact fun s _ h2 h3 => ⟨h2, h3⟩
  | cons x sched ih =>
    obtain ⟨j, k⟩ := x
    intro s h1 h2 h3
    have hj : j = i := hs _ List.mem_cons_self
    subst hj
    refine ih (fun y hy => hs y (List.mem_cons_of_mem _ hy)) (step src s j k) ?_ ?_ ?_
    · unfold step
      cases hp : s.pc j with
      | start => simp [State.goto, h1 hp]
      | absent => simp [State.goto]
      | passed => simp [State.goto, hb]
      | writing off => dsimp only; split <;> simp [State.goto]
      | returned => simp [hp]
      | raised e => exact absurd hp (h2 e)
    · intro e
      unfold step
      cases hp : s.pc j with
      | start => simp [State.goto, h1 hp]
      | absent => simp [State.goto]
      | passed => simp [State.goto, hb]
      | writing off => dsimp only; split <;> simp [State.goto]
      | returned => simp [hp]
      | raised e => exact absurd hp (h2 e)
    · intro l hl
      have := h3 l hl
      unfold step
      cases hp : s.pc j with
      | start => simp [State.goto, hl, this]
      | absent => simp [State.goto, hl, this]
      | passed => simp [State.goto, hb, hl, this]
      | writing off => dsimp only; split <;> simp [State.goto, hl, this]
      | returned => simp [this]
      | raised e => simp [this]

/-- **C139**: a process that runs alone does what `Model/Copy` says when no call fails: for a free target both return, and there is exactly
the content of the source at the target. -/
theorem C139_alone (E : FS.Env) {n fuel : Nat} (hn : 0 < n) {from_ to : FS.UserPath} {p q : FS.Path} {b : Bytes} {m : FS.Machine FS.Node}
    (hF : ∀ n, E.F n = none) (hsrc : FS.HoldsAt E m.disk from_ p b) (hb : b ≠ []) (hfuel : b.length < fuel) (hq : FS.FreeAt E m.disk to q)
    (src : Nat → Bytes) (i : Nat) (hi : src i = b) (sched : List (Nat × Nat)) (hs : ∀ x ∈ sched, x.1 = i) (hl : b.length + 4 ≤ sched.length) :
    ∃ r m' q', r = run src (.init none) sched ∧ E.copyLocal n fuel from_ to false m = (.ok (), m') ∧ r.pc i = .returned ∧
    r.target = some b ∧ FS.HoldsAt E m'.disk to q' b := by
  obtain ⟨⟨m', hm⟩, -⟩ := FS.C10_returns E (n := n) (fuel := fuel) hn false hF hsrc hb hfuel hq
  obtain ⟨p', q', b', h1, -, h2, -⟩ := FS.C10_copied E hn (.inl hm)
  obtain ⟨-, rfl⟩ := FS.reads_unique (FS.reads_iff.2 hsrc) (FS.reads_iff.2 h1)
  have hcalm := run_calm src i (hi ▸ hb) sched hs (.init none) (fun _ => rfl) (fun e h => nomatch h) (fun _ _ => rfl)
  have hret : (run src (.init none) sched).pc i = .returned := by
    rcases C139_ends src sched none i (by
      have : sched.countP (fun x => x.1 == i) = sched.length := List.countP_eq_length.2 fun x hx => by simp [hs x hx]
      rw [this, hi]; exact hl) with h | ⟨e, h⟩
    · exact h
    · exact absurd h (hcalm.1 e)
  refine ⟨_, m', q', rfl, hm, hret, ?_, h2⟩
  refine C139_same src sched b' (fun j hj => ?_) hret fun j off hj => ?_
  · by_cases hji : j = i
    · rw [hji]; exact hi
    · have := hcalm.2 j hji
      rcases hj with ⟨off, h⟩ | h <;> rw [this] at h <;> cases h
  · by_cases hji : j = i
    · rw [hji, hret] at hj; cases hj
    · rw [hcalm.2 j hji] at hj; cases hj

end Verif.CopyRace
