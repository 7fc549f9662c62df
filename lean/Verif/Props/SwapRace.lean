import Verif.Model.SwapRace
import Verif.Lemmas.Decide
import Verif.Props.Swap

/-!
# C141: swapping two paths from several processes
-/

namespace Verif.SwapRace

variable {X : Type} {native : Bool} {own : Nat → Bool}

/-- Where something can be: at one of the two paths, or in the temporary directory of a process. -/
inductive Loc where
  | place (b : Bool)
  | temp (i : Nat)
  deriving DecidableEq

/-- What a process has in its temporary directory. -/
def Pc.held : Pc X → Option X
  | .one x | .two x => some x
  | .raised x => x
  | _ => none

def State.at_ (s : State X) : Loc → Option X
  | .place b => s.place b
  | .temp i => (s.pc i).held

/-- The two contents are in two different locations and nothing else is anywhere. -/
def Kept (a b : X) (s : State X) : Prop :=
  ∃ la lb, la ≠ lb ∧ s.at_ la = some a ∧ s.at_ lb = some b ∧ ∀ l, l ≠ la → l ≠ lb → s.at_ l = none

/-- Three different locations are too many. -/
theorem Kept.three {a b : X} {s : State X} (h : Kept a b s) {l1 l2 l3 : Loc} (h1 : s.at_ l1 ≠ none) (h2 : s.at_ l2 ≠ none)
    (h3 : s.at_ l3 ≠ none) (h12 : l1 ≠ l2) (h13 : l1 ≠ l3) (h23 : l2 ≠ l3) : False := by
  obtain ⟨la, lb, -, -, -, ho⟩ := h
  have key : ∀ l, s.at_ l ≠ none → l = la ∨ l = lb := by
    intro l hl
    by_cases ha : l = la
    · exact .inl ha
    · by_cases hb : l = lb
      · exact .inr hb
      · exact absurd (ho l ha hb) hl
  rcases key _ h1 with rfl | rfl <;> rcases key _ h2 with rfl | rfl <;> rcases key _ h3 with rfl | rfl <;> simp_all

/-- The content of one location goes to another one where nothing is. -/
theorem Kept.move {a b : X} {s t : State X} (h : Kept a b s) {l m : Loc} (hm : s.at_ m = none) (hlm : s.at_ l ≠ none) (h1 : t.at_ m = s.at_ l) (h2 : t.at_ l = none)
    (h3 : ∀ k, k ≠ l → k ≠ m → t.at_ k = s.at_ k) : Kept a b t := by
  obtain ⟨la, lb, hne, ha, hb, ho⟩ := h
  have hma : m ≠ la := by rintro rfl; rw [hm] at ha; cases ha
  have hmb : m ≠ lb := by rintro rfl; rw [hm] at hb; cases hb
  by_cases hla : l = la
  · subst hla
    refine ⟨m, lb, hmb, by rw [h1, ha], by rw [h3 lb (Ne.symm hne) (Ne.symm hmb), hb], fun k hk1 hk2 => ?_⟩
    by_cases hkl : k = l
    · rw [hkl, h2]
    · rw [h3 k hkl hk1]; exact ho k hkl hk2
  · by_cases hlb : l = lb
    · subst hlb
      refine ⟨la, m, Ne.symm hma, by rw [h3 la (Ne.symm hla) (Ne.symm hma), ha], by rw [h1, hb], fun k hk1 hk2 => ?_⟩
      by_cases hkl : k = l
      · rw [hkl, h2]
      · rw [h3 k hkl hk2]; exact ho k hk1 hkl
    · exact absurd (ho l hla hlb) hlm

theorem Kept.same {a b : X} {s t : State X} (h : Kept a b s) (e : ∀ l, t.at_ l = s.at_ l) : Kept a b t := by
  obtain ⟨la, lb, hne, ha, hb, ho⟩ := h
  exact ⟨la, lb, hne, by rw [e, ha], by rw [e, hb], fun k h1 h2 => by rw [e]; exact ho k h1 h2⟩

/-- What would be at a path if all that are on their way had gone back or gone on. -/
def cur (orig : Bool → X) (n : Nat) (b : Bool) : X := if n % 2 = 0 then orig b else orig (!b)

theorem cur_succ (orig : Bool → X) (n : Nat) (b : Bool) : cur orig (n + 1) b = cur orig n (!b) := by
  unfold cur
  rcases Nat.mod_two_eq_zero_or_one n with h | h
  · rw [if_neg (by omega), if_pos h]
  · rw [if_pos (by omega), if_neg (by omega), Bool.not_not]

/-- Nobody is between the second and the third renaming. -/
def NoTwo (s : State X) : Prop := ∀ i x, s.pc i ≠ .two x

/-- How the contents are arranged. -/
def Arranged (own : Nat → Bool) (orig : Bool → X) (s : State X) : Prop :=
  (NoTwo s ∧ ∀ b, s.place b = some (cur orig s.done b) ∨ s.place b = none ∧ ∃ j, s.pc j = .one (cur orig s.done b) ∧ own j = !b) ∨
  ∃ i, s.pc i = .two (cur orig s.done (!own i)) ∧
    (s.place (!own i) = some (cur orig s.done (own i)) ∨
      s.place (!own i) = none ∧ ∃ j, s.pc j = .one (cur orig s.done (own i)) ∧ own j = own i)

structure Inv (own : Nat → Bool) (orig : Bool → X) (s : State X) : Prop where
  kept : Kept (orig false) (orig true) s
  empty : ∀ i x, s.pc i = .two x → s.place (own i) = none ∧ ∀ j y, s.pc j = .two y → j = i
  arranged : (∃ i x, s.pc i = .raised (some x)) ∨ Arranged own orig s

@[simp] theorem goto_self (s : State X) (i : Nat) (pc : Pc X) : (s.goto i pc).pc i = pc := by simp [State.goto]

theorem goto_other (s : State X) {i j : Nat} (h : j ≠ i) (pc : Pc X) : (s.goto i pc).pc j = s.pc j := by simp [State.goto, h]

/-- Nothing but the progress of a process that holds nothing changes. -/
theorem Inv.goto {orig : Bool → X} {s : State X} (I : Inv own orig s) {i : Nat} (h1 : (s.pc i).held = none) {pc : Pc X} (h2 : pc.held = none) :
    Inv own orig (s.goto i pc) := by
  have e : ∀ l, (s.goto i pc).at_ l = s.at_ l := by
    intro l
    cases l with
    | place b => rfl
    | temp j =>
      by_cases hj : j = i
      · subst hj; simp [State.at_, h1, h2]
      · simp only [State.at_, goto_other _ hj]
  have back : ∀ j p, p.held ≠ none → (s.goto i pc).pc j = p → s.pc j = p := by
    intro j p hp h
    by_cases hj : j = i
    · subst hj; rw [goto_self] at h; subst h; exact absurd h2 hp
    · rwa [goto_other _ hj] at h
  have forth : ∀ j p, p.held ≠ none → s.pc j = p → (s.goto i pc).pc j = p := by
    intro j p hp h
    by_cases hj : j = i
    · subst hj; subst h; exact absurd h1 hp
    · rwa [goto_other _ hj]
  refine ⟨I.kept.same e, fun j x hj => ?_, ?_⟩
  · obtain ⟨h3, h4⟩ := I.empty j x (back j _ (by simp [Pc.held]) hj)
    exact ⟨h3, fun k y hk => h4 k y (back k _ (by simp [Pc.held]) hk)⟩
  · rcases I.arranged with ⟨j, x, hj⟩ | ⟨hn, h⟩ | ⟨j, hj, h⟩
    · exact .inl ⟨j, x, forth j _ (by simp [Pc.held]) hj⟩
    · refine .inr (.inl ⟨fun j x hj => hn j x (back j _ (by simp [Pc.held]) hj), fun b => ?_⟩)
      rcases h b with h | ⟨h, k, hk, hk'⟩
      · exact .inl h
      · exact .inr ⟨h, k, forth k _ (by simp [Pc.held]) hk, hk'⟩
    · refine .inr (.inr ⟨j, forth j _ (by simp [Pc.held]) hj, ?_⟩)
      rcases h with h | ⟨h, k, hk, hk'⟩
      · exact .inl h
      · exact .inr ⟨h, k, forth k _ (by simp [Pc.held]) hk, hk'⟩

theorem Inv.step {orig : Bool → X} {s : State X} (I : Inv own orig s) (i : Nat) : Inv own orig (step native own s i) := by
  have ne_not : ∀ b : Bool, b ≠ !b := by decide
  unfold SwapRace.step
  cases hp : s.pc i with
  | look n =>
    dsimp only
    split
    · refine I.goto (by rw [hp]; rfl) ?_
      split <;> split <;> rfl
    · split
      · -- the exchange
        rename_i x y hx hy
        have nohold : ∀ j, (s.pc j).held = none := by
          intro j
          cases hh : (s.pc j).held with
          | none => rfl
          | some z =>
            exact (I.kept.three (l1 := .place (own i)) (l2 := .place (!own i)) (l3 := .temp j) (by simp [State.at_, hx]) (by simp [State.at_, hy])
              (by simp [State.at_, hh]) (by simp) (by simp) (by simp)).elim
        have notwo : ∀ j z, s.pc j ≠ .two z := fun j z h => by have := nohold j; rw [h] at this; cases this
        have noone : ∀ j z, s.pc j ≠ .one z := fun j z h => by have := nohold j; rw [h] at this; cases this
        have noraise : ∀ j z, s.pc j ≠ .raised (some z) := fun j z h => by have := nohold j; rw [h] at this; cases this
        have hcur : ∀ b, s.place b = some (cur orig s.done b) := by
          intro b
          rcases I.arranged with ⟨j, z, hj⟩ | ⟨-, h⟩ | ⟨j, hj, -⟩
          · exact absurd hj (noraise j z)
          · rcases h b with h | ⟨-, k, hk, -⟩
            · exact h
            · exact absurd hk (noone k _)
          · exact absurd hj (notwo j _)
        have hnew : ∀ b, (((s.put (own i) (some y)).put (!own i) (some x)).goto i .returned).place b = some (cur orig s.done (!b)) := by
          intro b
          rw [hcur] at hx hy
          show (if b = !own i then some x else if b = own i then some y else s.place b) = _
          by_cases hb : b = own i
          · rw [if_neg (by rw [hb]; exact ne_not _), if_pos hb, ← hy, hb]
          · have hb' : b = !own i := by revert hb; cases b <;> cases own i <;> simp
            rw [if_pos hb', ← hx, hb', Bool.not_not]
        have hpc : ∀ j z, z ≠ Pc.returned → (((s.put (own i) (some y)).put (!own i) (some x)).goto i .returned).pc j = z → s.pc j = z := by
          intro j z hz h
          by_cases hj : j = i
          · subst hj; rw [goto_self] at h; exact absurd h.symm hz
          · rw [goto_other _ hj] at h; exact h
        refine ⟨?_, fun j z hj => absurd (hpc j _ (by simp) hj) (notwo j z), .inr (.inl ⟨fun j z hj => notwo j z (hpc j _ (by simp) hj), fun b => .inl ?_⟩)⟩
        · have hh : ∀ l, State.at_ { ((s.put (own i) (some y)).put (!own i) (some x)).goto i .returned with done := s.done + 1 } l =
              match l with | .place b => some (cur orig s.done (!b)) | .temp _ => none := by
            intro l
            cases l with
            | place b => exact hnew b
            | temp j =>
              show ((((s.put (own i) (some y)).put (!own i) (some x)).goto i .returned).pc j).held = none
              by_cases hj : j = i
              · subst hj; rw [goto_self]; rfl
              · rw [goto_other _ hj]; exact nohold j
          have hc : ∃ b, cur orig s.done (!b) = orig false ∧ cur orig s.done b = orig true := by
            unfold cur
            split
            · exact ⟨true, rfl, rfl⟩
            · exact ⟨false, rfl, rfl⟩
          obtain ⟨b, h1, h2⟩ := hc
          refine ⟨.place b, .place (!b), by simp, by rw [hh, ← h1], by rw [hh, ← h2]; simp, fun l hl1 hl2 => ?_⟩
          cases l with
          | place c => exfalso; revert hl1 hl2; cases b <;> cases c <;> simp
          | temp j => rw [hh]
        · show (((s.put (own i) (some y)).put (!own i) (some x)).goto i .returned).place b = some (cur orig (s.done + 1) b)
          rw [hnew, cur_succ]
      · exact I.goto (by rw [hp]; rfl) rfl
  | fallback =>
    dsimp only
    cases hx : s.place (!own i) with
    | none => exact I.goto (by rw [hp]; rfl) rfl
    | some x =>
      -- the target is taken away
      have hpc : ∀ j, j ≠ i → ((s.put (!own i) none).goto i (.one x)).pc j = s.pc j := fun j hj => goto_other _ hj _
      have hpl : ∀ b, ((s.put (!own i) none).goto i (.one x)).place b = if b = !own i then none else s.place b := fun _ => rfl
      have back : ∀ j y, ((s.put (!own i) none).goto i (.one x)).pc j = .two y → s.pc j = .two y := by
        intro j y h
        by_cases hj : j = i
        · subst hj; rw [goto_self] at h; cases h
        · rwa [hpc j hj] at h
      have keep : ∀ j p, p ≠ Pc.fallback → s.pc j = p → ((s.put (!own i) none).goto i (.one x)).pc j = p := by
        intro j p hpp h
        by_cases hj : j = i
        · subst hj; rw [hp] at h; exact absurd h.symm hpp
        · rwa [hpc j hj]
      refine ⟨I.kept.move (l := .place (!own i)) (m := .temp i) (by simp [State.at_, hp, Pc.held]) (by simp [State.at_, hx]) ?_ ?_ ?_, ?_, ?_⟩
      · simp [State.at_, Pc.held, hx]
      · simp [State.at_, hpl]
      · intro k hk1 hk2
        cases k with
        | place b =>
          show (if b = !own i then none else s.place b) = s.place b
          rw [if_neg fun h => hk1 (by rw [h])]
        | temp j => simp only [State.at_]; rw [hpc j fun h => hk2 (by rw [h])]
      · intro j y hj
        obtain ⟨h3, h4⟩ := I.empty j y (back j y hj)
        refine ⟨?_, fun k z hk => h4 k z (back k z hk)⟩
        rw [hpl]
        split
        · rfl
        · exact h3
      · rcases I.arranged with ⟨j, z, hj⟩ | ⟨hn, h⟩ | ⟨j, hj, h⟩
        · exact .inl ⟨j, z, keep j _ (by simp) hj⟩
        · refine .inr (.inl ⟨fun j z hj => hn j z (back j z hj), fun b => ?_⟩)
          rw [hpl]
          by_cases hb : b = !own i
          · rw [if_pos hb]
            refine .inr ⟨rfl, i, ?_, by rw [hb, Bool.not_not]⟩
            rw [goto_self]
            rcases h b with h | ⟨h, -⟩
            · rw [hb, hx] at h
              cases h
              rw [hb]
              rfl
            · rw [hb, hx] at h; cases h
          · rw [if_neg hb]
            rcases h b with h | ⟨h, k, hk, hk'⟩
            · exact .inl h
            · exact .inr ⟨h, k, keep k _ (by simp) hk, hk'⟩
        · refine .inr (.inr ⟨j, keep j _ (by simp) hj, ?_⟩)
          have hdir : own i = own j := by
            have := (I.empty j _ hj).1
            by_cases h : own i = own j
            · exact h
            · have : (!own i) = own j := by revert h; cases own i <;> cases own j <;> simp
              rw [this] at hx
              rw [hx] at *
              simp_all
          rw [hpl, ← hdir, if_pos rfl]
          refine .inr ⟨rfl, i, ?_, rfl⟩
          rw [goto_self]
          rw [← hdir, hx] at h
          rcases h with h | ⟨h, -⟩
          · cases h; rfl
          · cases h
  | one x =>
    dsimp only
    cases hy : s.place (own i) with
    | none =>
      -- it raises
      have hpc : ∀ j, j ≠ i → (s.goto i (.raised (some x))).pc j = s.pc j := fun j hj => goto_other _ hj _
      have back : ∀ j y, (s.goto i (.raised (some x))).pc j = .two y → s.pc j = .two y := by
        intro j y h
        by_cases hj : j = i
        · subst hj; rw [goto_self] at h; cases h
        · rwa [hpc j hj] at h
      refine ⟨I.kept.same fun l => ?_, fun j y hj => ?_, .inl ⟨i, x, goto_self _ _ _⟩⟩
      · cases l with
        | place b => rfl
        | temp j =>
          by_cases hj : j = i
          · subst hj; simp [State.at_, hp, Pc.held]
          · simp only [State.at_, hpc j hj]
      · obtain ⟨h3, h4⟩ := I.empty j y (back j y hj)
        exact ⟨h3, fun k z hk => h4 k z (back k z hk)⟩
    | some y =>
      -- the other one is moved to the target
      have only : ∀ j, j ≠ i → (s.pc j).held = none := by
        intro j hj
        cases hh : (s.pc j).held with
        | none => rfl
        | some z =>
          exact (I.kept.three (l1 := .place (own i)) (l2 := .temp i) (l3 := .temp j) (by simp [State.at_, hy]) (by simp [State.at_, hp, Pc.held])
            (by simp [State.at_, hh]) (by simp) (by simp) (by simp [Ne.symm hj])).elim
      have hfree : s.place (!own i) = none := by
        cases hh : s.place (!own i) with
        | none => rfl
        | some z =>
          exact (I.kept.three (l1 := .place (own i)) (l2 := .temp i) (l3 := .place (!own i)) (by simp [State.at_, hy]) (by simp [State.at_, hp, Pc.held])
            (by simp [State.at_, hh]) (by simp) (by simp) (by simp)).elim
      have hpc : ∀ j, j ≠ i → (((s.put (!own i) (some y)).put (own i) none).goto i (.two x)).pc j = s.pc j := fun j hj => goto_other _ hj _
      have hpl : ∀ b, (((s.put (!own i) (some y)).put (own i) none).goto i (.two x)).place b = if b = own i then none else some y := by
        intro b
        show (if b = own i then none else if b = !own i then some y else s.place b) = _
        by_cases hb : b = own i
        · rw [if_pos hb, if_pos hb]
        · have hb' : b = !own i := by revert hb; cases b <;> cases own i <;> simp
          rw [if_neg hb, if_neg hb, if_pos hb']
      have hone : ∀ j z, (((s.put (!own i) (some y)).put (own i) none).goto i (.two x)).pc j = .two z → j = i := by
        intro j z h
        by_cases hj : j = i
        · exact hj
        · rw [hpc j hj] at h
          have := only j hj
          rw [h] at this; cases this
      refine ⟨I.kept.move (l := .place (own i)) (m := .place (!own i)) hfree (by simp [State.at_, hy]) ?_ ?_ ?_, ?_, .inr (.inr ⟨i, ?_⟩)⟩
      · simp [State.at_, hpl, hy]
      · simp [State.at_, hpl]
      · intro k hk1 hk2
        cases k with
        | place b => exfalso; revert hk1 hk2; cases b <;> cases own i <;> simp
        | temp j =>
          by_cases hj : j = i
          · subst hj; simp [State.at_, hp, Pc.held]
          · simp only [State.at_, hpc j hj]
      · intro j z hj
        have := hone j z hj
        subst this
        exact ⟨by rw [hpl, if_pos rfl], fun k w hk => hone k w hk⟩
      · have hnot : NoTwo s := by
          intro j z hj
          by_cases hji : j = i
          · subst hji; rw [hp] at hj; cases hj
          · have := only j hji
            rw [hj] at this; cases this
        have hcur : y = cur orig s.done (own i) ∧ x = cur orig s.done (!own i) := by
          rcases I.arranged with ⟨j, z, hj⟩ | ⟨-, h⟩ | ⟨j, hj, -⟩
          · exfalso
            by_cases hji : j = i
            · subst hji; rw [hp] at hj; cases hj
            · have := only j hji
              rw [hj] at this; cases this
          · constructor
            · rcases h (own i) with h | ⟨h, -⟩
              · rw [hy] at h; cases h; rfl
              · rw [hy] at h; cases h
            · rcases h (!own i) with h | ⟨-, k, hk, -⟩
              · rw [hfree] at h; cases h
              · by_cases hki : k = i
                · subst hki; rw [hp] at hk; cases hk; rfl
                · have := only k hki
                  rw [hk] at this; cases this
          · exact absurd hj (hnot j _)
        have hdone : (((s.put (!own i) (some y)).put (own i) none).goto i (.two x)).done = s.done := rfl
        rw [goto_self, hdone]
        refine ⟨by rw [← hcur.2], .inl ?_⟩
        rw [hpl, if_neg (Ne.symm (ne_not _)), hcur.1]
  | two x =>
    dsimp only
    -- the one from the temporary directory is put back
    obtain ⟨hemp, huniq⟩ := I.empty i x hp
    generalize hv : ({ (s.put (own i) (some x)).goto i .returned with done := s.done + 1 } : State X) = v
    have hpc : ∀ j, j ≠ i → v.pc j = s.pc j := by intro j hj; subst hv; exact goto_other _ hj _
    have hpi : v.pc i = .returned := by subst hv; exact goto_self _ _ _
    have hpl : ∀ b, v.place b = if b = own i then some x else s.place b := by intro b; subst hv; rfl
    have hdone : v.done = s.done + 1 := by subst hv; rfl
    have hno : NoTwo v := by
      intro j z hj
      by_cases hji : j = i
      · subst hji; rw [hpi] at hj; cases hj
      · rw [hpc j hji] at hj
        exact hji (huniq j z hj)
    refine ⟨I.kept.move (l := .temp i) (m := .place (own i)) hemp (by simp [State.at_, hp, Pc.held]) ?_ ?_ ?_, fun j z hj => absurd hj (hno j z), ?_⟩
    · simp [State.at_, hpl, hp, Pc.held]
    · simp [State.at_, hpi, Pc.held]
    · intro k hk1 hk2
      cases k with
      | place b =>
        simp only [State.at_]
        rw [hpl, if_neg fun h => hk2 (by rw [h])]
      | temp j => simp only [State.at_]; rw [hpc j fun h => hk1 (by rw [h])]
    · rcases I.arranged with ⟨j, z, hj⟩ | ⟨hn, h⟩ | ⟨j, hj, h⟩
      · refine .inl ⟨j, z, ?_⟩
        rw [hpc j (by rintro rfl; rw [hp] at hj; cases hj), hj]
      · exact absurd hp (hn i x)
      · have hji := huniq j _ hj
        subst hji
        rw [hp] at hj
        cases hj
        refine .inr (.inl ⟨hno, fun b => ?_⟩)
        rw [hdone, cur_succ, hpl]
        by_cases hb : b = own j
        · rw [if_pos hb, hb]; exact .inl rfl
        · have hb' : b = !own j := by revert hb; cases b <;> cases own j <;> simp
          subst hb'
          rw [if_neg hb, Bool.not_not]
          rcases h with h | ⟨h, k, hk, hk'⟩
          · exact .inl h
          · exact .inr ⟨h, k, by rw [hpc k (by rintro rfl; rw [hp] at hk; cases hk), hk], hk'⟩
  | returned => exact I
  | raised z => exact I

theorem Inv.run {orig : Bool → X} : ∀ (sched : List Nat) {s : State X}, Inv own orig s → Inv own orig (run native own s sched)
  | [], _, I => I
  | i :: sched, _, I => Inv.run sched (I.step i)

theorem init_inv (orig : Bool → X) : Inv own orig (.init fun b => some (orig b)) := by
  refine ⟨⟨.place false, .place true, by simp, rfl, rfl, fun l h1 h2 => ?_⟩, fun i x h => (by cases h), .inr (.inl ⟨fun i x h => (by cases h), fun b => .inl rfl⟩)⟩
  cases l with
  | place b => exfalso; revert h1 h2; cases b <;> simp
  | temp i => rfl

/-- **C141**: whatever the processes do, in whatever order, and whenever some of them stop, nothing is overwritten: at each moment each of the two
contents is at exactly one of the two paths or in one temporary directory. -/
theorem C141_kept (native : Bool) (own : Nat → Bool) (orig : Bool → X) (sched : List Nat) :
    Kept (orig false) (orig true) (run native own (.init fun b => some (orig b)) sched) :=
  (Inv.run sched (init_inv orig)).kept

/-- **C141**: when none is on its way and no process has raised with something in its temporary directory, then both paths are there, and they are
exchanged exactly if the number of the calls that returned is odd. -/
theorem C141_parity (native : Bool) (own : Nat → Bool) (orig : Bool → X) (sched : List Nat)
    (h : ∀ i, ((run native own (.init fun b => some (orig b)) sched).pc i).held = none) (b : Bool) :
    (run native own (.init fun b => some (orig b)) sched).place b =
      some (if (run native own (.init fun b => some (orig b)) sched).done % 2 = 0 then orig b else orig (!b)) := by
  have I := Inv.run (native := native) sched (init_inv (own := own) orig)
  generalize run native own (.init fun b => some (orig b)) sched = s at h I ⊢
  rcases I.arranged with ⟨j, x, hj⟩ | ⟨-, h'⟩ | ⟨j, hj, -⟩
  · have := h j; rw [hj] at this; cases this
  · rcases h' b with h' | ⟨-, k, hk, -⟩
    · exact h'
    · have := h k; rw [hk] at this; cases this
  · have := h j; rw [hj] at this; cases this

/-- **C141**: where the system can exchange two paths, none raises and both paths are there at each moment. -/
theorem C141_native (own : Nat → Bool) (orig : Bool → X) (sched : List Nat) :
    (∀ i, (∃ n, (run true own (.init fun b => some (orig b)) sched).pc i = .look n) ∨
      (run true own (.init fun b => some (orig b)) sched).pc i = .returned) ∧
    ∀ b, (run true own (.init fun b => some (orig b)) sched).place b =
      some (if (run true own (.init fun b => some (orig b)) sched).done % 2 = 0 then orig b else orig (!b)) := by
  have calm : ∀ (sched : List Nat) (s : State X), (∀ b, (s.place b).isSome = true) → (∀ i, (∃ n, s.pc i = .look n) ∨ s.pc i = .returned) →
      ∀ i, (∃ n, (run true own s sched).pc i = .look n) ∨ (run true own s sched).pc i = .returned := by
    intro sched
    induction sched with
    | nil => intro s _ h; exact h
    | cons i sched ih =>
      intro s h1 h2
      have hstep : (∀ b, ((step true own s i).place b).isSome = true) ∧ ∀ j, (∃ n, (step true own s i).pc j = .look n) ∨ (step true own s i).pc j = .returned := by
        have go : ∀ pc, ((∃ n, pc = Pc.look n) ∨ pc = .returned) → ∀ (v : State X), v.pc = s.pc →
            ∀ j, (∃ n, (v.goto i pc).pc j = .look n) ∨ (v.goto i pc).pc j = .returned := by
          intro pc hpc v hv j
          by_cases hj : j = i
          · subst hj; rw [goto_self]; exact hpc
          · rw [goto_other _ hj, hv]; exact h2 j
        unfold step
        rcases h2 i with ⟨n, hp⟩ | hp <;> rw [hp] <;> dsimp only
        · split
          · exact ⟨h1, go _ (.inl ⟨n + 1, by rw [if_pos (h1 _)]⟩) s rfl⟩
          · obtain ⟨x, hx⟩ := Option.isSome_iff_exists.1 (h1 (own i))
            obtain ⟨y, hy⟩ := Option.isSome_iff_exists.1 (h1 (!own i))
            rw [hx, hy]
            refine ⟨fun b => ?_, go _ (.inr rfl) _ rfl⟩
            show (if b = !own i then some x else if b = own i then some y else s.place b).isSome = true
            split
            · rfl
            · split
              · rfl
              · exact h1 b
        · exact ⟨h1, h2⟩
      exact ih _ hstep.1 hstep.2
  have hc := calm sched (.init fun b => some (orig b)) (fun _ => rfl) (fun _ => .inl ⟨0, rfl⟩)
  refine ⟨hc, C141_parity true own orig sched fun i => ?_⟩
  rcases hc i with ⟨n, h⟩ | h <;> rw [h] <;> rfl

/-- **C141**: each process has ended after eight steps of its own. -/
theorem C141_ends (s : State X) (sched : List Nat) (i : Nat) (h : 8 ≤ sched.count i) :
    (run native own s sched).pc i = .returned ∨ ∃ x, (run native own s sched).pc i = .raised x := by
  let left : Pc X → Nat := fun
    | .look n => 8 - min n 4 | .fallback => 3 | .one _ => 2 | .two _ => 1 | .returned | .raised _ => 0
  have own_ : ∀ s : State X, left ((step native own s i).pc i) ≤ left (s.pc i) - 1 := by
    intro s
    unfold step
    cases hp : s.pc i with
    | look n =>
      dsimp only
      split
      · rw [goto_self]
        split <;> split <;> simp only [left] <;> omega
      · split
        · show left ((State.goto _ i .returned).pc i) ≤ _
          rw [goto_self]; simp [left]
        · rw [goto_self]; simp only [left]; omega
    | fallback => cases s.place (!own i) <;> simp [left]
    | one x => cases s.place (own i) <;> simp [left]
    | two x =>
      show left ((State.goto _ i .returned).pc i) ≤ _
      rw [goto_self]; simp [left]
    | _ => simp [hp, left]
  have other : ∀ (s : State X) j, j ≠ i → (step native own s j).pc i = s.pc i := by
    intro s j hj
    unfold step
    have g : ∀ (v : State X) pc, v.pc = s.pc → (v.goto j pc).pc i = s.pc i := fun v pc hv => by rw [goto_other _ (Ne.symm hj), hv]
    cases s.pc j with
    | look n =>
      dsimp only
      split
      · exact g _ _ rfl
      · split
        · exact g _ _ rfl
        · exact g _ _ rfl
    | fallback => dsimp only; cases s.place (!own j) <;> exact g _ _ rfl
    | one x => dsimp only; cases s.place (own j) <;> exact g _ _ rfl
    | two x => exact g _ _ rfl
    | _ => rfl
  have all : ∀ (sched : List Nat) (s : State X), left ((run native own s sched).pc i) ≤ left (s.pc i) - sched.count i := by
    intro sched
    induction sched with
    | nil => intro s; exact Nat.le_refl _
    | cons j sched ih =>
      intro s
      have h1 := ih (step native own s j)
      show left ((run native own (step native own s j) sched).pc i) ≤ _
      by_cases hj : j = i
      · subst hj
        have := own_ s
        rw [List.count_cons_self]
        omega
      · rw [other s j hj] at h1
        rw [List.count_cons_of_ne hj]
        exact h1
  have h5 : left (s.pc i) ≤ 8 := by
    cases s.pc i <;> simp [left]
  have := all sched s
  have h0 : left ((run native own s sched).pc i) = 0 := by omega
  cases hp : (run native own s sched).pc i with
  | returned => exact .inl rfl
  | raised x => exact .inr ⟨x, rfl⟩
  | look n => rw [hp] at h0; simp only [left] at h0; omega
  | _ => rw [hp] at h0; simp [left] at h0

/-! ## What does not hold, and cases -/

/-- **C141 is false** without the system's help: two processes swap the paths, one in each order, and both raise; in the end nothing is at either
path. -/
theorem C141_gone_counterexample : ∃ sched : List Nat, ∃ r, r = run false (fun i => i = 1) (.init fun b => some (if b then 'b' else 'a')) sched ∧
    r.pc 0 = .raised (some 'b') ∧ r.pc 1 = .raised (some 'a') ∧ ∀ b, r.place b = none :=
  ⟨[0, 0, 0, 0, 0, 1, 1, 1, 1, 1, 0, 1, 0, 1], _, rfl, by decide, by decide, by decide⟩

/-- **C141 is false** without the system's help: one process returns, the other one raises, and one of the contents is at neither path any more. -/
theorem C141_stuck_counterexample : ∃ sched : List Nat, ∃ r, r = run false (fun _ => false) (.init fun b => some (if b then 'b' else 'a')) sched ∧
    r.pc 0 = .returned ∧ r.pc 1 = .raised (some 'a') ∧ r.place false = some 'b' ∧ r.place true = none :=
  ⟨[0, 0, 0, 0, 0, 1, 1, 1, 1, 1, 0, 0, 1, 1, 0], _, rfl, by decide, by decide, by decide, by decide⟩

/-- **C141 is false** without the system's help: there is a moment without one of the paths, and a process that begins then raises although nothing is
wrong. -/
theorem C141_moment_counterexample : ∃ sched : List Nat, ∃ r, r = run false (fun _ => false) (.init fun b => some (if b then 'b' else 'a')) sched ∧
    r.place true = none ∧ r.pc 1 = .raised none :=
  ⟨[0, 0, 0, 0, 0, 0, 1, 1, 1], _, rfl, by decide, by decide⟩

-- C141_parity: two processes meet half way and both return
example : ∃ r, r = run false (fun _ => false) (.init fun b => some (if b then 'b' else 'a')) [0, 0, 0, 0, 0, 1, 1, 1, 1, 1, 0, 0, 1, 0, 1, 1] ∧
    r.pc 0 = .returned ∧ r.pc 1 = .returned ∧ r.done = 2 ∧ r.place false = some 'a' ∧ r.place true = some 'b' :=
  ⟨_, rfl, by decide, by decide, by decide, by decide, by decide⟩

-- C141_native: three swaps with the system's help
example : ∃ r, r = run true (fun i => i = 1) (.init fun b => some (if b then 'b' else 'a')) [0, 1, 2, 0, 1, 2, 0, 1, 2, 0, 1, 2, 2, 0, 1] ∧
    r.done = 3 ∧ r.place false = some 'b' ∧ r.place true = some 'a' :=
  ⟨_, rfl, by decide, by decide, by decide⟩

/-- **C141**: a process raises only when what it is about to rename is not there at that moment: the target when it begins to move, with nothing done, or
itself after that, with the target left in the temporary directory.  That a path is missing when it is looked at is no reason. -/
theorem C141_raises (native : Bool) (own : Nat → Bool) (s : State X) (i : Nat) (x : Option X) (h : (step native own s i).pc i = .raised x) :
    s.pc i = .raised x ∨ (s.pc i = .fallback ∧ s.place (!own i) = none ∧ x = none) ∨
      ∃ y, s.pc i = .one y ∧ s.place (own i) = none ∧ x = some y := by
  unfold step at h
  cases hp : s.pc i with
  | look n =>
    rw [hp] at h
    dsimp only at h
    split at h
    · rw [goto_self] at h; split at h <;> (try split at h) <;> cases h
    · split at h <;> simp [State.goto, State.put] at h
  | fallback =>
    rw [hp] at h
    dsimp only at h
    split at h
    · rename_i e
      rw [goto_self] at h
      cases h
      exact .inr (.inl ⟨rfl, e, rfl⟩)
    · rw [goto_self] at h; cases h
  | one y =>
    rw [hp] at h
    dsimp only at h
    split at h
    · rename_i e
      rw [goto_self] at h
      cases h
      exact .inr (.inr ⟨y, rfl, e, rfl⟩)
    · rw [goto_self] at h; cases h
  | two y => rw [hp] at h; simp [State.goto, State.put] at h
  | returned => rw [hp] at h; dsimp only at h; rw [hp] at h; cases h
  | raised z => rw [hp] at h; dsimp only at h; rw [hp] at h; exact .inl h

-- C141_raises: a path that was missing when it was looked at is back when it is renamed, and the process returns
example : ∃ r, r = run false (fun _ => false) (.init fun b => some (if b then 'b' else 'a')) [0, 0, 0, 0, 0, 0, 1, 1, 0, 0, 1, 1, 1] ∧
    r.pc 0 = .returned ∧ r.pc 1 = .returned :=
  ⟨_, rfl, by decide, by decide⟩

/-- What a process that runs alone leaves. -/
def aloneResult (own : Bool) (place : Bool → Option X) : (Bool → Option X) × Pc X :=
  match place own, place (!own) with
  | some x, some y => (fun c => if c = own then some y else some x, .returned)
  | _, none => (place, .raised none)
  | none, some y => (fun _ => none, .raised (some y))

theorem run_alone (native : Bool) (own : Nat → Bool) (place : Bool → Option X) (i : Nat) :
    ((run native own (.init place) (List.replicate 8 i)).place, (run native own (.init place) (List.replicate 8 i)).pc i) = aloneResult (own i) place := by
  have hb : ∀ b : Bool, (!b) ≠ b := by decide
  have hb' : ∀ b : Bool, b ≠ !b := by decide
  cases h1 : place (own i) with
  | none =>
    cases h2 : place (!own i) with
    | none => simp [aloneResult, h1, h2, List.replicate, run, step, State.init, State.goto]
    | some y =>
      have : ∀ c, c = own i ∨ c = !own i := by intro c; cases c <;> cases own i <;> simp
      simp only [aloneResult, h1, h2, List.replicate, run, step, State.init, State.goto, State.put]
      simp [h1, h2]
      funext c
      rcases this c with rfl | rfl <;> simp [h1]
  | some x =>
    cases h2 : place (!own i) with
    | none => simp [aloneResult, h1, h2, List.replicate, run, step, State.init, State.goto]
    | some y =>
      have : ∀ c, c = own i ∨ c = !own i := by intro c; cases c <;> cases own i <;> simp
      cases native with
      | true =>
        simp only [aloneResult, h1, h2, List.replicate, run, step, State.init, State.goto, State.put]
        simp [h1, h2]
        funext c
        rcases this c with rfl | rfl <;> simp
      | false =>
        simp only [aloneResult, h1, h2, List.replicate, run, step, State.init, State.goto, State.put]
        simp [h1, h2]
        funext c
        rcases this c with rfl | rfl <;> simp
/-- **C141**: a process that runs alone does what `Model/Swap` says, on absolute paths when no call fails: with both files there it returns and they
are exchanged. -/
theorem C141_alone (E : FS.Swap.Env) (a b : FS.Swap.P) (s : FS.Machine FS.Node) {xa xb : FS.Node} (hF : ∀ n, E.F n = none) (hr : FS.Rooted s.disk)
    (hab : FS.Apart (E.loc a) (E.loc b)) (ha : s.disk.at_ (E.loc a) = some xa) (hb : s.disk.at_ (E.loc b) = some xb)
    (hda : FS.Swap.Direct E s.disk a) (hdb : FS.Swap.Direct E s.disk b) (hfree : s.disk.at_ (E.temp (E.loc b)) = none)
    (native : Bool) (own : Nat → Bool) (i : Nat) :
    ∃ r, r = run native own (.init fun c => s.disk.at_ (if c = own i then E.loc a else E.loc b)) (List.replicate 8 i) ∧
    r.pc i = .returned ∧ (E.swapCarefree a b s).1 = .ok () ∧
    ∀ c, r.place c = (E.swapCarefree a b s).2.disk.at_ (if c = own i then E.loc a else E.loc b) := by
  have hb' : ∀ b : Bool, (!b) ≠ b := by decide
  have h0 := run_alone native own (fun c => s.disk.at_ (if c = own i then E.loc a else E.loc b)) i
  have hok := FS.Swap.C48_returns E a b s hF hr hab ha hb hda hdb hfree
  obtain ⟨e1, e2, -⟩ := FS.Swap.C48_exchanged_partial E a b s hr hab ha hb hda hdb hok
  have e1 := e1 []
  have e2 := e2 []
  rw [List.append_nil, List.append_nil] at e1 e2
  simp only [aloneResult, ↓reduceIte, hb', ha, hb, Prod.mk.injEq] at h0
  refine ⟨_, rfl, h0.2, hok, fun c => ?_⟩
  rw [h0.1]
  by_cases hc : c = own i
  · simp [hc, e1, hb]
  · simp [hc, e2, ha]

/-- **C141**: and with only the target there it raises, and the target is in the temporary directory, in both. -/
theorem C141_alone_missing (E : FS.Swap.Env) (a b : FS.Swap.P) (s : FS.Machine FS.Node) (par : FS.Path) (n : FS.Name) (xb : FS.Node)
    (hF : ∀ n, E.F n = none) (hr : FS.Rooted s.disk) (hbl : E.loc b = par ++ [n]) (ha : s.disk.at_ (E.loc a) = none)
    (hfa : E.follow s.disk (E.loc a) = none) (hb : s.disk.at_ (E.loc b) = some xb)
    (hfree : s.disk.at_ (par ++ [E.tmp]) = none) (hat : ¬ par ++ [E.tmp] <+: E.loc a) (native : Bool) (own : Nat → Bool) (i : Nat) :
    ∃ r, r = run native own (.init fun c => s.disk.at_ (if c = own i then E.loc a else E.loc b)) (List.replicate 8 i) ∧
    r.pc i = .raised (some xb) ∧ (∀ c, r.place c = none) ∧ (E.swapCarefree a b s).1 = .error .fileNotFoundError ∧
    (E.swapCarefree a b s).2.disk.at_ (E.loc b) = none ∧ (E.swapCarefree a b s).2.disk.at_ (par ++ [E.tmp] ++ [n]) = some xb := by
  have hb' : ∀ b : Bool, (!b) ≠ b := by decide
  have h0 := run_alone native own (fun c => s.disk.at_ (if c = own i then E.loc a else E.loc b)) i
  simp only [aloneResult, ↓reduceIte, hb', ha, hb, Prod.mk.injEq] at h0
  refine ⟨_, rfl, h0.2, fun c => ?_, FS.Swap.C48_moved_counterexample E a b s par n xb hF hr hbl ha hfa hb hfree hat⟩
  rw [h0.1]

end Verif.SwapRace
