import Verif.Model.LinkRace
import Verif.Lemmas.Decide

/-!
# C140: setting the metadata in a symlink from several processes
-/

namespace Verif.LinkRace

variable {M K : Type} [DecidableEq K] {check : M → M → Option Bool} {key : M → K} {new : Nat → M}

theorem goto_self (s : State M K) (i : Nat) (pc : Pc M K) : (s.goto i pc).pc i = pc := by simp [State.goto]

theorem goto_other (s : State M K) {i j : Nat} (h : j ≠ i) (pc : Pc M K) : (s.goto i pc).pc j = s.pc j := by simp [State.goto, h]

/-- Every step of a process changes at most how far it is, or takes the link away, or makes it. -/
theorem step_cases (s : State M K) (i : Nat) :
    (∃ pc, step check key new s i = s.goto i pc ∧ (s.link = none → s.pc i ≠ .bare) ∧ (pc = .bare → s.link = none) ∧
      (s.pc i = .bare → pc = .raised)) ∨
    step check key new s i = s ∨
    (∃ k m, s.pc i = .named k ∧ s.link = some m ∧
      step check key new s i = { s.goto i .bare with link := none, trash := fun j => if j = k then some m else s.trash j }) ∨
    (s.pc i = .bare ∧ s.link = none ∧ step check key new s i = { s.goto i .returned with link := some (new i) }) := by
  unfold step
  cases h : s.pc i with
  | start =>
    refine .inl ⟨_, rfl, by simp, ?_, by simp⟩
    cases s.link <;> simp
  | seen =>
    cases hl : s.link with
    | none => exact .inl ⟨.raised, rfl, by simp, by simp, by simp⟩
    | some m =>
      refine .inl ?_
      dsimp only
      cases check m (new i) with
      | none => exact ⟨.raised, rfl, by simp, by simp, by simp⟩
      | some b => cases b with
        | false => exact ⟨.kept, rfl, by simp, by simp, by simp⟩
        | true => exact ⟨.going, rfl, by simp, by simp, by simp⟩
  | going =>
    cases hl : s.link with
    | none => exact .inl ⟨.raised, rfl, by simp, by simp, by simp⟩
    | some m => exact .inl ⟨.named (key m), rfl, by simp, by simp, by simp⟩
  | named k =>
    cases hl : s.link with
    | none => exact .inl ⟨.raised, rfl, by simp, by simp, by simp⟩
    | some m => exact .inr (.inr (.inl ⟨k, m, rfl, rfl, rfl⟩))
  | bare =>
    cases hl : s.link with
    | none => exact .inr (.inr (.inr ⟨rfl, rfl, rfl⟩))
    | some m => exact .inl ⟨.raised, rfl, by simp, by simp, by simp⟩
  | kept => exact .inr (.inl rfl)
  | returned => exact .inr (.inl rfl)
  | raised => exact .inr (.inl rfl)

/-- **C140**: at each moment there is no link, or the one from before, or one with the metadata that one of the processes sets, as it sets them; and so
it is in the trash. -/
theorem C140_whole (link : Option M) (trash : K → Option M) (sched : List Nat) :
    (∀ m, (run check key new (.init link trash) sched).link = some m → link = some m ∨ ∃ i, i ∈ sched ∧ m = new i) ∧
    ∀ k m, (run check key new (.init link trash) sched).trash k = some m →
      trash k = some m ∨ link = some m ∨ ∃ i, i ∈ sched ∧ m = new i := by
  have h : ∀ (sched : List Nat) (s : State M K) (all : List Nat), (∀ i ∈ sched, i ∈ all) →
      (∀ m, s.link = some m → link = some m ∨ ∃ i, i ∈ all ∧ m = new i) →
      (∀ k m, s.trash k = some m → trash k = some m ∨ link = some m ∨ ∃ i, i ∈ all ∧ m = new i) →
      (∀ m, (run check key new s sched).link = some m → link = some m ∨ ∃ i, i ∈ all ∧ m = new i) ∧
      ∀ k m, (run check key new s sched).trash k = some m → trash k = some m ∨ link = some m ∨ ∃ i, i ∈ all ∧ m = new i := by
    intro sched
    induction sched with
    | nil => intro s all _ h1 h2; exact ⟨h1, h2⟩
    | cons i sched ih =>
      intro s all ha h1 h2
      have hi : i ∈ all := ha i List.mem_cons_self
      refine ih _ all (fun j hj => ha j (List.mem_cons_of_mem _ hj)) (fun m hm => ?_) fun k m hm => ?_
      · rcases step_cases (check := check) (key := key) (new := new) s i with ⟨pc, e, -⟩ | e | ⟨k, m', -, -, e⟩ | ⟨-, -, e⟩ <;> rw [e] at hm
        · exact h1 m hm
        · exact h1 m hm
        · cases hm
        · cases hm; exact .inr ⟨i, hi, rfl⟩
      · rcases step_cases (check := check) (key := key) (new := new) s i with ⟨pc, e, -⟩ | e | ⟨k', m', -, hl, e⟩ | ⟨-, -, e⟩ <;> rw [e] at hm
        · exact h2 k m hm
        · exact h2 k m hm
        · have hm' : (if k = k' then some m' else s.trash k) = some m := hm
          split at hm'
          · cases hm'; exact .inr (h1 m hl)
          · exact h2 k m hm'
        · exact h2 k m hm
  exact h sched _ sched (fun _ h => h) (fun m h => .inl h) fun k m h => .inl h

theorem there_run : ∀ (sched : List Nat) (s : State M K), (s.link.isSome = true ∨ (∃ i, s.pc i = .bare)) →
    (run check key new s sched).link.isSome = true ∨ ∃ i, (run check key new s sched).pc i = .bare
  | [], _, h => h
  | i :: sched, s, h => by
    refine there_run sched (step check key new s i) ?_
    rcases step_cases (check := check) (key := key) (new := new) s i with ⟨pc, e, h1, h2, h3⟩ | e | ⟨k, m, -, -, e⟩ | ⟨-, -, e⟩ <;> rw [e]
    · rcases h with h | ⟨j, hj⟩
      · exact .inl h
      · by_cases hji : j = i
        · subst hji
          cases hl : s.link with
          | none => exact absurd hj (h1 hl)
          | some m => exact .inl (by show s.link.isSome = true; rw [hl]; rfl)
        · exact .inr ⟨j, by rw [goto_other _ hji]; exact hj⟩
    · exact h
    · exact .inr ⟨i, goto_self _ _ _⟩
    · exact .inl rfl

/-- **C140**: if there was a link then there is one again as soon as no process is between taking it away and making its own, however many of them
raised. -/
theorem C140_there (m : M) (trash : K → Option M) (sched : List Nat) (hend : ∀ i, (run check key new (.init (some m) trash) sched).pc i ≠ .bare) :
    (run check key new (.init (some m) trash) sched).link.isSome = true := by
  rcases there_run (check := check) (key := key) (new := new) sched (.init (some m) trash) (.inl rfl) with h | ⟨i, hi⟩
  · exact h
  · exact absurd hi (hend i)

/-- **C140**: if there was none, and some process has made a step, there is one then. -/
theorem C140_made (trash : K → Option M) (i : Nat) (sched : List Nat)
    (hend : ∀ j, (run check key new (.init none trash) (i :: sched)).pc j ≠ .bare) :
    (run check key new (.init none trash) (i :: sched)).link.isSome = true := by
  have h0 : (step check key new (State.init (K := K) none trash) i).pc i = .bare := by
    unfold step State.init
    exact goto_self _ _ _
  rcases there_run (check := check) (key := key) (new := new) sched _ (.inr ⟨i, h0⟩) with h | ⟨j, hj⟩
  · exact h
  · exact absurd hj (hend j)

/-- **C140**: of processes that all found nothing at the path exactly the first one to make its link returns; the others raise and change nothing. -/
theorem C140_first (s : State M K) (i : Nat) (sched : List Nat) (hl : s.link = none) (hall : ∀ j ∈ i :: sched, s.pc j = .bare) :
    (run check key new s (i :: sched)).link = some (new i) ∧ (run check key new s (i :: sched)).trash = s.trash ∧
    (run check key new s (i :: sched)).pc i = .returned ∧
    ∀ j, j ≠ i → (run check key new s (i :: sched)).pc j = if j ∈ sched then .raised else s.pc j := by
  have first : step check key new s i = { s.goto i .returned with link := some (new i) } := by simp [step, hall i List.mem_cons_self, hl]
  have h : ∀ (sched : List Nat) (x : State M K) (don : Nat → Prop) [DecidablePred don], (∀ j ∈ sched, s.pc j = .bare) → x.link = some (new i) → x.trash = s.trash →
      x.pc i = .returned → (∀ j, j ≠ i → x.pc j = if don j then .raised else s.pc j) →
      (run check key new x sched).link = some (new i) ∧ (run check key new x sched).trash = s.trash ∧
      (run check key new x sched).pc i = .returned ∧
      ∀ j, j ≠ i → (run check key new x sched).pc j = if don j ∨ j ∈ sched then .raised else s.pc j := by
    intro sched
    induction sched with
    | nil =>
      intro x don _ h0 h1 h2 h3 h4
      exact ⟨h1, h2, h3, fun j hj => by simp only [List.not_mem_nil, or_false]; exact h4 j hj⟩
    | cons a sched ih =>
      intro x don _ h0 h1 h2 h3 h4
      have hst : step check key new x a = if a = i then x else x.goto a .raised := by
        by_cases hai : a = i
        · subst hai; rw [if_pos rfl]; simp [step, h3]
        · rw [if_neg hai]
          have h5 := h4 a hai
          by_cases hd : don a
          · rw [if_pos hd] at h5
            simp only [step, h5]
            unfold State.goto
            have : x.pc = fun j => if j = a then Pc.raised else x.pc j := by
              funext j
              by_cases hja : j = a
              · rw [if_pos hja, hja, h5]
              · rw [if_neg hja]
            rw [← this]
          · rw [if_neg hd, h0 a List.mem_cons_self] at h5
            simp only [step, h5, h1]
      have := ih (step check key new x a) (fun j => don j ∨ (j = a ∧ a ≠ i)) (fun j hj => h0 j (List.mem_cons_of_mem _ hj)) ?_ ?_ ?_ ?_
      · refine ⟨this.1, this.2.1, this.2.2.1, fun j hj => ?_⟩
        show (run check key new (step check key new x a) sched).pc j = _
        rw [this.2.2.2 j hj]
        have : (don j ∨ j = a ∧ a ≠ i) ∨ j ∈ sched ↔ don j ∨ j ∈ a :: sched := by
          rw [List.mem_cons]
          constructor
          · rintro ((h | ⟨h, -⟩) | h)
            · exact .inl h
            · exact .inr (.inl h)
            · exact .inr (.inr h)
          · rintro (h | h | h)
            · exact .inl (.inl h)
            · exact .inl (.inr ⟨h, h ▸ hj⟩)
            · exact .inr h
        simp only [this]
      · rw [hst]; split <;> exact h1
      · rw [hst]; split <;> exact h2
      · rw [hst]
        split
        · exact h3
        · next hai => rw [goto_other _ (Ne.symm hai)]; exact h3
      · intro j hj
        rw [hst]
        split
        · next hai => rw [h4 j hj]; simp [hai]
        · next hai =>
          by_cases hja : j = a
          · subst hja; rw [goto_self, if_pos (.inr ⟨rfl, hai⟩)]
          · rw [goto_other _ hja, h4 j hj]; simp [hja]
  have := h sched (step check key new s i) (fun _ => False) (fun j hj => hall j (List.mem_cons_of_mem _ hj)) (by rw [first]) (by rw [first]; rfl) (by rw [first]; exact goto_self _ _ _)
    (fun j hj => by rw [first]; simp only [if_false]; exact goto_other s hj _)
  refine ⟨this.1, this.2.1, this.2.2.1, fun j hj => ?_⟩
  have h5 := this.2.2.2 j hj
  simp only [false_or] at h5
  exact h5

/-- **C140**: a process that is left alone stores its metadata if they are to replace those that are there, which are in the trash then, and otherwise
changes nothing. -/
theorem C140_alone (s : State M K) (i : Nat) (hi : s.pc i = .start) :
    let r := run check key new s [i, i, i, i, i]
    match s.link with
    | none => r.link = some (new i) ∧ r.trash = s.trash ∧ r.pc i = .returned
    | some m => match check m (new i) with
      | none => r.link = some m ∧ r.trash = s.trash ∧ r.pc i = .raised
      | some false => r.link = some m ∧ r.trash = s.trash ∧ r.pc i = .kept
      | some true => r.link = some (new i) ∧ r.trash (key m) = some m ∧ (∀ k, k ≠ key m → r.trash k = s.trash k) ∧ r.pc i = .returned := by
  intro r
  cases hl : s.link with
  | none => simp [r, run, step, hi, hl, State.goto]
  | some m =>
    dsimp only
    cases hc : check m (new i) with
    | none => simp [r, run, step, hi, hl, hc, State.goto]
    | some b => cases b with
      | false => simp [r, run, step, hi, hl, hc, State.goto]
      | true =>
        simp only [r, run, step, hi, hl, hc, State.goto, if_true, Option.isSome]
        exact ⟨trivial, trivial, fun k hk => if_neg hk, trivial⟩

/-- **C140**: each process has ended after five steps of its own. -/
theorem C140_ends (s : State M K) (sched : List Nat) (i : Nat) (h : 5 ≤ sched.count i) :
    (run check key new s sched).pc i = .kept ∨ (run check key new s sched).pc i = .returned ∨ (run check key new s sched).pc i = .raised := by
  let left : Pc M K → Nat := fun
    | .start => 5 | .seen => 4 | .going => 3 | .named _ => 2 | .bare => 1 | .kept | .returned | .raised => 0
  have own : ∀ s : State M K, left ((step check key new s i).pc i) ≤ left (s.pc i) - 1 := by
    intro s
    unfold step
    cases hp : s.pc i with
    | start => cases s.link <;> simp [goto_self, left]
    | seen =>
      cases s.link with
      | none => simp [goto_self, left]
      | some m =>
        dsimp only
        cases check m (new i) with
        | none => simp [goto_self, left]
        | some b => cases b <;> simp [goto_self, left]
    | going => cases s.link <;> simp [goto_self, left]
    | named k => cases s.link <;> simp [State.goto, left]
    | bare => cases s.link <;> simp [State.goto, left]
    | _ => simp [hp, left]
  have other : ∀ (s : State M K) j, j ≠ i → (step check key new s j).pc i = s.pc i := by
    intro s j hj
    rcases step_cases (check := check) (key := key) (new := new) s j with ⟨pc, e, -⟩ | e | ⟨k, m, -, -, e⟩ | ⟨-, -, e⟩ <;> rw [e]
    all_goals exact goto_other _ (Ne.symm hj) _
  have all : ∀ (sched : List Nat) (s : State M K), left ((run check key new s sched).pc i) ≤ left (s.pc i) - sched.count i := by
    intro sched
    induction sched with
    | nil => intro s; exact Nat.le_refl _
    | cons j sched ih =>
      intro s
      have h1 := ih (step check key new s j)
      show left ((run check key new (step check key new s j) sched).pc i) ≤ _
      by_cases hj : j = i
      · subst hj
        have := own s
        rw [List.count_cons_self]
        omega
      · rw [other s j hj] at h1
        rw [List.count_cons_of_ne hj]
        exact h1
  have h5 : left (s.pc i) ≤ 5 := by
    cases s.pc i <;> simp [left]
  have := all sched s
  have h0 : left ((run check key new s sched).pc i) = 0 := by omega
  cases hp : (run check key new s sched).pc i with
  | kept => exact .inl rfl
  | returned => exact .inr (.inl rfl)
  | raised => exact .inr (.inr rfl)
  | _ => rw [hp] at h0; simp [left] at h0

/-! ## What does not hold, and cases -/

/-- Numbers for metadata, of which greater ones are newer; each has an id of its own. -/
def newer (a b : Nat) : Option Bool := some (a < b)

/-- **C140 is false**: two processes replace the metadata 1, one by 2 and one by 3, and both return; in the end 2 is stored, although 3 is newer and
was there already. -/
theorem C140_back_counterexample : ∃ sched : List Nat, ∃ r, r = run newer id (fun i => i + 2) (.init (some 1) fun _ => none) sched ∧
    r.pc 0 = .returned ∧ r.pc 1 = .returned ∧ r.link = some 2 :=
  ⟨[0, 0, 1, 1, 1, 1, 1, 0, 0, 0], _, rfl, by decide, by decide, by decide⟩

/-- **C140 is false**: the metadata that were there before are lost, although all have ids of their own: what the other process has stored meanwhile
is put in their place in the trash. -/
theorem C140_lost_counterexample : ∃ sched : List Nat, ∃ r, r = run newer id (fun i => i + 2) (.init (some 1) fun _ => none) sched ∧
    r.pc 0 = .returned ∧ r.pc 1 = .returned ∧ r.link ≠ some 1 ∧ r.trash 1 = some 3 ∧ ∀ k, r.trash k ≠ some 1 := by
  refine ⟨[0, 0, 0, 1, 1, 1, 1, 1, 0, 0], _, rfl, by decide, by decide, by decide, by decide, fun k => ?_⟩
  simp only [run, step, State.init, State.goto, newer]
  by_cases hk : k = 1
  · subst hk; decide
  · simp [hk]

/-- **C140 is false**: there is a moment without metadata while they are replaced, and a process that is at another step then raises. -/
theorem C140_moment_counterexample : ∃ sched : List Nat, ∃ r, r = run newer id (fun i => i + 2) (.init (some 1) fun _ => none) sched ∧
    r.link = none ∧ r.pc 1 = .raised :=
  ⟨[1, 0, 0, 0, 0, 1], _, rfl, by decide, by decide⟩

-- C140_there, C140_ends: one process replaces the metadata, the other one raises, and both have ended
example : ∃ r, r = run newer id (fun i => i + 2) (.init (some 1) fun _ => none) [1, 0, 0, 0, 0, 1, 0, 1, 1, 1] ∧
    r.pc 0 = .returned ∧ r.pc 1 = .raised ∧ r.link = some 2 ∧ r.trash 1 = some 1 :=
  ⟨_, rfl, by decide, by decide, by decide, by decide⟩

-- C140_first: three processes find nothing at the path
example : ∃ s, s = run newer id (fun i => i + 2) (.init none fun _ => none) [0, 1, 2] ∧ s.link = none ∧ (∀ j ∈ [1, 0, 2], s.pc j = .bare) ∧
    (run newer id (fun i => i + 2) s [1, 0, 2]).link = some 3 :=
  ⟨_, rfl, by decide, by decide, by decide⟩

end Verif.LinkRace
