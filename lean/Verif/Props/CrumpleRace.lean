import Verif.Model.CrumpleRace
import Verif.Props.Crumple

/-!
# C146: throwing files away in several processes
-/

namespace Verif.CrumpleRace

set_option linter.unusedSectionVars false

variable {S N B : Type} [DecidableEq S] [DecidableEq N]

def Ended : Pc → Prop
  | .returned | .raised _ => True
  | _ => False

/-- The name that a process puts its file under. -/
def goal (tooLong : N → Bool) (j : Job S N) : N := if tooLong j.long then j.short else j.long

/-- The process has found or made the trash. -/
def past : Pc → Prop
  | .moving | .shortening | .returned => True
  | .raised e => e = .fileNotFoundError
  | _ => False

structure Inv (n : Nat) (tooLong : N → Bool) (job : Nat → Job S N) (d0 : Nat) (f0 : S → Option B) (t0 : N → Option B) (s : State S N B) : Prop where
  grows : d0 ≤ s.dirs
  pasts : ∀ i, past (s.pc i) → n ≤ s.dirs
  made : d0 < n → n ≤ s.dirs → ∃ j, past (s.pc j)
  trying : ∀ i k, s.pc i = .trying k → d0 < n ∧ d0 < k ∧ k ≤ n
  climbing : ∀ i k, s.pc i = .climbing k → d0 < n ∧ k ≤ n ∧ k ≤ s.dirs + 1
  shortening : ∀ i, s.pc i = .shortening → tooLong (job i).long = true
  raised : ∀ i e, s.pc i = .raised e → e = .fileExistsError ∧ d0 < n ∧ n ≤ s.dirs ∨
    e = .fileNotFoundError ∧ (f0 (job i).src = none ∨ ∃ j, s.pc j = .returned ∧ (job j).src = (job i).src)
  file : ∀ p, (s.files p = f0 p ∧ ∀ i, s.pc i = .returned → (job i).src ≠ p) ∨
    (s.files p = none ∧ (f0 p).isSome ∧ ∃ i, s.pc i = .returned ∧ (job i).src = p ∧ ∀ j, s.pc j = .returned → (job j).src = p → j = i)
  other : ∀ u, (∀ i, s.pc i = .returned → goal tooLong (job i) ≠ u) → s.trash u = t0 u

variable {n : Nat} {tooLong : N → Bool} {job : Nat → Job S N} {d0 : Nat} {f0 : S → Option B} {t0 : N → Option B} {s : State S N B}

theorem inv_init (n : Nat) (tooLong : N → Bool) (job : Nat → Job S N) (d0 : Nat) (f0 : S → Option B) (t0 : N → Option B) :
    Inv n tooLong job d0 f0 t0 (.init d0 f0 t0) where
  grows := Nat.le_refl _
  pasts i h := by simp [State.init, past] at h
  made h h' := by simp [State.init] at h'; omega
  trying i k h := by simp [State.init] at h
  climbing i k h := by simp [State.init] at h
  shortening i h := by simp [State.init] at h
  raised i e h := by simp [State.init] at h
  file p := Or.inl ⟨rfl, fun i h => by simp [State.init] at h⟩
  other u _ := rfl

theorem goto_pc (s : State S N B) (i j : Nat) (c : Pc) : (s.goto i c).pc j = if j = i then c else s.pc j := rfl
@[simp] theorem goto_dirs (s : State S N B) (i : Nat) (c : Pc) : (s.goto i c).dirs = s.dirs := rfl
@[simp] theorem goto_files (s : State S N B) (i : Nat) (c : Pc) : (s.goto i c).files = s.files := rfl
@[simp] theorem goto_trash (s : State S N B) (i : Nat) (c : Pc) : (s.goto i c).trash = s.trash := rfl

/-- A process goes on without touching files, and perhaps makes a directory. -/
theorem Inv.goto (h : Inv n tooLong job d0 f0 t0 s) {i d : Nat} {c : Pc} (hne : s.pc i ≠ .returned) (hnc : c ≠ .returned)
    (hd : s.dirs ≤ d) (hold : past (s.pc i) → past c) (hpa : past c → n ≤ d) (hnew : n ≤ d → n ≤ s.dirs ∨ past c)
    (htr : ∀ k, c = .trying k → d0 < n ∧ d0 < k ∧ k ≤ n)
    (hcl : ∀ k, c = .climbing k → d0 < n ∧ k ≤ n ∧ k ≤ d + 1)
    (hsh : c = .shortening → tooLong (job i).long = true)
    (hra : ∀ e, c = .raised e → e = .fileExistsError ∧ d0 < n ∧ n ≤ d ∨
      e = .fileNotFoundError ∧ (f0 (job i).src = none ∨ ∃ j, s.pc j = .returned ∧ (job j).src = (job i).src)) :
    Inv n tooLong job d0 f0 t0 { s.goto i c with dirs := d } := by
  have ret : ∀ j, (s.goto i c).pc j = .returned ↔ s.pc j = .returned := fun j => by
    rw [goto_pc]
    by_cases e : j = i
    · subst e; simp [hne, hnc]
    · simp [e]
  refine ⟨Nat.le_trans h.grows hd, ?_, ?_, ?_, ?_, ?_, ?_, ?_, ?_⟩
  · intro j hj
    simp only [goto_pc] at hj
    by_cases e : j = i
    · rw [if_pos e] at hj; exact hpa hj
    · rw [if_neg e] at hj; exact Nat.le_trans (h.pasts j hj) hd
  · intro h1 h2
    rcases hnew h2 with h3 | h3
    · obtain ⟨j, hj⟩ := h.made h1 h3
      refine ⟨j, ?_⟩
      simp only [goto_pc]
      by_cases e : j = i
      · subst e; rw [if_pos rfl]; exact hold hj
      · rw [if_neg e]; exact hj
    · exact ⟨i, by simpa [goto_pc] using h3⟩
  · intro j k hj
    simp only [goto_pc] at hj
    by_cases e : j = i
    · rw [if_pos e] at hj; exact htr k hj
    · rw [if_neg e] at hj; exact h.trying j k hj
  · intro j k hj
    simp only [goto_pc] at hj
    by_cases e : j = i
    · rw [if_pos e] at hj; exact hcl k hj
    · rw [if_neg e] at hj
      obtain ⟨a, b, x⟩ := h.climbing j k hj
      exact ⟨a, b, by dsimp only; omega⟩
  · intro j hj
    simp only [goto_pc] at hj
    by_cases e : j = i
    · subst e; rw [if_pos rfl] at hj; exact hsh hj
    · rw [if_neg e] at hj; exact h.shortening j hj
  · intro j x hj
    simp only [goto_pc] at hj
    have key : s.pc j = .raised x ∨ (j = i ∧ c = .raised x) := by
      by_cases e : j = i
      · rw [if_pos e] at hj; exact Or.inr ⟨e, hj⟩
      · rw [if_neg e] at hj; exact Or.inl hj
    have : x = .fileExistsError ∧ d0 < n ∧ n ≤ d ∨
      x = .fileNotFoundError ∧ (f0 (job j).src = none ∨ ∃ m, s.pc m = .returned ∧ (job m).src = (job j).src) := by
      rcases key with hj | ⟨rfl, hj⟩
      · rcases h.raised j x hj with ⟨a, b, b'⟩ | h'
        · exact Or.inl ⟨a, b, Nat.le_trans b' hd⟩
        · exact Or.inr h'
      · exact hra x (by simpa using hj)
    rcases this with h' | ⟨a, b | ⟨m, hm, hm'⟩⟩
    · exact Or.inl h'
    · exact Or.inr ⟨a, Or.inl b⟩
    · exact Or.inr ⟨a, Or.inr ⟨m, (ret m).2 hm, hm'⟩⟩
  · intro p
    simp only [ret, goto_files]
    exact h.file p
  · intro u hu
    exact h.other u fun j hj => hu j ((ret j).2 hj)

/-- A process puts its file into the trash. -/
theorem Inv.move (h : Inv n tooLong job d0 f0 t0 s) {i : Nat} {b : B} (hpa : past (s.pc i))
    (hb : s.files (job i).src = some b) :
    Inv n tooLong job d0 f0 t0 ((s.move (job i).src (goal tooLong (job i)) b).goto i .returned) := by
  have ret : ∀ j, ((s.move (job i).src (goal tooLong (job i)) b).goto i .returned).pc j = .returned ↔ j = i ∨ s.pc j = .returned := fun j => by
    rw [goto_pc]
    by_cases e : j = i
    · simp [e]
    · simp [e, State.move]
  refine ⟨h.grows, ?_, ?_, ?_, ?_, ?_, ?_, ?_, ?_⟩
  · intro j hj
    rw [goto_pc] at hj
    by_cases e : j = i
    · exact h.pasts i hpa
    · rw [if_neg e] at hj; exact h.pasts j hj
  · intro _ _
    exact ⟨i, by simp [goto_pc, past]⟩
  · intro j k hj
    rw [goto_pc] at hj
    by_cases e : j = i
    · rw [if_pos e] at hj; cases hj
    · rw [if_neg e] at hj; exact h.trying j k hj
  · intro j k hj
    rw [goto_pc] at hj
    by_cases e : j = i
    · rw [if_pos e] at hj; cases hj
    · rw [if_neg e] at hj; exact h.climbing j k hj
  · intro j hj
    rw [goto_pc] at hj
    by_cases e : j = i
    · rw [if_pos e] at hj; cases hj
    · rw [if_neg e] at hj; exact h.shortening j hj
  · intro j x hj
    rw [goto_pc] at hj
    by_cases e : j = i
    · rw [if_pos e] at hj; cases hj
    · rw [if_neg e] at hj
      rcases h.raised j x hj with h' | ⟨a, b | ⟨m, hm, hm'⟩⟩
      · exact Or.inl h'
      · exact Or.inr ⟨a, Or.inl b⟩
      · exact Or.inr ⟨a, Or.inr ⟨m, (ret m).2 (Or.inr hm), hm'⟩⟩
  · intro p
    simp only [ret]
    simp only [goto_files, State.move]
    by_cases e : p = (job i).src
    · subst e
      rcases h.file (job i).src with ⟨hf, hno⟩ | ⟨hf, -⟩
      · right
        refine ⟨by simp, by rw [← hf, hb]; rfl, i, Or.inl rfl, rfl, ?_⟩
        rintro j (hj | hj) hs
        · exact hj
        · exact absurd hs (hno j hj)
      · rw [hf] at hb; cases hb
    · rw [if_neg e]
      rcases h.file p with ⟨hf, hno⟩ | ⟨hf, hf0, j, hj, hs, hu⟩
      · left
        refine ⟨hf, ?_⟩
        rintro j (hj | hj)
        · rw [hj]; exact fun x => e x.symm
        · exact hno j hj
      · right
        refine ⟨hf, hf0, j, Or.inr hj, hs, ?_⟩
        rintro m (hm | hm) hsm
        · rw [hm] at hsm; exact absurd hsm.symm e
        · exact hu m hm hsm
  · intro u hu
    simp only [ret] at hu
    simp only [goto_trash, State.move]
    rw [if_neg fun e => hu i (Or.inl rfl) e.symm]
    exact h.other u fun j hj => hu j (Or.inr hj)

theorem Inv.mkdir (h : Inv n tooLong job d0 f0 t0 s) {i k : Nat} {c : Pc} (hne : s.pc i ≠ .returned) (hnp : ¬ past (s.pc i))
    (h0 : d0 < n) (hk : k ≤ n) (hc : ¬ k ≤ s.dirs + 1 → ∃ k', c = .trying k' ∧ d0 < k' ∧ k' ≤ n) :
    Inv n tooLong job d0 f0 t0 (s.mkdir n i k c) := by
  unfold State.mkdir
  split
  · rename_i hle
    have : s.goto i (if k = n then .raised .fileExistsError else next n k) =
      { s.goto i (if k = n then .raised .fileExistsError else next n k) with dirs := s.dirs } := rfl
    rw [this]
    by_cases e : k = n
    · rw [if_pos e]
      refine h.goto hne (by simp) (Nat.le_refl _) (fun x => absurd x hnp) ?_ (fun x => Or.inl x) ?_ ?_ ?_ ?_ <;> simp [past]
      exact ⟨h0, by omega⟩
    · rw [if_neg e, next, if_neg e]
      refine h.goto hne (by simp) (Nat.le_refl _) (fun x => absurd x hnp) ?_ (fun x => Or.inl x) ?_ ?_ ?_ ?_ <;> simp [past]
      exact ⟨h0, by omega, hle⟩
  · rename_i hle
    split
    · rename_i hk1
      by_cases e : k = n
      · rw [next, if_pos e]
        refine h.goto hne (by simp) (by omega) (fun x => absurd x hnp) ?_ (fun _ => Or.inr trivial) ?_ ?_ ?_ ?_ <;> simp [past]
        omega
      · rw [next, if_neg e]
        refine h.goto hne (by simp) (by omega) (fun x => absurd x hnp) ?_ (fun x => by omega) ?_ ?_ ?_ ?_ <;> simp [past]
        exact ⟨h0, by omega⟩
    · rename_i hk1
      obtain ⟨k', rfl, h1, h2⟩ := hc (by omega)
      have : s.goto i (.trying k') = { s.goto i (.trying k') with dirs := s.dirs } := rfl
      rw [this]
      refine h.goto hne (by simp) (Nat.le_refl _) (fun x => absurd x hnp) ?_ (fun x => Or.inl x) ?_ ?_ ?_ ?_ <;> simp [past]
      exact ⟨h0, h1, h2⟩

theorem Inv.missing (h : Inv n tooLong job d0 f0 t0 s) {i : Nat} (hpa : past (s.pc i)) (hne : s.pc i ≠ .returned)
    (hb : s.files (job i).src = none) : Inv n tooLong job d0 f0 t0 (s.goto i (.raised .fileNotFoundError)) := by
  have : s.goto i (.raised .fileNotFoundError) = { s.goto i (.raised .fileNotFoundError) with dirs := s.dirs } := rfl
  rw [this]
  refine h.goto hne (by simp) (Nat.le_refl _) (fun _ => rfl) (fun _ => h.pasts i hpa) (fun x => Or.inl x) ?_ ?_ ?_ ?_ <;> simp
  rcases h.file (job i).src with ⟨hf, -⟩ | ⟨-, -, j, hj, hs, -⟩
  · left; rw [← hf, hb]
  · exact Or.inr ⟨j, hj, hs⟩

theorem Inv.step (h : Inv n tooLong job d0 f0 t0 s) (i : Nat) : Inv n tooLong job d0 f0 t0 (step n tooLong job s i) := by
  unfold CrumpleRace.step
  cases hc : s.pc i with
  | start =>
    dsimp only
    split
    · rename_i hn
      have : s.goto i .moving = { s.goto i .moving with dirs := s.dirs } := rfl
      rw [this]
      refine h.goto (by simp [hc]) (by simp) (Nat.le_refl _) (by simp [hc, past]) (fun _ => hn) (fun _ => Or.inl hn) ?_ ?_ ?_ ?_ <;> simp
    · rename_i hn
      have : s.goto i (.trying n) = { s.goto i (.trying n) with dirs := s.dirs } := rfl
      rw [this]
      have := h.grows
      refine h.goto (by simp [hc]) (by simp) (Nat.le_refl _) (by simp [hc, past]) ?_ (fun x => Or.inl x) ?_ ?_ ?_ ?_ <;> simp [past]
      omega
  | trying k =>
    obtain ⟨h0, h1, h2⟩ := h.trying i k hc
    have := h.grows
    exact h.mkdir (by simp [hc]) (by simp [hc, past]) h0 h2 fun x => ⟨k - 1, rfl, by omega, by omega⟩
  | climbing k =>
    obtain ⟨h0, h1, h2⟩ := h.climbing i k hc
    exact h.mkdir (by simp [hc]) (by simp [hc, past]) h0 h1 fun x => absurd h2 x
  | moving =>
    dsimp only
    split
    · rename_i hb
      exact h.missing (by simp [hc, past]) (by simp [hc]) hb
    · rename_i b hb
      split
      · rename_i hl
        have : s.goto i .shortening = { s.goto i .shortening with dirs := s.dirs } := rfl
        rw [this]
        refine h.goto (by simp [hc]) (by simp) (Nat.le_refl _) (fun _ => trivial) (fun _ => h.pasts i (by simp [hc, past])) (fun x => Or.inl x)
          ?_ ?_ ?_ ?_ <;> simp [hl]
      · rename_i hl
        have := h.move (i := i) (by simp [hc, past]) hb
        rwa [goal, if_neg hl] at this
  | shortening =>
    dsimp only
    split
    · rename_i hb
      exact h.missing (by simp [hc, past]) (by simp [hc]) hb
    · rename_i b hb
      have := h.move (i := i) (by simp [hc, past]) hb
      rwa [goal, if_pos (h.shortening i hc)] at this
  | returned => exact h
  | raised e => exact h

theorem Inv.run (h : Inv n tooLong job d0 f0 t0 s) (sched : List Nat) : Inv n tooLong job d0 f0 t0 (run n tooLong job s sched) := by
  induction sched generalizing s with
  | nil => exact h
  | cons i rest ih => exact ih (h.step i)

theorem inv_run (n : Nat) (tooLong : N → Bool) (job : Nat → Job S N) (d0 : Nat) (f0 : S → Option B) (t0 : N → Option B) (sched : List Nat) :
    Inv n tooLong job d0 f0 t0 (run n tooLong job (.init d0 f0 t0) sched) := (inv_init n tooLong job d0 f0 t0).run sched

theorem mkdir_other {i j k : Nat} {c : Pc} (h : j ≠ i) : (s.mkdir n i k c).pc j = s.pc j := by
  unfold State.mkdir
  split
  · simp [goto_pc, h]
  · split <;> simp [goto_pc, h]

theorem step_other {i j : Nat} (h : j ≠ i) : (step n tooLong job s i).pc j = s.pc j := by
  unfold step
  split
  · simp [goto_pc, h]
  · exact mkdir_other h
  · exact mkdir_other h
  · split
    · simp [goto_pc, h]
    · split <;> simp [goto_pc, h, State.move]
  · split <;> simp [goto_pc, h, State.move]
  · rfl
  · rfl

theorem pc_of_not_mem (sched : List Nat) {j : Nat} (h : j ∉ sched) : (run n tooLong job s sched).pc j = s.pc j := by
  induction sched generalizing s with
  | nil => rfl
  | cons i rest ih =>
    rw [List.mem_cons] at h
    rw [run, ih fun x => h (Or.inr x), step_other fun x => h (Or.inl x)]

theorem mem_of_pc {f0 : S → Option B} {t0 : N → Option B} (sched : List Nat) {j : Nat} (h : (run n tooLong job (State.init d0 f0 t0) sched).pc j ≠ .start) : j ∈ sched := by
  by_cases hm : j ∈ sched
  · exact hm
  · rw [pc_of_not_mem sched hm] at h; exact absurd rfl h

/-- Files that are thrown away get different names. -/
def Apart (tooLong : N → Bool) (job : Nat → Job S N) : Prop :=
  ∀ i j, (job i).src ≠ (job j).src → goal tooLong (job i) ≠ goal tooLong (job j)

/-- What a process that has returned has put there is still there. -/
theorem kept_run (hA : Apart tooLong job) (sched : List Nat) (h : Inv n tooLong job d0 f0 t0 s)
    (hk : ∀ i, s.pc i = .returned → s.trash (goal tooLong (job i)) = f0 (job i).src) (i : Nat)
    (hi : (run n tooLong job s sched).pc i = .returned) :
    (run n tooLong job s sched).trash (goal tooLong (job i)) = f0 (job i).src := by
  induction sched generalizing s with
  | nil => exact hk i hi
  | cons a rest ih =>
    refine ih (h.step a) ?_ hi
    intro j hj
    have mv : ∀ b, s.files (job a).src = some b → s.pc a ≠ .returned →
        ((s.move (job a).src (goal tooLong (job a)) b).goto a .returned).pc j = .returned →
        ((s.move (job a).src (goal tooLong (job a)) b).goto a .returned).trash (goal tooLong (job j)) = f0 (job j).src := by
      intro b hb hna hj
      simp only [goto_trash, State.move]
      by_cases e : j = a
      · subst e
        rw [if_pos rfl]
        rcases h.file (job j).src with ⟨hf, -⟩ | ⟨hf, -⟩
        · rw [← hf, hb]
        · rw [hf] at hb; cases hb
      · simp only [goto_pc, if_neg e] at hj
        rw [if_neg, hk j hj]
        refine hA j a fun hs => ?_
        rcases h.file (job j).src with ⟨-, hno⟩ | ⟨hf, -⟩
        · exact hno j hj rfl
        · rw [hs, hb] at hf; cases hf
    have gt : ∀ c, s.pc a ≠ .returned → c ≠ .returned → (s.goto a c).pc j = .returned → s.trash (goal tooLong (job j)) = f0 (job j).src := by
      intro c _ hc hj
      refine hk j ?_
      rw [goto_pc] at hj
      by_cases e : j = a
      · rw [if_pos e] at hj; exact absurd hj hc
      · rwa [if_neg e] at hj
    have md : ∀ k c, s.pc a ≠ .returned → c ≠ .returned → (s.mkdir n a k c).pc j = .returned →
        (s.mkdir n a k c).trash (goal tooLong (job j)) = f0 (job j).src := by
      intro k c hna hc hj
      unfold State.mkdir at hj ⊢
      split at hj
      · rename_i hle
        rw [if_pos hle]
        refine gt _ hna ?_ hj
        unfold next
        split
        · simp
        · simp
      · rename_i hle
        rw [if_neg hle]
        split at hj
        · rename_i h1
          rw [if_pos h1]
          refine gt (next n k) hna ?_ hj
          unfold next; split <;> simp
        · rename_i h1
          rw [if_neg h1]
          exact gt _ hna hc hj
    unfold CrumpleRace.step at hj ⊢
    cases hc : s.pc a with
    | start =>
      simp only [hc] at hj ⊢
      exact gt _ (by simp [hc]) (by split <;> simp) hj
    | trying k => simp only [hc] at hj ⊢; exact md k _ (by simp [hc]) (by simp) hj
    | climbing k => simp only [hc] at hj ⊢; exact md k _ (by simp [hc]) (by simp) hj
    | moving =>
      simp only [hc] at hj ⊢
      rcases Option.eq_none_or_eq_some (s.files (job a).src) with hb | ⟨b, hb⟩
      · simp only [hb] at hj ⊢
        exact gt _ (by simp [hc]) (by simp) hj
      · simp only [hb] at hj ⊢
        split at hj
        · rename_i hl
          rw [if_pos hl]
          exact gt _ (by simp [hc]) (by simp) hj
        · rename_i hl
          rw [if_neg hl]
          have := mv b hb (by simp [hc])
          rw [show goal tooLong (job a) = (job a).long from if_neg hl] at this
          exact this hj
    | shortening =>
      simp only [hc] at hj ⊢
      rcases Option.eq_none_or_eq_some (s.files (job a).src) with hb | ⟨b, hb⟩
      · simp only [hb] at hj ⊢
        exact gt _ (by simp [hc]) (by simp) hj
      · simp only [hb] at hj ⊢
        have := mv b hb (by simp [hc])
        rw [show goal tooLong (job a) = (job a).short from if_pos (h.shortening a hc)] at this
        exact this hj
    | returned => simp only [hc] at hj ⊢; exact hk j hj
    | raised e => simp only [hc] at hj ⊢; exact hk j hj

/-- C146: at any time a file is where it was, or it is in the trash under the name of a process that has returned.  Only files that a process has
thrown away are gone. -/
theorem C146_kept (n : Nat) (tooLong : N → Bool) (job : Nat → Job S N) (hA : Apart tooLong job) (d0 : Nat) (f0 : S → Option B)
    (t0 : N → Option B) (sched : List Nat) (p : S) :
    (run n tooLong job (.init d0 f0 t0) sched).files p = f0 p ∧
      (∀ i, (run n tooLong job (.init d0 f0 t0) sched).pc i = .returned → (job i).src ≠ p) ∨
    (run n tooLong job (.init d0 f0 t0) sched).files p = none ∧ (f0 p).isSome ∧
      ∃ i ∈ sched, (job i).src = p ∧ (run n tooLong job (.init d0 f0 t0) sched).pc i = .returned ∧
        (run n tooLong job (.init d0 f0 t0) sched).trash (goal tooLong (job i)) = f0 p := by
  rcases (inv_run n tooLong job d0 f0 t0 sched).file p with h | ⟨hf, h0, i, hi, rfl, -⟩
  · exact Or.inl h
  · exact Or.inr ⟨hf, h0, i, mem_of_pc sched (by rw [hi]; simp), rfl, hi,
      kept_run hA sched (inv_init n tooLong job d0 f0 t0) (by simp [State.init]) i hi⟩

/-- C146: what is in the trash under other names stays as it is. -/
theorem C146_other (n : Nat) (tooLong : N → Bool) (job : Nat → Job S N) (d0 : Nat) (f0 : S → Option B) (t0 : N → Option B) (sched : List Nat)
    (u : N) (hu : ∀ i, (run n tooLong job (.init d0 f0 t0) sched).pc i = .returned → goal tooLong (job i) ≠ u) :
    (run n tooLong job (.init d0 f0 t0) sched).trash u = t0 u :=
  (inv_run n tooLong job d0 f0 t0 sched).other u hu

/-- C146: of several processes that throw away the same file only one returns, and the file was there. -/
theorem C146_once (n : Nat) (tooLong : N → Bool) (job : Nat → Job S N) (d0 : Nat) (f0 : S → Option B) (t0 : N → Option B) (sched : List Nat)
    (i : Nat) (hi : (run n tooLong job (.init d0 f0 t0) sched).pc i = .returned) : (f0 (job i).src).isSome ∧
      (run n tooLong job (.init d0 f0 t0) sched).files (job i).src = none ∧
      ∀ j, (run n tooLong job (.init d0 f0 t0) sched).pc j = .returned → (job j).src = (job i).src → j = i := by
  rcases (inv_run n tooLong job d0 f0 t0 sched).file (job i).src with ⟨-, h⟩ | ⟨hf, h0, m, -, -, hu⟩
  · exact absurd rfl (h i hi)
  · refine ⟨h0, hf, fun j hj hs => ?_⟩
    rw [hu j hj hs, hu i hi rfl]

/-- C146: a process raises because its file is not there, or another process has thrown it away, or because the trash was not there and another
process made it since it looked. -/
theorem C146_raised (n : Nat) (tooLong : N → Bool) (job : Nat → Job S N) (d0 : Nat) (f0 : S → Option B) (t0 : N → Option B) (sched : List Nat)
    (i : Nat) (e : PyErr) (hi : (run n tooLong job (.init d0 f0 t0) sched).pc i = .raised e) :
    e = .fileNotFoundError ∧ (f0 (job i).src = none ∨
      ∃ j ∈ sched, (run n tooLong job (.init d0 f0 t0) sched).pc j = .returned ∧ (job j).src = (job i).src) ∨
    e = .fileExistsError ∧ d0 < n ∧ n ≤ (run n tooLong job (.init d0 f0 t0) sched).dirs ∧
      ∃ j ∈ sched, j ≠ i ∧ past ((run n tooLong job (.init d0 f0 t0) sched).pc j) := by
  have hI := inv_run n tooLong job d0 f0 t0 sched
  rcases hI.raised i e hi with ⟨rfl, h1, h2⟩ | ⟨rfl, h | ⟨j, hj, hs⟩⟩
  · right
    obtain ⟨j, hj⟩ := hI.made h1 h2
    refine ⟨rfl, h1, h2, j, mem_of_pc (n := n) (tooLong := tooLong) (job := job) (d0 := d0) (f0 := f0) (t0 := t0) sched ?_, ?_, hj⟩
    · intro h; rw [h] at hj; exact hj
    · rintro rfl
      rw [hi] at hj
      cases hj
  · exact Or.inl ⟨rfl, Or.inl h⟩
  · exact Or.inl ⟨rfl, Or.inr ⟨j, mem_of_pc sched (by rw [hj]; simp), hj, hs⟩⟩

/-- C146: when the files are there and all processes have ended, at least one of them has returned. -/
theorem C146_one_returns (n : Nat) (tooLong : N → Bool) (job : Nat → Job S N) (d0 : Nat) (f0 : S → Option B) (t0 : N → Option B)
    (sched : List Nat) (hne : sched ≠ []) (h0 : ∀ i ∈ sched, (f0 (job i).src).isSome)
    (hend : ∀ i ∈ sched, Ended ((run n tooLong job (.init d0 f0 t0) sched).pc i)) :
    ∃ i ∈ sched, (run n tooLong job (.init d0 f0 t0) sched).pc i = .returned := by
  have hI := inv_run n tooLong job d0 f0 t0 sched
  have key : ∀ i ∈ sched, past ((run n tooLong job (.init d0 f0 t0) sched).pc i) →
      ∃ i ∈ sched, (run n tooLong job (.init d0 f0 t0) sched).pc i = .returned := by
    intro i hi hp
    have hE := hend i hi
    cases hc : (run n tooLong job (.init d0 f0 t0) sched).pc i <;> rw [hc] at hE hp <;> try exact hE.elim
    · exact ⟨i, hi, hc⟩
    · rename_i e
      rcases hI.raised i e hc with ⟨rfl, -⟩ | ⟨-, h | ⟨j, hj, -⟩⟩
      · cases hp
      · have := h0 i hi; rw [h] at this; cases this
      · exact ⟨j, mem_of_pc sched (by rw [hj]; simp), hj⟩
  obtain ⟨i, hi⟩ := List.exists_mem_of_ne_nil _ hne
  have hE := hend i hi
  cases hc : (run n tooLong job (.init d0 f0 t0) sched).pc i <;> rw [hc] at hE <;> try exact hE.elim
  · exact ⟨i, hi, hc⟩
  · rename_i e
    rcases hI.raised i e hc with ⟨-, h1, h2⟩ | ⟨he, -⟩
    · obtain ⟨j, hj⟩ := hI.made h1 h2
      refine key j (mem_of_pc (n := n) (tooLong := tooLong) (job := job) (d0 := d0) (f0 := f0) (t0 := t0) sched ?_) hj
      intro h; rw [h] at hj; exact hj
    · exact key i hi (by rw [hc]; exact he)

/-- So many steps are enough for a process that is this far. -/
def rank (n : Nat) : Pc → Nat
  | .start => 2 * n + 5
  | .trying k => n + k + 4
  | .climbing k => n + 3 - k
  | .moving => 2
  | .shortening => 1
  | .returned | .raised _ => 0

theorem rank_step (h : Inv n tooLong job d0 f0 t0 s) (i : Nat) :
    Ended (s.pc i) ∨ rank n ((step n tooLong job s i).pc i) < rank n (s.pc i) := by
  have md : ∀ R k c, k ≤ n → rank n c < R → n + 3 - k ≤ R → rank n ((s.mkdir n i k c).pc i) < R := by
    intro R k c hk hc hr
    unfold State.mkdir next
    split
    · simp only [goto_pc, if_true]
      split
      · simp only [rank]; omega
      · simp only [rank]; omega
    · split
      · simp only [goto_pc, if_true]
        split
        · simp only [rank]; omega
        · simp only [rank]; omega
      · simpa [goto_pc] using hc
  unfold CrumpleRace.step
  cases hc : s.pc i with
  | start =>
    right
    simp only [goto_pc, if_true]
    split <;> simp only [rank] <;> omega
  | trying k =>
    right
    obtain ⟨h1, h2, h3⟩ := h.trying i k hc
    exact md _ k _ h3 (by simp only [rank]; omega) (by simp only [rank]; omega)
  | climbing k =>
    right
    obtain ⟨h1, h2, h3⟩ := h.climbing i k hc
    exact md _ k _ h2 (by simp only [rank]; omega) (by simp only [rank]; omega)
  | moving =>
    right
    dsimp only
    split
    · simp [goto_pc, rank]
    · split <;> simp [goto_pc, rank]
  | shortening =>
    right
    dsimp only
    split <;> simp [goto_pc, rank]
  | returned => exact Or.inl trivial
  | raised => exact Or.inl trivial

theorem step_ended {i : Nat} (h : Ended (s.pc i)) : step n tooLong job s i = s := by
  unfold step
  cases hc : s.pc i <;> simp [hc, Ended] at h ⊢

theorem run_ended (sched : List Nat) {i : Nat} (h : Ended (s.pc i)) : (run n tooLong job s sched).pc i = s.pc i := by
  induction sched generalizing s with
  | nil => rfl
  | cons j rest ih =>
    have : (step n tooLong job s j).pc i = s.pc i := by
      by_cases e : j = i
      · subst e; rw [step_ended h]
      · exact step_other fun x => e x.symm
    rw [run, ih (by rw [this]; exact h), this]

theorem ends_of_rank (h : Inv n tooLong job d0 f0 t0 s) (i : Nat) (sched : List Nat) (hs : rank n (s.pc i) < sched.count i) :
    Ended ((run n tooLong job s sched).pc i) := by
  induction sched generalizing s with
  | nil => simp at hs
  | cons j rest ih =>
    rw [run]
    by_cases e : j = i
    · subst e
      rcases rank_step h j with hE | hlt
      · rw [step_ended hE, run_ended rest hE]; exact hE
      · refine ih (h.step j) ?_
        simp at hs; omega
    · refine ih (h.step j) ?_
      rw [step_other fun x => e x.symm]
      rwa [List.count_cons_of_ne (by simpa using e)] at hs

/-- C146: each process ends, whatever the others do, in a number of steps that depends on the depth of the trash only. -/
theorem C146_ends (n : Nat) (tooLong : N → Bool) (job : Nat → Job S N) (d0 : Nat) (f0 : S → Option B) (t0 : N → Option B) (i : Nat)
    (sched : List Nat) (hs : 2 * n + 5 < sched.count i) : Ended ((run n tooLong job (.init d0 f0 t0) sched).pc i) :=
  ends_of_rank (inv_init n tooLong job d0 f0 t0) i sched hs

/-- C146: a process that is alone and whose file is there returns; then the trash is there, the file is in it, and all else is as it was. -/
theorem C146_alone (n : Nat) (tooLong : N → Bool) (job : Nat → Job S N) (d0 : Nat) (f0 : S → Option B) (t0 : N → Option B) (i : Nat) (b : B)
    (hb : f0 (job i).src = some b) (m : Nat) (hm : 2 * n + 5 < m) :
    ∃ r, r = run n tooLong job (.init d0 f0 t0) (List.replicate m i) ∧ r.pc i = .returned ∧ n ≤ r.dirs ∧
      (∀ p, r.files p = if p = (job i).src then none else f0 p) ∧
      ∀ u, r.trash u = if u = goal tooLong (job i) then some b else t0 u := by
  have hE := C146_ends n tooLong job d0 f0 t0 i (List.replicate m i) (by simpa using hm)
  have hmem : ∀ j ∈ List.replicate m i, j = i := fun j hj => (List.mem_replicate.1 hj).2
  have hI := inv_run n tooLong job d0 f0 t0 (List.replicate m i)
  have hret : (run n tooLong job (.init d0 f0 t0) (List.replicate m i)).pc i = .returned := by
    cases hc : (run n tooLong job (.init d0 f0 t0) (List.replicate m i)).pc i <;> rw [hc] at hE <;> try (first | rfl | exact hE.elim)
    · rename_i e
      rcases C146_raised n tooLong job d0 f0 t0 _ i e hc with ⟨-, h | ⟨j, hj, hr, -⟩⟩ | ⟨-, -, -, j, hj, hne, -⟩
      · rw [hb] at h; cases h
      · rw [hmem j hj, hc] at hr; cases hr
      · exact absurd (hmem j hj) hne
  have hall : ∀ j, (run n tooLong job (.init d0 f0 t0) (List.replicate m i)).pc j = .returned → j = i := fun j hj =>
    hmem j (mem_of_pc _ (by rw [hj]; simp))
  refine ⟨_, rfl, hret, hI.pasts i (by rw [hret]; trivial), fun p => ?_, fun u => ?_⟩
  · by_cases e : p = (job i).src
    · rw [if_pos e, e]
      exact (C146_once n tooLong job d0 f0 t0 _ i hret).2.1
    · rw [if_neg e]
      rcases hI.file p with ⟨h, -⟩ | ⟨-, -, j, hj, hs, -⟩
      · exact h
      · rw [hall j hj] at hs; exact absurd hs.symm e
  · by_cases e : u = goal tooLong (job i)
    · rw [if_pos e, e, ← hb]
      have := kept_run (n := n) (tooLong := tooLong) (job := fun _ => job i) (fun _ _ h => absurd rfl h) (List.replicate m i)
        (inv_init n tooLong (fun _ => job i) d0 f0 t0) (by simp [State.init]) i
      have same : ∀ k, ∀ s : State S N B, run n tooLong (fun _ => job i) s (List.replicate k i) = run n tooLong job s (List.replicate k i) := by
        intro k
        induction k with
        | zero => intro s; rfl
        | succ k ih =>
          intro s
          rw [List.replicate_succ, run, run, ih]
          rfl
      rw [same] at this
      exact this hret
    · rw [if_neg e]
      exact C146_other n tooLong job d0 f0 t0 _ u fun j hj => by rw [hall j hj]; exact fun x => e x.symm

/-- C146 says that one process may raise although its file is there: both see that there is no trash and make it. -/
theorem C146_raises_counterexample (tooLong : N → Bool) (job : Nat → Job S N) (f0 : S → Option B) (t0 : N → Option B) :
    ∃ sched, (run 1 tooLong job (.init 0 f0 t0) sched).pc 1 = .raised .fileExistsError ∧
      (run 1 tooLong job (.init 0 f0 t0) sched).files = f0 := by
  refine ⟨[0, 1, 0, 1], ?_⟩
  simp [run, step, State.init, State.goto, State.mkdir, next]

/-- C146 is false without its hypothesis: of two files with the same id only the one that was thrown away last is in the trash. -/
theorem C146_same_id_counterexample (p q : S) (hpq : p ≠ q) (u v w : N) (b c : B) (hbc : b ≠ c) (t0 : N → Option B) (ht : ∀ x, t0 x ≠ some b) :
    ∃ job : Nat → Job S N, ∃ sched, ∃ r, r = run 1 (fun _ => false) job
      (.init 1 (fun x => if x = p then some b else if x = q then some c else none) t0) sched ∧
      r.pc 0 = .returned ∧ r.pc 1 = .returned ∧ r.files p = none ∧ ∀ x, r.trash x ≠ some b := by
  refine ⟨fun i => if i = 0 then ⟨p, u, v⟩ else ⟨q, u, w⟩, [0, 0, 1, 1], _, rfl, ?_⟩
  have hqp : q ≠ p := fun h => hpq h.symm
  simp [run, step, State.init, State.goto, State.move, hpq, hqp]
  intro x
  by_cases e : x = u
  · simpa [e] using fun h => hbc h.symm
  · simpa [e] using ht x

/-- The hypotheses are met: two processes throw away the same file and a third one another file, whose id is too long; the trash is not there. -/
example : ∃ r : State Char String Nat, r = run 2 (fun u => u == "long") (fun i => if i = 2 then ⟨'b', "long", "b"⟩ else ⟨'a', "1", "a"⟩)
    (.init 0 (fun p => if p = 'a' then some 1 else if p = 'b' then some 2 else none) fun _ => none)
    [0, 0, 0, 0, 1, 0, 2, 2, 2, 1, 2] ∧
    r.pc 0 = .returned ∧ r.pc 1 = .raised .fileNotFoundError ∧ r.pc 2 = .returned ∧ r.trash "1" = some 1 ∧ r.trash "b" = some 2 ∧ r.dirs = 2 :=
  ⟨_, rfl, by decide⟩

section
open Verif.Cache Verif.FS

/-- C146: a process that is alone does what the model of one process does (`Trash.crumple`) with a trash that is there and an id that is not too long: of what this
model knows, both make the same. -/
theorem C146_single {ν : Type} [Kinded ν] {T : Trash ν} (hF : ∀ n, T.F n = none) {id : Str} (hu : Usable T id) {src : FS.Path} {d : Disk ν} {x t : ν}
    (hsrc : d.at_ src = some x) (ht : d.at_ T.loc = some t) (htd : Kinded.isDir t = true) (htl : T.leads d T.loc = true)
    (hfree : d.at_ (T.loc ++ [fsSafeId id]) = none) (hap : FS.Apart src T.loc) (k n dirs : Nat) (job : Nat → Job FS.Path Name) (i m : Nat) (hm : 2 * n + 5 < m)
    (hjob : (job i).src = src ∧ (job i).long = fsSafeId id) :
    ∃ r, r = run n T.long job (.init dirs d.at_ fun u => d.at_ (T.loc ++ [u])) (List.replicate m i) ∧
      r.pc i = .returned ∧ (T.crumple (some id) src ⟨d, k⟩).1 = .ok (T.loc ++ [(job i).long]) ∧
      (∀ u, r.trash u = (T.crumple (some id) src ⟨d, k⟩).2.disk.at_ (T.loc ++ [u])) ∧
      ∀ p, ¬ (src <+: p ∧ p ≠ src) → ¬ T.loc ++ [fsSafeId id] <+: p → r.files p = (T.crumple (some id) src ⟨d, k⟩).2.disk.at_ p := by
  obtain ⟨s, h1, h2, h3, h4⟩ := C29_move_partial hF hu hsrc ht htd htl hfree hap k
  obtain ⟨r, hr, h5, -, h6, h7⟩ := C146_alone n T.long job dirs d.at_ (fun u => d.at_ (T.loc ++ [u])) i x (by rw [hjob.1, hsrc]) m hm
  have hg : goal T.long (job i) = fsSafeId id := by
    unfold goal; rw [hjob.2, hu.2.2.2]; rfl
  refine ⟨r, hr, h5, by rw [h1, hjob.2], fun u => ?_, fun p hp hp' => ?_⟩
  · rw [h7, h1, hg]
    by_cases e : u = fsSafeId id
    · subst e
      rw [if_pos rfl]
      have := h2 []
      rw [List.append_nil, hsrc] at this
      exact this.symm
    · rw [if_neg e]
      refine (h4 _ ?_ ?_).symm
      · intro hc
        exact (List.prefix_or_prefix_of_prefix hc (List.prefix_append _ _)).elim hap.1 hap.2
      · intro hc
        have := List.prefix_append_right_inj T.loc |>.1 hc
        simp at this
        exact e this.symm
  · rw [h6, h1, hjob.1]
    by_cases e : p = src
    · rw [if_pos e, e]
      have := h3 []
      rw [List.append_nil] at this
      exact this.symm
    · rw [if_neg e]
      exact (h4 p (fun hc => hp ⟨hc, e⟩) hp').symm
end

end Verif.CrumpleRace
