import Verif.Model.InitRace
import Verif.Props.Ancestors

/-!
# C154: creating repositories in several processes
-/

namespace Verif.InitRace

set_option linter.unusedSectionVars false

variable {ν : Type} [DecidableEq ν]
variable {there full : List ν → Bool} {job : Nat → Job ν}

theorem goto_pc (s : State ν) (i j : Nat) (c : Pc) : (s.goto i c).pc j = if j = i then c else s.pc j := rfl
@[simp] theorem goto_repos (s : State ν) (i : Nat) (c : Pc) : (s.goto i c).repos = s.repos := rfl

theorem step_other (s : State ν) {i j : Nat} (h : j ≠ i) : (step there full job s i).pc j = s.pc j := by
  unfold step
  repeat' split
  all_goals simp [State.goto, h]

/-- What a step does to the repositories: nothing, or the process creates the one it was asked for and returns. -/
theorem step_repos (s : State ν) (i : Nat) :
    (step there full job s i).repos = s.repos ∧ ((step there full job s i).pc i = .returned → s.pc i = .returned) ∨
    s.pc i = .creating ∧ ((job i).clone = true → s.refused full (job i).path = false) ∧
      (step there full job s i).repos = (job i).path :: s.repos ∧ (step there full job s i).pc i = .returned := by
  unfold step
  repeat' split
  all_goals simp_all [State.goto]

theorem step_keeps (s : State ν) (i : Nat) {q : List ν} (h : q ∈ s.repos) : q ∈ (step there full job s i).repos := by
  rcases step_repos (there := there) (full := full) (job := job) s i with ⟨e, _⟩ | ⟨_, _, e, _⟩ <;> rw [e]
  · exact h
  · exact List.mem_cons_of_mem _ h

theorem step_ended (s : State ν) (i j : Nat) (h : s.pc j = .returned ∨ ∃ e, s.pc j = .raised e) :
    (step there full job s i).pc j = s.pc j := by
  by_cases e : j = i
  · subst e
    unfold step
    rcases h with h | ⟨e, h⟩ <;> rw [h] <;> simp [h]
  · exact step_other s e

theorem run_returned (s : State ν) (sched : List Nat) {j : Nat} (h : s.pc j = .returned) : (run there full job s sched).pc j = .returned := by
  induction sched generalizing s with
  | nil => exact h
  | cons i rest ih => exact ih _ ((step_ended s i j (Or.inl h)).trans h)

/-- **C154**: no repository vanishes, the new ones are those of the processes that returned, and a process that returns has its repository. -/
theorem C154_created (there full : List ν → Bool) (job : Nat → Job ν) (repos : List (List ν)) (sched : List Nat) (q : List ν) :
    q ∈ (run there full job (.init repos) sched).repos ↔
      q ∈ repos ∨ ∃ i, (run there full job (.init repos) sched).pc i = .returned ∧ (job i).path = q := by
  suffices ∀ s : State ν, (∀ q, q ∈ s.repos ↔ q ∈ repos ∨ ∃ i, s.pc i = .returned ∧ (job i).path = q) →
      (q ∈ (run there full job s sched).repos ↔ q ∈ repos ∨ ∃ i, (run there full job s sched).pc i = .returned ∧ (job i).path = q) from
    this _ (by simp [State.init])
  induction sched with
  | nil => exact fun s h => h q
  | cons i rest ih =>
    intro s h
    refine ih _ fun p => ?_
    rcases step_repos (there := there) (full := full) (job := job) s i with ⟨e, r⟩ | ⟨c, _, e, r⟩
    · rw [e, h p]
      refine or_congr Iff.rfl ⟨?_, ?_⟩
      · rintro ⟨j, hj, hp⟩
        exact ⟨j, (step_ended s i j (Or.inl hj)).trans hj, hp⟩
      · rintro ⟨j, hj, hp⟩
        by_cases x : j = i
        · subst x; exact ⟨j, r hj, hp⟩
        · rw [step_other s x] at hj; exact ⟨j, hj, hp⟩
    · rw [e, List.mem_cons, h p]
      constructor
      · rintro (rfl | h' | ⟨j, hj, hp⟩)
        · exact Or.inr ⟨i, r, rfl⟩
        · exact Or.inl h'
        · exact Or.inr ⟨j, (step_ended s i j (Or.inl hj)).trans hj, hp⟩
      · rintro (h' | ⟨j, hj, hp⟩)
        · exact Or.inr (Or.inl h')
        · by_cases x : j = i
          · subst x; exact Or.inl hp.symm
          · rw [step_other s x] at hj; exact Or.inr (Or.inr ⟨j, hj, hp⟩)

/-- **C154**: whoever begins when there is a repository at the path or above it does not create one, whatever others do meanwhile: it is
refused, since there is something at the path, or with `AssertionError`. -/
theorem C154_refused (there full : List ν → Bool) (job : Nat → Job ν) (s : State ν) (j : Nat) (hj : s.pc j = .start)
    {q : List ν} (hq : q ∈ s.repos) (hp : q <+: (job j).path) (sched : List Nat) :
    (run there full job s sched).pc j ≠ .returned ∧
    ∀ e, (run there full job s sched).pc j = .raised e → e = .repoExistsError ∨ e = .assertionError := by
  suffices ∀ s : State ν, q ∈ s.repos → (s.pc j = .start ∨ (∃ k, s.pc j = .checking k ∧ q.length ≤ k) ∨ s.pc j = .found ∨
        s.pc j = .raised .repoExistsError ∨ s.pc j = .raised .assertionError) →
      (run there full job s sched).pc j ≠ .returned ∧
      ∀ e, (run there full job s sched).pc j = .raised e → e = .repoExistsError ∨ e = .assertionError from this s hq (Or.inl hj)
  have take : (job j).path.take q.length = q := (List.prefix_iff_eq_take.1 hp).symm
  clear hq hj s
  induction sched with
  | nil =>
    intro s _ h
    rw [show run there full job s [] = s from rfl]
    rcases h with h | ⟨k, h, _⟩ | h | h | h <;> rw [h] <;> simp
  | cons i rest ih =>
    intro s hq h
    refine ih _ (step_keeps s i hq) ?_
    by_cases e : j = i
    · subst e
      unfold step
      rcases h with h | ⟨k, h, hk⟩ | h | h | h <;> rw [h] <;> dsimp only
      · refine Or.inr (Or.inl ⟨_, by simp [goto_pc], hp.length_le⟩)
      · split
        · simp [goto_pc]
        · next no =>
          cases k with
          | zero =>
            have : q = [] := List.eq_nil_of_length_eq_zero (by omega)
            subst this
            simp [hq] at no
          | succ k =>
            refine Or.inr (Or.inl ⟨k, by simp [goto_pc], ?_⟩)
            by_cases x : q.length = k + 1
            · rw [← x, take] at no; exact absurd hq no
            · omega
      · split <;> simp [goto_pc]
      · simp [h]
      · simp [h]
    · rw [step_other s e]; exact h

/-- **C154**: a process creates no repository inside one that was there before all began. -/
theorem C154_not_inside (there full : List ν → Bool) (job : Nat → Job ν) (repos : List (List ν)) (sched : List Nat) (j : Nat)
    (h : (run there full job (.init repos) sched).pc j = .returned) {q : List ν} (hq : q ∈ repos) : ¬q <+: (job j).path :=
  fun hp => (C154_refused there full job (.init repos) j rfl hq hp sched).1 h

theorem run_append (s : State ν) (a b : List Nat) : run there full job s (a ++ b) = run there full job (run there full job s a) b := by
  induction a generalizing s with
  | nil => rfl
  | cons x a ih => exact ih _

/-- **C154**: if one repository is inside another that a process created in the same run, then the process of the inner one had begun before
the outer one was created: processes that do not overlap do not nest, except that a repository may be created around one that is there. -/
theorem C154_nested_overlap (there full : List ν → Bool) (job : Nat → Job ν) (s : State ν) (first second : List Nat) (i j : Nat)
    (hi : (job i).path ∈ (run there full job s first).repos) (hp : (job i).path <+: (job j).path)
    (h : (run there full job s (first ++ second)).pc j = .returned) : (run there full job s first).pc j ≠ .start := by
  intro hs
  rw [run_append] at h
  exact (C154_refused there full job _ j hs hi hp second).1 h

/-- **C154**: of the processes that clone to the same path at most one returns. -/
theorem C154_clone (there full : List ν → Bool) (job : Nat → Job ν) (repos : List (List ν)) (sched : List Nat) (i j : Nat)
    (hi : (job i).clone = true) (hj : (job j).clone = true) (hp : (job i).path = (job j).path)
    (ri : (run there full job (.init repos) sched).pc i = .returned) (rj : (run there full job (.init repos) sched).pc j = .returned) :
    i = j := by
  suffices ∀ s : State ν, (∀ i, s.pc i = .returned → (job i).path ∈ s.repos) → (s.pc i = .returned → s.pc j = .returned → i = j) →
      (run there full job s sched).pc i = .returned → (run there full job s sched).pc j = .returned → i = j from
    this _ (by simp [State.init]) (by simp [State.init]) ri rj
  clear ri rj
  induction sched with
  | nil => exact fun s _ h => h
  | cons m rest ih =>
    intro s hr h
    have stepped : ∀ n, (step there full job s m).pc n = .returned → s.pc n = .returned ∨
        n = m ∧ ((job m).clone = true → s.refused full (job m).path = false) ∧ (step there full job s m).repos = (job m).path :: s.repos := by
      intro n hn
      by_cases x : n = m
      · subst x
        rcases step_repos (there := there) (full := full) (job := job) s n with ⟨_, r⟩ | ⟨_, a, b, _⟩
        · exact Or.inl (r hn)
        · exact Or.inr ⟨rfl, a, b⟩
      · rw [step_other s x] at hn; exact Or.inl hn
    have no : ∀ n k, (job n).clone = true → (job n).path = (job k).path → s.pc k = .returned → s.refused full (job n).path = false → False := by
      intro n k _ hp' hk hf
      simp only [State.refused, Bool.or_eq_false_iff, List.any_eq_false] at hf
      have := hf.2 _ (hr k hk)
      rw [hp'] at this
      simp at this
    refine ih _ ?_ ?_
    · intro n hn
      rcases stepped n hn with x | ⟨rfl, _, e⟩
      · exact step_keeps s m (hr n x)
      · rw [e]; exact List.mem_cons_self
    · intro ri rj
      rcases stepped i ri with x | ⟨rfl, a, _⟩
      · rcases stepped j rj with y | ⟨rfl, b, _⟩
        · exact h x y
        · exact (no j i hj hp.symm x (b hj)).elim
      · rcases stepped j rj with y | ⟨rfl, b, _⟩
        · exact (no i j hi hp y (a hi)).elim
        · rfl

/-- **C154**: when no path of a process is at, above or below the path of another one, and no repository is at or above one of them, nobody
raises; where something is cloned there must be nothing in the directory. -/
theorem C154_apart (there full : List ν → Bool) (job : Nat → Job ν) (repos : List (List ν))
    (hjob : ∀ i j, i ≠ j → ¬(job i).path <+: (job j).path) (hin : ∀ i q, q ∈ repos → ¬q <+: (job i).path)
    (hcl : ∀ i, (job i).clone = true → full (job i).path = false ∧ ∀ q ∈ repos, ¬(job i).path <+: q)
    (sched : List Nat) (i : Nat) (e : PyErr) : (run there full job (.init repos) sched).pc i ≠ .raised e := by
  suffices ∀ s : State ν, (∀ q, q ∈ s.repos → q ∈ repos ∨ ∃ i, s.pc i = .returned ∧ (job i).path = q) →
      (∀ i, s.pc i ≠ .found ∧ ∀ e, s.pc i ≠ .raised e) → (run there full job s sched).pc i ≠ .raised e from
    this _ (fun q h => Or.inl h) (by simp [State.init])
  induction sched with
  | nil => exact fun s _ h => (h i).2 e
  | cons m rest ih =>
    intro s hr h
    have key : (step there full job s m).pc m ≠ .found ∧ ∀ e, (step there full job s m).pc m ≠ .raised e := by
      unfold step
      split
      · simp [goto_pc]
      · next k hk =>
        split
        · next x =>
          exfalso
          rcases hr _ x with y | ⟨n, hn, y⟩
          · exact hin m _ y (List.take_prefix _ _)
          · by_cases z : n = m
            · subst z; rw [hk] at hn; cases hn
            · exact hjob n m z (y ▸ List.take_prefix _ _)
        · cases k <;> simp [goto_pc]
      · next x => exact absurd x (h m).1
      · next x =>
        have : ((job m).clone && s.refused full (job m).path) = false := by
          cases c : (job m).clone with
          | false => rfl
          | true =>
            obtain ⟨a, b⟩ := hcl m c
            simp only [Bool.true_and, State.refused, Bool.or_eq_false_iff, List.any_eq_false, List.isPrefixOf_iff_prefix]
            refine ⟨a, fun q hq => ?_⟩
            rcases hr q hq with y | ⟨n, hn, rfl⟩
            · exact b q y
            · by_cases z : n = m
              · subst z; rw [x] at hn; cases hn
              · exact hjob m n (Ne.symm z)
        rw [this]
        simp [State.goto]
      · next x => simp [x]
      · next x => exact absurd x ((h m).2 _)
    refine ih _ ?_ ?_
    · intro q hq
      rcases step_repos (there := there) (full := full) (job := job) s m with ⟨e, _⟩ | ⟨_, _, e, r⟩ <;> rw [e] at hq
      · rcases hr q hq with y | ⟨n, hn, y⟩
        · exact Or.inl y
        · exact Or.inr ⟨n, (step_ended s m n (Or.inl hn)).trans hn, y⟩
      · rcases List.mem_cons.1 hq with rfl | hq
        · exact Or.inr ⟨m, r, rfl⟩
        · rcases hr q hq with y | ⟨n, hn, y⟩
          · exact Or.inl y
          · exact Or.inr ⟨n, (step_ended s m n (Or.inl hn)).trans hn, y⟩
    · intro n
      by_cases x : n = m
      · subst x; exact key
      · rw [step_other s x]; exact h n

/-- How many steps a process still has to make at most. -/
def left (j : Job ν) : Pc → Nat
  | .start => j.path.length + 3
  | .checking k => k + 2
  | .found => 1
  | .creating => 1
  | .returned | .raised _ => 0

/-- **C154**: a process that makes a step for each name of its path and three more has ended, whatever others do between them. -/
theorem C154_ends (there full : List ν → Bool) (job : Nat → Job ν) (s : State ν) (i : Nat) (sched : List Nat)
    (h : left (job i) (s.pc i) ≤ sched.count i) :
    (run there full job s sched).pc i = .returned ∨ ∃ e, (run there full job s sched).pc i = .raised e := by
  induction sched generalizing s with
  | nil =>
    rw [show run there full job s [] = s from rfl]
    simp only [List.count_nil, Nat.le_zero] at h
    cases x : s.pc i <;> simp [x, left] at h ⊢
  | cons m rest ih =>
    refine ih (step there full job s m) ?_
    by_cases x : i = m
    · subst x
      rw [List.count_cons_self] at h
      have : left (job i) ((step there full job s i).pc i) ≤ left (job i) (s.pc i) - 1 := by
        unfold step
        repeat' split
        all_goals simp_all [State.goto, left]
      omega
    · rw [step_other s x]
      rwa [List.count_cons_of_ne (Ne.symm x)] at h

/-- Two processes create a repository, one inside the other: both looked before either created. -/
theorem C154_nested_counterexample :
    ∃ (job : Nat → Job Nat) (sched : List Nat), (job 0).path <+: (job 1).path ∧ (job 0).path ≠ (job 1).path ∧
      let s := run (fun _ => true) (fun _ => false) job (.init []) sched
      s.pc 0 = .returned ∧ s.pc 1 = .returned ∧ (job 0).path ∈ s.repos ∧ (job 1).path ∈ s.repos :=
  ⟨fun i => if i = 0 then ⟨[1], false⟩ else ⟨[1, 2], false⟩, [1, 1, 1, 1, 0, 0, 0, 0, 1], by decide, by decide, by decide⟩

/-- Two processes create a repository at the same path, and both are told that they did. -/
theorem C154_twice_counterexample :
    ∃ (job : Nat → Job Nat) (sched : List Nat), job 0 = job 1 ∧
      let s := run (fun _ => true) (fun _ => false) job (.init []) sched
      s.pc 0 = .returned ∧ s.pc 1 = .returned :=
  ⟨fun _ => ⟨[1], false⟩, [1, 1, 1, 0, 0, 0, 0, 1], rfl, by decide⟩

/-- Of two that clone to the same path the second is refused by git itself, after it has looked, or by `init`, if it looks later. -/
example :
    (let s := run (fun _ => true) (fun _ => false) (fun _ => ⟨[1], true⟩ : Nat → Job Nat) (.init [[7]]) [1, 1, 1, 0, 0, 0, 0, 1]
     s.pc 0 = .returned ∧ s.pc 1 = .raised .gitError) ∧
    (let s := run (fun _ => true) (fun _ => false) (fun _ => ⟨[1], true⟩ : Nat → Job Nat) (.init [[7]]) [0, 0, 0, 0, 1, 1, 1]
     s.pc 0 = .returned ∧ s.pc 1 = .raised .repoExistsError) := by decide

/-- Below a repository `init` raises, which exception depends on whether there is something at the path. -/
example : (run (fun p => p == [7, 1]) (fun _ => false) (fun i => ⟨[7, i], false⟩ : Nat → Job Nat) (.init [[7]]) [1, 1, 1, 1]).pc 1 = .raised .repoExistsError ∧
    (run (fun p => p == [7, 1]) (fun _ => false) (fun i => ⟨[7, i], false⟩ : Nat → Job Nat) (.init [[7]]) [2, 2, 2, 2]).pc 2 = .raised .assertionError := by decide

/-- The hypotheses of `C154_apart`, with one that clones. -/
example : (∀ i j : Nat, i ≠ j → ¬(Job.path ⟨[i], i == 0⟩) <+: (Job.path ⟨[j], j == 0⟩)) ∧
    (let s := run (fun _ => true) (fun _ => false) (fun i => ⟨[i], i == 0⟩ : Nat → Job Nat) (.init [[7, 8]]) [0, 1, 0, 1, 0, 1, 0, 1]
     s.pc 0 = .returned ∧ s.pc 1 = .returned) := by
  refine ⟨fun i j h hp => h ?_, by decide⟩
  simpa using hp

/-- **C154**: a process that is alone creates its repository if there is none at the path or above it (and git accepts the directory,
where it clones), and raises if there is one, as `C59_no_nesting` and `C59_raises` have it. -/
theorem C154_alone (there full : List ν → Bool) (job : Nat → Job ν) (repos : List (List ν)) (i n : Nat)
    (hn : (job i).path.length + 3 ≤ n) :
    (run there full job (.init repos) (List.replicate n i)).pc i =
      if ∃ q ∈ repos, q <+: (job i).path then
        .raised (if there (job i).path = true ∨ ∃ q ∈ repos, (job i).path <+: q then .repoExistsError else .assertionError)
      else if (job i).clone = true ∧ (full (job i).path = true ∨ ∃ q ∈ repos, (job i).path <+: q) then .raised .gitError
      else .returned := by
  have ends := C154_ends there full job (.init repos) i (List.replicate n i) (by simpa [State.init, left] using hn)
  have ex : ∀ f : List ν → Bool, (f (job i).path || repos.any ((job i).path.isPrefixOf ·)) = true ↔
      f (job i).path = true ∨ ∃ q ∈ repos, (job i).path <+: q := fun f => by simp
  clear hn
  suffices ∀ s : State ν, (s.pc i ≠ .returned → s.repos = repos) →
      (match s.pc i with
        | .start => True
        | .checking k => ∀ q ∈ repos, q <+: (job i).path → q.length ≤ k
        | .found => ∃ q ∈ repos, q <+: (job i).path
        | .creating => ∀ q ∈ repos, ¬q <+: (job i).path
        | x => x = if ∃ q ∈ repos, q <+: (job i).path then
            .raised (if there (job i).path = true ∨ ∃ q ∈ repos, (job i).path <+: q then .repoExistsError else .assertionError)
          else if (job i).clone = true ∧ (full (job i).path = true ∨ ∃ q ∈ repos, (job i).path <+: q) then .raised .gitError
          else .returned) →
      ((run there full job s (List.replicate n i)).pc i = .returned ∨ ∃ e, (run there full job s (List.replicate n i)).pc i = .raised e) →
      (run there full job s (List.replicate n i)).pc i = if ∃ q ∈ repos, q <+: (job i).path then
        .raised (if there (job i).path = true ∨ ∃ q ∈ repos, (job i).path <+: q then .repoExistsError else .assertionError)
      else if (job i).clone = true ∧ (full (job i).path = true ∨ ∃ q ∈ repos, (job i).path <+: q) then .raised .gitError
      else .returned from this _ (fun _ => rfl) trivial ends
  clear ends
  induction n with
  | zero =>
    intro s _ h r
    rw [show run there full job s (List.replicate 0 i) = s from rfl] at r ⊢
    rcases r with r | ⟨e, r⟩ <;> rw [r] at h ⊢ <;> exact h
  | succ n ih =>
    intro s hr h
    rw [List.replicate_succ]
    refine ih (step there full job s i) ?_ ?_
    · intro no
      rcases step_repos (there := there) (full := full) (job := job) s i with ⟨e, _⟩ | ⟨_, _, _, r⟩
      · rw [e]
        refine hr fun x => no ?_
        rw [step_ended s i i (Or.inl x), x]
      · exact absurd r no
    · cases x : s.pc i with
      | start => unfold step; simp only [x, State.goto, if_true]; exact fun q _ hp => hp.length_le
      | checking k =>
        have hrep := hr (by rw [x]; simp)
        rw [x] at h
        dsimp only at h
        unfold step
        simp only [x]
        rw [hrep]
        by_cases y : (job i).path.take k ∈ repos
        · simp only [if_pos y, State.goto, if_true]; exact ⟨_, y, List.take_prefix _ _⟩
        · rw [if_neg y]
          have small : ∀ q ∈ repos, q <+: (job i).path → q.length ≠ k := fun q hq hp e => by
            rw [List.prefix_iff_eq_take.1 hp, e] at hq; exact y hq
          cases k with
          | zero =>
            simp only [State.goto, if_true]
            exact fun q hq hp => small q hq hp (Nat.le_zero.1 (h q hq hp))
          | succ k =>
            simp only [State.goto, if_true]
            intro q hq hp
            have := h q hq hp
            have := small q hq hp
            omega
      | found =>
        have hrep := hr (by rw [x]; simp)
        rw [x] at h
        dsimp only at h
        unfold step
        simp only [x, State.goto, if_true, State.exists_, hrep, if_pos h, ex]
      | creating =>
        have hrep := hr (by rw [x]; simp)
        rw [x] at h
        dsimp only at h
        have no : ¬∃ q ∈ repos, q <+: (job i).path := fun ⟨q, a, b⟩ => h q a b
        unfold step
        simp only [x, State.refused, hrep, Bool.and_eq_true, ex, if_neg no]
        by_cases y : (job i).clone = true ∧ (full (job i).path = true ∨ ∃ q ∈ repos, (job i).path <+: q)
        · simp only [if_pos y, State.goto, if_true]
        · simp only [if_neg y, State.goto, if_true]
      | returned =>
        rw [x] at h
        rw [step_ended s i i (Or.inl x), x]
        exact h
      | raised e =>
        rw [x] at h
        rw [step_ended s i i (Or.inr ⟨e, x⟩), x]
        exact h

open FS Spec in
/-- **C154**: on the whole file system, with symlinks and relative paths, `init` in one process (`gitInit`, of which C59 speaks) does what
this model says of a process that is alone: it creates where that returns, and raises the same exception. -/
theorem C154_single (L : Limits) (t : Tree) (cwd : Path) (cached opens : Path → Bool) (hopens : ∀ w, opens w = true)
    (create : Tree → UserPath → Except PyErr Tree) (p : UserPath) (hp : p.absolute = true ∨ Reachable L t cwd)
    (hno : ∀ q, q <+: absolute cwd p → ¬GitRefused L t q) (repos : List Path)
    (hrep : ∀ q, q <+: absolute cwd p → (q ∈ repos ↔ HasGit L t q)) (there full : Path → Bool)
    (hth : pathExists L t cwd p = .ok (decide (there (absolute cwd p) = true ∨ ∃ q ∈ repos, absolute cwd p <+: q)))
    (job : Nat → Job Name) (i n : Nat) (hjob : job i = ⟨absolute cwd p, false⟩) (hn : (absolute cwd p).length + 3 ≤ n) :
    ((run there full job (.init repos) (List.replicate n i)).pc i = .returned ∧ gitInit L t cwd cached opens create p = create t p) ∨
    ∃ e, (run there full job (.init repos) (List.replicate n i)).pc i = .raised e ∧ gitInit L t cwd cached opens create p = .error e := by
  have alone := C154_alone there full job repos i n (by rw [hjob]; exact hn)
  rw [hjob] at alone
  dsimp only at alone
  obtain ⟨h1, h2, h3⟩ := C58_innermost L t cwd p hp
  cases hw : workingDir L t cwd p with
  | error e =>
    obtain ⟨q, a, b⟩ := h3 e hw
    exact absurd b (hno q a)
  | ok o =>
    cases o with
    | none =>
      left
      have none : ¬∃ q ∈ repos, q <+: absolute cwd p := fun ⟨q, a, b⟩ => h2 hw q b ((hrep q b).1 a)
      rw [if_neg none] at alone
      exact ⟨by simpa using alone, by rw [gitInit, hw]⟩
    | some w =>
      right
      obtain ⟨a, b, -⟩ := h1 w hw
      rw [if_pos ⟨w, (hrep w a).2 b, a⟩] at alone
      refine ⟨_, alone, ?_⟩
      have := (C59_raises L t cwd cached opens create p hp hw).2 (Or.inr (hopens w))
      by_cases x : there (absolute cwd p) = true ∨ ∃ q ∈ repos, absolute cwd p <+: q
      · rw [if_pos x]; exact this.1 (by rw [hth]; simp [x])
      · rw [if_neg x]; exact this.2 (by rw [hth]; simp [x])

open FS Spec in
/-- The hypotheses of `C154_single`, below the repository `/r`. -/
example : ∃ (t : Tree) (p : UserPath) (repos : List Path), p.absolute = true ∧ (∀ q, q <+: absolute [] p → ¬GitRefused ⟨255, 40⟩ t q) ∧
    (∀ q, q <+: absolute [] p → (q ∈ repos ↔ HasGit ⟨255, 40⟩ t q)) ∧ (∃ q ∈ repos, q <+: absolute [] p) ∧
    pathExists ⟨255, 40⟩ t [] p = .ok (decide ((false : Bool) = true ∨ ∃ q ∈ repos, absolute [] p <+: q)) := by
  let t : Tree := fun p => if p = [] ∨ p = [lit "r"] ∨ p = [lit "r", dotgit] then some (.dir true) else none
  have cases3 : ∀ q, q <+: [lit "r", lit "d"] → q = [] ∨ q = [lit "r"] ∨ q = [lit "r", lit "d"] := by
    intro q hq
    rcases List.prefix_cons_iff.1 hq with rfl | ⟨l, rfl, hl⟩
    · simp
    · rcases List.prefix_cons_iff.1 hl with rfl | ⟨l', rfl, hl'⟩
      · simp
      · simp [List.prefix_nil.1 hl']
  have g : ∀ q, q <+: [lit "r", lit "d"] → pathExists ⟨255, 40⟩ t [] ⟨true, q ++ [dotgit]⟩ = .ok (decide (q = [lit "r"])) := by
    intro q hq
    rcases cases3 q hq with rfl | rfl | rfl <;>
      simp [pathExists, test, stat, walk, start, node, t, lit, utf8, Char.utf8Size, dotgit, ignored]
  refine ⟨t, ⟨true, [lit "r", lit "d"]⟩, [[lit "r"]], rfl, ?_, ?_, ⟨[lit "r"], by simp, by decide⟩, ?_⟩
  · intro q hq hr
    obtain ⟨_, h, _⟩ := C52_false_partial ⟨255, 40⟩ t [] ⟨true, q ++ [dotgit]⟩
    obtain ⟨e, he⟩ := h.1 hr
    rw [g q hq] at he
    cases he
  · intro q hq
    have := g q hq
    by_cases x : q = [lit "r"]
    · subst x
      simp only [decide_true] at this
      simp [(hasGit_iff ⟨255, 40⟩ t [] [lit "r"]).1 this]
    · simp only [x, decide_false] at this
      simp [x, hasGit_false ⟨255, 40⟩ t [] q this]
  · simp [pathExists, test, stat, walk, start, t, lit, utf8, Char.utf8Size, dotgit, ignored, absolute]

end Verif.InitRace
