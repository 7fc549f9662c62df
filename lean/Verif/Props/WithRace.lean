import Verif.Model.WithRace
import Verif.Lemmas.Decide

/-!
# C144: `with path:` in several threads
-/

namespace Verif.WithRace

variable {D : Type}

theorem run_append (s : State D) (a b : List (Nat × Op D)) : run s (a ++ b) = run (run s a) b := by
  induction a generalizing s with
  | nil => rfl
  | cons i a ih => exact ih _

/-- Blocks, of any threads, one after the other or one inside the other. -/
inductive Nested : List (Nat × Op D) → Prop where
  | nil : Nested []
  | append {a b} : Nested a → Nested b → Nested (a ++ b)
  | block (t : Nat) (d : D) {a} : Nested a → Nested ((t, .ask d) :: (t, .go) :: (a ++ [(t, .leave)]))

theorem state_ext {s u : State D} (h1 : s.cwd = u.cwd) (h2 : s.entered = u.entered) (h3 : s.half = u.half) : s = u := by
  cases s; cases u; simp_all

/-- Entering a block. -/
theorem run_enter (s : State D) (t : Nat) (d : D) (h : s.half t = none) :
    run s [(t, .ask d), (t, .go)] = ⟨d, (s.setEntered t (s.cwd :: s.entered t)).entered, s.half⟩ := by
  refine state_ext ?_ ?_ ?_
  · simp [run, step, h, State.setHalf, State.setEntered]
  · simp [run, step, h, State.setHalf, State.setEntered]
  · funext u
    by_cases e : u = t
    · subst e; simp [run, step, h, State.setHalf, State.setEntered]
    · simp [run, step, h, State.setHalf, State.setEntered, e]

/-- **C144**: when the blocks of all threads are inside each other or one after the other, also those of different threads, then the working directory
and everything else is afterwards as it was. -/
theorem C144_nested {ops : List (Nat × Op D)} (hn : Nested ops) (s : State D) (h : ∀ t, s.half t = none) : run s ops = s := by
  induction hn generalizing s with
  | nil => rfl
  | append _ _ ih1 ih2 => rw [run_append, ih1 s h, ih2 s h]
  | @block t d a _ ih =>
    have e : run s ((t, .ask d) :: (t, .go) :: (a ++ [(t, .leave)])) = run (run (run s [(t, .ask d), (t, .go)]) a) [(t, .leave)] := by
      rw [← run_append, ← run_append]; rfl
    rw [e, run_enter s t d (h t), ih ⟨d, (s.setEntered t (s.cwd :: s.entered t)).entered, s.half⟩ h]
    refine state_ext ?_ ?_ ?_
    · simp [run, step, h, State.setEntered]
    · funext u
      by_cases eu : u = t
      · subst eu; simp [run, step, h, State.setEntered]
      · simp [run, step, h, State.setEntered, eu]
    · simp [run, step, h, State.setEntered]

/-- **C144**: and wherever the innermost block is in them, its body runs in its directory, before and after any blocks inside of it. -/
theorem C144_inside {ops : List (Nat × Op D)} (hn : Nested ops) (s : State D) (h : ∀ t, s.half t = none) (t : Nat) (d : D) :
    (run s ((t, .ask d) :: (t, .go) :: ops)).cwd = d := by
  have e : run s ((t, .ask d) :: (t, .go) :: ops) = run (run s [(t, .ask d), (t, .go)]) ops := by rw [← run_append]; rfl
  rw [e, run_enter s t d (h t), C144_nested hn ⟨d, (s.setEntered t (s.cwd :: s.entered t)).entered, s.half⟩ h]

/-- The calls of one thread. -/
def callsOf (t : Nat) (ops : List (Nat × Op D)) : List (Op D) := (ops.filter fun x => x.1 == t).map Prod.snd

/-- What python allows a thread to do: the number of blocks that it is in, and whether it is about to enter one. -/
def follow : Nat × Bool → List (Op D) → Option (Nat × Bool)
  | x, [] => some x
  | (n, false), .ask _ :: r => follow (n + 1, true) r
  | (n, true), .go :: r => follow (n, false) r
  | (n + 1, false), .leave :: r => follow (n, false) r
  | _, _ :: _ => none

theorem step_other (s : State D) {t u : Nat} (h : u ≠ t) (op : Op D) :
    (step s t op).entered u = s.entered u ∧ (step s t op).half u = s.half u := by
  unfold step
  split
  · split <;> simp [State.setHalf, State.setEntered, h]
  · split <;> simp [State.setHalf, State.setEntered, h]
  · split <;> simp [State.setHalf, State.setEntered, h]

/-- Whatever the others do, a thread that closes as many blocks as it opens has the same open blocks as before. -/
theorem run_entered (t : Nat) (base : List D) : ∀ (ops : List (Nat × Op D)) (s : State D) (pre : List D) (y : Nat × Bool),
    s.entered t = pre ++ base → follow (pre.length, (s.half t).isSome) (callsOf t ops) = some y →
    ∃ pre', (run s ops).entered t = pre' ++ base ∧ y = (pre'.length, ((run s ops).half t).isSome) := by
  intro ops
  induction ops with
  | nil =>
    intro s pre y h1 h2
    simp only [callsOf, List.filter_nil, List.map_nil, follow, Option.some.injEq] at h2
    exact ⟨pre, h1, h2.symm⟩
  | cons x ops ih =>
    obtain ⟨u, op⟩ := x
    intro s pre y h1 h2
    by_cases hu : u = t
    · subst hu
      have e : callsOf u ((u, op) :: ops) = op :: callsOf u ops := by simp [callsOf]
      rw [e] at h2
      cases op with
      | ask d =>
        cases hh : s.half u with
        | some d' => rw [hh] at h2; simp [follow] at h2
        | none =>
          rw [hh] at h2
          refine ih (step s u (.ask d)) (s.cwd :: pre) y ?_ ?_
          · simp [step, hh, State.setHalf, State.setEntered, h1]
          · simpa [step, hh, State.setHalf, State.setEntered, follow] using h2
      | go =>
        cases hh : s.half u with
        | none => rw [hh] at h2; simp [follow] at h2
        | some d' =>
          rw [hh] at h2
          refine ih (step s u .go) pre y ?_ ?_
          · simp [step, hh, State.setHalf, h1]
          · simpa [step, hh, State.setHalf, follow] using h2
      | leave =>
        cases hh : s.half u with
        | some d' => rw [hh] at h2; cases pre <;> simp [follow] at h2
        | none =>
          rw [hh] at h2
          cases pre with
          | nil => simp [follow] at h2
          | cons a pre =>
            refine ih (step s u .leave) pre y ?_ ?_
            · simp [step, hh, State.setEntered, h1]
            · simpa [step, hh, State.setEntered, h1, follow] using h2
    · have e : callsOf t ((u, op) :: ops) = callsOf t ops := by simp [callsOf, hu]
      rw [e] at h2
      have ho := step_other s (t := u) (u := t) (fun h => hu h.symm) op
      exact ih (step s u op) pre y (ho.1.trans h1) (by rw [ho.2]; exact h2)

/-- **C144**: whatever the other threads do in the meantime, when a block is left the working directory is the one that it was entered from. -/
theorem C144_left (s : State D) (t : Nat) (d : D) (ops : List (Nat × Op D)) (h : s.half t = none)
    (ho : follow (0, true) (callsOf t ops) = some (0, false)) :
    (run s ((t, .ask d) :: (ops ++ [(t, .leave)]))).cwd = s.cwd ∧
    (run s ((t, .ask d) :: (ops ++ [(t, .leave)]))).entered t = s.entered t ∧
    (run s ((t, .ask d) :: (ops ++ [(t, .leave)]))).half t = none := by
  have e : run s ((t, .ask d) :: (ops ++ [(t, .leave)])) = step (run (step s t (.ask d)) ops) t .leave := by
    show run (step s t (.ask d)) (ops ++ [(t, .leave)]) = _
    rw [run_append]; rfl
  have h1 : (step s t (.ask d)).entered t = [] ++ (s.cwd :: s.entered t) := by simp [step, h, State.setHalf, State.setEntered]
  have h2 : (step s t (.ask d)).half t = some d := by simp [step, h, State.setHalf]
  obtain ⟨pre, h3, h4⟩ := run_entered t (s.cwd :: s.entered t) ops (step s t (.ask d)) [] (0, false) h1 (by rw [h2]; exact ho)
  simp only [Prod.mk.injEq] at h4
  have hp : pre = [] := List.eq_nil_of_length_eq_zero h4.1.symm
  have hh : (run (step s t (.ask d)) ops).half t = none := by
    cases hx : (run (step s t (.ask d)) ops).half t with
    | none => rfl
    | some y => rw [hx] at h4; cases h4.2
  rw [hp, List.nil_append] at h3
  rw [e]
  generalize run (step s t (.ask d)) ops = u at h3 hh
  simp [step, hh, h3, State.setEntered]

/-- **C144**: so the working directory comes back, whatever the other threads do, if a block that was entered before all others is left after all
others; and it is what the last block to be left was entered from. -/
theorem C144_last (cwd : D) (before ops : List (Nat × Op D)) (t : Nat) (d : D) (h : (run (.init cwd) before).half t = none)
    (ho : follow (0, true) (callsOf t ops) = some (0, false)) :
    (run (.init cwd) (before ++ (t, .ask d) :: (ops ++ [(t, .leave)]))).cwd = (run (.init cwd) before).cwd := by
  rw [run_append]
  exact (C144_left _ t d ops h ho).1

/-- **C144**: the body of a block runs in its directory as long as no other thread enters or leaves a block. -/
theorem C144_body (s : State D) (t : Nat) (d : D) (between ops : List (Nat × Op D)) (h : s.half t = none) (hb : ∀ x ∈ between, x.1 ≠ t)
    (ho : ∀ x ∈ ops, x.1 ≠ t ∧ ∃ d, x.2 = .ask d) : (run s ((t, .ask d) :: (between ++ (t, .go) :: ops))).cwd = d := by
  have hs : ∀ (l : List (Nat × Op D)) (s : State D), (∀ x ∈ l, x.1 ≠ t) → (run s l).half t = s.half t := by
    intro l
    induction l with
    | nil => intro s _; rfl
    | cons x l ih =>
      intro s hl
      exact (ih _ fun y hy => hl y (List.mem_cons_of_mem _ hy)).trans
        (step_other s (fun e => hl x List.mem_cons_self e.symm) x.2).2
  have hc : ∀ (l : List (Nat × Op D)) (s : State D), (∀ x ∈ l, ∃ d, x.2 = .ask d) → (run s l).cwd = s.cwd := by
    intro l
    induction l with
    | nil => intro s _; rfl
    | cons x l ih =>
      obtain ⟨u, op⟩ := x
      intro s hl
      obtain ⟨d, hd⟩ := hl _ List.mem_cons_self
      have hd : op = .ask d := hd
      subst hd
      refine (ih _ fun y hy => hl y (List.mem_cons_of_mem _ hy)).trans ?_
      simp only [step]
      split <;> rfl
  have e : run s ((t, .ask d) :: (between ++ (t, .go) :: ops)) = run (step (run (step s t (.ask d)) between) t .go) ops := by
    show run (step s t (.ask d)) (between ++ (t, .go) :: ops) = _
    rw [run_append]; rfl
  rw [e, hc ops _ fun x hx => (ho x hx).2]
  have hh : (run (step s t (.ask d)) between).half t = some d := by
    rw [hs between _ hb]; simp [step, h, State.setHalf]
  generalize run (step s t (.ask d)) between = u at hh
  simp [step, hh]

/-- **C144 is false** for blocks that overlap: after two threads have left their blocks the working directory is that of one of the blocks. -/
theorem C144_stays_counterexample (c d d' : D) :
    (run (.init c) [(0, .ask d), (0, .go), (1, .ask d'), (1, .go), (0, .leave), (1, .leave)]).cwd = d := by
  simp [run, step, State.init, State.setHalf, State.setEntered]

/-- **C144 is false** for blocks that overlap: the body of a block runs in the directory from before, or in that of the block of another thread. -/
theorem C144_body_counterexample (c d d' : D) :
    (run (.init c) [(0, .ask d), (0, .go), (1, .ask d'), (1, .go), (0, .leave)]).cwd = c ∧
    (run (.init c) [(0, .ask d), (0, .go), (1, .ask d'), (1, .go), (0, .leave)]).entered 1 = [d] ∧
    (run (.init c) [(0, .ask d), (1, .ask d'), (0, .go), (1, .go)]).cwd = d' := by
  simp [run, step, State.init, State.setHalf, State.setEntered]

-- C144_nested: a block of thread 1 inside one of thread 0, and another one after it
example : Nested [(0, .ask 'a'), (0, .go), (1, .ask 'b'), (1, .go), (1, .leave), (0, .leave), (1, .ask 'c'), (1, .go), (1, .leave)] :=
  .append (a := [(0, .ask 'a'), (0, .go), (1, .ask 'b'), (1, .go), (1, .leave), (0, .leave)]) (b := [(1, .ask 'c'), (1, .go), (1, .leave)])
    (.block 0 'a' (a := [(1, .ask 'b'), (1, .go), (1, .leave)]) (.block 1 'b' .nil)) (.block 1 'c' .nil)

-- C144_left: the other thread enters, and leaves after that
example : follow (0, true) (callsOf 0 [((1 : Nat), .ask 'b'), (0, .go), (1, .go), (0, .ask 'c'), (0, .go), (1, .leave), (0, .leave)]) = some (0, false) := by
  decide

end Verif.WithRace
