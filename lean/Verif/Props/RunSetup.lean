import Verif.Model.RunSetup
import Verif.Lemmas.Decide

/-!
# C109: what a setup file is told, and that nothing of it stays
-/

namespace Verif.RunSetup

/-! ## Specification -/

/-- The file, and those that it runs, do not call `run_setup` themselves. -/
def Plain : List Act → Prop
  | [] => True
  | .rerun _ :: _ => False
  | .nested _ f :: r => Plain f ∧ Plain r
  | _ :: r => Plain r

/-- What the calls of `setup` in a file come to: the arguments of the last one, of the calls in the file itself; `b` says that the name
was imported, and `last` is the last call before. -/
def walk (b : Bool) (last : Option Nat) : List Act → Except PyErr (Option Nat)
  | [] => .ok last
  | .bind :: r => walk true last r
  | .callBound a :: r => if b then walk b (some a) r else .error .nameError
  | .call a :: r => walk b (some a) r
  | .nested caught f :: r =>
    match walk false none f with
    | .error e => if caught then walk b last r else .error e
    | .ok none => if caught then walk b last r else .error .typeError
    | .ok (some _) => walk b last r
  | .rerun _ :: r => walk b last r
  | .level _ :: r => walk b last r
  | .raise e :: _ => .error e

/-- The arguments of the last call of `setup` in a file; without a call it is a `TypeError`. -/
def told (f : File) : Except PyErr Nat :=
  match walk false none f with
  | .error e => .error e
  | .ok none => .error .typeError
  | .ok (some a) => .ok a

/-! ## Proofs -/

/-- What holds after the actions of run `n`. -/
def After (n : Nat) (s : St) (w : Except PyErr (Option Nat)) (r : Except PyErr Unit × St) : Prop :=
  r.2.current = .fake n ∧ r.2.real = s.real ∧ s.next ≤ r.2.next ∧ (∀ k, k < s.next → k ≠ n → r.2.cell k = s.cell k) ∧
  match w with
  | .error e => r.1 = .error e
  | .ok l => r.1 = .ok () ∧ r.2.cell n = l

theorem exec_after : ∀ (m : Nat) (f : List Act), sizeOf f ≤ m → Plain f → ∀ (s : St) (n : Nat) (bound : Option Fn),
    s.current = .fake n → n < s.next → (bound = none ∨ bound = some (.fake n)) →
    After n s (walk bound.isSome (s.cell n) f) (exec bound f s) := by
  intro m
  induction m with
  | zero => intro f h; cases f <;> simp at h
  | succ m ih =>
    intro f hf hp s n bound hc hn hb
    cases f with
    | nil => exact ⟨by simpa [exec] using hc, rfl, Nat.le_refl _, fun _ _ _ => rfl, by simp [walk, exec]⟩
    | cons a r =>
      have hr : sizeOf r ≤ m := by simp at hf; omega
      -- a call that is noted
      have noted : ∀ (x : Nat), Plain r → After n s (walk bound.isSome (some x) r) (exec bound r (s.apply (.fake n) x)) := by
        intro x hp
        have := ih r hr hp (s.apply (.fake n) x) n bound hc hn hb
        obtain ⟨h1, h2, h3, h4, h5⟩ := this
        refine ⟨h1, h2, h3, ?_, ?_⟩
        · intro k hk hkn
          rw [h4 k hk hkn]
          simp [St.apply, hkn]
        · simpa [St.apply] using h5
      cases a with
      | bind =>
        rw [walk, exec, act]
        have := ih r hr (by simpa [Plain] using hp) s n (some s.current) hc hn (.inr (by rw [hc]))
        simpa using this
      | callBound x =>
        rw [walk, exec, act.eq_def]
        rcases hb with rfl | rfl
        · exact ⟨hc, rfl, Nat.le_refl _, fun _ _ _ => rfl, rfl⟩
        · simpa using noted x (by simpa [Plain] using hp)
      | call x =>
        rw [walk, exec, act, hc]
        exact noted x (by simpa [Plain] using hp)
      | rerun g => exact absurd hp (by simp [Plain])
      | level l =>
        rw [walk, exec, act]
        exact ih r hr (by simpa [Plain] using hp) { s with level := l } n bound hc hn hb
      | raise e =>
        rw [walk, exec, act]
        exact ⟨hc, rfl, Nat.le_refl _, fun _ _ _ => rfl, rfl⟩
      | nested caught g =>
        obtain ⟨hpg, hpr⟩ := (by simpa [Plain] using hp : Plain g ∧ Plain r)
        have hg : sizeOf g ≤ m := by simp at hf; omega
        obtain ⟨h1, h2, h3, h4, h5⟩ := ih g hg hpg s.load.begin s.next none rfl (Nat.lt_succ_self _) (.inl rfl)
        have hcell : s.load.begin.cell s.next = none := by simp [St.load, St.begin]
        rw [hcell] at h5
        simp only [Option.isSome_none] at h5
        have h4' : ∀ k, k < s.next → (exec none g s.load.begin).2.cell k = s.cell k := by
          intro k hk
          rw [h4 k (by simp [St.load, St.begin]; omega) (by omega)]
          have hne : k ≠ s.next := by omega
          simp [St.load, St.begin, hne]
        have h3' : s.next + 1 ≤ (exec none g s.load.begin).2.next := h3
        have h2' : (exec none g s.load.begin).2.real = s.real := h2
        rw [walk, exec, act]
        -- going on after the other file
        have on : ∀ (x : Except PyErr Unit) (q : St) (b : Except PyErr Nat), exec none g s.load.begin = (x, q) →
            After n s (walk bound.isSome (s.cell n) r) (exec bound r { { q with current := s.current } with level := s.level }) := by
          intro x q b he
          rw [he] at h3' h4' h2'
          have := ih r hr hpr { { q with current := s.current } with level := s.level } n bound hc
            (Nat.lt_of_lt_of_le hn (Nat.le_of_succ_le h3')) hb
          obtain ⟨k1, k2, k3, k4, k5⟩ := this
          refine ⟨k1, k2.trans h2', Nat.le_trans (Nat.le_of_succ_le h3') k3, ?_, ?_⟩
          · intro k hk hkn
            rw [k4 k (Nat.lt_of_lt_of_le hk (Nat.le_of_succ_le h3')) hkn]
            exact h4' k hk
          · have : q.cell n = s.cell n := h4' n hn
            simp only [this] at k5
            exact k5
        -- stopping there
        have stop : ∀ (e : PyErr) (q : St) (x : Except PyErr Unit), exec none g s.load.begin = (x, q) →
            After n s (.error e) (.error e, { { q with current := s.current } with level := s.level }) := by
          intro e q x he
          rw [he] at h3' h4' h2'
          exact ⟨hc, h2', Nat.le_of_succ_le h3', fun k hk _ => h4' k hk, rfl⟩
        cases hx : exec none g s.load.begin with
        | mk x q =>
          rw [hx] at h5
          cases hw : walk false none g with
          | error e =>
            rw [hw] at h5
            simp only at h5
            subst h5
            simp only [St.finish, St.quiet]
            cases caught with
            | true => simpa using on _ q (.error e) hx
            | false => simpa using stop e q _ hx
          | ok l =>
            rw [hw] at h5
            obtain ⟨h5, h6⟩ := h5
            simp only at h5 h6
            subst h5
            simp only [St.finish, h6, St.quiet]
            cases l with
            | some x => simpa using on _ q (.ok x) hx
            | none =>
              cases caught with
              | true => simpa using on _ q (.error .typeError) hx
              | false => simpa using stop .typeError q _ hx

/-- **C109**: whatever is in the file, and whether it raises or not, `setuptools.setup` and the level of the logger are afterwards what
they were before. -/
theorem C109_restored (f : File) (s : St) : (setupfu f s).2.current = s.current ∧ (setupfu f s).2.level = s.level := by
  unfold setupfu runSetup
  generalize exec none f s.load.begin = x
  obtain ⟨x, q⟩ := x
  cases x <;> exact ⟨rfl, rfl⟩

/-- **C109** (partial: the file and those it runs do not call `run_setup` themselves): the answer is the arguments of the last call of
`setup` in the file itself, whatever was run before and whatever other files it runs.  (Full claim: for all files.) -/
theorem C109_told_partial (f : File) (hp : Plain f) (s : St) : (setupfu f s).1 = told f := by
  obtain ⟨_, _, _, _, h5⟩ := exec_after _ f (Nat.le_refl _) hp s.load.begin s.next none rfl (Nat.lt_succ_self _) (.inl rfl)
  have hcell : s.load.begin.cell s.next = none := by simp [St.load, St.begin]
  rw [hcell] at h5
  simp only [Option.isSome_none] at h5
  unfold setupfu runSetup told
  have hn : s.load.next = s.next := rfl
  rw [hn]
  generalize exec none f s.load.begin = x at h5 ⊢
  obtain ⟨x, q⟩ := x
  cases hw : walk false none f with
  | error e =>
    rw [hw] at h5
    simp only at h5
    subst h5
    rfl
  | ok l =>
    rw [hw] at h5
    obtain ⟨h5, h6⟩ := h5
    simp only at h5 h6
    subst h5
    simp only [St.finish, h6, St.quiet]
    cases l <;> rfl

/-- **C109** (partial, as above): the function of setuptools is never called, and what other runs were told is not changed. -/
theorem C109_only_told_partial (f : File) (hp : Plain f) (s : St) :
    (setupfu f s).2.real = s.real ∧ ∀ k, k < s.next → (setupfu f s).2.cell k = s.cell k := by
  obtain ⟨_, h2, _, h4, _⟩ := exec_after _ f (Nat.le_refl _) hp s.load.begin s.next none rfl (Nat.lt_succ_self _) (.inl rfl)
  unfold setupfu runSetup
  have h4' : ∀ k, k < s.next → (exec none f s.load.begin).2.cell k = s.cell k := by
    intro k hk
    rw [h4 k (by simp [St.load, St.begin]; omega) (by omega)]
    have hne : k ≠ s.next := by omega
    simp [St.load, St.begin, hne]
  have h2' : (exec none f s.load.begin).2.real = s.real := h2
  generalize exec none f s.load.begin = x at h2' h4' ⊢
  obtain ⟨x, q⟩ := x
  cases x <;> exact ⟨h2', h4'⟩

/-- An action of a file that is a call of `setup` with these arguments. -/
def Act.Calls (a : Act) (args : Nat) : Prop := a = .call args ∨ a = .callBound args

theorem walk_ok : ∀ (f : List Act) (b : Bool) (last : Option Nat) (l : Option Nat), walk b last f = .ok l →
    (l = last ∧ ∀ a ∈ f, ∀ x, ¬ a.Calls x) ∨
    ∃ pre a post x, f = pre ++ a :: post ∧ a.Calls x ∧ l = some x ∧ ∀ c ∈ post, ∀ y, ¬ c.Calls y := by
  intro f
  induction f with
  | nil => intro b last l h; rw [walk] at h; cases h; exact .inl ⟨rfl, by simp⟩
  | cons a r ih =>
    intro b last l h
    have skip : (∀ x, ¬ a.Calls x) → ∀ b', walk b' last r = .ok l → (l = last ∧ ∀ c ∈ a :: r, ∀ x, ¬ c.Calls x) ∨
        ∃ pre c post x, a :: r = pre ++ c :: post ∧ c.Calls x ∧ l = some x ∧ ∀ d ∈ post, ∀ y, ¬ d.Calls y := by
      intro ha b' h
      rcases ih b' last l h with ⟨h1, h2⟩ | ⟨pre, c, post, x, h1, h2⟩
      · refine .inl ⟨h1, ?_⟩
        intro c hc
        rcases List.mem_cons.1 hc with rfl | hc
        · exact ha
        · exact h2 c hc
      · exact .inr ⟨a :: pre, c, post, x, by rw [h1]; rfl, h2⟩
    have noted : ∀ x, a.Calls x → walk b (some x) r = .ok l → (l = last ∧ ∀ c ∈ a :: r, ∀ x, ¬ c.Calls x) ∨
        ∃ pre c post x, a :: r = pre ++ c :: post ∧ c.Calls x ∧ l = some x ∧ ∀ d ∈ post, ∀ y, ¬ d.Calls y := by
      intro x ha h
      rcases ih b (some x) l h with ⟨h1, h2⟩ | ⟨pre, c, post, x, h1, h2⟩
      · exact .inr ⟨[], a, r, x, rfl, ha, h1, h2⟩
      · exact .inr ⟨a :: pre, c, post, x, by rw [h1]; rfl, h2⟩
    cases a with
    | bind => rw [walk] at h; exact skip (by simp [Act.Calls]) _ h
    | callBound x =>
      rw [walk] at h
      split at h
      · exact noted x (.inr rfl) h
      · cases h
    | call x => rw [walk] at h; exact noted x (.inl rfl) h
    | rerun g => rw [walk] at h; exact skip (by simp [Act.Calls]) _ h
    | level g => rw [walk] at h; exact skip (by simp [Act.Calls]) _ h
    | raise e => rw [walk] at h; cases h
    | nested caught g =>
      rw [walk] at h
      split at h
      · split at h
        · exact skip (by simp [Act.Calls]) _ h
        · cases h
      · split at h
        · exact skip (by simp [Act.Calls]) _ h
        · cases h
      · exact skip (by simp [Act.Calls]) _ h

/-- **C109**: an answer is the arguments of the last call of `setup` in the file itself. -/
theorem C109_last_call (f : File) (hp : Plain f) (s : St) (x : Nat) (h : (setupfu f s).1 = .ok x) :
    ∃ pre a post, f = pre ++ a :: post ∧ a.Calls x ∧ ∀ c ∈ post, ∀ y, ¬ c.Calls y := by
  rw [C109_told_partial f hp s, told] at h
  split at h
  · cases h
  · cases h
  · rename_i y hy
    cases h
    rcases walk_ok f false none _ hy with ⟨h1, _⟩ | ⟨pre, a, post, x, h1, h2, h3, h4⟩
    · cases h1
    · cases h3
      exact ⟨pre, a, post, h1, h2, h4⟩

/-- A state in which nothing was run yet. -/
def fresh : St := ⟨.real, none, fun _ => none, 0, [], 30⟩

example : Plain [.bind, .nested true [.raise .valueError], .level 10, .callBound 1, .nested false [.call 7], .callBound 2] := by
  simp [Plain]
example : told [.bind, .nested true [.raise .valueError], .level 10, .callBound 1, .nested false [.call 7], .callBound 2] = .ok 2 := by
  simp [told, walk]
example : told [.callBound 1] = .error .nameError ∧ told [.bind] = .error .typeError := by simp [told, walk]

/-- **C109 is false** for a file that calls `run_setup` itself: when that returns, the function of setuptools is in its place, although
the file is still running; the next call of it is a real one, and is not noted. -/
theorem C109_rerun_counterexample :
    (setupfu [.rerun [.call 1], .call 2] fresh).1 = .error .typeError ∧ (setupfu [.rerun [.call 1], .call 2] fresh).2.real = [2] := by
  decide +kernel

end Verif.RunSetup
