import Verif.Model.MoveRace
import Verif.Lemmas.Decide
import Verif.Props.MoveCache

/-!
# C143: moving the same file from several processes
-/

namespace Verif.MoveRace

variable {known : Nat → Known}

/-- What is at the path of the file, at the target and at the path beside it. -/
def places (s : State) : Option Obj × Option Obj × Option Obj := (s.at_ .self, s.at_ .target, s.at_ .safe)

/-- The file is at one of the three paths. -/
def FileThere (s : State) : Prop := ∃ p, s.at_ p = some .file

theorem goto_self (s : State) (i : Nat) (pc : Pc) : (s.goto i pc).pc i = pc := by simp [State.goto]

theorem goto_other (s : State) {i j : Nat} (h : j ≠ i) (pc : Pc) : (s.goto i pc).pc j = s.pc j := by simp [State.goto, h]

theorem move_pc {s t : State} {p q : Place} (h : s.move p q = some t) : t.pc = s.pc := by
  simp only [State.move, Option.map_eq_some_iff] at h
  obtain ⟨x, -, rfl⟩ := h
  rfl

theorem step_other (s : State) {i j : Nat} (h : j ≠ i) : (step known s i).pc j = s.pc j := by
  unfold step
  split
  all_goals first
    | rfl
    | exact goto_other _ h _
    | (split
       · rename_i e; first | exact (goto_other _ h _).trans (congrFun (move_pc e) j) | exact goto_other _ h _
       · exact goto_other _ h _)

/-- What the call of a process that is so far does to the paths and how far it is then. -/
def local_ (k : Known) (c : Option Obj × Option Obj × Option Obj) : Pc → (Option Obj × Option Obj × Option Obj) × Pc
  | .look => (c, if c.2.1.isSome then .seen else .exists_)
  | .seen => (c, .compare (k.target || c.2.1.isSome))
  | .compare had => (c, if had = (k.self || c.1.isSome) then .exists_ else .raised)
  | .exists_ => (c, if c.1 = some .file then .linked else .returned)
  | .linked => (c, if c.2.1 = some .link then .aside else .rename)
  | .aside => if c.2.1.isSome then ((c.1, none, c.2.1), .rename) else (c, .failed)
  | .rename => if c.1.isSome then ((none, c.1, c.2.2), .finally_ false) else (c, .failed)
  | .failed => (c, if c.2.2 = some .link then .restore else .finally_ false)
  | .restore => if c.2.2.isSome then ((c.1, c.2.2, none), .finally_ false) else (c, .finally_ true)
  | .finally_ r => (c, if c.2.2 = some .link then .clean r else over r)
  | .clean r => if c.2.2.isSome then ((c.1, c.2.1, none), over r) else (c, .raised)
  | .returned => (c, .returned)
  | .raised => (c, .raised)

theorem step_local (s : State) (i : Nat) : (places (step known s i), (step known s i).pc i) = local_ (known i) (places s) (s.pc i) := by
  unfold step
  cases h : s.pc i <;> simp only [local_, places, State.goto, State.move, if_true]
  case aside => rcases Option.eq_none_or_eq_some (s.at_ .target) with hx | ⟨x, hx⟩ <;> simp [State.put, hx]
  case rename => rcases Option.eq_none_or_eq_some (s.at_ .self) with hx | ⟨x, hx⟩ <;> simp [State.put, hx]
  case restore => rcases Option.eq_none_or_eq_some (s.at_ .safe) with hx | ⟨x, hx⟩ <;> simp [State.put, hx]
  case clean => rcases Option.eq_none_or_eq_some (s.at_ .safe) with hx | ⟨x, hx⟩ <;> simp [State.put, hx]
  case returned => simp [h]
  case raised => simp [h]
  all_goals rfl

/-- The ways in which the file and the symlink can be at the three paths. -/
def ways : List (Option Obj × Option Obj × Option Obj) :=
  [(some .file, some .link, none), (some .file, none, some .link), (some .file, none, none), (none, some .file, some .link),
    (none, some .file, none), (none, none, some .file), (none, some .link, none), (none, none, some .link), (none, none, none)]

theorem ways_local : ∀ k, ∀ c ∈ ways, ∀ pc, (local_ k c pc).1 ∈ ways := by
  intro k c hc pc
  simp only [ways, List.mem_cons, List.not_mem_nil, or_false] at hc
  rcases hc with rfl | rfl | rfl | rfl | rfl | rfl | rfl | rfl | rfl <;> cases pc <;> simp [local_, ways]

theorem run_append (s : State) (a b : List Nat) : run known s (a ++ b) = run known (run known s a) b := by
  induction a generalizing s with
  | nil => rfl
  | cons i a ih => exact ih _

/-- **C143**: whatever the processes do, at each moment the file is at most at one of the paths, and so is the symlink; the two are never mixed
up, and the file never goes back. -/
theorem C143_ways (known : Nat → Known) (link : Bool) (sched : List Nat) : places (run known (.init link) sched) ∈ ways := by
  have h : ∀ (sched : List Nat) (s : State), places s ∈ ways → places (run known s sched) ∈ ways := by
    intro sched
    induction sched with
    | nil => exact fun s h => h
    | cons i sched ih =>
      intro s h
      refine ih _ ?_
      have := congrArg Prod.fst (step_local (known := known) s i)
      dsimp only at this
      rw [this]
      exact ways_local _ _ h _
  exact h sched _ (by cases link <;> simp [places, State.init, ways])

/-- Nothing but the file is there. -/
def Clear (s : State) : Prop :=
  s.at_ .safe = none ∧
  (s.at_ .self = some .file ∧ s.at_ .target = none ∧
      (∀ i, s.pc i = .look ∨ s.pc i = .exists_ ∨ s.pc i = .linked ∨ s.pc i = .rename) ∨
    s.at_ .self = none ∧ s.at_ .target = some .file ∧
      ∀ i, s.pc i ≠ .compare false ∧ s.pc i ≠ .aside ∧ s.pc i ≠ .restore ∧ ∀ r, s.pc i ≠ .clean r)

theorem clear_step {s : State} (h : Clear s) (i : Nat) : Clear (step known s i) := by
  have hl := step_local (known := known) s i
  obtain ⟨h0, ⟨h1, h2, h3⟩ | ⟨h1, h2, h3⟩⟩ := h
  · simp only [places, h0, h1, h2] at hl
    rcases h3 i with e | e | e | e <;> rw [e] at hl <;> simp [local_] at hl <;> obtain ⟨⟨a, b, c⟩, d⟩ := hl
    · refine ⟨c, .inl ⟨a, b, fun j => ?_⟩⟩
      by_cases hj : j = i
      · subst hj; simp [d]
      · rw [step_other s hj]; exact h3 j
    · refine ⟨c, .inl ⟨a, b, fun j => ?_⟩⟩
      by_cases hj : j = i
      · subst hj; simp [d]
      · rw [step_other s hj]; exact h3 j
    · refine ⟨c, .inl ⟨a, b, fun j => ?_⟩⟩
      by_cases hj : j = i
      · subst hj; simp [d]
      · rw [step_other s hj]; exact h3 j
    · refine ⟨c, .inr ⟨a, b, fun j => ?_⟩⟩
      by_cases hj : j = i
      · subst hj; simp [d]
      · rw [step_other s hj]; rcases h3 j with e | e | e | e <;> simp [e]
  · simp only [places, h0, h1, h2] at hl
    obtain ⟨n1, n2, n3, n4⟩ := h3 i
    have : ∃ pc, local_ (known i) (none, some .file, none) (s.pc i) = ((none, some .file, none), pc) ∧
        pc ≠ .compare false ∧ pc ≠ .aside ∧ pc ≠ .restore ∧ ∀ r, pc ≠ .clean r := by
      cases e : s.pc i <;> simp_all [local_]
      case finally_ r => cases r <;> simp [over]
      case compare => split <;> simp
    obtain ⟨pc, e, n⟩ := this
    rw [e] at hl
    simp only [Prod.mk.injEq] at hl
    obtain ⟨⟨a, b, c⟩, d⟩ := hl
    refine ⟨c, .inr ⟨a, b, fun j => ?_⟩⟩
    by_cases hj : j = i
    · subst hj; rw [d]; exact n
    · rw [step_other s hj]; exact h3 j

theorem clear_run (sched : List Nat) {s : State} (h : Clear s) : Clear (run known s sched) := by
  induction sched generalizing s with
  | nil => exact h
  | cons i sched ih => exact ih (clear_step h i)

/-- **C143**: with nothing at the target, any number of processes may move the file at once: at each moment it is at its old path or at the target,
with nothing else at the other paths, and when one of the processes has returned or raised it is at the target and stays there. -/
theorem C143_clear (known : Nat → Known) (sched : List Nat) :
    (places (run known (.init false) sched) = (some .file, none, none) ∨ places (run known (.init false) sched) = (none, some .file, none)) ∧
    ∀ i, (run known (.init false) sched).pc i = .returned ∨ (run known (.init false) sched).pc i = .raised →
      ∀ later, places (run known (.init false) (sched ++ later)) = (none, some .file, none) := by
  have hc : Clear (.init false) := ⟨rfl, .inl ⟨rfl, rfl, fun _ => .inl rfl⟩⟩
  refine ⟨?_, fun i hi later => ?_⟩
  · obtain ⟨h0, ⟨h1, h2, -⟩ | ⟨h1, h2, -⟩⟩ := clear_run (known := known) sched hc
    · exact .inl (by simp [places, h0, h1, h2])
    · exact .inr (by simp [places, h0, h1, h2])
  · rw [run_append]
    have hs := clear_run (known := known) sched hc
    generalize run known (.init false) sched = s at hi hs
    obtain ⟨h0, ⟨h1, h2, h3⟩ | ⟨h1, h2, h3⟩⟩ := hs
    · rcases h3 i with e | e | e | e <;> rw [e] at hi <;> simp at hi
    · have stay : ∀ (later : List Nat) (s : State), Clear s → s.at_ .self = none → places (run known s later) = (none, some .file, none) := by
        intro later
        induction later with
        | nil =>
          intro s hs h
          obtain ⟨h0, ⟨h1, -⟩ | ⟨h1, h2, -⟩⟩ := hs
          · rw [h] at h1; cases h1
          · simp [run, places, h0, h1, h2]
        | cons j later ih =>
          intro s hs h
          refine ih _ (clear_step hs j) ?_
          have hl := congrArg (fun x => x.1.1) (step_local (known := known) s j)
          have hself : (step known s j).at_ .self = (local_ (known j) (places s) (s.pc j)).1.1 := hl
          rw [hself]
          generalize hc : places s = c
          have hc1 : c.1 = none := by rw [← hc]; exact h
          cases s.pc j <;> simp [local_, hc1] <;> split <;> simp [hc1]
      exact stay later s ⟨h0, .inr ⟨h1, h2, h3⟩⟩ h1

/-- **C143**: with a symlink at the target, exactly two calls lose the file, each because of what another process did after it looked: removing what
is beside the target when that is the file by now, and putting the symlink back over the file. -/
theorem C143_lost_iff (known : Nat → Known) (link : Bool) (sched : List Nat) (i : Nat) (h : FileThere (run known (.init link) sched)) :
    ¬ FileThere (step known (run known (.init link) sched) i) ↔
      (∃ r, (run known (.init link) sched).pc i = .clean r ∧ (run known (.init link) sched).at_ .safe = some .file) ∨
      ((run known (.init link) sched).pc i = .restore ∧ (run known (.init link) sched).at_ .safe = some .link ∧
        (run known (.init link) sched).at_ .target = some .file) := by
  have hw := C143_ways known link sched
  generalize run known (.init link) sched = s at h hw ⊢
  have hl := congrArg Prod.fst (step_local (known := known) s i)
  dsimp only at hl
  have there : ∀ t : State, FileThere t ↔ (places t).1 = some .file ∨ (places t).2.1 = some .file ∨ (places t).2.2 = some .file := by
    intro t
    constructor
    · rintro ⟨p, hp⟩
      cases p
      · exact .inl hp
      · exact .inr (.inl hp)
      · exact .inr (.inr hp)
    · rintro (hp | hp | hp)
      · exact ⟨.self, hp⟩
      · exact ⟨.target, hp⟩
      · exact ⟨.safe, hp⟩
  rw [there] at h ⊢
  rw [hl]
  have e1 : s.at_ .safe = (places s).2.2 := rfl
  have e2 : s.at_ .target = (places s).2.1 := rfl
  rw [e1, e2]
  generalize places s = c at h hw ⊢
  generalize s.pc i = pc
  simp only [ways, List.mem_cons, List.not_mem_nil, or_false] at hw
  rcases hw with rfl | rfl | rfl | rfl | rfl | rfl | rfl | rfl | rfl <;> cases pc <;> simp [local_] at h ⊢

/-- The process does not touch anything before it looks again at the path of the file. -/
def Early : Pc → Prop
  | .look | .seen | .compare _ | .exists_ | .returned | .raised => True
  | _ => False

/-- The process is done with the renames. -/
def Late : Pc → Prop
  | .finally_ _ | .clean _ | .returned | .raised => True
  | _ => False

/-- **C143**: once a process has renamed the file, processes that begin after that, or have not gone further than the look at the ids, do no harm: the
file stays at the target. -/
theorem C143_late (known : Nat → Known) (i : Nat) (later : List Nat) : ∀ s : State, s.at_ .self = none → s.at_ .target = some .file → s.at_ .safe ≠ some .file →
    Late (s.pc i) → (∀ j, j ≠ i → Early (s.pc j)) → (run known s later).at_ .target = some .file ∧ (run known s later).at_ .self = none := by
  induction later with
  | nil => exact fun s h1 h2 _ _ _ => ⟨h2, h1⟩
  | cons k later ih =>
    intro s h1 h2 h3 h4 h5
    have hl := step_local (known := known) s k
    have key : (step known s k).at_ .self = none ∧ (step known s k).at_ .target = some .file ∧ (step known s k).at_ .safe ≠ some .file ∧
        ((k = i → Late ((step known s k).pc k)) ∧ (k ≠ i → Early ((step known s k).pc k))) := by
      simp only [places, h1, h2] at hl
      generalize s.at_ .safe = x at hl h3
      by_cases hk : k = i
      · subst hk
        cases hp : s.pc k <;> rw [hp] at hl h4 <;> simp only [Late] at h4
        case finally_ r =>
          simp only [local_, Prod.mk.injEq] at hl
          obtain ⟨⟨a, b, c⟩, d⟩ := hl
          refine ⟨a, b, by rw [c]; exact h3, fun _ => ?_, fun h => absurd rfl h⟩
          rw [d]
          cases r <;> simp only [over] <;> split <;> trivial
        case clean r =>
          simp only [local_] at hl
          split at hl <;> simp only [Prod.mk.injEq] at hl <;> obtain ⟨⟨a, b, c⟩, d⟩ := hl
          · refine ⟨a, b, by rw [c]; simp, fun _ => ?_, fun h => absurd rfl h⟩
            rw [d]
            cases r <;> trivial
          · refine ⟨a, b, by rw [c]; exact h3, fun _ => ?_, fun h => absurd rfl h⟩
            rw [d]
            trivial
        case returned =>
          simp only [local_, Prod.mk.injEq] at hl
          obtain ⟨⟨a, b, c⟩, d⟩ := hl
          exact ⟨a, b, by rw [c]; exact h3, fun _ => by rw [d]; trivial, fun h => absurd rfl h⟩
        case raised =>
          simp only [local_, Prod.mk.injEq] at hl
          obtain ⟨⟨a, b, c⟩, d⟩ := hl
          exact ⟨a, b, by rw [c]; exact h3, fun _ => by rw [d]; trivial, fun h => absurd rfl h⟩
      · have hE := h5 k hk
        have hkeep : ∃ pc, local_ (known k) (none, some .file, x) (s.pc k) = ((none, some .file, x), pc) ∧ Early pc := by
          cases hp : s.pc k <;> rw [hp] at hE <;> simp only [Early] at hE
          case look => exact ⟨_, rfl, trivial⟩
          case seen => exact ⟨_, rfl, trivial⟩
          case compare b => exact ⟨_, rfl, by dsimp only; split <;> trivial⟩
          case exists_ => exact ⟨_, rfl, trivial⟩
          case returned => exact ⟨_, rfl, trivial⟩
          case raised => exact ⟨_, rfl, trivial⟩
        obtain ⟨pc, e, hpc⟩ := hkeep
        rw [e] at hl
        simp only [Prod.mk.injEq] at hl
        obtain ⟨⟨a, b, c⟩, d⟩ := hl
        exact ⟨a, b, by rw [c]; exact h3, fun h => absurd h hk, fun _ => by rw [d]; exact hpc⟩
    obtain ⟨k1, k2, k3, k4, k5⟩ := key
    refine ih _ k1 k2 k3 ?_ fun j hj => ?_
    · by_cases hk : k = i
      · subst hk; exact k4 rfl
      · rw [step_other s (fun e => hk e.symm)]; exact h4
    · by_cases hk : j = k
      · subst hk; exact k5 hj
      · rw [step_other s hk]; exact h5 j hj

/-- **C143**: a process that nobody disturbs moves the file, with a symlink at the target or with nothing, and leaves nothing else; and any number of
processes may then come one after the other, or at once. -/
theorem C143_alone (known : Nat → Known) (link : Bool) (i : Nat) (later : List Nat) :
    (run known (.init link) (List.replicate 9 i)).pc i = .returned ∧ places (run known (.init link) (List.replicate 9 i ++ later)) = (none, some .file, none) := by
  have h : (run known (.init link) (List.replicate 9 i)).pc i = .returned ∧ places (run known (.init link) (List.replicate 9 i)) = (none, some .file, none) ∧
      ∀ j, j ≠ i → (run known (.init link) (List.replicate 9 i)).pc j = .look := by
    cases link <;> refine ⟨?_, ?_, fun j hj => ?_⟩ <;>
    simp [run, step, List.replicate, State.init, State.goto, State.move, State.put, over, places, *]
  obtain ⟨h1, h2, h3⟩ := h
  refine ⟨h1, ?_⟩
  rw [run_append]
  have hs : ∀ (later : List Nat) (s : State), s.at_ .safe = none → (∀ j, Early (s.pc j)) → s.at_ .self = none → s.at_ .target = some .file →
      places (run known s later) = (none, some .file, none) := by
    intro later
    induction later with
    | nil => intro s a _ b c; simp [run, places, a, b, c]
    | cons k later ih =>
      intro s a hE b c
      have hl := step_local (known := known) s k
      simp only [places, a, b, c] at hl
      have hkeep : ∃ pc, local_ (known k) (none, some .file, none) (s.pc k) = ((none, some .file, none), pc) ∧ Early pc := by
        have hE := hE k
        cases hp : s.pc k <;> rw [hp] at hE <;> simp only [Early] at hE
        case look => exact ⟨_, rfl, trivial⟩
        case seen => exact ⟨_, rfl, trivial⟩
        case compare b => exact ⟨_, rfl, by dsimp only; split <;> trivial⟩
        case exists_ => exact ⟨_, rfl, trivial⟩
        case returned => exact ⟨_, rfl, trivial⟩
        case raised => exact ⟨_, rfl, trivial⟩
      obtain ⟨pc, e, hpc⟩ := hkeep
      rw [e] at hl
      simp only [Prod.mk.injEq] at hl
      obtain ⟨⟨a', b', c'⟩, d⟩ := hl
      refine ih _ c' (fun j => ?_) a' b'
      by_cases hj : j = k
      · subst hj; rw [d]; exact hpc
      · rw [step_other s hj]; exact hE j
  simp only [places, Prod.mk.injEq] at h2
  refine hs later _ h2.2.2 (fun j => ?_) h2.1 h2.2.1
  by_cases hj : j = i
  · subst hj; rw [h1]; trivial
  · rw [h3 j hj]; trivial

/-- So many system calls are left at most. -/
def left : Pc → Nat
  | .look => 11
  | .seen => 10
  | .compare _ => 9
  | .exists_ => 8
  | .linked => 7
  | .aside => 6
  | .rename => 5
  | .failed => 4
  | .restore => 3
  | .finally_ _ => 2
  | .clean _ => 1
  | .returned | .raised => 0

theorem left_step (s : State) (i : Nat) : left ((step known s i).pc i) ≤ left (s.pc i) - 1 := by
  have h := congrArg Prod.snd (step_local (known := known) s i)
  dsimp only at h
  rw [h]
  generalize places s = c
  cases s.pc i <;> simp only [local_]
  case finally_ r => split <;> cases r <;> simp [left, over]
  case clean r => split <;> cases r <;> simp [left, over]
  all_goals first | (split <;> simp [left]) | simp [left]

/-- **C143**: a process ends after eleven system calls, whatever the others do. -/
theorem C143_ends (known : Nat → Known) (s : State) (sched : List Nat) (i : Nat) (h : 11 ≤ sched.count i) :
    (run known s sched).pc i = .returned ∨ (run known s sched).pc i = .raised := by
  have hr : ∀ (sched : List Nat) (s : State), left ((run known s sched).pc i) ≤ left (s.pc i) - sched.count i := by
    intro sched
    induction sched with
    | nil => intro s; simp [run]
    | cons j sched ih =>
      intro s
      have h := ih (step known s j)
      rw [run]
      by_cases e : j = i
      · subst e
        have h2 := left_step (known := known) s j
        rw [List.count_cons_self]
        omega
      · rw [step_other s (Ne.symm e)] at h
        rw [List.count_cons_of_ne (by simpa using e)]
        exact h
  have h1 := hr sched s
  have h2 : left (s.pc i) ≤ 11 := by cases s.pc i <;> simp [left]
  have h3 : left ((run known s sched).pc i) = 0 := by omega
  cases hp : (run known s sched).pc i <;> rw [hp] at h3 <;> simp [left] at h3 <;> simp

/-- **C143 is false** with a symlink at the target: two processes move the file, both return as if nothing were wrong, and nothing is left, neither the
file nor the symlink, at any path. -/
theorem C143_lost_counterexample : ∃ sched : List Nat, (run (fun _ => ⟨false, false⟩) (.init true) sched).pc 0 = .returned ∧ (run (fun _ => ⟨false, false⟩) (.init true) sched).pc 1 = .returned ∧
    places (run (fun _ => ⟨false, false⟩) (.init true) sched) = (none, none, none) :=
  ⟨[0, 0, 0, 0, 0, 1, 1, 1, 1, 1, 0, 0, 0, 1, 0, 1, 1, 1], by decide, by decide, by decide⟩

/-- **C143 is false** with a symlink at the target: both processes return, and the symlink is at the target again, but the file is gone. -/
theorem C143_back_counterexample : ∃ sched : List Nat, (run (fun _ => ⟨false, false⟩) (.init true) sched).pc 0 = .returned ∧ (run (fun _ => ⟨false, false⟩) (.init true) sched).pc 1 = .returned ∧
    places (run (fun _ => ⟨false, false⟩) (.init true) sched) = (none, some .link, none) :=
  ⟨[0, 0, 0, 0, 0, 0, 1, 1, 1, 0, 1, 1, 1, 1, 0], by decide, by decide, by decide⟩

/-- **C143 is false** with a symlink at the target: both processes return, and the file is at neither path, but beside the target. -/
theorem C143_beside_counterexample : ∃ sched : List Nat, (run (fun _ => ⟨false, false⟩) (.init true) sched).pc 0 = .returned ∧ (run (fun _ => ⟨false, false⟩) (.init true) sched).pc 1 = .returned ∧
    places (run (fun _ => ⟨false, false⟩) (.init true) sched) = (none, none, some .file) :=
  ⟨[0, 0, 0, 0, 0, 1, 1, 1, 1, 1, 0, 0, 0, 0, 1, 1, 1, 1], by decide, by decide, by decide⟩

-- C143_clear: three processes, with nothing at the target
example : ∃ r, r = run (fun _ => ⟨false, false⟩) (.init false) [0, 1, 2, 0, 1, 0, 1, 0, 1, 0, 1, 1, 2] ∧ r.pc 0 = .returned ∧ r.pc 1 = .returned ∧ r.pc 2 = .returned ∧
    places r = (none, some .file, none) := ⟨_, rfl, by decide, by decide, by decide, by decide⟩

-- C143_late: one process has renamed the file, the other ones have only looked
example : ∃ s, s = run (fun _ => ⟨false, false⟩) (.init true) [1, 1, 2, 0, 0, 0, 0, 0, 0, 0] ∧ s.at_ .self = none ∧ s.at_ .target = some .file ∧
    s.at_ .safe = some .link ∧ Late (s.pc 0) ∧ s.pc 1 = .compare true ∧ s.pc 2 = .seen :=
  ⟨_, rfl, by decide, by decide, by decide, by simp [run, step, State.init, State.goto, State.move, State.put, Late], by decide, by decide⟩

/-- **C143**: with nothing at the target, a process that knows the id of the file does not raise, even when another process moves the file meanwhile. -/
theorem C143_returns (known : Nat → Known) (sched : List Nat) (i : Nat) (hk : (known i).self = true) :
    (run known (.init false) sched).pc i ≠ .raised ∧ (11 ≤ sched.count i → (run known (.init false) sched).pc i = .returned) := by
  have h : ∀ (sched : List Nat) (s : State), Clear s → (s.pc i ≠ .raised ∧ s.pc i ≠ .finally_ true) → (run known s sched).pc i ≠ .raised := by
    intro sched
    induction sched with
    | nil => exact fun s _ h => h.1
    | cons j sched ih =>
      intro s hs h
      refine ih _ (clear_step hs j) ?_
      by_cases hj : i = j
      · subst hj
        have hl := congrArg Prod.snd (step_local (known := known) s i)
        dsimp only at hl
        rw [hl]
        obtain ⟨h0, ⟨h1, h2, h3⟩ | ⟨h1, h2, h3⟩⟩ := hs
        · simp only [places, h0, h1, h2]
          rcases h3 i with e | e | e | e <;> simp [e, local_]
        · simp only [places, h0, h1, h2]
          have h3 := h3 i
          cases e : s.pc i <;> simp_all [local_]
          case finally_ r => cases r <;> simp_all [over]
      · rw [step_other s hj]; exact h
  have h1 := h sched (.init false) ⟨rfl, .inl ⟨rfl, rfl, fun _ => .inl rfl⟩⟩ (by simp [State.init])
  exact ⟨h1, fun hc => (C143_ends known _ sched i hc).resolve_right h1⟩

-- C143_returns, and C143_clear with a process that raises since the file was moved when it read its id
example : ∃ r, r = run (fun i => ⟨false, i = 1⟩) (.init false) [0, 0, 0, 0, 0, 1, 1, 1, 2, 2, 2, 1] ∧ r.pc 0 = .returned ∧ r.pc 1 = .returned ∧
    r.pc 2 = .raised := ⟨_, rfl, by decide, by decide, by decide⟩

/-! ## The model of one process -/

/-- What this model sees of an object on the disk. -/
def kind : Option Cache.CObj → Option Obj
  | some (.file _ _) => some .file
  | some (.link _) => some .link
  | _ => none

/-- What this model sees of a disk. -/
def seen (d : FS.Disk Cache.CObj) (q t : FS.Path) : Place → Option Obj
  | .self => kind (d.at_ q)
  | .target => kind (d.at_ t)
  | .safe => kind (d.at_ (Cache.safeUnlink t))

/-- **C143**: a process that is alone does what the model of one process does (`PEnv.move`), when no call fails: that model begins with what this one
begins with, and both return with the same at the three paths. -/
theorem C143_single (known : Nat → Known) (i : Nat) (C : Cache.PEnv) (parents : FS.Prog Cache.CObj Unit) {q t : FS.Path} {given : Option Meta} {remote : Bool}
    {s : FS.Machine Cache.CObj} (hF : ∀ n, C.F n = none) (h : Cache.Moving q t s.disk) (hp : Cache.isDirAt s.disk t.dropLast = true)
    (hid : ∀ x y, s.disk.at_ q = some x → s.disk.at_ t = some y → Cache.cacheId x = Cache.cacheId y ∧ y ≠ .link none)
    (hfile : Cache.isFile s.disk q = true) (ht : s.disk.at_ t = none ∨ ∃ m, s.disk.at_ t = some (.link m)) :
    seen s.disk q t = (State.init (s.disk.at_ t).isSome).at_ ∧
    (C.move parents q t given remote false s).1 = .ok t ∧
    (run known (.init (s.disk.at_ t).isSome) (List.replicate 9 i)).pc i = .returned ∧
    seen (C.move parents q t given remote false s).2.disk q t = (run known (.init (s.disk.at_ t).isSome) (List.replicate 9 i)).at_ := by
  have hnd : Cache.isDirAt s.disk t = false := by
    unfold Cache.isDirAt
    rcases ht with ht | ⟨m, ht⟩ <;> rw [ht]
  obtain ⟨x, m, hx⟩ : ∃ x m, s.disk.at_ q = some (.file x m) := by
    unfold Cache.isFile at hfile
    split at hfile
    · exact ⟨_, _, ‹_›⟩
    · cases hfile
  have hfree : s.disk.at_ (Cache.safeUnlink t) = none := h.free _ (List.prefix_refl _)
  obtain ⟨h1, h2, h3⟩ := Cache.C37_moves_partial C parents (given := given) (remote := remote) hF h hp hid hfile hnd
  obtain ⟨a1, a2⟩ := C143_alone known (s.disk.at_ t).isSome i []
  rw [List.append_nil] at a2
  refine ⟨?_, h1, a1, ?_⟩
  · funext p
    cases p
    · simp [seen, hx, kind, State.init]
    · rcases ht with ht | ⟨m, ht⟩ <;> simp [seen, ht, kind, State.init]
    · simp [seen, hfree, kind, State.init]
  · simp only [places, Prod.mk.injEq] at a2
    have hts : ¬ Cache.safeUnlink t <+: t := by
      intro hc
      have hl := List.dropLast_concat_getLast h.target
      have hlen : (Cache.safeUnlink t).length = t.length := by
        have := List.length_pos_iff.2 h.target
        simp only [Cache.safeUnlink, List.length_append, List.length_dropLast, List.length_singleton]
        omega
      have he := hc.eq_of_length hlen
      rw [Cache.safeUnlink, List.getLast?_eq_some_getLast h.target] at he
      have he := he.trans hl.symm
      simp only [Option.getD_some, List.append_cancel_left_eq, List.cons.injEq, and_true] at he
      have := congrArg List.length he
      simp [lit] at this
      omega
    funext p
    cases p
    · rw [a2.1]
      simp only [seen]
      rw [h2 q h.apart_safe.2, FS.mv, if_neg h.apart.2, if_pos (List.prefix_refl _)]
      rfl
    · rw [a2.2.1]
      simp only [seen]
      rw [h2 t hts, FS.mv, if_pos (List.prefix_refl _), List.drop_length, List.append_nil, hx]
      rfl
    · rw [a2.2.2]
      simp only [seen]
      rw [h3]
      rfl

-- C143_single: a file and a link beside it
example : Cache.isDirAt (Cache.besideLink []).disk (([['b']] : FS.Path).dropLast) = true ∧ Cache.isFile (Cache.besideLink []).disk [['a']] = true ∧
    ∃ m, (Cache.besideLink []).disk.at_ [['b']] = some (.link m) := ⟨by decide, by decide, _, rfl⟩

/-- The exception of a process was not caught. -/
def Raising : Pc → Prop
  | .finally_ true | .clean true | .raised => True
  | _ => False

theorem raising_step {s : State} {i : Nat} (h : Raising (s.pc i)) (j : Nat) : Raising ((step known s j).pc i) := by
  by_cases hj : i = j
  · subst hj
    have hl := congrArg Prod.snd (step_local (known := known) s i)
    dsimp only at hl
    rw [hl]
    generalize places s = c
    cases e : s.pc i <;> rw [e] at h <;> simp only [local_]
    case finally_ r => cases r <;> simp [Raising] at h; split <;> simp [Raising, over]
    case clean r => cases r <;> simp [Raising] at h; split <;> simp [Raising, over]
    all_goals simp [Raising] at h ⊢
  · rw [step_other s hj]; exact h

theorem raising_run : ∀ (sched : List Nat) {s : State} {i : Nat}, Raising (s.pc i) →
    Raising ((run known s sched).pc i) ∧ left ((run known s sched).pc i) ≤ left (s.pc i) - sched.count i
  | [], _, _, h => ⟨h, by simp [run]⟩
  | j :: sched, s, i, h => by
    have ih := raising_run sched (raising_step (known := known) h j)
    refine ⟨ih.1, Nat.le_trans ih.2 ?_⟩
    by_cases hj : i = j
    · subst hj
      have := left_step (known := known) s i
      simp; omega
    · rw [step_other s hj, List.count_cons_of_ne (Ne.symm hj)]; exact Nat.le_refl _

/-- **C143**: a process that puts the symlink back when another one has removed it or put it back already raises in the end, whatever else goes on. -/
theorem C143_raises (known : Nat → Known) (s : State) (i : Nat) (sched : List Nat) (h : s.pc i = .restore) (hs : s.at_ .safe = none)
    (hc : 2 ≤ sched.count i) : (run known (step known s i) sched).pc i = .raised := by
  have e : (step known s i).pc i = .finally_ true := by simp [step, h, State.move, hs, State.goto]
  obtain ⟨h1, h2⟩ := raising_run (known := known) sched (s := step known s i) (i := i) (by rw [e]; trivial)
  rw [e] at h2
  have h3 : left ((run known (step known s i) sched).pc i) = 0 := by simp [left] at h2; simp [left]; omega
  revert h1 h3
  cases (run known (step known s i) sched).pc i <;> simp [left, Raising]

/-- **C143**: a process raises for no other reason than these: the file or the target had no id when it compared them, what it removes beside the target
is not there any more, or what it puts back is not. -/
theorem C143_raises_only (known : Nat → Known) (s : State) (i : Nat) (h : ¬ Raising (s.pc i)) : Raising ((step known s i).pc i) ↔
    (∃ had, s.pc i = .compare had ∧ had ≠ ((known i).self || (s.at_ .self).isSome)) ∨
    (∃ r, s.pc i = .clean r ∧ s.at_ .safe = none) ∨ (s.pc i = .restore ∧ s.at_ .safe = none) := by
  have hl := congrArg Prod.snd (step_local (known := known) s i)
  dsimp only at hl
  rw [hl]
  change _ ↔ (∃ had, s.pc i = .compare had ∧ had ≠ ((known i).self || (places s).1.isSome)) ∨
    (∃ r, s.pc i = .clean r ∧ (places s).2.2 = none) ∨ (s.pc i = .restore ∧ (places s).2.2 = none)
  generalize places s = c
  generalize s.pc i = pc at h
  generalize known i = k
  obtain ⟨a, b, c⟩ := c
  obtain ⟨k1, k2⟩ := k
  cases pc with
  | compare had => rcases a with _ | a <;> cases k2 <;> cases had <;> simp [local_, Raising]
  | finally_ r => rcases c with _ | _ | _ <;> cases r <;> simp_all [local_, Raising, over]
  | clean r => rcases c with _ | c <;> cases r <;> simp_all [local_, Raising, over]
  | restore => rcases c with _ | c <;> simp [local_, Raising]
  | look => rcases b with _ | b <;> simp [local_, Raising]
  | seen => simp [local_, Raising]
  | exists_ => rcases a with _ | _ | _ <;> simp [local_, Raising]
  | linked => rcases b with _ | _ | _ <;> simp [local_, Raising]
  | aside => rcases b with _ | b <;> simp [local_, Raising]
  | rename => rcases a with _ | a <;> simp [local_, Raising]
  | failed => rcases c with _ | _ | _ <;> simp [local_, Raising]
  | returned => simp [local_, Raising]
  | raised => exact absurd trivial h

-- C143_raises: another process has removed what was beside the target
example : ∃ sched, (run (fun _ => ⟨false, false⟩) (.init true) sched).pc 0 = .restore ∧ (run (fun _ => ⟨false, false⟩) (.init true) sched).at_ .safe = none :=
  ⟨[0, 0, 0, 0, 0, 1, 1, 1, 1, 1, 1, 0, 0, 1, 1, 1], by decide⟩

end Verif.MoveRace
