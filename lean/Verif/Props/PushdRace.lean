import Verif.Model.PushdRace
import Verif.Model.Dirs
import Verif.Lemmas.Decide

/-!
# C148: `pushd` and `popd` in several threads
-/

set_option linter.unusedSimpArgs false

namespace Verif.PushdRace

variable {D : Type}

theorem run_append (s : State D) (a b : List Nat) : run s (a ++ b) = run (run s a) b := by
  induction a generalizing s with
  | nil => rfl
  | cons i a ih => exact ih _

/-! ## Threads that take back only as much as they put -/

/-- The number of entries of its own that a thread has on the stack after these calls, if it never takes one more than it put. -/
def depth : Nat → List (Call D) → Option Nat
  | n, [] => some n
  | n, .pushd _ :: r => depth (n + 1) r
  | n + 1, .popd :: r => depth n r
  | 0, .popd :: _ => none

/-- The same in the middle of a call, with `n` entries on the stack. -/
def Pc.depth (p : Pc D) (n : Nat) (r : List (Call D)) : Option Nat :=
  match p, n with
  | .asked _ _, n => PushdRace.depth (n + 1) r
  | .tested, n + 1 => PushdRace.depth n r
  | .tested, 0 => none
  | _, n => PushdRace.depth n r

/-- The directories that a thread has in hand have the property. -/
def Pc.All (P : D → Prop) : Pc D → Prop
  | .asked h d => P h ∧ P d
  | .pushed d => P d
  | .popped d => P d
  | _ => True

/-- The directories in a program. -/
def Call.All (P : D → Prop) : Call D → Prop
  | .pushd d => P d
  | .popd => True

/-- A result that neither warns nor raises, with a directory that has the property. -/
def Res.Good (P : D → Prop) : Res D → Prop
  | .done => True
  | .got d => P d
  | .warned => False
  | .raised => False

/-- Of the stack, the part `base` was there at the beginning; `owners` says which thread put what is above it. -/
structure Inv (P : D → Prop) (base : List D) (e : Nat → Nat) (s : State D) (extra : List D) (owners : List Nat) : Prop where
  stack : s.stack = base ++ extra
  len : owners.length = extra.length
  dep : ∀ t, (s.pc t).depth (owners.count t) (s.todo t) = some (e t)
  cwd : P s.cwd
  ext : ∀ d ∈ extra, P d
  pcs : ∀ t, (s.pc t).All P
  todo : ∀ t, ∀ c ∈ s.todo t, c.All P
  res : ∀ t, ∀ r ∈ s.res t, r.Good P

theorem Inv.step {P : D → Prop} {base : List D} {e : Nat → Nat} {s : State D} {extra : List D} {owners : List Nat}
    (h : Inv P base e s extra owners) (t : Nat) : ∃ extra' owners', Inv P base e (step s t) extra' owners' := by
  have hd := h.dep t
  have hp := h.pcs t
  have ht := h.todo t
  unfold PushdRace.step
  split
  · exact ⟨_, _, h⟩
  · rename_i d r e1 e2
    rw [e1, e2] at hd
    refine ⟨extra, owners, h.stack, h.len, ?_, h.cwd, h.ext, ?_, ?_, h.res⟩
    · intro u
      by_cases hu : u = t
      · subst hu; simpa [State.goto, Pc.depth, depth] using hd
      · simpa [State.goto, hu] using h.dep u
    · intro u
      by_cases hu : u = t
      · subst hu
        rw [e2] at ht
        simpa [State.goto, Pc.All] using ⟨h.cwd, ht _ List.mem_cons_self⟩
      · simpa [State.goto, hu] using h.pcs u
    · intro u
      by_cases hu : u = t
      · subst hu
        rw [e2] at ht
        simp only [State.goto, ↓reduceIte]
        exact fun c hc => ht c (List.mem_cons_of_mem _ hc)
      · simpa [State.goto, hu] using h.todo u
  · rename_i hh d e1
    rw [e1] at hd hp
    refine ⟨extra ++ [hh], t :: owners, ?_, ?_, ?_, h.cwd, ?_, ?_, ?_, h.res⟩
    · simp [State.goto, h.stack]
    · simp [h.len]
    · intro u
      by_cases hu : u = t
      · subst hu; simpa [State.goto, Pc.depth] using hd
      · have : (t :: owners).count u = owners.count u := List.count_cons_of_ne (fun x => hu x.symm)
        rw [this]
        simpa [State.goto, hu] using h.dep u
    · intro d' hd'
      rcases List.mem_append.1 hd' with h1 | h1
      · exact h.ext _ h1
      · rw [List.mem_singleton] at h1; subst h1; exact hp.1
    · intro u
      by_cases hu : u = t
      · subst hu; simpa [State.goto, Pc.All] using hp.2
      · simpa [State.goto, hu] using h.pcs u
    · intro u
      by_cases hu : u = t
      · subst hu; simpa [State.goto] using ht
      · simpa [State.goto, hu] using h.todo u
  · rename_i d e1
    rw [e1] at hd hp
    refine ⟨extra, owners, h.stack, h.len, ?_, hp, h.ext, ?_, ?_, ?_⟩
    · intro u
      by_cases hu : u = t
      · subst hu; simpa [State.goto, State.ends, Pc.depth] using hd
      · simpa [State.goto, State.ends, hu] using h.dep u
    · intro u
      by_cases hu : u = t
      · subst hu; simp [State.goto, State.ends, Pc.All]
      · simpa [State.goto, State.ends, hu] using h.pcs u
    · intro u
      by_cases hu : u = t
      · subst hu; simpa [State.goto, State.ends] using ht
      · simpa [State.goto, State.ends, hu] using h.todo u
    · intro u
      by_cases hu : u = t
      · subst hu
        intro r hr
        simp only [State.ends, State.goto, ↓reduceIte, List.mem_cons] at hr
        rcases hr with rfl | hr
        · trivial
        · exact h.res _ _ hr
      · simpa [State.goto, State.ends, hu] using h.res u
  · rename_i r e1 e2
    rw [e1, e2] at hd
    cases hc : owners.count t with
    | zero => rw [hc] at hd; simp [Pc.depth, depth] at hd
    | succ n =>
      have hne : s.stack.isEmpty = false := by
        rw [h.stack]
        cases extra with
        | nil =>
          have := h.len
          rw [List.length_nil, List.length_eq_zero_iff] at this
          subst this
          simp at hc
        | cons a b => simp
      rw [hne]
      simp only [Bool.false_eq_true, ↓reduceIte]
      refine ⟨extra, owners, h.stack, h.len, ?_, h.cwd, h.ext, ?_, ?_, h.res⟩
      · intro u
        by_cases hu : u = t
        · subst hu
          rw [hc] at hd ⊢
          simpa [State.goto, Pc.depth, depth] using hd
        · simpa [State.goto, hu] using h.dep u
      · intro u
        by_cases hu : u = t
        · subst hu; simp [State.goto, Pc.All]
        · simpa [State.goto, hu] using h.pcs u
      · intro u
        by_cases hu : u = t
        · subst hu
          rw [e2] at ht
          simp only [State.goto, ↓reduceIte]
          exact fun c hc => ht c (List.mem_cons_of_mem _ hc)
        · simpa [State.goto, hu] using h.todo u
  · rename_i e1
    rw [e1] at hd
    cases hc : owners.count t with
    | zero => rw [hc] at hd; simp [Pc.depth] at hd
    | succ n =>
      have hmem : t ∈ owners := List.count_pos_iff.1 (by omega)
      have hxe : extra ≠ [] := by
        intro hx
        have := h.len
        rw [hx, List.length_nil, List.length_eq_zero_iff] at this
        rw [this] at hmem; cases hmem
      have hl : s.stack.getLast? = some (extra.getLast hxe) := by
        rw [h.stack, List.getLast?_append, List.getLast?_eq_some_getLast hxe]; rfl
      rw [hl]
      refine ⟨extra.dropLast, owners.erase t, ?_, ?_, ?_, h.cwd, ?_, ?_, ?_, h.res⟩
      · simp only [State.goto, h.stack]
        rw [List.dropLast_append_of_ne_nil hxe]
      · rw [List.length_erase_of_mem hmem, List.length_dropLast, h.len]
      · intro u
        by_cases hu : u = t
        · subst hu
          rw [List.count_erase_self, hc]
          rw [hc] at hd
          simpa [State.goto, Pc.depth] using hd
        · rw [List.count_erase_of_ne hu]
          simpa [State.goto, hu] using h.dep u
      · exact fun d hd' => h.ext d ((List.dropLast_sublist _).subset hd')
      · intro u
        by_cases hu : u = t
        · subst hu
          simp only [State.goto, ↓reduceIte, Pc.All]
          exact h.ext _ (List.getLast_mem hxe)
        · simpa [State.goto, hu] using h.pcs u
      · intro u
        by_cases hu : u = t
        · subst hu; simpa [State.goto] using ht
        · simpa [State.goto, hu] using h.todo u
  · rename_i d e1
    rw [e1] at hd hp
    refine ⟨extra, owners, h.stack, h.len, ?_, hp, h.ext, ?_, ?_, ?_⟩
    · intro u
      by_cases hu : u = t
      · subst hu; simpa [State.goto, State.ends, Pc.depth] using hd
      · simpa [State.goto, State.ends, hu] using h.dep u
    · intro u
      by_cases hu : u = t
      · subst hu; simp [State.goto, State.ends, Pc.All]
      · simpa [State.goto, State.ends, hu] using h.pcs u
    · intro u
      by_cases hu : u = t
      · subst hu; simpa [State.goto, State.ends] using ht
      · simpa [State.goto, State.ends, hu] using h.todo u
    · intro u
      by_cases hu : u = t
      · subst hu
        intro r hr
        simp only [State.ends, State.goto, ↓reduceIte, List.mem_cons] at hr
        rcases hr with rfl | hr
        · exact hp
        · exact h.res _ _ hr
      · simpa [State.goto, State.ends, hu] using h.res u

theorem Inv.run {P : D → Prop} {base : List D} {e : Nat → Nat} (sched : List Nat) : ∀ {s : State D} {extra : List D} {owners : List Nat},
    Inv P base e s extra owners → ∃ extra' owners', Inv P base e (run s sched) extra' owners' := by
  induction sched with
  | nil => exact fun h => ⟨_, _, h⟩
  | cons t r ih =>
    intro s extra owners h
    obtain ⟨_, _, h'⟩ := h.step t
    exact ih h'

theorem Inv.init {P : D → Prop} {e : Nat → Nat} {cwd : D} (stack : List D) {prog : Nat → List (Call D)}
    (hd : ∀ t, depth 0 (prog t) = some (e t)) (hc : P cwd) (hp : ∀ t, ∀ d, .pushd d ∈ prog t → P d) :
    Inv P stack e (State.init cwd stack prog) [] [] where
  stack := (List.append_nil _).symm
  len := rfl
  dep := hd
  cwd := hc
  ext := fun _ h => nomatch h
  pcs := fun _ => trivial
  todo := fun t c h => by
    cases c with
    | pushd d => exact hp t d h
    | popd => trivial
  res := fun _ _ h => nomatch h

/-- **C148**: when no thread calls `popd` more often than it has called `pushd` before, then in every interleaving no call warns or raises. -/
theorem C148_quiet {cwd : D} {stack : List D} {prog : Nat → List (Call D)} (hd : ∀ t, (depth 0 (prog t)).isSome) (sched : List Nat) (t : Nat) :
    .warned ∉ (run (State.init cwd stack prog) sched).res t ∧ .raised ∉ (run (State.init cwd stack prog) sched).res t := by
  have hd' : ∀ t, depth 0 (prog t) = some ((depth 0 (prog t)).get (hd t)) := fun t => by simp
  obtain ⟨_, _, h⟩ := (Inv.init (P := fun _ => True) stack hd' trivial (fun _ _ _ => trivial)).run sched
  exact ⟨fun hm => h.res t _ hm, fun hm => h.res t _ hm⟩

/-- **C148**: what was on the stack before is never touched by them. -/
theorem C148_below {cwd : D} {stack : List D} {prog : Nat → List (Call D)} (hd : ∀ t, (depth 0 (prog t)).isSome) (sched : List Nat) :
    stack <+: (run (State.init cwd stack prog) sched).stack := by
  have hd' : ∀ t, depth 0 (prog t) = some ((depth 0 (prog t)).get (hd t)) := fun t => by simp
  obtain ⟨x, _, h⟩ := (Inv.init (P := fun _ => True) stack hd' trivial (fun _ _ _ => trivial)).run sched
  exact ⟨x, h.stack.symm⟩

/-- **C148**: and when all threads are at the end of programs in which there is a `popd` for every `pushd`, the stack is exactly as it was. -/
theorem C148_stack {cwd : D} {stack : List D} {prog : Nat → List (Call D)} (hd : ∀ t, depth 0 (prog t) = some 0) (sched : List Nat)
    (hi : ∀ t, (run (State.init cwd stack prog) sched).pc t = .idle) (ht : ∀ t, (run (State.init cwd stack prog) sched).todo t = []) :
    (run (State.init cwd stack prog) sched).stack = stack := by
  obtain ⟨x, o, h⟩ := (Inv.init (P := fun _ => True) (e := fun _ => 0) stack hd trivial (fun _ _ _ => trivial)).run sched
  have ho : o = [] := by
    cases o with
    | nil => rfl
    | cons a b =>
      have := h.dep a
      rw [hi a, ht a] at this
      simp [Pc.depth, depth] at this
  have := h.len
  rw [ho, List.length_nil] at this
  rw [h.stack, List.eq_nil_of_length_eq_zero this.symm, List.append_nil]

/-- **C148**: the working directory is at every moment the one at the beginning or one that was given to `pushd`, and so is every path that `popd`
returns. -/
theorem C148_where {cwd : D} {stack : List D} {prog : Nat → List (Call D)} (hd : ∀ t, (depth 0 (prog t)).isSome) (sched : List Nat) :
    ((run (State.init cwd stack prog) sched).cwd = cwd ∨ ∃ t, .pushd (run (State.init cwd stack prog) sched).cwd ∈ prog t) ∧
    ∀ t p, .got p ∈ (run (State.init cwd stack prog) sched).res t → p = cwd ∨ ∃ u, .pushd p ∈ prog u := by
  have hd' : ∀ t, depth 0 (prog t) = some ((depth 0 (prog t)).get (hd t)) := fun t => by simp
  obtain ⟨x, _, h⟩ := (Inv.init (P := fun d => d = cwd ∨ ∃ t, .pushd d ∈ prog t) stack hd' (.inl rfl) (fun t d h => .inr ⟨t, h⟩)).run sched
  exact ⟨h.cwd, fun t p hm => h.res t _ hm⟩

/-! ## Nothing is lost or returned twice -/

/-- What the next step of thread `t` puts on the stack. -/
def puts (s : State D) (t : Nat) : List D := match s.pc t with
  | .asked h _ => [h]
  | _ => []

/-- What it takes from it: what `popd` then returns. -/
def takes (s : State D) (t : Nat) : List D := match s.pc t with
  | .tested => s.stack.getLast?.toList
  | _ => []

def allPuts : State D → List Nat → List D
  | _, [] => []
  | s, t :: r => puts s t ++ allPuts (step s t) r

def allTakes : State D → List Nat → List D
  | _, [] => []
  | s, t :: r => takes s t ++ allTakes (step s t) r

theorem step_perm (s : State D) (t : Nat) : ((step s t).stack ++ takes s t).Perm (s.stack ++ puts s t) := by
  unfold step takes puts
  split
  · simp_all
  · simp_all [State.goto]
  · simp_all
  · simp_all [State.goto, State.ends]
  · rename_i e1 e2
    rw [e1]
    cases s.stack.isEmpty <;> simp [State.goto, State.ends]
  · rename_i e1
    rw [e1]
    cases hl : s.stack.getLast? with
    | none => simp [State.goto, State.ends]
    | some p =>
      have hne : s.stack ≠ [] := by intro h; rw [h] at hl; cases hl
      rw [List.getLast?_eq_some_getLast hne, Option.some.injEq] at hl
      subst hl
      simp [List.dropLast_concat_getLast hne]
  · rename_i e1
    rw [e1]; simp [State.goto, State.ends]

/-- **C148**: with any calls, every directory that was put on the stack is on it or was taken off by exactly one `popd`, and nothing else was. -/
theorem C148_once (s : State D) (sched : List Nat) : ((run s sched).stack ++ allTakes s sched).Perm (s.stack ++ allPuts s sched) := by
  induction sched generalizing s with
  | nil => exact List.Perm.refl _
  | cons t r ih =>
    show ((run (step s t) r).stack ++ (takes s t ++ allTakes (step s t) r)).Perm (s.stack ++ (puts s t ++ allPuts (step s t) r))
    have h1 := ih (step s t)
    have h2 := step_perm s t
    have a : ((run (step s t) r).stack ++ (takes s t ++ allTakes (step s t) r)).Perm
        (((run (step s t) r).stack ++ allTakes (step s t) r) ++ takes s t) := by
      rw [List.append_assoc]
      exact (List.perm_append_comm).append_left _
    have b : (((step s t).stack ++ allPuts (step s t) r) ++ takes s t).Perm (((step s t).stack ++ takes s t) ++ allPuts (step s t) r) := by
      rw [List.append_assoc, List.append_assoc]
      exact (List.perm_append_comm).append_left _
    have c : (((step s t).stack ++ takes s t) ++ allPuts (step s t) r).Perm ((s.stack ++ puts s t) ++ allPuts (step s t) r) := h2.append_right _
    rw [← List.append_assoc s.stack]
    exact a.trans ((h1.append_right _).trans (b.trans c))

/-- The paths in results, and in the hand of a thread between taking it and `chdir`. -/
def gotten : List (Res D) → List D
  | [] => []
  | .got p :: r => p :: gotten r
  | _ :: r => gotten r

def Pc.hand : Pc D → List D
  | .popped p => [p]
  | _ => []

/-- What thread `t` took, the latest first. -/
def takesOf (t : Nat) : State D → List Nat → List D → List D
  | _, [], acc => acc
  | s, u :: r, acc => takesOf t (step s u) r (if u = t then takes s u ++ acc else acc)

/-- **C148**: what a thread took off the stack is what its calls of `popd` returned, in this order, but for one that has yet to return. -/
theorem C148_returned (t : Nat) (sched : List Nat) : ∀ (s : State D) (acc : List D), acc = (s.pc t).hand ++ gotten (s.res t) →
    takesOf t s sched acc = ((run s sched).pc t).hand ++ gotten ((run s sched).res t) := by
  induction sched with
  | nil => exact fun s acc h => h
  | cons u r ih =>
    intro s acc h
    refine ih (step s u) _ ?_
    subst h
    by_cases hu : u = t
    · subst hu
      simp only [↓reduceIte]
      unfold step
      split
      · simp_all [takes]
      · simp_all [takes, State.goto, Pc.hand]
      · simp_all [takes, State.goto, Pc.hand]
      · simp_all [takes, State.goto, State.ends, Pc.hand, gotten]
      · rename_i e1 e2
        rw [takes, e1]
        cases s.stack.isEmpty <;> simp [e1, State.goto, State.ends, Pc.hand, gotten]
      · rename_i e1
        rw [takes, e1]
        cases hl : s.stack.getLast? <;> simp [State.goto, State.ends, Pc.hand, gotten]
      · rename_i e1
        rw [takes, e1]; simp [State.goto, State.ends, Pc.hand, gotten]
    · have hu' : t ≠ u := fun h => hu h.symm
      simp only [hu, ↓reduceIte]
      unfold step
      split
      · rfl
      · simp [State.goto, hu']
      · simp [State.goto, hu']
      · simp [State.goto, State.ends, hu']
      · split <;> simp [State.goto, State.ends, hu']
      · split <;> simp [State.goto, State.ends, hu']
      · simp [State.goto, State.ends, hu']

/-! ## Calls that do not overlap -/

/-- The steps of the next call of thread `t`, if no thread is in a call. -/
def steps (s : State D) (t : Nat) : List Nat := match s.todo t with
  | [] => []
  | .pushd _ :: _ => [t, t, t]
  | .popd :: _ => if s.stack.isEmpty then [t] else [t, t, t]

/-- The threads make whole calls, in this order. -/
def serial : State D → List Nat → List Nat
  | _, [] => []
  | s, t :: ts => steps s t ++ serial (run s (steps s t)) ts

/-- The calls that are made, in this order, given what the threads have to do. -/
def calls : (Nat → List (Call D)) → List Nat → List (Call D)
  | _, [] => []
  | todo, t :: ts => match todo t with
    | [] => calls todo ts
    | c :: r => c :: calls (fun u => if u = t then r else todo u) ts

/-- One stack for all, as a specification: working directory and stack, the newest entry first. -/
def spec : List (Call D) → D × List D → D × List D
  | [], x => x
  | .pushd d :: r, (c, st) => spec r (d, c :: st)
  | .popd :: r, (c, []) => spec r (c, [])
  | .popd :: r, (_, a :: st) => spec r (a, st)

/-- One whole call. -/
theorem run_steps (s : State D) (hi : ∀ t, s.pc t = .idle) (t : Nat) :
    (∀ u, (run s (steps s t)).pc u = .idle) ∧ (run s (steps s t)).todo = (fun u => if u = t then (s.todo t).tail else s.todo u) ∧
    ((run s (steps s t)).cwd, (run s (steps s t)).stack.reverse) = spec ((s.todo t).take 1) (s.cwd, s.stack.reverse) := by
  have hi' := hi t
  have ha : ∀ u : Nat, (if u = t then Pc.idle else if u = t then (Pc.idle : Pc D) else s.pc u) = .idle := by
    intro u; split <;> simp [hi]
  cases ht : s.todo t with
  | nil =>
    simp only [steps, ht, run]
    refine ⟨hi, ?_, rfl⟩
    funext u; split <;> simp_all
  | cons c r =>
    cases c with
    | pushd d =>
      refine ⟨fun u => ?_, ?_, ?_⟩
      · simp only [steps, ht, run, step, hi', State.goto, State.ends, ↓reduceIte]
        split <;> simp [hi]
      · simp only [steps, ht, run, step, hi', State.goto, State.ends, ↓reduceIte]
        funext u; split <;> simp_all
      · simp [steps, ht, run, step, hi', State.goto, State.ends, spec]
    | popd =>
      rcases List.eq_nil_or_concat s.stack with hs | ⟨l, a, hs⟩
      · refine ⟨fun u => ?_, ?_, ?_⟩
        · simp only [steps, ht, hs, run, step, hi', State.goto, State.ends, List.isEmpty_nil, ↓reduceIte]
          split <;> simp [hi]
        · simp only [steps, ht, hs, run, step, hi', State.goto, State.ends, List.isEmpty_nil, ↓reduceIte]
          funext u; split <;> simp_all
        · simp [steps, ht, hs, run, step, hi', State.goto, State.ends, spec]
      · have he : s.stack.isEmpty = false := by rw [hs]; simp
        have hl : s.stack.getLast? = some a := by rw [hs]; simp
        refine ⟨fun u => ?_, ?_, ?_⟩
        · simp only [steps, ht, he, hl, run, step, hi', State.goto, State.ends, ↓reduceIte, Bool.false_eq_true]
          split <;> simp [hi]
        · simp only [steps, ht, he, hl, run, step, hi', State.goto, State.ends, ↓reduceIte, Bool.false_eq_true]
          funext u; split <;> simp_all
        · simp [steps, ht, he, hl, run, step, hi', State.goto, State.ends, spec, hs]

theorem spec_append (a b : List (Call D)) (x : D × List D) : spec (a ++ b) x = spec b (spec a x) := by
  induction a generalizing x with
  | nil => rfl
  | cons c a ih =>
    cases c with
    | pushd d => obtain ⟨c, st⟩ := x; exact ih _
    | popd =>
      obtain ⟨c, st⟩ := x
      cases st with
      | nil => exact ih _
      | cons p st => exact ih _

/-- **C148**: calls of any threads that do not overlap work on one stack, as if they were all of one thread. -/
theorem C148_serial (ts : List Nat) : ∀ (s : State D), (∀ t, s.pc t = .idle) →
    ((run s (serial s ts)).cwd, (run s (serial s ts)).stack.reverse) = spec (calls s.todo ts) (s.cwd, s.stack.reverse) := by
  induction ts with
  | nil => exact fun s _ => rfl
  | cons t ts ih =>
    intro s hi
    obtain ⟨h1, h2, h3⟩ := run_steps s hi t
    have := ih _ h1
    show ((run s (steps s t ++ serial _ ts)).cwd, (run s (steps s t ++ serial _ ts)).stack.reverse) = _
    rw [run_append, this, h3, h2]
    cases ht : s.todo t with
    | nil =>
      have e : (fun u => if u = t then ([] : List (Call D)).tail else s.todo u) = s.todo := by
        funext u; split <;> simp_all
      rw [e]
      show spec (calls s.todo ts) _ = spec (calls s.todo (t :: ts)) _
      rw [calls, ht]; rfl
    | cons c r =>
      rw [calls, ht]
      show _ = spec ([c] ++ calls _ ts) _
      rw [spec_append]; rfl

/-- A call in `Model/Dirs`. -/
def Call.op : Call FS.Path → FS.DirOp
  | .pushd d => .pushd ⟨true, d⟩
  | .popd => .popd 0

/-- A directory that stays and may be entered, by its own location. -/
structure Stays (L : FS.Limits) (t : FS.Tree) (d : FS.Path) : Prop where
  isDir : ∀ c, FS.isDir L t c ⟨true, d⟩ = .ok true
  chdir : ∀ c, FS.chdirTo L t c ⟨true, d⟩ = .ok d
  ask : FS.askCwd t d = .ok (FS.getcwd d)

theorem pyPop_last {α : Type} (l : List α) (a : α) : FS.pyPop (l ++ [a]) (-(0 + 1)) = .ok (a, l) := by
  have h : (-(0 + 1) : Int) + ((l ++ [a]).length : Int) = (l.length : Int) := by simp; omega
  unfold FS.pyPop
  simp only [show (-(0 + 1) : Int) < 0 by decide, ↓reduceIte, h]
  rw [if_neg (by omega)]
  simp [List.eraseIdx_append_of_length_le]

/-- **C148**: which is what `Model/Dirs` does in one thread. -/
theorem C148_alone {L : FS.Limits} {t : FS.Tree} (cs : List (Call FS.Path)) : ∀ (c : FS.Path) (st : List FS.Path), Stays L t c → (∀ d ∈ st, Stays L t d) →
    (∀ d, .pushd d ∈ cs → Stays L t d) →
    FS.runOps L (cs.map Call.op) ⟨t, c, st.reverse.map FS.getcwd⟩ = (.ok (), ⟨t, (spec cs (c, st)).1, (spec cs (c, st)).2.reverse.map FS.getcwd⟩) := by
  induction cs with
  | nil => exact fun c st _ _ _ => rfl
  | cons x cs ih =>
    intro c st hc hst hcs
    cases x with
    | pushd d =>
      have hd := hcs d List.mem_cons_self
      have := ih d (c :: st) hd (by intro e he; rcases List.mem_cons.1 he with rfl | he <;> simp_all) (fun e he => hcs e (List.mem_cons_of_mem _ he))
      simp only [List.map_cons, Call.op, FS.runOps, FS.pushd, hd.isDir, hc.ask, hd.chdir]
      simpa [spec] using this
    | popd =>
      cases st with
      | nil =>
        have := ih c [] hc hst (fun e he => hcs e (List.mem_cons_of_mem _ he))
        simpa [Call.op, FS.runOps, FS.popd, spec] using this
      | cons a st =>
        have ha := hst a List.mem_cons_self
        have := ih a st ha (fun e he => hst e (List.mem_cons_of_mem _ he)) (fun e he => hcs e (List.mem_cons_of_mem _ he))
        have hp : FS.popd L 0 ⟨t, c, (a :: st).reverse.map FS.getcwd⟩ = (.ok (some (FS.getcwd a)), ⟨t, a, st.reverse.map FS.getcwd⟩) := by
          have e : (a :: st).reverse.map FS.getcwd = st.reverse.map FS.getcwd ++ [FS.getcwd a] := by simp
          rw [e]
          unfold FS.popd
          rw [pyPop_last]
          have hne : st.reverse.map FS.getcwd ++ [FS.getcwd a] ≠ [] := by simp
          split
          · rename_i h; exact absurd h hne
          · have hch := ha.chdir c
            simp only [FS.getcwd] at *
            rw [hch]
        simp only [List.map_cons, Call.op, FS.runOps, hp]
        simpa [spec] using this

/-! ## Every thread comes to its end -/

/-- The steps that a thread still takes. -/
def rank (s : State D) (t : Nat) : Nat := 3 * (s.todo t).length + match s.pc t with
  | .idle => 0
  | .asked _ _ => 2
  | .pushed _ => 1
  | .tested => 2
  | .popped _ => 1

theorem rank_other (s : State D) {t u : Nat} (h : u ≠ t) : rank (step s t) u = rank s u := by
  unfold step
  split
  · rfl
  · simp [rank, State.goto, h]
  · simp [rank, State.goto, h]
  · simp [rank, State.goto, State.ends, h]
  · split <;> simp [rank, State.goto, State.ends, h]
  · split <;> simp [rank, State.goto, State.ends, h]
  · simp [rank, State.goto, State.ends, h]

theorem rank_self (s : State D) (t : Nat) : rank (step s t) t ≤ rank s t - 1 := by
  unfold step
  split
  · rename_i e1 e2; simp [rank, e1, e2]
  · rename_i e1 e2; simp [rank, State.goto, e1, e2]; omega
  · rename_i e1; simp [rank, State.goto, e1]
  · rename_i e1; simp [rank, State.goto, State.ends, e1]
  · rename_i e1 e2; split <;> simp [rank, State.goto, State.ends, e1, e2] <;> omega
  · rename_i e1; split <;> simp [rank, State.goto, State.ends, e1]
  · rename_i e1; simp [rank, State.goto, State.ends, e1]

theorem rank_run (t : Nat) (sched : List Nat) : ∀ s : State D, rank (run s sched) t ≤ rank s t - sched.count t := by
  induction sched with
  | nil => intro s; simp [run]
  | cons u r ih =>
    intro s
    have := ih (step s u)
    by_cases h : u = t
    · subst h
      have h1 := rank_self s u
      rw [List.count_cons_self]
      simp only [run]; omega
    · have h1 := rank_other s (t := u) (u := t) (fun x => h x.symm)
      rw [List.count_cons_of_ne h]
      simp only [run]; omega

/-- **C148**: whatever the others do, a thread has made all of its calls after three steps for each of them. -/
theorem C148_ends {cwd : D} {stack : List D} {prog : Nat → List (Call D)} (sched : List Nat) (t : Nat)
    (h : 3 * (prog t).length ≤ sched.count t) :
    (run (State.init cwd stack prog) sched).pc t = .idle ∧ (run (State.init cwd stack prog) sched).todo t = [] := by
  have h1 := rank_run t sched (State.init cwd stack prog)
  have h2 : rank (State.init cwd stack prog) t = 3 * (prog t).length := by simp [rank, State.init]
  generalize run (State.init cwd stack prog) sched = s at *
  have h3 : rank s t = 0 := by omega
  unfold rank at h3
  refine ⟨?_, List.eq_nil_of_length_eq_zero (by omega)⟩
  cases hp : s.pc t <;> simp [hp] at h3 ⊢

/-! ## What goes wrong -/

/-- **C148**: two calls of `pushd` that overlap both keep the same directory, and that of the one that is overtaken is nowhere any more. -/
theorem C148_lost_counterexample (c a b : D) :
    ∃ s, s = run (State.init c [] fun t => if t = 0 then [.pushd a] else if t = 1 then [.pushd b] else []) [0, 1, 0, 0, 1, 1] ∧
    s.stack = [c, c] ∧ s.cwd = b ∧ s.res 0 = [.done] ∧ s.res 1 = [.done] := by
  refine ⟨_, rfl, ?_⟩
  simp [run, step, State.init, State.goto, State.ends]

/-- **C148**: of two threads that call `popd` with one entry on the stack one may raise `IndexError`, where a single thread is warned. -/
theorem C148_raises_counterexample (c a : D) :
    ∃ s, s = run (State.init c [a] fun t => if t ≤ 1 then [.popd] else []) [0, 1, 0, 1, 0] ∧
    s.res 0 = [.got a] ∧ s.res 1 = [.raised] ∧ s.cwd = a := by
  refine ⟨_, rfl, ?_⟩
  simp [run, step, State.init, State.goto, State.ends]

/-- **C148**: after a `pushd` and a `popd` in each of two threads the working directory may be another one than before. -/
theorem C148_elsewhere_counterexample (c a b : D) :
    ∃ s, s = run (State.init c [] fun t => if t = 0 then [.pushd a, .popd] else if t = 1 then [.pushd b, .popd] else [])
      [0, 0, 0, 1, 1, 1, 0, 0, 1, 1, 1, 0] ∧
    s.stack = [] ∧ s.cwd = a ∧ s.res 0 = [.got a, .done] ∧ s.res 1 = [.got c, .done] := by
  refine ⟨_, rfl, ?_⟩
  simp [run, step, State.init, State.goto, State.ends]

/-- **C148**: and a single thread never raises, whatever it calls. -/
theorem C148_single {cwd : D} {stack : List D} {prog : Nat → List (Call D)} (sched : List Nat) (t : Nat) (ht : ∀ u ∈ sched, u = t) :
    .raised ∉ (run (State.init cwd stack prog) sched).res t := by
  have key : ∀ (sched : List Nat) (s : State D), (∀ u ∈ sched, u = t) → (s.pc t = .tested → s.stack ≠ []) → .raised ∉ s.res t →
      .raised ∉ (run s sched).res t := by
    intro sched
    induction sched with
    | nil => exact fun s _ _ h => h
    | cons u r ih =>
      intro s hs h1 h2
      have hu := hs u List.mem_cons_self
      subst hu
      refine ih (step s u) (fun v hv => hs v (List.mem_cons_of_mem _ hv)) ?_ ?_
      · unfold step
        split
        · exact h1
        · simp [State.goto]
        · simp [State.goto]
        · simp [State.goto, State.ends]
        · cases hx : s.stack.isEmpty
          · intro _; simpa [State.goto] using hx
          · simp [State.goto, State.ends]
        · split <;> simp [State.goto, State.ends]
        · simp [State.goto, State.ends]
      · unfold step
        split
        · exact h2
        · simpa [State.goto] using h2
        · simpa [State.goto] using h2
        · simpa [State.goto, State.ends] using h2
        · split <;> simpa [State.goto, State.ends] using h2
        · rename_i e1
          have := h1 e1
          rw [List.getLast?_eq_some_getLast this]
          simpa [State.goto, State.ends] using h2
        · simpa [State.goto, State.ends] using h2
  exact key sched _ ht (by simp [State.init]) (by simp [State.init])

-- The conditions are met by programs of several threads that overlap.
example : ∀ t : Nat, depth 0 (if t = 0 then [Call.pushd 1, .pushd 2, .popd, .popd] else if t = 1 then [.pushd 3, .popd] else []) = some 0 := by
  intro t
  by_cases h : t = 0
  · simp [h, depth]
  · by_cases h1 : t = 1 <;> simp [h, h1, depth]

example : ∃ s, s = run (State.init 0 [7] fun t => if t = 0 then [Call.pushd 1, .pushd 2, .popd, .popd] else if t = 1 then [.pushd 3, .popd] else [])
      [0, 1, 0, 0, 1, 1, 0, 0, 0, 1, 0, 1, 1, 0, 0, 0, 0, 0] ∧ s.stack = [7] ∧ s.cwd = 0 := by
  refine ⟨_, rfl, ?_⟩; decide

-- Calls that do not overlap.
example : calls (fun t => if t = 0 then [Call.pushd 1, .popd] else if t = 1 then [.pushd 2] else []) [0, 1, 0] = [.pushd 1, .pushd 2, .popd] ∧
    spec [Call.pushd 1, .pushd 2, .popd] (0, []) = (1, [0]) := by decide

-- A directory that stays.
example : Stays ⟨255, 40⟩ (fun _ => some (.dir true)) [lit "a"] := by
  refine ⟨fun c => ?_, fun c => ?_, rfl⟩
  · simp [FS.isDir, FS.test, FS.stat, FS.walk, FS.start, FS.node, lit, utf8, Char.utf8Size]
  · simp [FS.chdirTo, FS.walk, FS.start, lit, utf8, Char.utf8Size]

end Verif.PushdRace
