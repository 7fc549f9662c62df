import Verif.Model.MkdirRace

/-!
# C145: making local directories for remotes in several processes
-/

namespace Verif.MkdirRace

set_option linter.unusedSectionVars false

variable {ν F : Type} [DecidableEq ν]

/-- Directory `p` is one that `t` is somewhere below. -/
def Above (p t : List ν) : Prop := p <+: t ∧ p ≠ t

def Ended : Pc → Prop
  | .returned | .raised _ _ => True
  | _ => False

def Storing : Pc → Prop
  | .storing _ _ => True
  | _ => False

theorem above_take {t : List ν} {k : Nat} (h : k < t.length) : Above (t.take k) t :=
  ⟨List.take_prefix _ _, fun e => by have := congrArg List.length e; simp at this; omega⟩

theorem take_of_above {p t : List ν} (h : Above p t) : p.length < t.length ∧ p = t.take p.length := by
  obtain ⟨⟨r, hr⟩, hn⟩ := h
  subst hr
  constructor
  · cases r with
    | nil => simp at hn
    | cons => simp
  · simp

/-- The process is done with directory `k` of its remote. -/
def past (k : Nat) : Pc → Prop
  | .checking j | .making j | .storing j _ | .raised j _ => k < j
  | .returned => True

/-- How far a process is, in directories that are there. -/
def upto (n : Nat) : Pc → Nat
  | .checking j | .making j => j
  | .storing j _ | .raised j _ => j + 1
  | .returned => n

structure Inv (target : Nat → List ν) (fields : Nat → List ν → List F) (d0 : List ν → Option (List F)) (s : State ν F) : Prop where
  old : ∀ p, (d0 p).isSome → s.dirs p = d0 p
  made : ∀ p l, d0 p = none → s.dirs p = some l → ∃ i k, k < (target i).length ∧ p = (target i).take k ∧
    ((∃ m, s.pc i = .storing k m ∧ l <+: fields i p) ∨ l = fields i p ∧ past k (s.pc i))
  there : ∀ i k, k < (target i).length → k < upto (target i).length (s.pc i) → (s.dirs ((target i).take k)).isSome
  mak : ∀ i k, s.pc i = .making k → k < (target i).length ∧ d0 ((target i).take k) = none
  st : ∀ i k m, s.pc i = .storing k m → k < (target i).length ∧ d0 ((target i).take k) = none ∧
    m ≤ (fields i ((target i).take k)).length ∧ s.dirs ((target i).take k) = some ((fields i ((target i).take k)).take m)
  ra : ∀ i k e, s.pc i = .raised k e → k < (target i).length ∧ d0 ((target i).take k) = none ∧ e = .fileExistsError
  one : ∀ i j k m k' m', s.pc i = .storing k m → s.pc j = .storing k' m' → (target i).take k = (target j).take k' → i = j

theorem inv_init (target : Nat → List ν) (fields : Nat → List ν → List F) (d0 : List ν → Option (List F)) :
    Inv target fields d0 (.init d0) where
  old _ _ := rfl
  made p l h h' := by simp [State.init, h] at h'
  there i k _ h := by simp [State.init, upto] at h
  mak i k h := by simp [State.init] at h
  st i k m h := by simp [State.init] at h
  ra i k e h := by simp [State.init] at h
  one i j k m k' m' h := by simp [State.init] at h

theorem goto_pc (s : State ν F) (i j : Nat) (c : Pc) : (s.goto i c).pc j = if j = i then c else s.pc j := rfl
@[simp] theorem goto_dirs (s : State ν F) (i : Nat) (c : Pc) : (s.goto i c).dirs = s.dirs := rfl
@[simp] theorem put_pc (s : State ν F) (p : List ν) (l : List F) : (s.put p l).pc = s.pc := rfl
theorem put_dirs (s : State ν F) (p q : List ν) (l : List F) : (s.put p l).dirs q = if q = p then some l else s.dirs q := rfl

variable {target : Nat → List ν} {fields : Nat → List ν → List F} {d0 : List ν → Option (List F)} {s : State ν F}

/-- A process that goes on without changing the tree. -/
theorem Inv.goto (h : Inv target fields d0 s) {i : Nat} {c : Pc} (hp : ∀ k, past k (s.pc i) → past k c)
    (hs : ∀ k m, s.pc i = .storing k m → m = (fields i ((target i).take k)).length ∧ past k c)
    (hn : ∀ k m, c ≠ .storing k m)
    (ht : ∀ k, k < (target i).length → k < upto (target i).length c → (s.dirs ((target i).take k)).isSome)
    (hm : ∀ k, c = .making k → k < (target i).length ∧ d0 ((target i).take k) = none)
    (hr : ∀ k e, c = .raised k e → k < (target i).length ∧ d0 ((target i).take k) = none ∧ e = .fileExistsError) :
    Inv target fields d0 (s.goto i c) where
  old := h.old
  made p l h0 hl := by
    obtain ⟨j, k, hk, rfl, hj⟩ := h.made p l h0 hl
    refine ⟨j, k, hk, rfl, ?_⟩
    rw [goto_pc]
    by_cases e : j = i
    · subst e
      rw [if_pos rfl]
      rcases hj with ⟨m, hm, hl'⟩ | ⟨hl', hq⟩
      · right
        obtain ⟨hm', hc⟩ := hs k m hm
        have := (h.st j k m hm).2.2.2
        rw [show s.dirs _ = some l from hl, hm', List.take_length] at this
        exact ⟨by injection this, hc⟩
      · exact Or.inr ⟨hl', hp k hq⟩
    · rw [if_neg e]; exact hj
  there j k hk hu := by
    rw [goto_pc] at hu
    by_cases e : j = i
    · subst e; rw [if_pos rfl] at hu; exact ht k hk hu
    · rw [if_neg e] at hu; exact h.there j k hk hu
  mak j k hj := by
    rw [goto_pc] at hj
    by_cases e : j = i
    · subst e; rw [if_pos rfl] at hj; exact hm k hj
    · rw [if_neg e] at hj; exact h.mak j k hj
  st j k m hj := by
    rw [goto_pc] at hj
    by_cases e : j = i
    · subst e; rw [if_pos rfl] at hj; exact absurd hj (hn k m)
    · rw [if_neg e] at hj; exact h.st j k m hj
  ra j k x hj := by
    rw [goto_pc] at hj
    by_cases e : j = i
    · subst e; rw [if_pos rfl] at hj; exact hr k x hj
    · rw [if_neg e] at hj; exact h.ra j k x hj
  one a b k m k' m' ha hb := by
    rw [goto_pc] at ha hb
    by_cases e : a = i
    · rw [if_pos e] at ha; exact absurd ha (hn k m)
    by_cases e' : b = i
    · rw [if_pos e'] at hb; exact absurd hb (hn k' m')
    rw [if_neg e] at ha
    rw [if_neg e'] at hb
    exact h.one a b k m k' m' ha hb

/-- A process stores with a directory that is its own, or makes it. -/
theorem Inv.put (h : Inv target fields d0 s) {i k m : Nat} (hk : k < (target i).length) (h0 : d0 ((target i).take k) = none)
    (hm : m ≤ (fields i ((target i).take k)).length)
    (hown : ∀ j k' m', s.pc j = .storing k' m' → (target i).take k = (target j).take k' → j = i)
    (hpast : ∀ k', past k' (s.pc i) → k' < k) (hst : ∀ k' m', s.pc i = .storing k' m' → k' = k)
    (hu : k ≤ upto (target i).length (s.pc i)) :
    Inv target fields d0 ((s.put ((target i).take k) ((fields i ((target i).take k)).take m)).goto i (.storing k m)) := by
  have kk : ∀ k', k' < (target i).length → (target i).take k' = (target i).take k → k' = k := fun k' h' e => by
    have := congrArg List.length e
    simp at this; omega
  refine ⟨?_, ?_, ?_, ?_, ?_, ?_, ?_⟩
  · intro p hp
    simp only [goto_dirs, put_dirs]
    by_cases e : p = (target i).take k
    · subst e; rw [h0] at hp; cases hp
    · rw [if_neg e]; exact h.old p hp
  · intro p l hp hl
    simp only [goto_dirs, put_dirs] at hl
    by_cases e : p = (target i).take k
    · rw [if_pos e] at hl
      subst e
      refine ⟨i, k, hk, rfl, Or.inl ⟨m, by simp [goto_pc], ?_⟩⟩
      cases hl
      exact List.take_prefix _ _
    · rw [if_neg e] at hl
      obtain ⟨j, k', hk', rfl, hj⟩ := h.made p l hp hl
      refine ⟨j, k', hk', rfl, ?_⟩
      simp only [goto_pc, put_pc]
      by_cases e' : j = i
      · subst e'
        rw [if_pos rfl]
        rcases hj with ⟨m', hm', -⟩ | ⟨hl', hq⟩
        · exact absurd (by rw [hst _ _ hm']) e
        · exact Or.inr ⟨hl', hpast k' hq⟩
      · rw [if_neg e']; exact hj
  · intro j k' hk' hu'
    simp only [goto_dirs, put_dirs]
    by_cases e : (target j).take k' = (target i).take k
    · rw [if_pos e]; rfl
    · rw [if_neg e]
      simp only [goto_pc, put_pc] at hu'
      by_cases e' : j = i
      · subst e'
        rw [if_pos rfl] at hu'
        simp only [upto] at hu'
        refine h.there j k' hk' ?_
        have : k' ≠ k := fun x => e (by rw [x])
        omega
      · rw [if_neg e'] at hu'
        exact h.there j k' hk' hu'
  · intro j k' hj
    simp only [goto_pc, put_pc] at hj
    by_cases e' : j = i
    · rw [if_pos e'] at hj; cases hj
    · rw [if_neg e'] at hj; exact h.mak j k' hj
  · intro j k' m' hj
    simp only [goto_pc, put_pc] at hj
    by_cases e' : j = i
    · subst e'
      rw [if_pos rfl] at hj
      cases hj
      exact ⟨hk, h0, hm, by simp [put_dirs]⟩
    · rw [if_neg e'] at hj
      obtain ⟨a, b, c, d⟩ := h.st j k' m' hj
      refine ⟨a, b, c, ?_⟩
      simp only [goto_dirs, put_dirs]
      rw [if_neg fun e => e' (hown j k' m' hj e.symm), d]
  · intro j k' x hj
    simp only [goto_pc, put_pc] at hj
    by_cases e' : j = i
    · rw [if_pos e'] at hj; cases hj
    · rw [if_neg e'] at hj; exact h.ra j k' x hj
  · intro a b k1 m1 k2 m2 ha hb hab
    simp only [goto_pc, put_pc] at ha hb
    by_cases e : a = i
    · by_cases e' : b = i
      · rw [e, e']
      · rw [if_pos e] at ha
        rw [if_neg e'] at hb
        cases ha
        subst e
        exact (hown b k2 m2 hb hab).symm
    · rw [if_neg e] at ha
      by_cases e' : b = i
      · rw [if_pos e'] at hb
        cases hb
        subst e'
        exact hown a k1 m1 ha hab.symm
      · rw [if_neg e'] at hb
        exact h.one a b k1 m1 k2 m2 ha hb hab

theorem Inv.step (h : Inv target fields d0 s) (i : Nat) : Inv target fields d0 (step target fields s i) := by
  unfold MkdirRace.step
  cases hc : s.pc i with
  | checking k =>
    dsimp only
    split
    · rename_i hk
      have ht := h.there i
      rw [hc] at ht
      split
      · rename_i hd
        refine h.goto ?_ ?_ ?_ ?_ ?_ ?_ <;> simp [hc, past, upto]
        · omega
        · intro k' a b
          by_cases e : k' = k
          · subst e; exact hd
          · exact ht k' a (by simp only [upto]; omega)
      · rename_i hd
        refine h.goto ?_ ?_ ?_ ?_ ?_ ?_ <;> simp [hc, past, upto]
        · intro k' a b; exact ht k' a b
        · refine ⟨hk, ?_⟩
          rcases Option.eq_none_or_eq_some (d0 ((target i).take k)) with hx | ⟨x, hx⟩
          · exact hx
          · exact absurd (by rw [h.old _ (by rw [hx]; rfl), hx]; rfl) hd
    · rename_i hk
      have ht := h.there i
      rw [hc] at ht
      refine h.goto ?_ ?_ ?_ ?_ ?_ ?_ <;> simp [hc, past, upto]
      intro k' a
      exact ht k' a (by simp only [upto]; omega)
  | making k =>
    dsimp only
    obtain ⟨hk, h0⟩ := h.mak i k hc
    have ht := h.there i
    rw [hc] at ht
    split
    · rename_i hd
      refine h.goto ?_ ?_ ?_ ?_ ?_ ?_ <;> simp [hc, past, upto]
      · intro k' a b
        by_cases e : k' = k
        · subst e; exact hd
        · exact ht k' a (by simp only [upto]; omega)
      · exact ⟨hk, h0⟩
    · rename_i hd
      split
      · have := h.put (m := 0) hk h0 (by simp) ?_ ?_ ?_ ?_
        · simpa using this
        · intro j k' m' hj e
          exfalso
          apply hd
          rw [e, (h.st j k' m' hj).2.2.2]; rfl
        · simp [hc, past]
        · simp [hc]
        · simp [hc, upto]
      · rename_i hp
        exfalso
        apply hp
        unfold hasPlace
        by_cases e : k = 0
        · subst e; simp
        · have := ht (k - 1) (by omega) (by simp only [upto]; omega)
          rw [show ((target i).take k).dropLast = (target i).take (k - 1) from by
            rw [List.dropLast_eq_take, List.take_take]; congr 1; simp; omega]
          rw [this]; simp
  | storing k m =>
    dsimp only
    obtain ⟨hk, h0, hm, hd⟩ := h.st i k m hc
    have ht := h.there i
    rw [hc] at ht
    split
    · rename_i f hf
      have := h.put (m := m + 1) hk h0 (by
        have := (List.getElem?_eq_some_iff.1 hf).1
        omega) ?_ ?_ ?_ ?_
      · rw [hd, Option.getD_some]
        rwa [List.take_add_one, hf] at this
      · intro j k' m' hj e
        exact h.one j i k' m' k m hj hc e.symm
      · simp [hc, past]
      · intro k' m' e; rw [hc] at e; cases e; rfl
      · simp [hc, upto]
    · rename_i hf
      have hl := List.getElem?_eq_none_iff.1 hf
      refine h.goto ?_ ?_ ?_ ?_ ?_ ?_
      · simp [hc, past]; omega
      · intro k' m' e
        rw [hc] at e
        cases e
        exact ⟨by omega, by simp [past]⟩
      · simp
      · intro k' a b
        exact ht k' a b
      · simp
      · simp
  | returned => exact h
  | raised k e => exact h

theorem Inv.run (h : Inv target fields d0 s) (sched : List Nat) : Inv target fields d0 (run target fields s sched) := by
  induction sched generalizing s with
  | nil => exact h
  | cons i rest ih => exact ih (h.step i)

theorem inv_run (target : Nat → List ν) (fields : Nat → List ν → List F) (d0 : List ν → Option (List F)) (sched : List Nat) :
    Inv target fields d0 (run target fields (.init d0) sched) := (inv_init target fields d0).run sched

theorem step_other {i j : Nat} (h : j ≠ i) : (step target fields s i).pc j = s.pc j := by
  unfold step
  split
  · split <;> simp [goto_pc, h]
  · split
    · simp [goto_pc, h]
    · split <;> simp [goto_pc, h]
  · split <;> simp [goto_pc, h]
  · rfl
  · rfl

theorem pc_of_not_mem (sched : List Nat) {j : Nat} (h : j ∉ sched) : (run target fields s sched).pc j = s.pc j := by
  induction sched generalizing s with
  | nil => rfl
  | cons i rest ih =>
    rw [List.mem_cons] at h
    rw [run, ih fun x => h (Or.inr x), step_other fun x => h (Or.inl x)]

/-- C145: directories that were there stay as they were.  Each other one that is there is above the remote of a process and has a first part of the
metadata that this process was told, and all of it unless this process is still storing. -/
theorem C145_made (target : Nat → List ν) (fields : Nat → List ν → List F) (d0 : List ν → Option (List F)) (sched : List Nat) (p : List ν) :
    ((d0 p).isSome → (run target fields (.init d0) sched).dirs p = d0 p) ∧
    ∀ l, d0 p = none → (run target fields (.init d0) sched).dirs p = some l → ∃ i ∈ sched, Above p (target i) ∧ l <+: fields i p ∧
      (¬ Storing ((run target fields (.init d0) sched).pc i) → l = fields i p) := by
  have hI := inv_run target fields d0 sched
  refine ⟨hI.old p, fun l h0 hl => ?_⟩
  obtain ⟨i, k, hk, rfl, hi⟩ := hI.made p l h0 hl
  refine ⟨i, ?_, above_take hk, ?_, ?_⟩
  · by_cases hm : i ∈ sched
    · exact hm
    · rw [pc_of_not_mem sched hm] at hi
      rcases hi with ⟨m, hm, -⟩ | ⟨-, hm⟩
      · simp [State.init] at hm
      · simp [State.init, past] at hm
  · rcases hi with ⟨m, -, h⟩ | ⟨h, -⟩
    · exact h
    · rw [h]; exact List.prefix_refl _
  · intro hn
    rcases hi with ⟨m, h, -⟩ | ⟨h, -⟩
    · rw [h] at hn; exact absurd trivial hn
    · exact h

/-- C145: when all processes have ended, each new directory has all the metadata that one of them was told. -/
theorem C145_whole (target : Nat → List ν) (fields : Nat → List ν → List F) (d0 : List ν → Option (List F)) (sched : List Nat) (p : List ν)
    (hend : ∀ i ∈ sched, Ended ((run target fields (.init d0) sched).pc i)) (l : List F) (h0 : d0 p = none)
    (hl : (run target fields (.init d0) sched).dirs p = some l) : ∃ i ∈ sched, Above p (target i) ∧ l = fields i p := by
  obtain ⟨i, hi, ha, -, h⟩ := (C145_made target fields d0 sched p).2 l h0 hl
  refine ⟨i, hi, ha, h ?_⟩
  have := hend i hi
  intro hs
  cases hc : (run target fields (.init d0) sched).pc i <;> simp [hc, Ended, Storing] at this hs

/-- C145: when a process returns, all directories above its remote are there. -/
theorem C145_returned (target : Nat → List ν) (fields : Nat → List ν → List F) (d0 : List ν → Option (List F)) (sched : List Nat) (i : Nat)
    (hi : (run target fields (.init d0) sched).pc i = .returned) (p : List ν) (hp : Above p (target i)) :
    ((run target fields (.init d0) sched).dirs p).isSome := by
  have hI := inv_run target fields d0 sched
  obtain ⟨hk, he⟩ := take_of_above hp
  rw [he]
  exact hI.there i _ hk (by rw [hi]; exact hk)

/-- C145: all that a process can raise is that the directory is there already, and only one that another process has made meanwhile; all above
it is there too. -/
theorem C145_raised (target : Nat → List ν) (fields : Nat → List ν → List F) (d0 : List ν → Option (List F)) (sched : List Nat) (i k : Nat)
    (e : PyErr) (hi : (run target fields (.init d0) sched).pc i = .raised k e) :
    e = .fileExistsError ∧ k < (target i).length ∧ d0 ((target i).take k) = none ∧
    (∀ k' ≤ k, ((run target fields (.init d0) sched).dirs ((target i).take k')).isSome) ∧
    ∃ j ∈ sched, j ≠ i ∧ Above ((target i).take k) (target j) ∧
      ∃ l, (run target fields (.init d0) sched).dirs ((target i).take k) = some l ∧ l <+: fields j ((target i).take k) := by
  have hI := inv_run target fields d0 sched
  obtain ⟨hk, h0, he⟩ := hI.ra i k e hi
  have hth : ∀ k' ≤ k, ((run target fields (.init d0) sched).dirs ((target i).take k')).isSome := fun k' h' =>
    hI.there i k' (by omega) (by rw [hi]; simp only [upto]; omega)
  refine ⟨he, hk, h0, hth, ?_⟩
  obtain ⟨l, hl⟩ := Option.isSome_iff_exists.1 (hth k (Nat.le_refl _))
  obtain ⟨j, k', hk', hp, hj⟩ := hI.made _ l h0 hl
  have hkk : k = k' := by
    have := congrArg List.length hp
    simp at this; omega
  subst hkk
  refine ⟨j, ?_, ?_, ?_, l, hl, ?_⟩
  · by_cases hm : j ∈ sched
    · exact hm
    · rw [pc_of_not_mem sched hm] at hj
      rcases hj with ⟨m, hm, -⟩ | ⟨-, hm⟩
      · simp [State.init] at hm
      · simp [State.init, past] at hm
  · rintro rfl
    rw [hi] at hj
    rcases hj with ⟨m, hm, -⟩ | ⟨-, hm⟩
    · cases hm
    · simp [past] at hm
  · rw [hp]; exact above_take hk'
  · rcases hj with ⟨m, -, h⟩ | ⟨h, -⟩
    · exact h
    · rw [h]; exact List.prefix_refl _

theorem exists_bound (f : Nat → Nat) (l : List Nat) : ∃ B, ∀ i ∈ l, f i ≤ B := by
  induction l with
  | nil => exact ⟨0, by simp⟩
  | cons a l ih =>
    obtain ⟨B, hB⟩ := ih
    refine ⟨max (f a) B, fun i hi => ?_⟩
    rcases List.mem_cons.1 hi with rfl | hi
    · omega
    · have := hB i hi; omega

/-- C145: when all processes have ended and one has raised, then another one has returned that needs the same directory, so all above
its remote is there. -/
theorem C145_wins (target : Nat → List ν) (fields : Nat → List ν → List F) (d0 : List ν → Option (List F)) (sched : List Nat)
    (hend : ∀ i ∈ sched, Ended ((run target fields (.init d0) sched).pc i)) (i k : Nat) (e : PyErr)
    (hi : (run target fields (.init d0) sched).pc i = .raised k e) :
    ∃ j ∈ sched, (run target fields (.init d0) sched).pc j = .returned ∧ Above ((target i).take k) (target j) := by
  have hI := inv_run target fields d0 sched
  obtain ⟨B, hB⟩ := exists_bound (fun i => (target i).length) sched
  generalize hn : B - k = n
  induction n using Nat.strongRecOn generalizing i k e with
  | _ n ih =>
    obtain ⟨hk, h0, he⟩ := hI.ra i k e hi
    obtain ⟨l, hl⟩ := Option.isSome_iff_exists.1 (hI.there i k hk (by rw [hi]; simp only [upto]; omega))
    obtain ⟨j, k', hk', hp, hj⟩ := hI.made _ l h0 hl
    have hkk : k = k' := by
      have := congrArg List.length hp
      simp at this; omega
    subst hkk
    have hmem : j ∈ sched := by
      by_cases hm : j ∈ sched
      · exact hm
      · rw [pc_of_not_mem sched hm] at hj
        rcases hj with ⟨m, hm, -⟩ | ⟨-, hm⟩
        · simp [State.init] at hm
        · simp [State.init, past] at hm
    have hE := hend j hmem
    have hbj := hB j hmem
    cases hc : (run target fields (.init d0) sched).pc j with
    | returned => exact ⟨j, hmem, hc, by rw [hp]; exact above_take hk'⟩
    | raised k2 e2 =>
      rw [hc] at hj
      have hlt : k < k2 := by
        rcases hj with ⟨m, hm, -⟩ | ⟨-, hm⟩
        · cases hm
        · exact hm
      have hk2 := (hI.ra j k2 e2 hc).1
      obtain ⟨j', hm', hr', ha'⟩ := ih (B - k2) (by omega) j k2 e2 hc rfl
      refine ⟨j', hm', hr', ?_⟩
      obtain ⟨hlen, hte⟩ := take_of_above ha'
      have hl2 : ((target j).take k2).length = k2 := by simp; omega
      rw [hl2] at hlen hte
      have : (target i).take k = (target j').take k := by
        rw [hp, show (target j).take k = ((target j).take k2).take k from by rw [List.take_take]; congr 1; omega, hte, List.take_take]
        congr 1; omega
      rw [this]
      exact above_take (by omega)
    | checking => rw [hc] at hE; exact hE.elim
    | making => rw [hc] at hE; exact hE.elim
    | storing => rw [hc] at hE; exact hE.elim

/-- C145: when all processes have ended, at least one of them has returned. -/
theorem C145_one_returns (target : Nat → List ν) (fields : Nat → List ν → List F) (d0 : List ν → Option (List F)) (sched : List Nat)
    (hne : sched ≠ []) (hend : ∀ i ∈ sched, Ended ((run target fields (.init d0) sched).pc i)) :
    ∃ i ∈ sched, (run target fields (.init d0) sched).pc i = .returned := by
  obtain ⟨i, hi⟩ := List.exists_mem_of_ne_nil _ hne
  have hE := hend i hi
  cases hc : (run target fields (.init d0) sched).pc i with
  | returned => exact ⟨i, hi, hc⟩
  | raised k e =>
    obtain ⟨j, hj, hr, -⟩ := C145_wins target fields d0 sched hend i k e hc
    exact ⟨j, hj, hr⟩
  | checking => rw [hc] at hE; exact hE.elim
  | making => rw [hc] at hE; exact hE.elim
  | storing => rw [hc] at hE; exact hE.elim

/-- So many steps are enough for a process that is this far. -/
def rank (n M : Nat) : Pc → Nat
  | .checking k => (n - k) * (M + 4) + 1
  | .making k => (n - k) * (M + 4)
  | .storing k m => (n - k) * (M + 4) - 1 - m
  | .returned | .raised _ _ => 0

theorem rank_step (h : Inv target fields d0 s) (i M : Nat) (hM : ∀ k < (target i).length, (fields i ((target i).take k)).length ≤ M) :
    Ended (s.pc i) ∨ rank (target i).length M ((step target fields s i).pc i) < rank (target i).length M (s.pc i) := by
  unfold MkdirRace.step
  cases hc : s.pc i with
  | returned => exact Or.inl trivial
  | raised => exact Or.inl trivial
  | checking k =>
    right
    dsimp only
    split
    · rename_i hk
      simp only [goto_pc, if_true]
      split
      · simp only [rank]
        have : (target i).length - k = ((target i).length - (k + 1)) + 1 := by omega
        rw [this, Nat.add_mul]; omega
      · simp only [rank]; omega
    · simp [goto_pc, rank]
  | making k =>
    right
    obtain ⟨hk, -⟩ := h.mak i k hc
    have : 0 < ((target i).length - k) * (M + 4) := Nat.mul_pos (by omega) (by omega)
    dsimp only
    split
    · simpa [goto_pc, rank] using this
    · split
      · simp [goto_pc, rank]; omega
      · simpa [goto_pc, rank] using this
  | storing k m =>
    right
    obtain ⟨hk, -, hm, -⟩ := h.st i k m hc
    have hl := hM k hk
    have : (target i).length - k = ((target i).length - (k + 1)) + 1 := by omega
    dsimp only
    split
    · simp only [goto_pc, if_true, rank]
      rw [this, Nat.add_mul]; omega
    · simp only [goto_pc, if_true, rank]
      rw [this, Nat.add_mul]; omega

theorem step_ended {i : Nat} (h : Ended (s.pc i)) : step target fields s i = s := by
  unfold step
  cases hc : s.pc i <;> simp [hc, Ended] at h ⊢

theorem run_ended (sched : List Nat) {i : Nat} (h : Ended (s.pc i)) : (run target fields s sched).pc i = s.pc i := by
  induction sched generalizing s with
  | nil => rfl
  | cons j rest ih =>
    have : (step target fields s j).pc i = s.pc i := by
      by_cases e : j = i
      · subst e; rw [step_ended h]
      · exact step_other fun x => e x.symm
    rw [run, ih (by rw [this]; exact h), this]

theorem ends_of_rank (h : Inv target fields d0 s) (i M : Nat) (hM : ∀ k < (target i).length, (fields i ((target i).take k)).length ≤ M)
    (sched : List Nat) (hs : rank (target i).length M (s.pc i) < sched.count i) : Ended ((run target fields s sched).pc i) := by
  induction sched generalizing s with
  | nil => simp at hs
  | cons j rest ih =>
    rw [run]
    by_cases e : j = i
    · subst e
      rcases rank_step h j M hM with hE | hlt
      · have := step_ended (target := target) (fields := fields) hE
        rw [this, run_ended rest hE]; exact hE
      · refine ih (h.step j) ?_
        simp at hs; omega
    · refine ih (h.step j) ?_
      rw [step_other fun x => e x.symm]
      rwa [List.count_cons_of_ne (by simpa using e)] at hs

/-- C145: each process ends, whatever the others do. -/
theorem C145_ends (target : Nat → List ν) (fields : Nat → List ν → List F) (d0 : List ν → Option (List F)) (i : Nat) :
    ∃ n, ∀ sched : List Nat, n ≤ sched.count i → Ended ((run target fields (.init d0) sched).pc i) := by
  obtain ⟨M, hM⟩ := exists_bound (fun k => (fields i ((target i).take k)).length) (List.range (target i).length)
  refine ⟨(target i).length * (M + 4) + 2, fun sched h =>
    ends_of_rank (inv_init target fields d0) i M (fun k hk => hM k (List.mem_range.2 hk)) sched ?_⟩
  simp only [State.init, rank, Nat.sub_zero]; omega

/-- C145: a process that is alone returns, and then all directories above its remote are there, the new ones with their metadata, and nothing else. -/
theorem C145_alone (target : Nat → List ν) (fields : Nat → List ν → List F) (d0 : List ν → Option (List F)) (i : Nat) :
    ∃ n, ∀ m ≥ n, (run target fields (.init d0) (List.replicate m i)).pc i = .returned ∧
      ∀ p, (Above p (target i) → (run target fields (.init d0) (List.replicate m i)).dirs p = some ((d0 p).getD (fields i p))) ∧
        (¬ Above p (target i) → (run target fields (.init d0) (List.replicate m i)).dirs p = d0 p) := by
  obtain ⟨n, hn⟩ := C145_ends target fields d0 i
  refine ⟨n, fun m hm => ?_⟩
  have hE := hn (List.replicate m i) (by simpa using hm)
  have hmem : ∀ j ∈ List.replicate m i, j = i := fun j hj => (List.mem_replicate.1 hj).2
  have hret : (run target fields (.init d0) (List.replicate m i)).pc i = .returned := by
    cases hc : (run target fields (.init d0) (List.replicate m i)).pc i with
    | returned => rfl
    | raised k e =>
      obtain ⟨-, -, -, -, j, hj, hne, -⟩ := C145_raised target fields d0 _ i k e hc
      exact absurd (hmem j hj) hne
    | checking => rw [hc] at hE; exact hE.elim
    | making => rw [hc] at hE; exact hE.elim
    | storing => rw [hc] at hE; exact hE.elim
  refine ⟨hret, fun p => ?_⟩
  obtain ⟨h1, h2⟩ := C145_made target fields d0 (List.replicate m i) p
  rcases Option.eq_none_or_eq_some (d0 p) with hx | ⟨x, hx⟩
  · constructor
    · intro ha
      obtain ⟨l, hl⟩ := Option.isSome_iff_exists.1 (C145_returned target fields d0 _ i hret p ha)
      obtain ⟨j, hj, -, -, h⟩ := h2 l hx hl
      obtain rfl := hmem j hj
      rw [hl, hx, h (by rw [hret]; exact id)]; rfl
    · intro ha
      rcases Option.eq_none_or_eq_some ((run target fields (.init d0) (List.replicate m i)).dirs p) with hy | ⟨y, hy⟩
      · rw [hy, hx]
      · obtain ⟨j, hj, h, -⟩ := h2 y hx hy
        obtain rfl := hmem j hj
        exact absurd h ha
  · rw [h1 (by rw [hx]; rfl), hx]
    exact ⟨fun _ => rfl, fun _ => rfl⟩

/-- C145: nothing happens to the tree, and the process returns, when all directories above its remote are there; so one that raised may be
started again when the others are done. -/
theorem C145_again (target : Nat → List ν) (fields : Nat → List ν → List F) (d : List ν → Option (List F)) (i : Nat)
    (hd : ∀ p, Above p (target i) → (d p).isSome) (sched : List Nat) (hs : ∀ j ∈ sched, j = i) :
    (run target fields (.init d) sched).dirs = d ∧
    ((target i).length < sched.length → (run target fields (.init d) sched).pc i = .returned) := by
  suffices H : ∀ (sched : List Nat), (∀ j ∈ sched, j = i) → ∀ (s : State ν F) (k : Nat), s.dirs = d →
      (s.pc i = .checking k ∧ k ≤ (target i).length ∨ s.pc i = .returned) →
      (run target fields s sched).dirs = d ∧ ((target i).length < sched.length + k ∨ s.pc i = .returned →
        (run target fields s sched).pc i = .returned) by
    obtain ⟨h1, h2⟩ := H sched hs (.init d) 0 rfl (Or.inl ⟨rfl, Nat.zero_le _⟩)
    exact ⟨h1, fun h => h2 (Or.inl h)⟩
  clear hs sched
  intro sched
  induction sched with
  | nil =>
    intro _ s k hds hp
    refine ⟨hds, ?_⟩
    rcases hp with ⟨hp, hk⟩ | hp
    · rintro (h | h)
      · simp at h; omega
      · exact h
    · intro _; exact hp
  | cons j rest ih =>
    intro hs s k hds hp
    obtain rfl := hs j (List.mem_cons_self ..)
    have ih := ih (fun x hx => hs x (List.mem_cons_of_mem _ hx))
    rw [run]
    rcases hp with ⟨hp, hk⟩ | hp
    · have e : step target fields s j = s.goto j (if k < (target j).length then .checking (k + 1) else .returned) := by
        unfold step
        rw [hp]
        dsimp only
        split
        · rename_i hlt
          rw [hds, if_pos (hd _ (above_take hlt))]
        · rfl
      rw [e]
      by_cases hlt : k < (target j).length
      · rw [if_pos hlt]
        obtain ⟨a, b⟩ := ih (s.goto j (.checking (k + 1))) (k + 1) hds (Or.inl ⟨by simp [goto_pc], hlt⟩)
        refine ⟨a, fun h => b (Or.inl ?_)⟩
        rcases h with h | h
        · simp at h; omega
        · rw [hp] at h; cases h
      · rw [if_neg hlt]
        obtain ⟨a, b⟩ := ih (s.goto j .returned) k hds (Or.inr (by simp [goto_pc]))
        exact ⟨a, fun _ => b (Or.inr (by simp [goto_pc]))⟩
    · rw [step_ended (by rw [hp]; trivial)]
      obtain ⟨a, b⟩ := ih s k hds (Or.inr hp)
      exact ⟨a, fun _ => b (Or.inr hp)⟩

/-- C145 says that one process may raise: two with the same remote, and the second one is told that the directory is there. -/
theorem C145_raises_counterexample (t : List ν) (ht : t ≠ []) (fields : Nat → List ν → List F) :
    ∃ sched, (run (fun _ => t) fields (.init fun _ => none) sched).pc 1 = .raised 0 .fileExistsError := by
  refine ⟨[0, 1, 0, 1], ?_⟩
  have := List.length_pos_iff.2 ht
  simp [run, step, State.init, State.goto, State.put, hasPlace, this]

/-- C145 does not say more of a process that returns: another one may not have stored anything yet with a directory that it finds. -/
theorem C145_bare_counterexample (a : ν) (fields : Nat → List ν → List F) :
    ∃ sched, (run (fun _ => [a]) fields (.init fun _ => none) sched).pc 1 = .returned ∧
      (run (fun _ => [a]) fields (.init fun _ => none) sched).dirs [] = some [] := by
  refine ⟨[0, 0, 1, 1], ?_⟩
  simp [run, step, State.init, State.goto, State.put, hasPlace]

/-- The hypotheses are met: three processes with different remotes, of which two raise at different directories. -/
example : ∃ r, r = run (fun i => if i = 0 then ['a', 'b', 'c'] else if i = 1 then ['a', 'b', 'd'] else ['a', 'e'])
    (fun i p => [(i, p.length)]) (.init fun p => if p = [] then some [] else none)
    [0, 1, 2, 0, 1, 2, 0, 1, 0, 0, 2, 1, 0, 0, 0, 0, 0, 0, 2, 2, 1, 1] ∧
    r.pc 0 = .returned ∧ r.pc 1 = .raised 1 .fileExistsError ∧ r.pc 2 = .raised 1 .fileExistsError ∧ r.dirs [] = some [] ∧
    r.dirs ['a'] = some [(0, 1)] ∧ r.dirs ['a', 'b'] = some [(0, 2)] ∧ r.dirs ['a', 'e'] = none := ⟨_, rfl, by decide⟩

end Verif.MkdirRace
