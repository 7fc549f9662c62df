import Verif.Model.AnchorRace

/-!
# C147: dropping anchor in several processes
-/

namespace Verif.AnchorRace
open Verif.Anchor (AErr Place)

set_option linter.unusedSimpArgs false

variable {I : Type}

def Ended : Pc I → Prop
  | .returned _ | .raised _ => True
  | _ => False

/-- The process works in the directory and has not found anything there that is in its way. -/
def inside : Pc I → Prop
  | .asking | .storing | .filling | .returned _ => True
  | _ => False

/-- The directory has to be there for a process that is this far. -/
def needs : Pc I → Prop
  | .start | .making => False
  | _ => True

structure Inv (root : I) (smart : Nat → Bool) (d0 : Option (Dir I)) (s : State I) : Prop where
  stays : d0.isSome → s.dir.isSome
  full : ∀ d, s.dir = some d → d.full = true → (∃ d', d0 = some d' ∧ d'.full = true) ∨ s.stored.isSome
  old : ∀ x, d0.bind (·.id) = some x → s.stored = some x
  new : d0.bind (·.id) = none → s.stored = none ∨ s.stored = some root
  there : ∀ i, needs (s.pc i) → s.dir.isSome
  making : ∀ i, s.pc i = .making → d0 = none
  storing : ∀ i, s.pc i = .storing ∨ s.pc i = .filling → d0.bind (·.id) = none
  filling : ∀ i, s.pc i = .filling → s.stored = some root
  returned : ∀ i x, s.pc i = .returned x → s.stored = some x
  rescuing : ∀ i e, s.pc i = .rescuing e → smart i = true ∧ (e = .cacheExists ∧ s.stored.isSome ∨ e = .directoryNotEmpty ∧ ∃ d, s.dir = some d ∧ d.full = true)
  raised : ∀ i e, s.pc i = .raised e → e = .other .fileExistsError ∧ d0 = none ∨
    e = .cacheExists ∧ smart i = false ∧ s.stored.isSome ∨
    e = .directoryNotEmpty ∧ smart i = false ∧ (∃ d, s.dir = some d ∧ d.full = true) ∨
    e = .directoryNotEmpty ∧ ∃ d, d0 = some d ∧ d.full = true ∧ d.id = none
  storer : d0.bind (·.id) = none → s.stored.isSome → ∃ j, s.pc j = .filling ∨ ∃ x, s.pc j = .returned x
  maker : d0 = none → s.dir.isSome → s.stored.isSome ∨ ∃ j, inside (s.pc j)

variable {root : I} {smart : Nat → Bool} {d0 : Option (Dir I)} {s : State I}

theorem inv_init (root : I) (smart : Nat → Bool) (d0 : Option (Dir I)) : Inv root smart d0 (.init d0) where
  stays h := h
  full d h h' := Or.inl ⟨d, h, h'⟩
  old x h := h
  new h := Or.inl h
  there i h := h.elim
  making i h := by simp [State.init] at h
  storing i h := by simp [State.init] at h
  filling i h := by simp [State.init] at h
  returned i x h := by simp [State.init] at h
  rescuing i e h := by simp [State.init] at h
  raised i e h := by simp [State.init] at h
  storer h h' := by simp [State.init, State.stored, h] at h'
  maker h h' := by simp [State.init, h] at h'

theorem goto_pc (s : State I) (i j : Nat) (c : Pc I) : (s.goto i c).pc j = if j = i then c else s.pc j := rfl
@[simp] theorem goto_dir (s : State I) (i : Nat) (c : Pc I) : (s.goto i c).dir = s.dir := rfl

/-- A process goes on; the directory only grows. -/
theorem Inv.goto (h : Inv root smart d0 s) {i : Nat} {c : Pc I} {d : Option (Dir I)}
    (hd : s.dir.isSome → d.isSome)
    (hf : ∀ x, s.dir = some x → x.full = true → ∃ y, d = some y ∧ y.full = true)
    (hfull : ∀ y, d = some y → y.full = true → (∃ x, s.dir = some x ∧ x.full = true) ∨ (d.bind (·.id)).isSome)
    (hid : ∀ x, s.stored = some x → d.bind (·.id) = some x)
    (hnew : d.bind (·.id) = s.stored ∨ d.bind (·.id) = some root ∧ c = .filling ∧ d0.bind (·.id) = none)
    (ht : needs c → d.isSome)
    (hmk : c = .making → d0 = none)
    (hst : c = .storing ∨ c = .filling → d0.bind (·.id) = none)
    (hfi : c = .filling → d.bind (·.id) = some root)
    (hre : ∀ x, c = .returned x → d.bind (·.id) = some x)
    (hres : ∀ e, c = .rescuing e → smart i = true ∧ (e = .cacheExists ∧ (d.bind (·.id)).isSome ∨ e = .directoryNotEmpty ∧ ∃ y, d = some y ∧ y.full = true))
    (hra : ∀ e, c = .raised e → e = .other .fileExistsError ∧ d0 = none ∨
      e = .cacheExists ∧ smart i = false ∧ (d.bind (·.id)).isSome ∨
      e = .directoryNotEmpty ∧ smart i = false ∧ (∃ y, d = some y ∧ y.full = true) ∨
      e = .directoryNotEmpty ∧ ∃ y, d0 = some y ∧ y.full = true ∧ y.id = none)
    (hso : s.pc i = .filling ∨ (∃ x, s.pc i = .returned x) → c = .filling ∨ ∃ x, c = .returned x)
    (hin : inside (s.pc i) → inside c ∨ (d.bind (·.id)).isSome)
    (hmade : s.dir = none → d.isSome → inside c) :
    Inv root smart d0 { s.goto i c with dir := d } := by
  have split : ∀ (P : Pc I → Prop) j, P ((s.goto i c).pc j) → (j = i ∧ P c) ∨ (j ≠ i ∧ P (s.pc j)) := fun P j hj => by
    rw [goto_pc] at hj
    by_cases e : j = i
    · rw [if_pos e] at hj; exact Or.inl ⟨e, hj⟩
    · rw [if_neg e] at hj; exact Or.inr ⟨e, hj⟩
  have hsome : s.stored.isSome → (d.bind (·.id)).isSome := fun hx => by
    obtain ⟨x, hx⟩ := Option.isSome_iff_exists.1 hx
    rw [hid x hx]; rfl
  refine ⟨fun x => hd (h.stays x), ?_, ?_, ?_, ?_, ?_, ?_, ?_, ?_, ?_, ?_, ?_, ?_⟩
  · intro y hy hyf
    rcases hfull y hy hyf with ⟨x, hx, hxf⟩ | hx
    · rcases h.full x hx hxf with h' | h'
      · exact Or.inl h'
      · exact Or.inr (hsome h')
    · exact Or.inr hx
  · intro x hx
    exact hid x (h.old x hx)
  · intro hx
    rcases hnew with h' | ⟨h', -⟩
    · rcases h.new hx with h'' | h''
      · exact Or.inl (h'.trans h'')
      · exact Or.inr (h'.trans h'')
    · exact Or.inr h'
  · intro j hj
    rcases split _ j hj with ⟨-, h'⟩ | ⟨-, h'⟩
    · exact ht h'
    · exact hd (h.there j h')
  · intro j hj
    rcases split (· = .making) j hj with ⟨-, h'⟩ | ⟨-, h'⟩
    · exact hmk h'
    · exact h.making j h'
  · intro j hj
    rcases split (fun c => c = .storing ∨ c = .filling) j hj with ⟨-, h'⟩ | ⟨-, h'⟩
    · exact hst h'
    · exact h.storing j h'
  · intro j hj
    rcases split (· = .filling) j hj with ⟨-, h'⟩ | ⟨-, h'⟩
    · exact hfi h'
    · exact hid _ (h.filling j h')
  · intro j x hj
    rcases split (· = .returned x) j hj with ⟨-, h'⟩ | ⟨-, h'⟩
    · exact hre x h'
    · exact hid _ (h.returned j x h')
  · intro j e hj
    rcases split (· = .rescuing e) j hj with ⟨rfl, h'⟩ | ⟨-, h'⟩
    · exact hres e h'
    · obtain ⟨hs, ⟨he, h''⟩ | ⟨he, x, hx, hxf⟩⟩ := h.rescuing j e h'
      · exact ⟨hs, Or.inl ⟨he, hsome h''⟩⟩
      · exact ⟨hs, Or.inr ⟨he, hf x hx hxf⟩⟩
  · intro j e hj
    rcases split (· = .raised e) j hj with ⟨rfl, h'⟩ | ⟨-, h'⟩
    · exact hra e h'
    · rcases h.raised j e h' with h'' | ⟨he, hs, h''⟩ | ⟨he, hs, x, hx, hxf⟩ | h''
      · exact Or.inl h''
      · exact Or.inr (Or.inl ⟨he, hs, hsome h''⟩)
      · exact Or.inr (Or.inr (Or.inl ⟨he, hs, hf x hx hxf⟩))
      · exact Or.inr (Or.inr (Or.inr h''))
  · intro h0 hx
    rcases hnew with h' | ⟨-, h', -⟩
    · have : s.stored.isSome := by rw [← h']; exact hx
      obtain ⟨j, hj⟩ := h.storer h0 this
      refine ⟨j, ?_⟩
      show (s.goto i c).pc j = _ ∨ _
      simp only [goto_pc]
      by_cases e : j = i
      · subst e; rw [if_pos rfl]; exact hso hj
      · rw [if_neg e]; exact hj
    · exact ⟨i, Or.inl (by simp [goto_pc, h'])⟩
  · intro h0 hx
    by_cases hdn : s.dir = none
    · exact Or.inr ⟨i, by simpa [goto_pc] using hmade hdn hx⟩
    · rcases h.maker h0 (Option.isSome_iff_ne_none.2 hdn) with h' | ⟨j, hj⟩
      · exact Or.inl (hsome h')
      · by_cases e : j = i
        · subst e
          rcases hin hj with h' | h'
          · exact Or.inr ⟨j, by simpa [goto_pc] using h'⟩
          · exact Or.inl h'
        · exact Or.inr ⟨j, by simpa [goto_pc, e] using hj⟩

/-- A process goes on without changing the directory. -/
theorem Inv.look (h : Inv root smart d0 s) {i : Nat} {c : Pc I}
    (ht : needs c → s.dir.isSome)
    (hmk : c = .making → d0 = none)
    (hst : c = .storing → d0.bind (·.id) = none) (hfi : c ≠ .filling)
    (hre : ∀ x, c = .returned x → s.stored = some x)
    (hres : ∀ e, c = .rescuing e → smart i = true ∧ (e = .cacheExists ∧ s.stored.isSome ∨ e = .directoryNotEmpty ∧ ∃ y, s.dir = some y ∧ y.full = true))
    (hra : ∀ e, c = .raised e → e = .other .fileExistsError ∧ d0 = none ∨
      e = .cacheExists ∧ smart i = false ∧ s.stored.isSome ∨
      e = .directoryNotEmpty ∧ smart i = false ∧ (∃ y, s.dir = some y ∧ y.full = true) ∨
      e = .directoryNotEmpty ∧ ∃ y, d0 = some y ∧ y.full = true ∧ y.id = none)
    (hso : s.pc i ≠ .filling ∧ ∀ x, s.pc i ≠ .returned x)
    (hin : inside (s.pc i) → inside c ∨ s.stored.isSome) :
    Inv root smart d0 (s.goto i c) := by
  have := h.goto (i := i) (c := c) (d := s.dir) id (fun x h1 h2 => ⟨x, h1, h2⟩) (fun y h1 h2 => Or.inl ⟨y, h1, h2⟩) (fun _ h => h) (Or.inl rfl) ht hmk
    (fun h => h.elim hst fun h => absurd h hfi) (fun h => absurd h hfi) hre hres hra
    (fun h => h.elim (fun h => absurd h hso.1) fun ⟨x, h⟩ => absurd h (hso.2 x)) hin (fun h1 h2 => by rw [h1] at h2; cases h2)
  exact this

theorem Inv.step (h : Inv root smart d0 s) (i : Nat) : Inv root smart d0 (step root smart s i) := by
  unfold AnchorRace.step
  cases hc : s.pc i with
  | start =>
    dsimp only
    split
    · rename_i hd
      apply h.look <;> simp [hc, needs, inside, hd]
    · rename_i hd
      apply h.look <;> simp [hc, needs, inside]
      rcases Option.eq_none_or_eq_some d0 with hx | ⟨x, hx⟩
      · exact hx
      · exact absurd (h.stays (by rw [hx]; rfl)) hd
  | making =>
    dsimp only
    have h0 := h.making i hc
    split
    · rename_i d hd
      apply h.look <;> simp [hc, needs, inside, hd, h0]
    · rename_i hd
      have hs : s.stored = none := by simp [State.stored, hd]
      apply h.goto <;> simp [hc, needs, inside, hd, hs]
  | listing =>
    dsimp only
    obtain ⟨d, hd⟩ := Option.isSome_iff_exists.1 (h.there i (by rw [hc]; trivial))
    simp only [hd]
    by_cases hfu : d.full = true
    · simp only [hfu, if_true, fail]
      cases hsm : smart i with
      | true =>
        simp only [if_true]
        apply h.look <;> simp [hc, needs, inside, hd, hsm, hfu]
      | false =>
        simp only [Bool.false_eq_true, if_false]
        apply h.look <;> simp [hc, needs, inside, hd, hsm, hfu]
    · simp only [hfu]
      apply h.look <;> simp [hc, needs, inside, hd]
  | asking =>
    dsimp only
    have ht := h.there i (by rw [hc]; trivial)
    by_cases hst : s.stored.isSome = true
    · simp only [hst, if_true, fail]
      cases hsm : smart i with
      | true =>
        simp only [if_true]
        apply h.look <;> simp [hc, needs, inside, ht, hsm, hst]
      | false =>
        simp only [Bool.false_eq_true, if_false]
        apply h.look <;> simp [hc, needs, inside, ht, hsm, hst]
    · simp only [hst]
      apply h.look <;> simp [hc, needs, inside, ht]
      rcases Option.eq_none_or_eq_some (d0.bind (·.id)) with hx | ⟨x, hx⟩
      · simpa using hx
      · exact absurd (by rw [h.old x hx]; rfl) hst
  | storing =>
    dsimp only
    obtain ⟨d, hd⟩ := Option.isSome_iff_exists.1 (h.there i (by rw [hc]; trivial))
    have h0 := h.storing i (Or.inl hc)
    have hn := h.new h0
    simp only [hd]
    have hid : ∀ x, s.stored = some x → root = x := by
      intro x hx
      rcases hn with h' | h' <;> rw [hx] at h' <;> cases h'
      rfl
    apply h.goto <;> simp [hc, needs, inside, hd]
    · exact hid
    · right; simpa using h0
    · simpa using h0
  | filling =>
    dsimp only
    obtain ⟨d, hd⟩ := Option.isSome_iff_exists.1 (h.there i (by rw [hc]; trivial))
    have h1 := h.filling i hc
    have hdi : d.id = some root := by simpa [State.stored, hd] using h1
    simp only [hd]
    apply h.goto <;> simp [hc, needs, inside, hd, hdi, State.stored]
  | rescuing e =>
    dsimp only
    obtain ⟨hsm, hcase⟩ := h.rescuing i e hc
    have ht := h.there i (by rw [hc]; trivial)
    split
    · rename_i x hx
      apply h.look <;> simp [hc, needs, inside, ht, hx]
    · rename_i hx
      apply h.look <;> simp [hc, needs, inside, ht, hx]
      rcases hcase with ⟨-, h'⟩ | ⟨he, d, hd, hf⟩
      · rw [hx] at h'; cases h'
      · right; right
        refine ⟨he, ?_⟩
        rcases h.full d hd hf with ⟨d', hd', hf'⟩ | h'
        · refine ⟨d', hd', hf', ?_⟩
          rcases Option.eq_none_or_eq_some d'.id with hy | ⟨y, hy⟩
          · exact hy
          · have := h.old y (by simp [hd', hy])
            rw [hx] at this; cases this
        · rw [hx] at h'; cases h'
  | returned => exact h
  | raised => exact h

theorem Inv.run (h : Inv root smart d0 s) (sched : List Nat) : Inv root smart d0 (run root smart s sched) := by
  induction sched generalizing s with
  | nil => exact h
  | cons i rest ih => exact ih (h.step i)

theorem inv_run (root : I) (smart : Nat → Bool) (d0 : Option (Dir I)) (sched : List Nat) :
    Inv root smart d0 (run root smart (.init d0) sched) := (inv_init root smart d0).run sched

theorem step_other {i j : Nat} (h : j ≠ i) : (step root smart s i).pc j = s.pc j := by
  unfold step
  split <;> (try split) <;> simp [goto_pc, h]

theorem pc_of_not_mem (sched : List Nat) {j : Nat} (h : j ∉ sched) : (run root smart s sched).pc j = s.pc j := by
  induction sched generalizing s with
  | nil => rfl
  | cons i rest ih =>
    rw [List.mem_cons] at h
    rw [run, ih fun x => h (Or.inr x), step_other fun x => h (Or.inl x)]

theorem mem_of_pc {d0 : Option (Dir I)} (sched : List Nat) {j : Nat} (h : (run root smart (.init d0) sched).pc j ≠ .start) : j ∈ sched := by
  by_cases hm : j ∈ sched
  · exact hm
  · rw [pc_of_not_mem sched hm] at h; exact absurd rfl h

/-- C147: each process that returns is anchored to the id that was stored with the directory, or to that of the root if there was none; it is stored
there, so all agree. -/
theorem C147_agree (root : I) (smart : Nat → Bool) (d0 : Option (Dir I)) (sched : List Nat) (i : Nat) (x : I)
    (hi : (run root smart (.init d0) sched).pc i = .returned x) :
    x = (d0.bind (·.id)).getD root ∧ (run root smart (.init d0) sched).stored = some x := by
  have hI := inv_run root smart d0 sched
  have hs := hI.returned i x hi
  refine ⟨?_, hs⟩
  rcases Option.eq_none_or_eq_some (d0.bind (·.id)) with hx | ⟨y, hx⟩
  · rw [hx]
    rcases hI.new hx with h | h <;> rw [hs] at h <;> cases h
    rfl
  · have := hI.old y hx
    rw [hs] at this
    rw [hx]; cases this; rfl

/-- C147: an id that is stored stays, and no other one than that of the root is stored. -/
theorem C147_stored (root : I) (smart : Nat → Bool) (d0 : Option (Dir I)) (sched : List Nat) :
    (∀ x, d0.bind (·.id) = some x → (run root smart (.init d0) sched).stored = some x) ∧
    (d0.bind (·.id) = none → (run root smart (.init d0) sched).stored = none ∨ (run root smart (.init d0) sched).stored = some root) :=
  ⟨(inv_run root smart d0 sched).old, (inv_run root smart d0 sched).new⟩

/-- C147: what a process can raise.  `smartAnchor` raises that the directory is there only if it was not there at first and another process made it, and
that it is not empty only if it was so at first and no id was stored with it. -/
theorem C147_raised (root : I) (smart : Nat → Bool) (d0 : Option (Dir I)) (sched : List Nat) (i : Nat) (e : AErr)
    (hi : (run root smart (.init d0) sched).pc i = .raised e) :
    e = .other .fileExistsError ∧ d0 = none ∧ (∃ j ∈ sched, j ≠ i ∧ inside ((run root smart (.init d0) sched).pc j)) ∨
    e = .directoryNotEmpty ∧ (∃ d, d0 = some d ∧ d.full = true ∧ d.id = none) ∨
    smart i = false ∧ (e = .cacheExists ∧ (run root smart (.init d0) sched).stored.isSome ∨
      e = .directoryNotEmpty ∧ ∃ d, (run root smart (.init d0) sched).dir = some d ∧ d.full = true) := by
  have hI := inv_run root smart d0 sched
  rcases hI.raised i e hi with ⟨rfl, h0⟩ | ⟨he, hs, h⟩ | ⟨he, hs, h⟩ | h
  · left
    refine ⟨rfl, h0, ?_⟩
    have hd := hI.there i (by rw [hi]; trivial)
    have key : ∃ j, inside ((run root smart (.init d0) sched).pc j) := by
      rcases hI.maker h0 hd with h | h
      · obtain ⟨j, hj | ⟨x, hj⟩⟩ := hI.storer (by rw [h0]; rfl) h
        · exact ⟨j, by rw [hj]; trivial⟩
        · exact ⟨j, by rw [hj]; trivial⟩
      · exact h
    obtain ⟨j, hj⟩ := key
    refine ⟨j, mem_of_pc (root := root) (smart := smart) (d0 := d0) sched ?_, ?_, hj⟩
    · intro h; rw [h] at hj; exact hj
    · rintro rfl; rw [hi] at hj; exact hj
  · exact Or.inr (Or.inr ⟨hs, Or.inl ⟨he, h⟩⟩)
  · exact Or.inr (Or.inr ⟨hs, Or.inr ⟨he, h⟩⟩)
  · exact Or.inr (Or.inl h)

/-- C147: when the directory was there at first, with an id or empty, then each process that called `smartAnchor` and has ended has returned. -/
theorem C147_there (root : I) (smart : Nat → Bool) (d : Dir I) (hd : d.full = true → d.id ≠ none) (sched : List Nat) (i : Nat)
    (hs : smart i = true) (hE : Ended ((run root smart (.init (some d)) sched).pc i)) :
    ∃ x, (run root smart (.init (some d)) sched).pc i = .returned x := by
  cases hc : (run root smart (.init (some d)) sched).pc i <;> rw [hc] at hE <;> try exact hE.elim
  · exact ⟨_, rfl⟩
  · rename_i e
    rcases C147_raised root smart (some d) sched i e hc with ⟨-, h, -⟩ | ⟨-, d', h, h1, h2⟩ | ⟨h, -⟩
    · cases h
    · cases h; exact absurd h2 (hd h1)
    · rw [hs] at h; cases h

/-- C147: when the directory was not there at first and all processes have ended, then at least one has returned, and it has the id of the root. -/
theorem C147_one_returns (root : I) (smart : Nat → Bool) (sched : List Nat) (hne : sched ≠ [])
    (hend : ∀ i ∈ sched, Ended ((run root smart (.init none) sched).pc i)) :
    ∃ i ∈ sched, (run root smart (.init none) sched).pc i = .returned root := by
  have hI := inv_run root smart none sched
  have fin : ∀ j, inside ((run root smart (.init none) sched).pc j) → ∃ i ∈ sched, (run root smart (.init none) sched).pc i = .returned root := by
    intro j hj
    have hm : j ∈ sched := by
      refine mem_of_pc (root := root) (smart := smart) (d0 := none) sched ?_
      intro h; rw [h] at hj; exact hj
    have hE := hend j hm
    cases hc : (run root smart (.init none) sched).pc j <;> rw [hc] at hE hj <;> try (first | exact hE.elim | exact hj.elim)
    rename_i x
    obtain ⟨hx, -⟩ := C147_agree root smart none sched j x hc
    rw [show (none : Option (Dir I)).bind (·.id) = none from rfl] at hx
    exact ⟨j, hm, by rw [hc, hx]; rfl⟩
  have st : (run root smart (.init none) sched).stored.isSome → ∃ i ∈ sched, (run root smart (.init none) sched).pc i = .returned root := by
    intro h
    obtain ⟨j, hj | ⟨x, hj⟩⟩ := hI.storer rfl h
    · exact fin j (by rw [hj]; trivial)
    · exact fin j (by rw [hj]; trivial)
  obtain ⟨i, hi⟩ := List.exists_mem_of_ne_nil _ hne
  have hE := hend i hi
  have hd : (run root smart (.init none) sched).dir.isSome := by
    refine hI.there i ?_
    cases hc : (run root smart (.init none) sched).pc i <;> rw [hc] at hE <;> first | trivial | exact hE.elim
  rcases hI.maker rfl hd with h | ⟨j, hj⟩
  · exact st h
  · exact fin j hj

/-- So many steps are enough for a process that is this far. -/
def rank : Pc I → Nat
  | .start => 6
  | .making => 4
  | .listing => 5
  | .asking => 3
  | .storing => 2
  | .filling => 1
  | .rescuing _ => 1
  | .returned _ | .raised _ => 0

theorem rank_step (s : State I) (i : Nat) : Ended (s.pc i) ∨ rank ((step root smart s i).pc i) < rank (s.pc i) := by
  unfold step
  cases hc : s.pc i with
  | start => right; simp only [goto_pc, if_true]; split <;> simp [rank]
  | making => right; dsimp only; split <;> simp [goto_pc, rank]
  | listing =>
    right; dsimp only; split
    · simp only [goto_pc, if_true, fail]
      split
      · split <;> simp [rank]
      · simp [rank]
    · simp [goto_pc, rank]
  | asking =>
    right
    simp only [goto_pc, if_true, fail]
    split
    · split <;> simp [rank]
    · simp [rank]
  | storing => right; dsimp only; split <;> simp [goto_pc, rank]
  | filling => right; dsimp only; split <;> simp [goto_pc, rank]
  | rescuing => right; dsimp only; split <;> simp [goto_pc, rank]
  | returned => exact Or.inl trivial
  | raised => exact Or.inl trivial

theorem step_ended {i : Nat} (h : Ended (s.pc i)) : step root smart s i = s := by
  unfold step
  cases hc : s.pc i <;> simp [hc, Ended] at h ⊢

theorem run_ended (sched : List Nat) {i : Nat} (h : Ended (s.pc i)) : (run root smart s sched).pc i = s.pc i := by
  induction sched generalizing s with
  | nil => rfl
  | cons j rest ih =>
    have : (step root smart s j).pc i = s.pc i := by
      by_cases e : j = i
      · subst e; rw [step_ended h]
      · exact step_other fun x => e x.symm
    rw [run, ih (by rw [this]; exact h), this]

theorem ends_of_rank (s : State I) (i : Nat) (sched : List Nat) (hs : rank (s.pc i) < sched.count i) : Ended ((run root smart s sched).pc i) := by
  induction sched generalizing s with
  | nil => simp at hs
  | cons j rest ih =>
    rw [run]
    by_cases e : j = i
    · subst e
      rcases rank_step (root := root) (smart := smart) s j with hE | hlt
      · rw [step_ended hE, run_ended rest hE]; exact hE
      · refine ih _ ?_
        simp at hs; omega
    · refine ih _ ?_
      rw [step_other fun x => e x.symm]
      rwa [List.count_cons_of_ne (by simpa using e)] at hs

/-- C147: each process ends after at most seven system calls, whatever the others do. -/
theorem C147_ends (root : I) (smart : Nat → Bool) (d0 : Option (Dir I)) (i : Nat) (sched : List Nat) (hs : 7 ≤ sched.count i) :
    Ended ((run root smart (.init d0) sched).pc i) := ends_of_rank _ i sched (by show rank (Pc.start : Pc I) < _; simp only [rank]; omega)

/-- The directory of a place. -/
def ofPlace (p : Place) : Option (Dir Anchor.Id) := p.content.map fun ns => ⟨!ns.isEmpty, p.meta_⟩

/-- How a process ends that has this result. -/
def ofResult : Except AErr Anchor.Cache → Pc Anchor.Id
  | .ok c => .returned c.id
  | .error e => .raised e

theorem run_replicate (s : State I) (i m n : Nat) (h : Ended ((run root smart s (List.replicate m i)).pc i)) (hn : m ≤ n) :
    run root smart s (List.replicate n i) = run root smart s (List.replicate m i) := by
  have app : ∀ (a b : List Nat) (s : State I), run root smart s (a ++ b) = run root smart (run root smart s a) b := by
    intro a
    induction a with
    | nil => intro b s; rfl
    | cons x a ih => intro b s; exact ih b _
  have stay : ∀ (k : Nat) (u : State I), Ended (u.pc i) → run root smart u (List.replicate k i) = u := by
    intro k
    induction k with
    | zero => intro u _; rfl
    | succ k ih => intro u hu; rw [List.replicate_succ, run, step_ended hu, ih u hu]
  obtain ⟨k, rfl⟩ := Nat.exists_eq_add_of_le hn
  rw [← List.replicate_append_replicate, app, stay k _ h]

/-- C147: a process that is alone does what the model of one process says, in a process that was not anchored before. -/
theorem C147_alone (split smart : Bool) (o : Anchor.Outside) (st : Anchor.St) (p : Place) (root : Anchor.Id) (hp : p.content = none → p.meta_ = none)
    (hkind : o.kind = .dir) (hmk : o.mkdir = true) (hdd : o.world.dataDir = true) (hc : st.cache = none) (hr : st.remote = none)
    (hroot : st.root = some root) (n : Nat) (hn : 7 ≤ n) (i : Nat) :
    ∃ r : Except AErr Anchor.Cache × Anchor.St × Place,
      r = (if smart then Anchor.smartAnchor split o st p else Anchor.dropAnchor split o st p) ∧
      (run root (fun _ => smart) (.init (ofPlace p)) (List.replicate n i)).pc i = ofResult r.1 ∧
      (run root (fun _ => smart) (.init (ofPlace p)) (List.replicate n i)).dir = ofPlace r.2.2 := by
  refine ⟨_, rfl, ?_⟩
  rw [run_replicate _ i 7 n (C147_ends _ _ _ i _ (by simp)) hn]
  obtain ⟨path, content, mt⟩ := p
  cases content with
  | none =>
    have := hp rfl
    dsimp only at this
    subst this
    cases smart <;>
    simp [List.replicate, run, step, State.init, State.goto, State.stored, fail, ofPlace, ofResult, Anchor.smartAnchor, Anchor.dropAnchor, hr, hroot, hkind,
      hmk, Anchor.cacheInit, Place.cache, Place.mark, hdd, hc, Anchor.anchorClassHere, Anchor.anchorToCache]
  | some ns =>
    cases ns with
    | nil =>
      cases mt <;> cases smart <;>
      simp [List.replicate, run, step, State.init, State.goto, State.stored, fail, ofPlace, ofResult, Anchor.smartAnchor, Anchor.dropAnchor, hr, hroot, hkind,
        hmk, Anchor.cacheInit, Place.cache, Place.mark, hdd, hc, Anchor.anchorClassHere, Anchor.anchorToCache]
    | cons x ns =>
      cases mt <;> cases smart <;>
      simp [List.replicate, run, step, State.init, State.goto, State.stored, fail, ofPlace, ofResult, Anchor.smartAnchor, Anchor.dropAnchor, hr, hroot, hkind,
        hmk, Anchor.cacheInit, Place.cache, Place.mark, hdd, hc, Anchor.anchorClassHere, Anchor.anchorToCache]

/-- C147 says that `smartAnchor` may raise although another process does the same and returns. -/
theorem C147_raises_counterexample (root : I) (smart : Nat → Bool) :
    ∃ sched, (run root smart (.init none) sched).pc 0 = .returned root ∧
      (run root smart (.init none) sched).pc 1 = .raised (.other .fileExistsError) := by
  refine ⟨[0, 1, 0, 1, 0, 0, 0], ?_⟩
  simp [run, step, State.init, State.goto, State.stored]

/-- `dropAnchor` is to raise when there is an anchor already: two processes both return. -/
theorem C147_twice_counterexample (root : I) :
    ∃ sched, (run root (fun _ => false) (.init none) sched).pc 0 = .returned root ∧
      (run root (fun _ => false) (.init none) sched).pc 1 = .returned root := by
  refine ⟨[0, 0, 1, 1, 0, 1, 0, 1, 0, 1], ?_⟩
  simp [run, step, State.init, State.goto, State.stored]

/-- The hypotheses are met: three processes, of which one raises, one finds the anchor of the other, and all is stored. -/
example : ∃ r, r = run 'r' (fun _ => true) (.init none) [0, 1, 0, 2, 1, 0, 0, 2, 0, 2, 2] ∧ r.pc 0 = .returned 'r' ∧
    r.pc 1 = .raised (.other .fileExistsError) ∧ r.pc 2 = .returned 'r' ∧ r.dir = some ⟨true, some 'r'⟩ := ⟨_, rfl, by decide⟩

/-- And when a directory with another id is there at first, all get that. -/
example : ∃ r, r = run 'r' (fun _ => true) (.init (some ⟨false, some 'q'⟩)) [0, 1, 0, 1, 1, 0, 0, 1] ∧ r.pc 0 = .returned 'q' ∧
    r.pc 1 = .returned 'q' := ⟨_, rfl, by decide⟩

/-- And a process that is alone, as in `C147_alone`. -/
example : ∃ r, r = Anchor.smartAnchor true ⟨⟨fun _ => none, true⟩, .dir, true⟩ ⟨none, none, some ['r'], none⟩ ⟨[['a']], none, none⟩ ∧
    ofResult r.1 = .returned ['r'] ∧ ofPlace r.2.2 = some ⟨true, some ['r']⟩ := ⟨_, rfl, by decide⟩

end Verif.AnchorRace
