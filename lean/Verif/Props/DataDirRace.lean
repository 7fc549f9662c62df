import Verif.Model.DataDirRace
import Verif.Props.DataDir

/-!
# C153: preparing the directory of a cache in several processes
-/

namespace Verif.DataDirRace

set_option linter.unusedSectionVars false

variable {T F : Type} [DecidableEq T]

/-- The files that are found below the path of the objects. -/
def content (s : State T F) : List F :=
  match s.objects with
  | .absent => []
  | .dir fs => fs
  | .link t => s.far t

/-- What is kept of the data directory, whoever works on it. -/
structure Keeps (s s' : State T F) : Prop where
  dir : s.dir = true → s'.dir = true
  trash : s.trash = true → s'.trash = true
  link : ∀ t, s.objects = .link t → s'.objects = .link t
  files : ∀ fs, fs ≠ [] → s.objects = .dir fs → ∃ more, s'.objects = .dir (fs ++ more)
  far : ∀ t, s.far t <+: s'.far t
  found : content s <+: content s'

theorem Keeps.refl (s : State T F) : Keeps s s :=
  ⟨id, id, fun _ h => h, fun fs _ h => ⟨[], by simpa using h⟩, fun _ => List.prefix_refl _, List.prefix_refl _⟩

theorem Keeps.trans {a b c : State T F} (h : Keeps a b) (g : Keeps b c) : Keeps a c := by
  refine ⟨g.dir ∘ h.dir, g.trash ∘ h.trash, fun t e => g.link t (h.link t e), ?_, fun t => (h.far t).trans (g.far t), h.found.trans g.found⟩
  intro fs ne e
  obtain ⟨m, hm⟩ := h.files fs ne e
  obtain ⟨m', hm'⟩ := g.files _ (by simp [ne]) hm
  exact ⟨m ++ m', by simpa using hm'⟩

variable {leads : T → Bool} {hasTrash : Bool} {job : Nat → Job T F}

theorem Keeps.same {s s' : State T F} (hd : s.dir = true → s'.dir = true) (ht : s.trash = true → s'.trash = true)
    (ho : s'.objects = s.objects) (hf : s'.far = s.far) : Keeps s s' := by
  refine ⟨hd, ht, fun t h => ho.trans h, fun fs _ h => ⟨[], by simpa using ho.trans h⟩, fun t => by rw [hf]; exact List.prefix_refl _, ?_⟩
  unfold content
  rw [ho, hf]
  exact List.prefix_refl _

/-- The objects change where there are none that could be lost. -/
theorem Keeps.empty {s s' : State T F} (hd : s'.dir = s.dir) (ht : s'.trash = s.trash)
    (ho : s.objects = .absent ∨ s.objects = .dir []) (hf : s'.far = s.far) : Keeps s s' := by
  refine ⟨fun h => hd ▸ h, fun h => ht ▸ h, ?_, ?_, fun t => by rw [hf]; exact List.prefix_refl _, ?_⟩
  · intro t h; rcases ho with ho | ho <;> rw [ho] at h <;> cases h
  · intro fs ne h
    rcases ho with ho | ho <;> rw [ho] at h <;> cases h
    exact absurd rfl ne
  · have : content s = [] := by unfold content; rcases ho with ho | ho <;> rw [ho]
    rw [this]; exact List.nil_prefix

theorem store_keeps (s : State T F) (i : Nat) (f : F) : Keeps s (s.store leads i f) := by
  unfold State.store
  split
  · exact Keeps.same id id rfl rfl
  · next fs h =>
    refine ⟨id, id, fun t e => ?_, fun gs _ e => ?_, fun _ => List.prefix_refl _, ?_⟩
    · rw [h] at e; cases e
    · rw [h] at e; cases e; exact ⟨[f], rfl⟩
    · unfold content; rw [h]; exact List.prefix_append _ _
  · next t h =>
    split
    · refine ⟨id, id, fun t e => e, fun gs _ e => ?_, fun u => ?_, ?_⟩
      · rw [h] at e; cases e
      · dsimp only
        split
        · exact List.prefix_append _ _
        · exact List.prefix_refl _
      · unfold content; rw [h]; simp [State.goto, h]
    · exact Keeps.same id id rfl rfl

theorem prepare_keeps (s : State T F) (i : Nat) (to : Option T) (ok : Bool) : Keeps s (s.prepare leads hasTrash i to ok) := by
  unfold State.prepare
  repeat' split
  all_goals first
    | exact Keeps.refl _
    | exact Keeps.same id id rfl rfl
    | exact Keeps.same (fun _ => rfl) id rfl rfl
    | exact Keeps.same id (fun _ => rfl) rfl rfl
    | exact Keeps.empty rfl rfl (Or.inl (by assumption)) rfl
    | (refine Keeps.empty rfl rfl (Or.inr ?_) rfl; simp_all)

theorem step_keeps (s : State T F) (i : Nat) : Keeps s (step leads hasTrash job s i) := by
  unfold step
  split
  · exact prepare_keeps s i _ _
  · split
    · exact store_keeps s i _
    · exact Keeps.refl _

/-- **C153**: in whatever order processes prepare the directory and store objects, nothing is lost: the directories stay, a link for the
objects stays the link that it is, files that are in the directory for objects stay in it, and what is found below the path of the objects
is found there ever after. -/
theorem C153_kept (leads : T → Bool) (hasTrash : Bool) (job : Nat → Job T F) (s : State T F) (sched : List Nat) :
    Keeps s (run leads hasTrash job s sched) := by
  induction sched generalizing s with
  | nil => exact Keeps.refl s
  | cons i rest ih => exact (step_keeps s i).trans (ih _)

/-- What is so of a process that has come so far. -/
def Good (hasTrash : Bool) (s : State T F) (pc : Pc) : Job T F → Prop
  | .store f => pc = .returned → f ∈ content s
  | .prepare to _ => (pc ≠ .start → s.dir = true) ∧ (pc = .comparing → ∃ t, s.objects = .link t) ∧
    (pc = .returned → hasTrash = true → to = none → s.trash = true) ∧
    (to = none → pc ≠ .asking ∧ pc ≠ .comparing ∧ pc ≠ .existing ∧ pc ≠ .removing ∧ pc ≠ .linking) ∧
    ∀ t, to = some t → pc ≠ .making ∧ pc ≠ .looking ∧ (pc = .trashing ∨ pc = .returned → s.objects = .link t)

theorem Good.keeps {s s' : State T F} {pc : Pc} {j : Job T F} (h : Good hasTrash s pc j) (k : Keeps s s') : Good hasTrash s' pc j := by
  cases j with
  | store f => exact fun e => k.found.subset (h e)
  | prepare to ok =>
    obtain ⟨a, b, c, d, e⟩ := h
    refine ⟨fun x => k.dir (a x), fun x => ?_, fun x y z => k.trash (c x y z), d, fun t x => ⟨(e t x).1, (e t x).2.1, fun y => k.link t ((e t x).2.2 y)⟩⟩
    obtain ⟨t, ht⟩ := b x
    exact ⟨t, k.link t ht⟩

theorem store_pc (s : State T F) (i : Nat) (f : F) : (s.store leads i f).pc i = .returned ∧ f ∈ content (s.store leads i f) ∨
    (s.store leads i f).pc i = .raised .fileNotFoundError ∧ (s.store leads i f).objects = s.objects := by
  unfold State.store
  split
  · right; simp [State.goto]
  · left; simp [State.goto, content]
  · next t h =>
    split
    · left; simp [State.goto, content, h]
    · right; simp [State.goto]

theorem step_other (s : State T F) {i j : Nat} (h : j ≠ i) : (step leads hasTrash job s i).pc j = s.pc j := by
  unfold step State.prepare State.store
  repeat' split
  all_goals simp [State.goto, h]

theorem prepare_good (s : State T F) (i : Nat) (to : Option T) (ok : Bool) (h : Good hasTrash s (s.pc i) (.prepare to ok : Job T F)) :
    Good hasTrash (s.prepare leads hasTrash i to ok) ((s.prepare leads hasTrash i to ok).pc i) (.prepare to ok : Job T F) := by
  have keep := h.keeps (prepare_keeps (leads := leads) (hasTrash := hasTrash) s i to ok)
  revert keep
  obtain ⟨a, b, c, d, e⟩ := h
  unfold State.prepare
  repeat' split
  all_goals intro keep
  all_goals first
    | exact keep
    | (simp only [Good, State.goto, if_true] at keep ⊢; simp_all; done)
    | (simp only [Good, State.goto, if_true] at keep ⊢; cases to <;> simp_all; done)
    | skip

theorem step_good (s : State T F) (h : ∀ j, Good hasTrash s (s.pc j) (job j)) (i j : Nat) :
    Good hasTrash (step leads hasTrash job s i) ((step leads hasTrash job s i).pc j) (job j) := by
  by_cases e : j = i
  · subst e
    have hj := h j
    unfold step
    split
    · next to ok hjob =>
      rw [hjob] at hj ⊢
      exact prepare_good s j to ok hj
    · next f hjob =>
      rw [hjob] at hj ⊢
      split
      · intro r
        rcases store_pc (leads := leads) s j f with ⟨_, x⟩ | ⟨x, _⟩
        · exact x
        · rw [x] at r; cases r
      · exact hj
  · rw [step_other s e]
    exact (h j).keeps (step_keeps s i)

theorem run_good (s : State T F) (h : ∀ j, Good hasTrash s (s.pc j) (job j)) (sched : List Nat) (j : Nat) :
    Good hasTrash (run leads hasTrash job s sched) ((run leads hasTrash job s sched).pc j) (job j) := by
  induction sched generalizing s with
  | nil => exact h j
  | cons i rest ih => exact ih _ (step_good s h i)

theorem init_good (dir : Bool) (o : Objects T F) (far : T → List F) (trash : Bool) (j : Nat) :
    Good hasTrash (.init dir o far trash) ((State.init dir o far trash).pc j) (job j) := by
  cases job j <;> simp [State.init, Good]

/-- **C153**: a process that returns with a target has the link to it, made by itself or by another; every process that returns has the data directory, without a target also the trash, and an object that was stored is
found below the path of the objects, whoever prepares the directory afterwards. -/
theorem C153_returned (leads : T → Bool) (hasTrash : Bool) (job : Nat → Job T F) (dir : Bool) (o : Objects T F) (far : T → List F)
    (trash : Bool) (sched : List Nat) (i : Nat) (h : (run leads hasTrash job (.init dir o far trash) sched).pc i = .returned) :
    (∀ to ok, job i = .prepare to ok → (run leads hasTrash job (.init dir o far trash) sched).dir = true) ∧
    (∀ ok, job i = .prepare none ok → hasTrash = true → (run leads hasTrash job (.init dir o far trash) sched).trash = true) ∧
    (∀ t ok, job i = .prepare (some t) ok → (run leads hasTrash job (.init dir o far trash) sched).objects = .link t) ∧
    (∀ f, job i = .store f → f ∈ content (run leads hasTrash job (.init dir o far trash) sched)) := by
  have g := run_good (leads := leads) (hasTrash := hasTrash) (job := job) (.init dir o far trash) (init_good dir o far trash) sched i
  rw [h] at g
  refine ⟨fun to ok e => ?_, fun ok e ht => ?_, fun t ok e => ?_, fun f e => ?_⟩ <;> rw [e] at g
  · exact g.1 (by simp)
  · exact g.2.2.1 rfl ht rfl
  · exact (g.2.2.2.2 t rfl).2.2 (Or.inr rfl)
  · exact g rfl

/-- **C153**: all that return with targets have the same one. -/
theorem C153_agree (leads : T → Bool) (hasTrash : Bool) (job : Nat → Job T F) (dir : Bool) (o : Objects T F) (far : T → List F)
    (trash : Bool) (sched : List Nat) (i j : Nat) (t u : T) (a b : Bool) (hi : job i = .prepare (some t) a) (hj : job j = .prepare (some u) b)
    (ri : (run leads hasTrash job (.init dir o far trash) sched).pc i = .returned)
    (rj : (run leads hasTrash job (.init dir o far trash) sched).pc j = .returned) : t = u := by
  have x := (C153_returned leads hasTrash job dir o far trash sched i ri).2.2.1 t a hi
  have y := (C153_returned leads hasTrash job dir o far trash sched j rj).2.2.1 u b hj
  rw [x] at y
  exact Objects.link.inj y

/-- A process that has begun and not ended. -/
def Busy : Pc → Prop
  | .start | .returned | .raised _ => False
  | _ => True

/-- All prepare the directory for the same target. -/
structure Same (hasTrash : Bool) (t : T) (s : State T F) : Prop where
  good : ∀ i, Good hasTrash s (s.pc i) (.prepare (some t) true : Job T F)
  objects : s.objects = .absent ∨ s.objects = .dir [] ∨ s.objects = .link t
  made : s.objects = .link t → ∃ i, s.pc i = .trashing ∨ s.pc i = .returned ∧ (hasTrash = true → s.trash = true)
  linking : ∀ i, s.pc i = .linking → s.objects ≠ .dir []
  removing : ∀ i, s.pc i = .removing → s.objects = .absent → ∃ j, s.pc j = .linking
  raised : ∀ i e, s.pc i = .raised e → (s.objects = .link t ∨ ∃ j, s.pc j = .linking) ∧
    (e = .fileExistsError ∨ e = .notADirectoryError ∨ e = .fileNotFoundError)

theorem same_init (hasTrash : Bool) (t : T) (dir : Bool) (o : Objects T F) (far : T → List F) (trash : Bool)
    (ho : o = .absent ∨ o = .dir []) : Same hasTrash t (.init dir o far trash) := by
  refine ⟨fun i => init_good (job := fun _ => .prepare (some t) true) dir o far trash i, ?_, ?_, ?_, ?_, ?_⟩
  · rcases ho with rfl | rfl <;> simp [State.init]
  · rcases ho with rfl | rfl <;> simp [State.init]
  all_goals simp [State.init]

theorem goto_pc (s : State T F) (i j : Nat) (c : Pc) : (s.goto i c).pc j = if j = i then c else s.pc j := rfl

/-- A process that is not going to make the link goes on and the objects stay. -/
theorem Same.goto {t : T} {s s' : State T F} (h : Same hasTrash t s) {i : Nat} {c : Pc}
    (good : ∀ i, Good hasTrash s' (s'.pc i) (.prepare (some t) true : Job T F))
    (hpc : s'.pc = (s.goto i c).pc) (ho : s'.objects = s.objects) (ht : s.trash = true → s'.trash = true)
    (hl : s.pc i = .linking → s.objects = .link t)
    (htr : s.pc i = .trashing → c = .returned ∧ (hasTrash = true → s'.trash = true)) (hre : s.pc i ≠ .returned)
    (hli : c = .linking → s.objects ≠ .dir [])
    (hrm : c = .removing → s.objects ≠ .absent)
    (hra : ∀ e, c = .raised e → (s.objects = .link t ∨ ∃ j, s.pc j = .linking) ∧
      (e = .fileExistsError ∨ e = .notADirectoryError ∨ e = .fileNotFoundError)) : Same hasTrash t s' := by
  have lin : s.objects ≠ .link t → (∃ j, s.pc j = .linking) → ∃ j, s'.pc j = .linking := by
    rintro no ⟨j, hj⟩
    refine ⟨j, ?_⟩
    rw [hpc, goto_pc, if_neg]
    · exact hj
    · rintro rfl; exact no (hl hj)
  refine ⟨good, by rw [ho]; exact h.objects, ?_, ?_, ?_, ?_⟩
  · intro e
    rw [ho] at e
    obtain ⟨j, hj⟩ := h.made e
    refine ⟨j, ?_⟩
    rw [hpc, goto_pc]
    by_cases x : j = i
    · subst x
      rw [if_pos rfl]
      rcases hj with hj | hj
      · exact Or.inr (htr hj)
      · exact absurd hj.1 hre
    · rw [if_neg x]
      rcases hj with hj | hj
      · exact Or.inl hj
      · exact Or.inr ⟨hj.1, fun y => ht (hj.2 y)⟩
  · intro j hj
    rw [ho]
    rw [hpc, goto_pc] at hj
    by_cases x : j = i
    · rw [if_pos x] at hj; exact hli hj
    · rw [if_neg x] at hj; exact h.linking j hj
  · intro j hj e
    rw [ho] at e
    rw [hpc, goto_pc] at hj
    by_cases x : j = i
    · rw [if_pos x] at hj; exact absurd e (hrm hj)
    · rw [if_neg x] at hj
      exact lin (by rw [e]; simp) (h.removing j hj e)
  · intro j e hj
    rw [hpc, goto_pc] at hj
    have key : (s.objects = .link t ∨ ∃ j, s.pc j = .linking) ∧ (e = .fileExistsError ∨ e = .notADirectoryError ∨ e = .fileNotFoundError) := by
      by_cases x : j = i
      · rw [if_pos x] at hj; exact hra e hj
      · rw [if_neg x] at hj; exact h.raised j e hj
    refine ⟨?_, key.2⟩
    rw [ho]
    by_cases no : s.objects = .link t
    · exact Or.inl no
    · rcases key.1 with x | x
      · exact Or.inl x
      · exact Or.inr (lin no x)

theorem same_step {t : T} {s : State T F} (h : Same hasTrash t s) (i : Nat) : Same hasTrash t (s.prepare leads hasTrash i (some t) true) := by
  have good : ∀ j, Good hasTrash (s.prepare leads hasTrash i (some t) true) ((s.prepare leads hasTrash i (some t) true).pc j) (.prepare (some t) true : Job T F) :=
    fun j => step_good (leads := leads) (job := fun _ => .prepare (some t) true) s h.good i j
  have hi := h.good i
  simp only [Good] at hi
  have ho := h.objects
  revert good
  unfold State.prepare
  split
  case h_1 e =>
    simp only [Bool.not_true, Bool.and_false, Bool.false_eq_true, if_false, Option.isSome_some, if_true]
    intro good
    exact h.goto (i := i) (c := .asking) good rfl rfl id (by simp [e]) (by simp [e]) (by simp [e]) (by simp) (by simp) (by simp)
  case h_2 e => simp [e] at hi
  case h_3 e => simp [e] at hi
  case h_4 e =>
    split
    · intro good; exact h.goto (i := i) (c := .comparing) good rfl rfl id (by simp [e]) (by simp [e]) (by simp [e]) (by simp) (by simp) (by simp)
    · intro good; exact h.goto (i := i) (c := .existing) good rfl rfl id (by simp [e]) (by simp [e]) (by simp [e]) (by simp) (by simp) (by simp)
  case h_5 e =>
    obtain ⟨u, hu⟩ := hi.2.1 e
    have : u = t := by simp [hu] at ho; exact ho
    subst this
    simp only [hu, if_true]
    intro good
    exact h.goto (i := i) (c := .returned) good rfl rfl id (by simp [e]) (by simp [e]) (by simp [e]) (by simp) (by simp) (by simp)
  case h_6 e =>
    split
    · next x => intro good; exact h.goto (i := i) (c := .linking) good rfl rfl id (by simp [e]) (by simp [e]) (by simp [e]) (by simp [x]) (by simp) (by simp)
    · next x => intro good; exact h.goto (i := i) (c := .removing) good rfl rfl id (by simp [e]) (by simp [e]) (by simp [e]) (by simp) (by simp [x]) (by simp)
    · next x =>
      split
      · intro good; exact h.goto (i := i) (c := .removing) good rfl rfl id (by simp [e]) (by simp [e]) (by simp [e]) (by simp) (by simp [x]) (by simp)
      · intro good; exact h.goto (i := i) (c := .linking) good rfl rfl id (by simp [e]) (by simp [e]) (by simp [e]) (by simp [x]) (by simp) (by simp)
  case h_7 e =>
    split
    · next x =>
      intro good
      exact h.goto (i := i) (c := .raised .fileNotFoundError) good rfl rfl id (by simp [e]) (by simp [e]) (by simp [e]) (by simp) (by simp)
        fun e' he' => ⟨Or.inr (h.removing i e x), by cases he'; simp⟩
    · next fs x =>
      have : fs = [] := by simp [x] at ho; exact ho
      subst this
      simp only [List.isEmpty_nil, if_true]
      intro good
      have lin : ∃ j, (s.goto i .linking).pc j = .linking := ⟨i, by simp [goto_pc]⟩
      refine ⟨good, by simp, by simp, by simp, fun _ _ _ => lin, ?_⟩
      intro j e' hj
      refine ⟨Or.inr lin, ?_⟩
      by_cases y : j = i
      · subst y; simp [State.goto] at hj
      · simp only [State.goto, if_neg y] at hj; exact (h.raised j e' hj).2
    · next u x =>
      have : u = t := by simp [x] at ho; exact ho
      subst this
      intro good
      exact h.goto (i := i) (c := .raised .notADirectoryError) good rfl rfl id (by simp [e]) (by simp [e]) (by simp [e]) (by simp) (by simp)
        fun e' he' => ⟨Or.inl x, by cases he'; simp⟩
  case h_8 e =>
    split
    · next u x y =>
      cases y
      intro good
      have ne : ∀ j, (s.goto i .trashing).pc j = s.pc j ∨ j = i := fun j => by
        by_cases y : j = i
        · exact Or.inr y
        · left; simp [goto_pc, y]
      refine ⟨good, by simp, fun _ => ⟨i, Or.inl (by simp [goto_pc])⟩, by simp, by simp, ?_⟩
      intro j e' hj
      refine ⟨Or.inl rfl, ?_⟩
      by_cases y : j = i
      · subst y; simp [State.goto] at hj
      · simp only [State.goto, if_neg y] at hj; exact (h.raised j e' hj).2
    · next no =>
      have x : s.objects = .link t := by
        rcases ho with x | x | x
        · exact absurd rfl (no t x)
        · exact absurd x (h.linking i e)
        · exact x
      intro good
      exact h.goto (i := i) (c := .raised .fileExistsError) good rfl rfl id (fun _ => x) (by simp [e]) (by simp [e]) (by simp) (by simp)
        fun e' he' => ⟨Or.inl x, by cases he'; simp⟩
  case h_9 e =>
    split
    · simp only [Bool.not_true, Bool.and_false, Bool.false_eq_true, if_false]
      intro good
      exact h.goto (i := i) (c := .returned) good rfl rfl (fun _ => rfl) (by simp [e]) (by simp) (by simp [e]) (by simp) (by simp) (by simp)
    · next x =>
      intro good
      exact h.goto (i := i) (c := .returned) good rfl rfl id (by simp [e]) (by simp [x]) (by simp [e]) (by simp) (by simp) (by simp)
  case h_10 e => intro _; exact h
  case h_11 e => intro _; exact h

theorem same_run {t : T} {s : State T F} (h : Same hasTrash t s) (sched : List Nat) :
    Same hasTrash t (run leads hasTrash (fun _ => .prepare (some t) true) s sched) := by
  induction sched generalizing s with
  | nil => exact h
  | cons i rest ih => exact ih (same_step h i)

/-- **C153**: when all prepare the directory for the same target where there are no objects yet, and all that have begun have ended, then
the objects are the link, one of them has returned, and the trash is there.  The full claim is that all of them return; missing is that
those that come too late find out only if they ask after the link was made (`C153_same_counterexample`): otherwise they raise one of three
exceptions. -/
theorem C153_same_partial (leads : T → Bool) (hasTrash : Bool) (t : T) (dir : Bool) (o : Objects T F) (far : T → List F) (trash : Bool)
    (ho : o = .absent ∨ o = .dir []) (sched : List Nat) (s : State T F)
    (hs : s = run leads hasTrash (fun _ => .prepare (some t) true) (.init dir o far trash) sched) (done : ∀ i, ¬Busy (s.pc i)) :
    (∀ i e, s.pc i = .raised e → e = .fileExistsError ∨ e = .notADirectoryError ∨ e = .fileNotFoundError) ∧
    ((∃ i, s.pc i ≠ .start) → s.objects = .link t ∧ ∃ i, s.pc i = .returned ∧ (hasTrash = true → s.trash = true)) := by
  have h : Same hasTrash t s := hs ▸ same_run (same_init hasTrash t dir o far trash ho) sched
  refine ⟨fun i e x => (h.raised i e x).2, ?_⟩
  rintro ⟨i, hi⟩
  have link : s.objects = .link t := by
    have d := done i
    cases e : s.pc i with
    | start => exact absurd e hi
    | returned =>
      have g := h.good i
      rw [e] at g
      exact (g.2.2.2.2 t rfl).2.2 (Or.inr rfl)
    | raised x =>
      rcases (h.raised i x e).1 with y | ⟨j, hj⟩
      · exact y
      · exact absurd (by rw [hj]; trivial) (done j)
    | _ => rw [e] at d; exact absurd trivial d
  refine ⟨link, ?_⟩
  obtain ⟨j, hj | hj⟩ := h.made link
  · exact absurd (by rw [hj]; trivial) (done j)
  · exact ⟨j, hj⟩

/-- **C153**: where the link is there already, nobody who prepares the directory for its target raises, whatever others do. -/
theorem C153_there (leads : T → Bool) (hasTrash : Bool) (job : Nat → Job T F) (dir : Bool) (t : T) (far : T → List F) (trash : Bool)
    (sched : List Nat) (i : Nat) (hi : job i = .prepare (some t) true) (e : PyErr) :
    (run leads hasTrash job (.init dir (.link t) far trash) sched).pc i ≠ .raised e := by
  suffices ∀ s : State T F, s.objects = .link t → (s.pc i = .start ∨ s.pc i = .asking ∨ s.pc i = .comparing ∨ s.pc i = .returned) →
      (run leads hasTrash job s sched).pc i ≠ .raised e from this _ rfl (Or.inl rfl)
  induction sched with
  | nil => intro s _ h x; rw [show run leads hasTrash job s [] = s from rfl] at x; simp [x] at h
  | cons j rest ih =>
    intro s ho h
    refine ih (step leads hasTrash job s j) ((step_keeps s j).link t ho) ?_
    by_cases x : i = j
    · subst x
      unfold step
      rw [hi]
      dsimp only
      unfold State.prepare
      rcases h with h | h | h | h <;> rw [h] <;> simp [State.goto, ho, h]
    · rw [step_other s x]; exact h

/-- **C153**: when nobody gives a target and the objects are not a link that leads nowhere, nobody who prepares the directory raises,
and who returns has a directory for objects, also when others store objects meanwhile. -/
theorem C153_plain (leads : T → Bool) (hasTrash : Bool) (job : Nat → Job T F)
    (hjob : ∀ i to ok, job i = .prepare to ok → to = none ∧ ok = true) (dir : Bool) (o : Objects T F)
    (ho : ∀ t, o = .link t → leads t = true) (far : T → List F) (trash : Bool) (sched : List Nat) (s : State T F)
    (hs : s = run leads hasTrash job (.init dir o far trash) sched) (i : Nat) {to : Option T} {ok : Bool} (hi : job i = .prepare to ok) :
    (∀ e, s.pc i ≠ .raised e) ∧
    (s.pc i = .returned → (∃ fs, s.objects = .dir fs) ∨ ∃ t, s.objects = .link t ∧ leads t = true) := by
  suffices ∀ s : State T F, (∀ t, s.objects = .link t → leads t = true) →
      (∀ i to ok, job i = .prepare to ok → (s.pc i = .start ∨ s.pc i = .making) ∨
        (s.pc i = .looking ∨ s.pc i = .trashing ∨ s.pc i = .returned) ∧ s.objects ≠ .absent) →
      (∀ e, (run leads hasTrash job s sched).pc i ≠ .raised e) ∧ ((run leads hasTrash job s sched).pc i = .returned →
        (∃ fs, (run leads hasTrash job s sched).objects = .dir fs) ∨
          ∃ t, (run leads hasTrash job s sched).objects = .link t ∧ leads t = true) from
    hs ▸ this _ ho (fun i to ok _ => Or.inl (Or.inl rfl))
  clear hs s
  induction sched with
  | nil =>
    intro s hl h
    rw [show run leads hasTrash job s [] = s from rfl]
    refine ⟨fun e x => ?_, fun x => ?_⟩
    · have := h i to ok hi; simp [x] at this
    · have := h i to ok hi
      simp only [x, reduceCtorEq, or_true, true_and, or_self, false_or] at this
      cases y : s.objects with
      | absent => exact absurd y this
      | dir fs => exact Or.inl ⟨fs, rfl⟩
      | link t => exact Or.inr ⟨t, rfl, hl t y⟩
  | cons j rest ih =>
    intro s hl h
    have key : (∀ t, (step leads hasTrash job s j).objects = .link t → leads t = true) ∧
        (s.objects ≠ .absent → (step leads hasTrash job s j).objects ≠ .absent) ∧
        (∀ to ok, job j = .prepare to ok → ((step leads hasTrash job s j).pc j = .start ∨ (step leads hasTrash job s j).pc j = .making) ∨
        ((step leads hasTrash job s j).pc j = .looking ∨ (step leads hasTrash job s j).pc j = .trashing ∨
          (step leads hasTrash job s j).pc j = .returned) ∧ (step leads hasTrash job s j).objects ≠ .absent) := by
      unfold step
      split
      · next to ok e =>
        obtain ⟨rfl, rfl⟩ := hjob j to ok e
        have hj := h j none true e
        unfold State.prepare
        rcases hj with (hj | hj) | ⟨hj | hj | hj, no⟩ <;> rw [hj]
        · simp [State.goto]; exact hl
        · cases y : s.objects with
          | absent => simp [State.goto]
          | dir fs => simp [State.goto, y]
          | link t => simp [State.goto, y, hl t y]
        · cases y : s.objects with
          | absent => exact absurd y no
          | dir fs => simp [State.goto, y]
          | link t => simp [State.goto, y, hl t y]
        · cases hasTrash <;> simp [State.goto, no] <;> exact hl
        · simp [no, hj]; exact hl
      · next f e =>
        refine ⟨?_, ?_, fun to ok x => by rw [e] at x; cases x⟩
        · split
          · unfold State.store
            intro t
            repeat' split
            all_goals simp [State.goto]
            all_goals exact hl t
          · exact hl
        · split
          · unfold State.store
            repeat' split
            all_goals simp [State.goto, *]
          · exact id
    refine ih (step leads hasTrash job s j) key.1 fun m to' ok' hm => ?_
    by_cases x : m = j
    · subst x; exact key.2.2 to' ok' hm
    · rw [step_other s x]
      rcases h m to' ok' hm with y | y
      · exact Or.inl y
      · exact Or.inr ⟨y.1, key.2.1 y.2⟩

/-- What preparing the directory does when nobody else is there, as `C89_ready`, `C89_linked` and `C89_objects_kept` have it. -/
def alone (leads : T → Bool) (o : Objects T F) (to : Option T) : Pc × Objects T F :=
  match to, o with
  | none, .absent => (.returned, .dir [])
  | none, .dir fs => (.returned, .dir fs)
  | none, .link t => (if leads t then .returned else .raised .fileExistsError, .link t)
  | some t, .absent => (.returned, .link t)
  | some t, .dir [] => (.returned, .link t)
  | some _, .dir fs => (.raised .osError, .dir fs)
  | some t, .link u => (if t = u then .returned else .raised .notADirectoryError, .link u)

theorem step_ended (s : State T F) (i : Nat) (h : s.pc i = .returned ∨ ∃ e, s.pc i = .raised e) : step leads hasTrash job s i = s := by
  unfold step State.prepare
  split
  · rcases h with h | ⟨e, h⟩ <;> rw [h]
  · rcases h with h | ⟨e, h⟩ <;> simp [h]

theorem run_ended (s : State T F) (i n : Nat) (h : s.pc i = .returned ∨ ∃ e, s.pc i = .raised e) :
    run leads hasTrash job s (List.replicate n i) = s := by
  induction n with
  | zero => rfl
  | succ n ih => rw [List.replicate_succ, run, step_ended s i h, ih]

/-- **C153**: a process that is alone does what is said of one process: it returns with a directory or with the link to its target, and
raises if there are objects or a link to something else. -/
theorem C153_alone (leads : T → Bool) (hasTrash : Bool) (job : Nat → Job T F) (dir : Bool) (o : Objects T F) (far : T → List F) (trash : Bool)
    (i : Nat) (to : Option T) (hi : job i = .prepare to true) (n : Nat) :
    (run leads hasTrash job (.init dir o far trash) (List.replicate (6 + n) i)).pc i = (alone leads o to).1 ∧
    (run leads hasTrash job (.init dir o far trash) (List.replicate (6 + n) i)).objects = (alone leads o to).2 := by
  have split6 : List.replicate (6 + n) i = [i, i, i, i, i, i] ++ List.replicate n i := by
    rw [Nat.add_comm]; rfl
  have app : ∀ (a b : List Nat) (s : State T F), run leads hasTrash job s (a ++ b) = run leads hasTrash job (run leads hasTrash job s a) b := by
    intro a b
    induction a with
    | nil => intro s; rfl
    | cons x a ih => intro s; exact ih _
  have six : (run leads hasTrash job (.init dir o far trash) [i, i, i, i, i, i]).pc i = (alone leads o to).1 ∧
      (run leads hasTrash job (.init dir o far trash) [i, i, i, i, i, i]).objects = (alone leads o to).2 := by
    cases to with
    | none =>
      cases o with
      | absent => cases hasTrash <;> simp [run, step, hi, State.prepare, State.init, State.goto, alone]
      | dir fs => cases hasTrash <;> simp [run, step, hi, State.prepare, State.init, State.goto, alone]
      | link u => cases hasTrash <;> cases x : leads u <;> simp [run, step, hi, State.prepare, State.init, State.goto, alone, x]
    | some t =>
      cases o with
      | absent => cases hasTrash <;> simp [run, step, hi, State.prepare, State.init, State.goto, alone]
      | dir fs => cases fs <;> cases hasTrash <;> simp [run, step, hi, State.prepare, State.init, State.goto, alone]
      | link u =>
        by_cases x : t = u
        · subst x; simp [run, step, hi, State.prepare, State.init, State.goto, alone]
        · simp [run, step, hi, State.prepare, State.init, State.goto, alone, x]
  have ended : (alone leads o to).1 = .returned ∨ ∃ e, (alone leads o to).1 = .raised e := by
    unfold alone
    repeat' split
    all_goals simp
    all_goals (split <;> simp)
  rw [split6, app, run_ended _ i n (by rw [six.1]; exact ended)]
  exact six

/-- Two processes prepare the directory for the same target, one raises, in three ways: the other has removed the empty directory, has made
the link before this one removes the directory, or before this one makes the link. -/
theorem C153_same_counterexample :
    ∃ job : Nat → Job Unit Nat, job 0 = .prepare (some ()) true ∧ job 1 = .prepare (some ()) true ∧
    (∃ sched, let s := run (fun _ => true) true job (.init true (.dir []) (fun _ => []) true) sched
      s.pc 0 = .returned ∧ s.objects = .link () ∧ s.pc 1 = .raised .fileNotFoundError) ∧
    (∃ sched, let s := run (fun _ => true) true job (.init true (.dir []) (fun _ => []) true) sched
      s.pc 0 = .returned ∧ s.objects = .link () ∧ s.pc 1 = .raised .notADirectoryError) ∧
    (∃ sched, let s := run (fun _ => true) true job (.init true (.dir []) (fun _ => []) true) sched
      s.pc 0 = .returned ∧ s.objects = .link () ∧ s.pc 1 = .raised .fileExistsError) :=
  ⟨fun _ => .prepare (some ()) true, rfl, rfl, ⟨[0, 1, 0, 1, 0, 1, 0, 1, 0, 0], by decide⟩, ⟨[0, 1, 0, 1, 0, 1, 0, 0, 1, 0], by decide⟩,
    ⟨[0, 1, 0, 1, 0, 0, 1, 0, 1, 0], by decide⟩⟩

/-- Without a target a process returns, and then the directory that it made or found is replaced by another with a target, by a link that
may lead nowhere: the next one to store an object raises. -/
theorem C153_replaced_counterexample :
    ∃ (leads : Unit → Bool) (job : Nat → Job Unit Nat) (sched : List Nat), job 0 = .prepare none true ∧ job 1 = .prepare (some ()) true ∧ job 2 = .store 5 ∧
      let s := run leads true job (.init false .absent (fun _ => []) false) sched
      s.pc 0 = .returned ∧ s.pc 1 = .returned ∧ s.pc 2 = .raised .fileNotFoundError :=
  ⟨fun _ => false, fun i => if i = 0 then .prepare none true else if i = 1 then .prepare (some ()) true else .store 5,
    [0, 0, 0, 1, 1, 1, 1, 1, 1, 2], rfl, rfl, rfl, by decide⟩

/-- A process without a target raises that there is a file although no file was ever there: the directory that it met was replaced. -/
theorem C153_vanished_counterexample :
    ∃ (job : Nat → Job Unit Nat) (sched : List Nat), job 0 = .prepare none true ∧ job 1 = .prepare (some ()) true ∧
      let s := run (fun _ => true) true job (.init true (.dir []) (fun _ => []) true) sched
      s.pc 0 = .raised .fileExistsError ∧ s.objects = .absent :=
  ⟨fun i => if i = 0 then .prepare none true else .prepare (some ()) true, [1, 1, 1, 0, 0, 1, 0], rfl, rfl, by decide⟩

/-- A process that finds the link returns before the one that made it has made the trash. -/
theorem C153_trash_counterexample :
    ∃ (job : Nat → Job Unit Nat) (sched : List Nat), job 1 = .prepare (some ()) true ∧
      let s := run (fun _ => true) true job (.init true .absent (fun _ => []) false) sched
      s.pc 1 = .returned ∧ s.trash = false :=
  ⟨fun _ => .prepare (some ()) true, [0, 0, 0, 0, 1, 1, 1], rfl, by decide⟩

/-- Three processes of which one stores: all hypotheses are met, and with a link in place the other two return. -/
example :
    let s := run (fun _ : Bool => true) true (fun i => if i = 2 then .store 7 else .prepare (some true) true)
      (.init false .absent (fun _ => [1]) false) [0, 0, 0, 0, 2, 1, 1, 0, 1]
    s.pc 0 = .returned ∧ s.pc 1 = .returned ∧ s.pc 2 = .returned ∧ s.objects = .link true ∧ content s = [1, 7] := by decide

/-- The hypotheses of `C153_same_partial` with one that returns and one that raises. -/
example :
    let s := run (fun _ : Unit => true) true (fun _ => (.prepare (some ()) true : Job Unit Nat)) (.init true (.dir []) (fun _ => []) false)
      [0, 1, 0, 1, 0, 1, 0, 1, 0, 0]
    (∀ i, ¬Busy (s.pc i)) ∧ s.pc 0 = .returned ∧ s.pc 1 = .raised .fileNotFoundError ∧ s.trash = true := by
  refine ⟨fun i => ?_, by decide⟩
  match i with
  | 0 => exact id
  | 1 => exact id
  | n + 2 => exact id

/-- The hypotheses of `C153_plain`. -/
example :
    let s := run (fun _ : Unit => true) true (fun i => if i = 2 then .store 7 else .prepare none true)
      (.init false .absent (fun _ => []) false) [0, 0, 1, 1, 2, 1, 0, 1]
    s.pc 0 = .returned ∧ s.pc 1 = .returned ∧ s.pc 2 = .returned ∧ s.objects = .dir [7] := by decide

/-- Objects that were stored just before the directory is removed are kept: the one who wanted to remove it raises. -/
example :
    let s := run (fun _ : Unit => true) true (fun i => if i = 1 then .store 7 else .prepare (some ()) true)
      (.init true (.dir []) (fun _ => []) true) [0, 0, 0, 1, 0]
    s.pc 0 = .raised .osError ∧ s.objects = .dir [7] := by decide

/-- What is at the place of the objects on a disk; a link is where it `leads`. -/
def seen (d : FS.Disk FS.Node) (o : FS.Path) (goal : FS.Path) : Option (Objects FS.Path FS.Name) :=
  match d.at_ o with
  | none => some .absent
  | some (.dir _) => some (.dir (d.names o))
  | some (.link _) => some (.link goal)
  | some _ => none

open FS in
/-- **C153**: on the whole file system, `local_data_dir_init` in one process (`Env.dataDirInit`, of which C89 speaks) does what this model says
of a process that is alone: it raises the same and leaves the same at the place of the objects, when no call fails, the data directory is there and the class has no trash: `a` is
where the objects lead, if they are a link, and `to` where the target leads. -/
theorem C153_single (E : FS.Env) (hF : ∀ n, E.F n = none) (dir : UserPath) (s : Machine Node) {q o : Path} {x : Node}
    (hq : E.lloc s.disk dir = .ok q) (hx : s.disk.at_ q = some x) (ho : E.lloc s.disk ⟨dir.absolute, dir.comps ++ [objects]⟩ = .ok o)
    (he : E.lloc (s.disk.erase o) ⟨dir.absolute, dir.comps ++ [objects]⟩ = .ok o)
    {a : Path} (ha : ∀ l, s.disk.at_ o = some (.link l) → realpath s.disk.at_ E.L.maxLinks (start E.cwd dir.absolute) (dir.comps ++ [objects]) = .ok a)
    (leads : Path → Bool) (hl : ∀ l, s.disk.at_ o = some (.link l) → FS.isDir E.L s.disk.at_ E.cwd ⟨dir.absolute, dir.comps ++ [objects]⟩ = .ok (leads a))
    (target : Option UserPath) (to : Option Path)
    (ht : match target, to with
      | none, none => True
      | some t, some b => realpath s.disk.at_ E.L.maxLinks (start E.cwd t.absolute) t.comps = .ok b
      | _, _ => False)
    (hn : s.disk.at_ o = none → s.disk.names o = []) {ob : Objects Path Name} (hob : seen s.disk o a = some ob) (job : Nat → Job Path Name) (i n : Nat) (hi : job i = .prepare to true)
    (far : Path → List Name) (trash : Bool) :
    let r := E.dataDirInit dir none true target s
    let e := run leads false job (.init true ob far trash) (List.replicate (6 + n) i)
    e.pc i = (match r.1 with
      | .ok () => .returned
      | .error x => .raised x) ∧
    seen r.2.disk o ((if r.1 = .ok () then to else none).getD a) = some e.objects := by
  intro r e
  have ee : e.pc i = (alone leads ob to).1 ∧ e.objects = (alone leads ob to).2 := C153_alone leads false job true ob far trash i to hi n
  rw [ee.1, ee.2]
  have fresh : s.disk.names o = [] → ∀ d : Disk Node, (∀ m, d.at_ (o ++ [m]) = s.disk.at_ (o ++ [m])) → d.names o = [] := by
    intro h d hd
    refine List.eq_nil_iff_forall_not_mem.2 fun m hm => ?_
    obtain ⟨z, hz⟩ := (Disk.mem_names d o m).1 hm
    have : m ∈ s.disk.names o := (Disk.mem_names s.disk o m).2 ⟨z, by rw [← hd m]; exact hz⟩
    rw [h] at this
    cases this
  have fin : ∀ {v : Except PyErr Unit} {d : Disk Node} {p : Pc} {w : Objects Path Name}, r.1 = v → r.2.disk = d →
      p = (match v with
        | .ok () => .returned
        | .error x => .raised x) →
      seen d o ((if v = .ok () then to else none).getD a) = some w →
      p = (match r.1 with
        | .ok () => .returned
        | .error x => .raised x) ∧
      seen r.2.disk o ((if r.1 = .ok () then to else none).getD a) = some w := by
    intro v d p w h1 h2 h3 h4
    rw [h1, h2]
    exact ⟨h3, h4⟩
  obtain ⟨h1, h2, h3⟩ := C89_outcome E hF dir s hq hx ho
  unfold seen at hob
  cases hat : s.disk.at_ o with
  | none =>
    rw [hat] at hob
    cases hob
    obtain ⟨k1, k2⟩ := h1 hat
    cases target with
    | none => cases to with
      | none =>
        refine fin k1.1 k1.2 rfl ?_
        simp only [seen, Disk.at_put, if_true]
        rw [fresh (hn hat) _ fun m => by rw [Disk.at_put, if_neg (by simp)]]
        rfl
      | some b => exact ht.elim
    | some t => cases to with
      | none => exact ht.elim
      | some b =>
        refine fin (k2 t).1 (k2 t).2 rfl ?_
        simp [seen, Disk.at_put, alone]
  | some y =>
    rw [hat] at hob
    cases y with
    | dir b' =>
      cases hob
      obtain ⟨k1, k2⟩ := h2 b' hat
      cases target with
      | none => cases to with
        | none =>
          refine fin k1.1 k1.2 rfl ?_
          simp [seen, hat, alone]
        | some b => exact ht.elim
      | some t => cases to with
        | none => exact ht.elim
        | some b =>
          cases hm : s.disk.names o with
          | nil =>
            refine fin (k2 t hm he).1 (k2 t hm he).2 rfl ?_
            simp [seen, Disk.at_put, alone]
          | cons m ms =>
            obtain ⟨z, hz⟩ := (Disk.mem_names s.disk o m).1 (by rw [hm]; exact List.mem_cons_self)
            have k := C89_objects_kept E hF dir none t s hq hx ho hat hz
            refine fin k.1 k.2 rfl ?_
            simp [seen, hat, alone, hm]
    | link l =>
      cases hob
      obtain ⟨k1, k2⟩ := h3 l hat
      cases target with
      | none => cases to with
        | none =>
          have k := k1 _ (hl l hat)
          refine fin k.1 k.2 ?_ ?_
          · cases hv : leads a <;> simp [alone, hv]
          · cases hv : leads a <;> simp [alone, hv, seen, hat]
        | some b => exact ht.elim
      | some t => cases to with
        | none => exact ht.elim
        | some b =>
          have k := k2 t a b (ha l hat) ht
          refine fin k.1 k.2 ?_ ?_
          · by_cases e : a = b
            · simp [alone, e]
            · simp [alone, e, Ne.symm e]
          · by_cases e : a = b
            · simp [alone, e, seen, hat]
            · simp [alone, e, seen, hat]
    | file c => cases hob
    | other => cases hob

open FS in
example : ∃ a b, envD.lloc diskE ⟨true, [['d']]⟩ = .ok [['d']] ∧ diskE.at_ [['d']] = some (.dir true) ∧
    realpath diskE.at_ envD.L.maxLinks (start envD.cwd true) [['o']] = .ok b ∧ seen diskE [['d'], objects] a = some (.dir []) := by
  refine ⟨[], [['o']], ?_, by decide, ?_, by decide⟩
  · simp [Env.lloc, walk, envD, diskE, diskD, Disk.at_cons, start, utf8, Char.utf8Size, objects]
  · simp [realpath, envD, diskE, diskD, Disk.at_cons, start, objects]

end Verif.DataDirRace
