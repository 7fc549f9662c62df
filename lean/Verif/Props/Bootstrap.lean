import Verif.Model.Bootstrap

/-!
# C39, C40: bootstrap filters
-/

namespace Verif.Bootstrap

/-! ## Specification -/

/-- `c` is somewhere below `o`. -/
inductive Below : Obj → Obj → Prop where
  | kid {o c : Obj} : c ∈ o.kids → Below o c
  | deeper {o m c : Obj} : m ∈ o.kids → Below m c → Below o c

/-- The ids below an object. -/
def IdBelow (o : Obj) (i : Id) : Prop := ∃ c, Below o c ∧ c.id = i

theorem mem_go (ks : List Obj) (c : Obj) : c ∈ Obj.descend.go ks ↔ ∃ k ∈ ks, c = k ∨ c ∈ k.descend := by
  induction ks with
  | nil => simp [Obj.descend.go]
  | cons k ks ih =>
    rw [Obj.descend.go]
    simp only [List.cons_append, List.mem_cons, List.mem_append, ih, exists_eq_or_imp]
    constructor
    · rintro (h | h | h)
      · exact .inl (.inl h)
      · exact .inl (.inr h)
      · exact .inr h
    · rintro ((h | h) | h)
      · exact .inl h
      · exact .inr (.inl h)
      · exact .inr (.inr h)

theorem mem_below_kids (o c : Obj) : c ∈ o.descend ↔ ∃ k ∈ o.kids, c = k ∨ c ∈ k.descend := by
  cases o with
  | mk i d n ks => rw [Obj.descend, mem_go]; rfl

/-- What `_rchildren` lists is what is below. -/
theorem mem_below (o c : Obj) : c ∈ o.descend ↔ Below o c := by
  constructor
  · intro h
    have key : ∀ n, ∀ o : Obj, sizeOf o ≤ n → c ∈ o.descend → Below o c := by
      intro n
      induction n with
      | zero => intro o ho; cases o; simp at ho
      | succ n ih =>
        intro o ho h
        obtain ⟨k, hk, hc⟩ := (mem_below_kids o c).1 h
        rcases hc with rfl | hc
        · exact .kid hk
        · refine .deeper hk (ih k ?_ hc)
          cases o with
          | mk i d m ks =>
            have := List.sizeOf_lt_of_mem (show k ∈ ks from hk)
            simp at ho
            omega
    exact key _ o (Nat.le_refl _) h
  · intro h
    induction h with
    | kid hk => exact (mem_below_kids _ _).2 ⟨_, hk, .inl rfl⟩
    | deeper hk _ ih => exact (mem_below_kids _ _).2 ⟨_, hk, .inr ih⟩

/-- An object that is neither a directory nor a file, and is not here already. -/
def Refused (o : Obj) (here : Here) : Prop := o.shape = .other ∧ ¬ (here.exists_ = true ∧ here.id = some o.id)

theorem prepared (o : Obj) (here : Here) (sp : Sparse) :
    (Refused o here → (if here.exists_ && here.id == some o.id then .ok false else makes o here sp) = .error .baseException) ∧
    (¬ Refused o here → ∃ made, (if here.exists_ && here.id == some o.id then .ok false else makes o here sp) = .ok made ∧
      (made = true ↔ o.shape = .dir ∧ here.exists_ = false ∧ sp.truthy = false)) := by
  unfold Refused makes Obj.dir Obj.file
  cases he : here.exists_ <;> by_cases hi : here.id = some o.id <;> cases hs : o.shape <;> cases ht : sp.truthy <;> simp [hi]

/-- What becomes of an object that passes the filter. -/
theorem bootstrap_passed {isRoot : Bool} {o : Obj} {here : Here} {only skip : List Id} {sparse sp : Sparse} {m rec : Bool}
    (ha : admit isRoot o.id only skip sparse = some (sp, m)) (hl : isRoot = true ∨ sparse.isList = true)
    (hn : here.id = none ∨ rec = true) :
    (Refused o here → bootstrap isRoot o here only skip sparse rec = .error .baseException) ∧
    (¬ Refused o here → ∃ made, (made = true ↔ o.shape = .dir ∧ here.exists_ = false ∧ sp.truthy = false) ∧
      bootstrap isRoot o here only skip sparse rec =
        .ok ⟨(if rec then recursive o only skip sp else []) ++ [o.id], made, m⟩) := by
  have h1 : (!isRoot && !sparse.isList) = false := by rcases hl with h | h <;> simp [h]
  have h2 : (decide (here.id ≠ none) && !rec) = false := by rcases hn with h | h <;> simp [h]
  unfold bootstrap
  rw [ha]
  dsimp only
  rw [h1, h2]
  simp only [Bool.false_eq_true, if_false]
  constructor
  · intro h; rw [(prepared o here sp).1 h]
  · intro h
    obtain ⟨made, e, hm⟩ := (prepared o here sp).2 h
    exact ⟨made, hm, by rw [e]⟩

/-- The other direction. -/
theorem bootstrap_ok {isRoot : Bool} {o : Obj} {here : Here} {only skip : List Id} {sparse sp : Sparse} {m rec : Bool} {out : Out}
    (ha : admit isRoot o.id only skip sparse = some (sp, m)) (h : bootstrap isRoot o here only skip sparse rec = .ok out) :
    ¬ Refused o here ∧ ∃ made, (made = true ↔ o.shape = .dir ∧ here.exists_ = false ∧ sp.truthy = false) ∧
      out = ⟨(if rec then recursive o only skip sp else []) ++ [o.id], made, m⟩ := by
  have hl : isRoot = true ∨ sparse.isList = true := by
    cases isRoot <;> cases hs : sparse.isList <;> simp [bootstrap, ha, hs] at h ⊢
  have hn : here.id = none ∨ rec = true := by
    cases hi : here.id with
    | none => exact .inl rfl
    | some i =>
      right
      cases rec with
      | true => rfl
      | false =>
        have h1 : (!isRoot && !sparse.isList) = false := by rcases hl with h | h <;> simp [h]
        unfold bootstrap at h
        rw [ha] at h
        dsimp only at h
        rw [h1, hi] at h
        simp at h
  obtain ⟨h1, h2⟩ := bootstrap_passed (here := here) ha hl hn
  have hr : ¬ Refused o here := fun hr => by rw [h1 hr] at h; cases h
  obtain ⟨made, hm, e⟩ := h2 hr
  rw [e] at h
  cases h
  exact ⟨hr, made, hm, rfl⟩

/-! ## C39 -/

/-- C39 (part): an object that is not the root and whose id is in `skip`, or is not in a non-empty
`only`, is left alone, with all that is below it.  (Full claim: this holds for the objects below it too,
which is false, see the counterexamples.) -/
theorem C39_filtered_partial (o : Obj) (here : Here) (only skip : List Id) (sparse : Sparse) (rec : Bool)
    (h : o.id ∈ skip ∨ (only ≠ [] ∧ o.id ∉ only)) :
    bootstrap false o here only skip sparse rec = .ok ⟨[], false, false⟩ := by
  have : admit false o.id only skip sparse = none := by
    unfold admit
    rcases h with h | ⟨h1, h2⟩
    · have hs : skip ≠ [] := by rintro rfl; simp at h
      simp [h, hs]
    · simp [h1, h2]
  simp only [bootstrap, this]

/-- C39: below an object that is accepted, everything is bootstrapped (if nothing is to be sparse),
and nothing else: the object itself and all objects below it. -/
theorem C39_below_accepted (isRoot : Bool) (o : Obj) (here : Here) (only skip : List Id)
    (h : isRoot = true ∨ (o.id ∉ skip ∧ (only = [] ∨ o.id ∈ only))) (hr : ¬ Refused o here) :
    ∃ out, bootstrap isRoot o here only skip (.listed []) true = .ok out ∧
      ∀ i, i ∈ out.yielded ↔ i = o.id ∨ IdBelow o i := by
  have ha : admit isRoot o.id only skip (.listed []) = some (.listed [], false) := by
    unfold admit
    rcases h with h | ⟨h1, h2⟩
    · simp [h]
    · by_cases h3 : only = []
      · simp [h1, h3, Sparse.truthy]
      · have : o.id ∈ only := by simpa [h3] using h2
        simp [h1, h3, this, Sparse.truthy]
  obtain ⟨made, _, e⟩ := (bootstrap_passed (here := here) ha (.inr rfl) (.inr rfl)).2 hr
  refine ⟨_, e, ?_⟩
  intro i
  simp only [recursive, if_true, Sparse.truthy, List.isEmpty_nil, Bool.not_true, Bool.false_eq_true, if_false,
    List.mem_append, List.mem_map, List.mem_singleton, mem_below, IdBelow]
  exact Or.comm

/-- C39: the root is never skipped. -/
theorem C39_root_kept (o : Obj) (here : Here) (only skip : List Id) (sparse : Sparse) (rec : Bool) (out : Out)
    (h : bootstrap true o here only skip sparse rec = .ok out) : o.id ∈ out.yielded := by
  obtain ⟨_, _, _, rfl⟩ := bootstrap_ok (sp := sparse) (m := false) (by simp [admit]) h
  simp

/-- C39: an object that passes the filter and is neither a directory nor a file ends the bootstrap, unless it is here already. -/
theorem C39_refused (isRoot : Bool) (o : Obj) (here : Here) (only skip ids : List Id) (rec : Bool)
    (h : isRoot = true ∨ (o.id ∉ skip ∧ (only = [] ∨ o.id ∈ only))) (hr : Refused o here) :
    ∃ e, bootstrap isRoot o here only skip (.listed ids) rec = .error e ∧
      (e = .baseException ∨ e = .bootstrappingError ∧ here.id ≠ none ∧ rec = false) := by
  have ha : ∃ sp m, admit isRoot o.id only skip (.listed ids) = some (sp, m) := by
    unfold admit
    rcases h with h | ⟨h1, h2⟩
    · simp [h]
    · have h3 : (!only.isEmpty && !only.contains o.id) = false := by
        rcases h2 with rfl | ho
        · rfl
        · simp [ho]
      have h1' : skip.contains o.id = false := by simp [h1]
      simp only [h1', h3, Bool.false_eq_true, if_false]
      split
      · split
        · exact ⟨_, _, rfl⟩
        · split <;> exact ⟨_, _, rfl⟩
      · exact ⟨_, _, rfl⟩
  obtain ⟨sp, m, ha⟩ := ha
  by_cases hn : here.id = none ∨ rec = true
  · exact ⟨_, (bootstrap_passed ha (.inr rfl) hn).1 hr, .inl rfl⟩
  · rw [not_or] at hn
    have hrec : rec = false := by simpa using hn.2
    refine ⟨.bootstrappingError, ?_, .inr ⟨rfl, hn.1, hrec⟩⟩
    unfold bootstrap
    rw [ha]
    simp [Sparse.isList, hrec, hn.1]

example : Refused (.mk ['e'] .other true []) ⟨false, none⟩ ∧ ¬ Refused (.mk ['e'] .other true []) ⟨true, some ['e']⟩ := by
  simp [Refused, Obj.shape, Obj.id]

/-- C39: without recursion nothing but the object itself is yielded. -/
theorem C39_flat (isRoot : Bool) (o : Obj) (here : Here) (only skip : List Id) (sparse : Sparse) (out : Out)
    (h : bootstrap isRoot o here only skip sparse false = .ok out) : ∀ i ∈ out.yielded, i = o.id := by
  cases ha : admit isRoot o.id only skip sparse with
  | none => simp only [bootstrap, ha, Except.ok.injEq] at h; subst h; simp
  | some x =>
    obtain ⟨_, _, _, rfl⟩ := bootstrap_ok ha h
    simp

def leaf (i : Id) : Obj := .mk i .file false []
def sampleTree : Obj := .mk ['r'] .dir false [.mk ['a'] .dir false [leaf ['x']], leaf ['b']]

example : (leaf ['b']).id ∈ [['b'], ['c']] ∧ ¬ (leaf ['b']).id ∈ [['a']] := by decide
example : IdBelow sampleTree ['x'] :=
  ⟨leaf ['x'], .deeper (m := .mk ['a'] .dir false [leaf ['x']]) (by simp [sampleTree, Obj.kids])
    (.kid (by simp [Obj.kids])), rfl⟩
example : bootstrap true sampleTree ⟨false, none⟩ [] [['b']] (.listed []) false = .ok ⟨[['r']], true, false⟩ := by rfl

/-- C39 is false below an accepted object: everything that is listed in `skip` is bootstrapped all the
same (unless sparse), because the recursion does not look at `skip`. -/
theorem C39_skip_below_counterexample (o : Obj) (here : Here) (skip : List Id) (i : Id) (_ : i ∈ skip)
    (hb : IdBelow o i) (hr : ¬ Refused o here) :
    ∃ out, bootstrap true o here [] skip (.listed []) true = .ok out ∧ i ∈ out.yielded := by
  obtain ⟨out, h, hy⟩ := C39_below_accepted true o here [] skip (.inl rfl) hr
  exact ⟨out, h, (hy i).2 (.inr hb)⟩

/-- C39 is false below the root also for `only`: everything outside `only` is bootstrapped. -/
theorem C39_only_below_root_counterexample (o : Obj) (here : Here) (only : List Id) (i : Id) (_ : only ≠ [])
    (_ : i ∉ only) (hb : IdBelow o i) (hr : ¬ Refused o here) :
    ∃ out, bootstrap true o here only [] (.listed []) true = .ok out ∧ i ∈ out.yielded := by
  obtain ⟨out, h, hy⟩ := C39_below_accepted true o here only [] (.inl rfl) hr
  exact ⟨out, h, (hy i).2 (.inr hb)⟩

example : ['x'] ∈ [['x']] ∧ IdBelow sampleTree ['x'] :=
  ⟨by simp, leaf ['x'], .deeper (m := .mk ['a'] .dir false [leaf ['x']]) (by simp [sampleTree, Obj.kids])
    (.kid (by simp [Obj.kids])), rfl⟩

/-! ## C40 -/

/-- What it means to be bootstrapped fully: a directory that is not there is created, and everything below
is bootstrapped. -/
def Full (o : Obj) (here : Here) (out : Out) : Prop :=
  (o.shape = .dir → here.exists_ = false → out.made = true) ∧ ∀ i, IdBelow o i → i ∈ out.yielded

/-- What it means to be bootstrapped sparsely: no directory is created, and of what is below only
directories and wanted files are bootstrapped. -/
def IsSparse (o : Obj) (out : Out) : Prop :=
  out.made = false ∧ ∀ i, i ∈ out.yielded ↔ i = o.id ∨ ∃ c, Below o c ∧ c.id = i ∧ (c.shape = .dir ∨ c.shape = .file ∧ c.wanted)

theorem isSparse {o : Obj} {only skip : List Id} {sp : Sparse} {made m : Bool} (ht : sp.truthy = true) (hm : made = false) :
    IsSparse o ⟨(if true then recursive o only skip sp else []) ++ [o.id], made, m⟩ := by
  refine ⟨hm, ?_⟩
  intro i
  simp only [recursive, ht, if_true, List.mem_append, List.mem_map, List.mem_filter, List.mem_singleton, mem_below,
    Bool.or_eq_true, Bool.and_eq_true, Obj.dir, Obj.file, decide_eq_true_eq]
  constructor
  · rintro (⟨c, ⟨hb, hc⟩, he⟩ | rfl)
    · exact .inr ⟨c, hb, he, hc⟩
    · exact .inl rfl
  · rintro (rfl | ⟨c, hb, he, hc⟩)
    · exact .inr rfl
    · exact .inl ⟨c, ⟨hb, hc⟩, he⟩

/-- C40: an accepted object that is not the root is marked as a sparse root exactly when it is listed. -/
theorem C40_mark_iff (o : Obj) (here : Here) (only skip ids : List Id) (rec : Bool) (out : Out)
    (hs : o.id ∉ skip) (ho : only = [] ∨ o.id ∈ only)
    (h : bootstrap false o here only skip (.listed ids) rec = .ok out) : out.marked = true ↔ o.id ∈ ids := by
  have ha : admit false o.id only skip (.listed ids) =
      if o.id ∈ ids then some (.all, true) else some (.listed ids, false) := by
    unfold admit
    have h2 : (!only.isEmpty && !only.contains o.id) = false := by
      rcases ho with rfl | ho
      · rfl
      · simp [ho]
    by_cases hi : o.id ∈ ids
    · have : ids ≠ [] := by rintro rfl; simp at hi
      simp [hs, hi, Sparse.truthy, Sparse.has, this]
      simpa using h2
    · simp [hs, hi, Sparse.truthy, Sparse.has]
      intro _
      simpa using h2
  by_cases hi : o.id ∈ ids
  · rw [if_pos hi] at ha
    obtain ⟨_, _, _, rfl⟩ := bootstrap_ok ha h
    simp [hi]
  · rw [if_neg hi] at ha
    obtain ⟨_, _, _, rfl⟩ := bootstrap_ok ha h
    simp [hi]

/-- C40 (part): what is listed is bootstrapped sparsely, and if the list is empty everything is
bootstrapped fully.  (Full claim: also what is not in a list that is not empty is bootstrapped fully.) -/
theorem C40_sparse_partial (isRoot : Bool) (o : Obj) (here : Here) (only skip ids : List Id)
    (hr : ¬ Refused o here) (hs : isRoot = true ∨ (o.id ∉ skip ∧ (only = [] ∨ o.id ∈ only))) :
    ∃ out, bootstrap isRoot o here only skip (.listed ids) true = .ok out ∧
      (o.id ∈ ids → IsSparse o out) ∧ (ids = [] → Full o here out) := by
  have ha : ∃ sp m, admit isRoot o.id only skip (.listed ids) = some (sp, m) ∧ sp.truthy = !ids.isEmpty := by
    unfold admit
    rcases hs with h | ⟨h1, h2⟩
    · simp [h, Sparse.truthy]
    · have h3 : (!only.isEmpty && !only.contains o.id) = false := by
        rcases h2 with rfl | ho
        · rfl
        · simp [ho]
      have h1' : skip.contains o.id = false := by simp [h1]
      cases isRoot with
      | true => simp [Sparse.truthy]
      | false =>
        simp only [h1', h3, Bool.false_eq_true, if_false]
        by_cases hc : ((Sparse.listed ids).truthy && (Sparse.listed ids).has o.id) = true
        · simp only [hc, if_true]
          have ht : (Sparse.listed ids).truthy = true := by
            rw [Bool.and_eq_true] at hc; exact hc.1
          simp only [ht, Bool.or_true, if_true]
          exact ⟨_, _, rfl, by simpa [Sparse.truthy] using ht.symm⟩
        · simp only [hc]
          refine ⟨.listed ids, false, ?_, rfl⟩
          simp
  obtain ⟨sp, m, ha, ht⟩ := ha
  obtain ⟨made, hm, e⟩ := (bootstrap_passed (here := here) ha (.inr rfl) (.inr rfl)).2 hr
  refine ⟨_, e, ?_, ?_⟩
  · intro hi
    have hne : ids ≠ [] := by rintro rfl; simp at hi
    have ht : sp.truthy = true := by rw [ht]; simp [hne]
    exact isSparse ht (by cases made <;> simp_all)
  · rintro rfl
    have ht : sp.truthy = false := by rw [ht]; rfl
    refine ⟨fun hd he => hm.2 ⟨hd, he, ht⟩, ?_⟩
    rintro i ⟨c, hb, rfl⟩
    simp only [recursive, ht, Bool.false_eq_true, if_false, if_true, List.mem_append, List.mem_map, mem_below]
    exact .inl ⟨c, hb, rfl⟩

example : ¬ Refused sampleTree ⟨false, none⟩ ∧ sampleTree.id ∈ [['r'], ['q']] := ⟨(nomatch ·.1), by decide⟩

/-- C40 is false: as soon as anything is listed, everything is bootstrapped sparsely, also what is
not listed. -/
theorem C40_unlisted_counterexample (isRoot : Bool) (o : Obj) (here : Here) (ids : List Id) (hr : ¬ Refused o here)
    (hne : ids ≠ []) (hi : o.id ∉ ids) :
    ∃ out, bootstrap isRoot o here [] [] (.listed ids) true = .ok out ∧ IsSparse o out ∧ out.marked = false := by
  have ha : admit isRoot o.id [] [] (.listed ids) = some (.listed ids, false) := by
    cases isRoot <;> simp [admit, Sparse.truthy, Sparse.has, hi]
  have ht : (Sparse.listed ids).truthy = true := by simp [Sparse.truthy, hne]
  obtain ⟨made, hm, e⟩ := (bootstrap_passed (here := here) ha (.inr rfl) (.inr rfl)).2 hr
  exact ⟨_, e, isSparse ht (by cases made <;> simp_all), rfl⟩

example : [['q']] ≠ [] ∧ sampleTree.id ∉ [['q']] := by decide

/-- C40 is false for the root: listed or not, it is not marked. -/
theorem C40_root_counterexample (o : Obj) (here : Here) (only skip ids : List Id) (rec : Bool) (out : Out)
    (h : bootstrap true o here only skip (.listed ids) rec = .ok out) : out.marked = false := by
  have ha : admit true o.id only skip (.listed ids) = some (.listed ids, false) := by simp [admit]
  obtain ⟨_, _, _, rfl⟩ := bootstrap_ok ha h
  rfl

/-- **C40**: the directory of an object that passes is made exactly if it is a directory that is not there, and nothing is to be sparse;
whatever id was known before. -/
theorem C40_made_iff (isRoot : Bool) (o : Obj) (here : Here) (only skip ids : List Id) (rec : Bool) (out : Out)
    (hs : isRoot = true ∨ (o.id ∉ skip ∧ (only = [] ∨ o.id ∈ only)))
    (h : bootstrap isRoot o here only skip (.listed ids) rec = .ok out) :
    out.made = true ↔ o.shape = .dir ∧ here.exists_ = false ∧ ids = [] := by
  have ha : ∃ sp m, admit isRoot o.id only skip (.listed ids) = some (sp, m) ∧ sp.truthy = !ids.isEmpty := by
    unfold admit
    rcases hs with h | ⟨h1, h2⟩
    · simp [h, Sparse.truthy]
    · have h3 : (!only.isEmpty && !only.contains o.id) = false := by
        rcases h2 with rfl | ho
        · rfl
        · simp [ho]
      have h1' : skip.contains o.id = false := by simp [h1]
      cases isRoot with
      | true => simp [Sparse.truthy]
      | false =>
        simp only [h1', h3, Bool.false_eq_true, if_false]
        by_cases hi : ids = []
        · subst hi; simp [Sparse.truthy]
        · simp [Sparse.truthy, hi]
          split <;> simp_all
  obtain ⟨sp, m, ha, ht⟩ := ha
  obtain ⟨_, made, hm, rfl⟩ := bootstrap_ok ha h
  rw [hm, ht]
  simp

example : (bootstrap true (.mk ['r'] .dir false []) ⟨false, some ['r']⟩ [] [] (.listed []) true).toOption.map Out.made = some true := by decide

/-- C40: `sparse=True` is for the code alone: the root is bootstrapped sparsely, and any other object that is not filtered out is a
`TypeError`. -/
theorem C40_all (o : Obj) (here : Here) (only skip : List Id) (rec : Bool) :
    (¬ Refused o here → ∃ out, bootstrap true o here only skip .all true = .ok out ∧ IsSparse o out ∧ out.marked = false) ∧
    (o.id ∉ skip → only = [] ∨ o.id ∈ only → bootstrap false o here only skip .all rec = .error .typeError) := by
  constructor
  · intro hr
    have ha : admit true o.id only skip .all = some (.all, false) := by simp [admit]
    obtain ⟨made, hm, e⟩ := (bootstrap_passed (here := here) ha (.inl rfl) (.inr rfl)).2 hr
    exact ⟨_, e, isSparse rfl (by cases made <;> simp_all [Sparse.truthy]), rfl⟩
  · intro hs ho
    have ha : ∃ x, admit false o.id only skip .all = some x := by
      have h3 : (!only.isEmpty && !only.contains o.id) = false := by
        rcases ho with rfl | ho
        · rfl
        · simp [ho]
      have h1 : skip.contains o.id = false := by simp [hs]
      unfold admit
      simp only [h1, h3, Sparse.truthy, Bool.or_true, if_true, Bool.false_eq_true, if_false]
      cases Sparse.has o.id .all <;> exact ⟨_, rfl⟩
    obtain ⟨⟨sp, m⟩, ha⟩ := ha
    simp [bootstrap, ha, Sparse.isList]

example : ¬ Refused sampleTree ⟨true, none⟩ ∧ sampleTree.id ∉ [['q']] ∧ (([] : List Id) = [] ∨ sampleTree.id ∈ ([] : List Id)) :=
  ⟨(nomatch ·.1), by decide, .inl rfl⟩

end Verif.Bootstrap
