import Verif.Model.Parts

/-!
# C57: the parts of a remote object
-/

namespace Verif.Parts

/-- The object at the end of a way from the top of the remote. -/
def objAt (looped : Bool) (above : List Node) (self : Node) : Obj := ⟨self, above.reverse, looped⟩

theorem chain_eq (p : Node) (l : List Node) (h : ((p :: l).map Node.id).Nodup) : chain p l = p :: l := by
  induction l generalizing p with
  | nil => rfl
  | cons q l ih =>
    have hq : q.id ≠ p.id := by
      intro h'
      simp [h'] at h
    rw [chain, if_neg hq, ih q (by simp only [List.map_cons, List.nodup_cons] at h ⊢; exact h.2)]

theorem mem_chain {p n : Node} {l : List Node} (h : n ∈ chain p l) : n ∈ p :: l := by
  induction l generalizing p with
  | nil => simpa [chain] using h
  | cons q l ih =>
    rw [chain] at h
    by_cases hq : q.id = p.id
    · rw [if_pos hq] at h
      simp only [List.mem_singleton] at h
      simp [h]
    · rw [if_neg hq] at h
      rcases List.mem_cons.1 h with h | h
      · simp [h]
      · exact List.mem_cons_of_mem _ (ih h)

theorem plainLoop_found (remote : Node) (mid above : List Node) (h : ∀ n ∈ mid, n.id ≠ remote.id) :
    plainLoop remote.id (mid ++ remote :: above) = (mid.map Node.name, false) := by
  induction mid with
  | nil => simp [plainLoop]
  | cons p mid ih =>
    simp only [List.cons_append, plainLoop, if_neg (h p (by simp)), ih (fun n hn => h n (by simp [hn]))]
    rfl

theorem plainLoop_missing (remote : Str) (l : List Node) (h : ∀ n ∈ l, n.id ≠ remote) :
    plainLoop remote l = (l.map Node.name, true) := by
  induction l with
  | nil => simp [plainLoop]
  | cons p l ih =>
    simp only [plainLoop, if_neg (h p (by simp)), ih (fun n hn => h n (by simp [hn]))]
    rfl

/-- C57 (part): without cached information, for an object and an ancestor of it in a tree with
distinct ids, the parts are the names on the way from (not including) the ancestor down to the
object, and no deletion is recorded. -/
theorem C57_parts_uncached_partial (looped : Bool) (above mid : List Node) (anchor self : Node)
    (hid : ((above ++ anchor :: mid ++ [self]).map Node.id).Nodup) :
    parts (objAt looped (above ++ anchor :: mid) self) anchor .absent = .ok (mid.map Node.name ++ [self.name], false) := by
  have hne : self.id ≠ anchor.id := by
    intro h
    simp [List.nodup_append, h] at hid
  have hmid : ∀ n ∈ mid, n.id ≠ anchor.id := by
    intro n hn h
    simp only [List.map_append, List.map_cons, List.append_assoc, List.nodup_append, List.cons_append,
      List.nodup_cons] at hid
    exact hid.2.1.1 (by
      rw [← h]
      exact List.mem_append_left _ (List.mem_map_of_mem hn))
  rw [parts, objAt, if_neg hne]
  rw [partsRelativeTo]
  simp only [Obj.parent, List.reverse_append, List.reverse_cons, List.append_assoc]
  cases hm : mid.reverse with
  | nil =>
    have : mid = [] := by simpa using hm
    subst this
    simp [hne]
  | cons p rest =>
    have hp : p ∈ mid := by rw [← List.mem_reverse, hm]; simp
    have hr : ∀ n ∈ rest, n.id ≠ anchor.id := fun n hn => hmid n (by rw [← List.mem_reverse, hm]; simp [hn])
    simp only [List.cons_append, List.nil_append]
    rw [if_pos (hmid p hp)]
    have hpar : (Obj.mk p (rest ++ anchor :: above.reverse) looped).parents = rest ++ anchor :: above.reverse := by
      have hnd : ((rest ++ anchor :: above.reverse).map Node.id).Nodup := by
        have hs : List.Sublist (rest ++ anchor :: above.reverse) (above ++ anchor :: mid ++ [self]).reverse := by
          simp only [List.reverse_append, List.reverse_cons, List.reverse_nil, hm]
          simp only [List.nil_append, List.cons_append, List.append_assoc]
          exact ((List.Sublist.refl _).cons _).cons _
        refine List.Sublist.nodup (hs.map Node.id) ?_
        rw [List.map_reverse]
        exact List.pairwise_reverse.2 (hid.imp fun h => h.symm)
      unfold Obj.parents
      cases rest with
      | nil => exact chain_eq _ _ hnd
      | cons q r => exact chain_eq _ _ hnd
    rw [namesUp, hpar, plainLoop_found anchor rest _ hr]
    dsimp only
    have : mid.map Node.name = (p.name :: rest.map Node.name).reverse := by
      have := congrArg (fun l => (l.map Node.name).reverse) hm
      simpa using this
    rw [this]
    simp

/-- C57 (part): an object directly below the ancestor gets its own name, with or without cached
information. -/
theorem C57_parts_child (looped : Bool) (above : List Node) (anchor self : Node) (c : RCache)
    (hne : self.id ≠ anchor.id) (hc : c ≠ .null) :
    parts (objAt looped (above ++ [anchor]) self) anchor c = .ok ([self.name], false) := by
  cases c with
  | null => exact absurd rfl hc
  | absent => simp [parts, objAt, hne, partsRelativeTo, Obj.parent]
  | known p => simp [parts, objAt, hne, partsRelativeTo, Obj.parent]

/-- C57 is false for remotes whose class has no anchor, so that their cache is a `NullCache`: every object but the anchor itself
raises, wherever it is. -/
theorem C57_unanchored_counterexample (o : Obj) (anchor : Node) (h : o.self.id ≠ anchor.id) :
    parts o anchor .null = .error .attributeError := by simp [parts, h]

/-- C57: an object without a parent that is not the ancestor raises as well. -/
theorem C57_no_parent (self anchor : Node) (c : RCache) (h : self.id ≠ anchor.id) :
    parts ⟨self, [], false⟩ anchor c = .error .attributeError := by
  cases c <;> simp [parts, h, partsRelativeTo, Obj.parent]

/-- C57: the object itself has no parts. -/
theorem C57_parts_self (o : Obj) (anchor : Node) (c : RCache) (h : o.self.id = anchor.id) :
    parts o anchor c = .ok ([], false) := by simp [parts, h]

/-- C57 (part): an object that is not below the ancestor is reported as deleted (when the cached
parent does not match). -/
theorem C57_outside_reported (o : Obj) (anchor : Node) (c : RCache) (hne : o.self.id ≠ anchor.id)
    (hout : ∀ n ∈ o.ups, n.id ≠ anchor.id) (hp : o.looped = true ∨ o.ups ≠ []) (hn : c ≠ .null)
    (hc : ∀ c', c = .known c' → ∃ i, c'.id = .ok i ∧ ∀ p, o.parent = some p → i ≠ some p.self.id) :
    ∃ ps, parts o anchor c = .ok (ps, true) := by
  obtain ⟨p, hp'⟩ : ∃ p, o.parent = some p := by
    unfold Obj.parent
    cases hu : o.ups with
    | nil =>
      rcases hp with h | h
      · exact ⟨o, by simp [h]⟩
      · exact absurd hu h
    | cons q r => exact ⟨_, rfl⟩
  have hself : ∀ n ∈ p.self :: p.ups, n.id ≠ anchor.id := by
    intro n hn
    unfold Obj.parent at hp'
    cases hu : o.ups with
    | nil =>
      rw [hu] at hp'
      dsimp only at hp'
      by_cases hl : o.looped = true
      · rw [if_pos hl, Option.some.injEq] at hp'
        subst hp'
        rw [hu, List.mem_singleton] at hn
        rw [hn]
        exact hne
      · rw [if_neg hl] at hp'
        cases hp'
    | cons q r =>
      rw [hu] at hp'
      simp only [Option.some.injEq] at hp'
      subst hp'
      exact hout n (by rw [hu]; exact hn)
  have hall : ∀ n ∈ p.parents, n.id ≠ anchor.id := by
    intro n hn
    apply hself
    unfold Obj.parents at hn
    cases hu : p.ups with
    | nil =>
      rw [hu] at hn
      dsimp only at hn
      by_cases hl : p.looped = true
      · rw [if_pos hl, List.mem_singleton] at hn
        simp [hn]
      · rw [if_neg hl] at hn
        cases hn
    | cons q r =>
      rw [hu] at hn
      exact List.mem_cons_of_mem _ (mem_chain hn)
  have hpl := plainLoop_missing anchor.id _ hall
  have hps : p.self.id ≠ anchor.id := hself _ (by simp)
  have key : ∀ cp, namesUp p anchor cp = .ok (plainLoop anchor.id p.parents) → ∃ ps, partsRelativeTo o anchor cp = .ok (ps, true) := by
    intro cp h
    rw [partsRelativeTo, hp']
    dsimp only
    rw [if_pos hps, h, hpl]
    exact ⟨_, rfl⟩
  rw [parts.eq_def, if_neg hne]
  cases c with
  | null => exact absurd rfl hn
  | absent => exact key none rfl
  | known c' =>
    obtain ⟨i, h1, h2⟩ := hc c' rfl
    refine key (some c') ?_
    rw [namesUp, h1]
    dsimp only
    rw [if_neg (h2 p hp')]

theorem cachedLoop_found (stop : Str) (mid above : List (Option Str)) (h : some stop ∉ mid) (hn : none ∉ mid) :
    cachedLoop stop (mid ++ some stop :: above) = mid.filterMap id ++ [stop] := by
  induction mid with
  | nil => simp [cachedLoop]
  | cons m mid ih =>
    have ih := ih (fun hm => h (by simp [hm])) (fun hm => hn (by simp [hm]))
    cases m with
    | none => exact absurd (by simp) hn
    | some n =>
      have : n ≠ stop := fun he => h (by simp [he])
      simp [cachedLoop, this, ih]

/-- C57 is false when cached information is used: for every object at least two levels below the
anchor, with an accurate cache (the cached ancestors of the parent carry the names of the remote
ones), the parts start with the name of the anchor itself.  `mid` are the objects strictly between
the anchor and the object's parent. -/
theorem C57_cached_counterexample (looped : Bool) (above mid : List Node) (anchor par self : Node) (rest : List (Option Str))
    (hid : ((above ++ anchor :: mid ++ [par, self]).map Node.id).Nodup)
    (hname : ∀ n ∈ mid, n.name ≠ anchor.name) :
    parts (objAt looped (above ++ anchor :: mid ++ [par]) self) anchor
      (.known ⟨.ok (some par.id), (mid.reverse.map fun n => some n.name) ++ some anchor.name :: rest⟩) =
    .ok (anchor.name :: mid.map Node.name ++ [par.name, self.name], false) := by
  have hne : self.id ≠ anchor.id := by
    intro h
    simp [List.nodup_append, h] at hid
  have hpne : par.id ≠ anchor.id := by
    intro h
    simp [List.nodup_append, h] at hid
  have hl : cachedLoop anchor.name ((mid.reverse.map fun n => some n.name) ++ some anchor.name :: rest) =
      mid.reverse.map Node.name ++ [anchor.name] := by
    rw [cachedLoop_found]
    · simp [List.filterMap_map]
    · simp only [List.mem_map, List.mem_reverse, Option.some.injEq, not_exists, not_and]
      exact fun n hn => hname n hn
    · simp
  simp only [parts, objAt, if_neg hne, partsRelativeTo, namesUp, Obj.parent, List.reverse_append, List.reverse_cons,
    List.reverse_nil, List.nil_append, List.cons_append, ne_eq, hpne, not_false_eq_true, if_true, hl]
  simp

example : (([Node.mk ['0'] ['o']] ++ Node.mk ['1'] ['p'] :: [Node.mk ['2'] ['a']] ++
    [Node.mk ['3'] ['b'], Node.mk ['4'] ['f']]).map Node.id).Nodup ∧
    ∀ n ∈ [Node.mk ['2'] ['a']], n.name ≠ ['p'] := by decide

/-- C57 is false with cached information also because ancestors are compared by name: below a
directory that is called like the anchor the way is cut off. -/
theorem C57_repeated_name_counterexample :
    parts (objAt true [⟨['0'], ['p']⟩, ⟨['1'], ['p']⟩, ⟨['2'], ['q']⟩] ⟨['3'], ['f']⟩) ⟨['0'], ['p']⟩
      (.known ⟨.ok (some ['2']), [some ['p'], some ['p'], some []]⟩) = .ok ([['p'], ['q'], ['f']], false) ∧
    parts (objAt true [⟨['0'], ['p']⟩, ⟨['1'], ['q']⟩, ⟨['2'], ['p']⟩, ⟨['4'], ['r']⟩] ⟨['3'], ['f']⟩) ⟨['0'], ['p']⟩
      (.known ⟨.ok (some ['4']), [some ['p'], some ['q'], some ['p'], some []]⟩) = .ok ([['p'], ['r'], ['f']], false) :=
  ⟨rfl, rfl⟩

/-- C57, disproved once the parts were asked for: they are remembered, so that they stay what they were when the object is at another
place, whatever that place, the ancestor and the cache are, until the object is the ancestor itself. -/
theorem C57_stale_counterexample (o o' : Obj) (anchor anchor' : Node) (c c' : RCache) (ps : List Str)
    (h : (partsKept none o anchor c).1 = .ok ps) (hne : o.self.id ≠ anchor.id) (hne' : o'.self.id ≠ anchor'.id) :
    partsKept (partsKept none o anchor c).2 o' anchor' c' = (.ok ps, some ps) := by
  unfold partsKept at h ⊢
  rw [if_neg hne] at h ⊢
  rw [if_neg hne']
  dsimp only at h ⊢
  cases hp : parts o anchor c with
  | error e => rw [hp] at h; cases h
  | ok r =>
    obtain ⟨p, b⟩ := r
    rw [hp] at h
    dsimp only at h ⊢
    cases h
    rfl

/-- C57: nothing is remembered when asking raises, and the first answer is that of `parts`. -/
theorem C57_first (o : Obj) (anchor : Node) (c : RCache) :
    (partsKept none o anchor c).1 = (parts o anchor c).map Prod.fst ∧
    ((∃ e, parts o anchor c = .error e) → (partsKept none o anchor c).2 = none) := by
  unfold partsKept
  by_cases hne : o.self.id = anchor.id
  · rw [if_pos hne]
    exact ⟨by simp [parts, hne, Except.map], fun _ => rfl⟩
  · rw [if_neg hne]
    dsimp only
    cases hp : parts o anchor c with
    | error e => exact ⟨rfl, fun _ => rfl⟩
    | ok r => exact ⟨rfl, fun ⟨e, he⟩ => by cases he⟩

-- C57_stale_counterexample: a file that was moved from one directory to another
example : (partsKept none (objAt true [⟨['0'], ['p']⟩, ⟨['1'], ['a']⟩] ⟨['3'], ['f']⟩) ⟨['0'], ['p']⟩ .absent).1 = .ok [['a'], ['f']] ∧
    parts (objAt true [⟨['0'], ['p']⟩, ⟨['2'], ['b']⟩] ⟨['3'], ['f']⟩) ⟨['0'], ['p']⟩ .absent = .ok ([['b'], ['f']], false) :=
  ⟨rfl, rfl⟩

theorem cachedLoop_right_iff (stop : Str) (rest : List (Option Str)) (l : List Str) :
    cachedLoop stop (l.map some ++ some stop :: rest) = l ↔ ∃ l', l = l' ++ [stop] ∧ stop ∉ l' := by
  induction l with
  | nil => simp [cachedLoop]
  | cons m l ih =>
    simp only [List.map_cons, List.cons_append, cachedLoop]
    by_cases hm : m = stop
    · subst hm
      simp only [if_true, List.cons.injEq, true_and]
      constructor
      · rintro rfl
        exact ⟨[], rfl, by simp⟩
      · rintro ⟨l', h, hn⟩
        cases l' with
        | nil => simpa using h.symm
        | cons a l' =>
          simp only [List.cons_append, List.cons.injEq] at h
          exact absurd (by simp [h.1]) hn
    · simp only [if_neg hm, List.cons.injEq, true_and, ih]
      constructor
      · rintro ⟨l', rfl, hn⟩
        exact ⟨m :: l', rfl, by simp [hn, Ne.symm hm]⟩
      · rintro ⟨l', h, hn⟩
        cases l' with
        | nil => simp at h; exact absurd h.1 hm
        | cons a l' =>
          simp only [List.cons_append, List.cons.injEq] at h
          exact ⟨l', h.2, fun h' => hn (by simp [h'])⟩

/-- C57, exactly, when cached information is used and is accurate: at least two levels below the anchor, the parts are right
only by accident, if the topmost directory in between, and no other, is called like the anchor. -/
theorem C57_cached_iff (looped : Bool) (above mid : List Node) (anchor par self : Node) (rest : List (Option Str))
    (hid : ((above ++ anchor :: mid ++ [par, self]).map Node.id).Nodup) :
    parts (objAt looped (above ++ anchor :: mid ++ [par]) self) anchor
      (.known ⟨.ok (some par.id), (mid.reverse.map fun n => some n.name) ++ some anchor.name :: rest⟩) =
        .ok (mid.map Node.name ++ [par.name, self.name], false) ↔
    ∃ n mid', mid = n :: mid' ∧ n.name = anchor.name ∧ ∀ m ∈ mid', m.name ≠ anchor.name := by
  have hne : self.id ≠ anchor.id := by
    intro h
    simp [List.nodup_append, h] at hid
  have hpne : par.id ≠ anchor.id := by
    intro h
    simp [List.nodup_append, h] at hid
  have hmap : (mid.reverse.map fun n => some n.name) = (mid.reverse.map Node.name).map some := by
    simp [List.map_map]
  have key := cachedLoop_right_iff anchor.name rest (mid.reverse.map Node.name)
  rw [hmap]
  simp only [parts, objAt, if_neg hne, partsRelativeTo, namesUp, Obj.parent, List.reverse_append, List.reverse_cons,
    List.reverse_nil, List.nil_append, List.cons_append, ne_eq, hpne, not_false_eq_true, if_true]
  generalize hX : cachedLoop anchor.name (List.map some (List.map Node.name mid.reverse) ++ some anchor.name :: rest) = X at key ⊢
  have h1 : ((Except.ok (X.reverse ++ [par.name] ++ [self.name], false) : Except PyErr (List Str × Bool)) =
      .ok (mid.map Node.name ++ [par.name, self.name], false)) ↔
      X = mid.reverse.map Node.name := by
    constructor
    · intro h
      simp only [Except.ok.injEq, Prod.mk.injEq, and_true, List.append_assoc, List.singleton_append] at h
      have := List.append_cancel_right h
      rw [← List.reverse_reverse X, this, List.map_reverse]
    · rintro rfl
      simp
  rw [h1, key]
  constructor
  · rintro ⟨l', h, hn⟩
    cases mid with
    | nil => simp at h
    | cons n mid' =>
      simp only [List.reverse_cons, List.map_append, List.map_cons, List.map_nil] at h
      have h2 := List.append_inj' h rfl
      refine ⟨n, mid', rfl, by simpa using h2.2, ?_⟩
      intro m hm he
      apply hn
      rw [← h2.1, ← he]
      exact List.mem_map_of_mem (List.mem_reverse.2 hm)
  · rintro ⟨n, mid', rfl, hn, hm⟩
    refine ⟨mid'.reverse.map Node.name, by simp [hn], ?_⟩
    simp only [List.mem_map, List.mem_reverse, not_exists, not_and]
    exact fun x hx => hm x hx

/-- A directory below the anchor that is called like it: right by accident. -/
example : (([] ++ Node.mk ['1'] ['p'] :: [Node.mk ['2'] ['p']] ++ [Node.mk ['3'] ['b'], Node.mk ['4'] ['f']]).map Node.id).Nodup ∧
    ∃ n mid', [Node.mk ['2'] ['p']] = n :: mid' ∧ n.name = ['p'] ∧ ∀ m ∈ mid', m.name ≠ ['p'] :=
  ⟨by decide, _, _, rfl, rfl, by simp⟩

theorem cachedLoop_cut (stop : Str) : ∀ (l : List (Option Str)) (before after : List Str), l.filterMap id = before ++ stop :: after →
    stop ∉ before → cachedLoop stop l = before ++ [stop]
  | [], before, after, h, _ => by cases before <;> simp at h
  | none :: l, before, after, h, hn => by
    rw [cachedLoop]
    exact cachedLoop_cut stop l before after (by simpa using h) hn
  | some n :: l, before, after, h, hn => by
    rw [cachedLoop]
    cases before with
    | nil =>
      have : n = stop := by simpa using (List.cons.inj (by simpa using h)).1
      rw [if_pos this, this]; rfl
    | cons x before =>
      have hx := List.cons.inj (by simpa using h : n :: l.filterMap id = x :: (before ++ stop :: after))
      have hne : n ≠ stop := fun e => hn (by rw [← e, hx.1]; simp)
      rw [if_neg hne, cachedLoop_cut stop l before after hx.2 fun hm => hn (by simp [hm]), hx.1]; rfl

theorem cachedLoop_all (stop : Str) : ∀ (l : List (Option Str)), stop ∉ l.filterMap id → cachedLoop stop l = l.filterMap id
  | [], _ => rfl
  | none :: l, h => by rw [cachedLoop, cachedLoop_all stop l (by simpa using h)]; rfl
  | some n :: l, h => by
    have h1 : n ≠ stop := fun e => h (by simp [e])
    rw [cachedLoop, if_neg h1, cachedLoop_all stop l fun hm => h (by simp at hm ⊢; exact Or.inr hm)]; rfl

/-- C57: what cached information that matches leads to, whatever the names in it are: those up to the first that is called like the
anchor, which is taken as well, or all of them if none is; a `None` among the cached ancestors is passed over. -/
theorem C57_cached_law (self par : Node) (ups : List Node) (looped : Bool) (anchor : Node) (names : List (Option Str))
    (h1 : self.id ≠ anchor.id) (h2 : par.id ≠ anchor.id) :
    (∀ before after, names.filterMap id = before ++ anchor.name :: after → anchor.name ∉ before →
      parts ⟨self, par :: ups, looped⟩ anchor (.known ⟨.ok (some par.id), names⟩) =
        .ok (anchor.name :: before.reverse ++ [par.name, self.name], false)) ∧
    (anchor.name ∉ names.filterMap id →
      parts ⟨self, par :: ups, looped⟩ anchor (.known ⟨.ok (some par.id), names⟩) =
        .ok ((names.filterMap id).reverse ++ [par.name, self.name], false)) := by
  constructor
  · intro before after hs hn
    simp [parts, partsRelativeTo, namesUp, Obj.parent, h1, h2, cachedLoop_cut _ _ _ _ hs hn]
  · intro hn
    simp [parts, partsRelativeTo, namesUp, Obj.parent, h1, h2, cachedLoop_all _ _ hn]

/-- C57: an id of the cached parent that cannot be read comes through, unless the object is the anchor or directly below it. -/
theorem C57_cache_raises (self par : Node) (ups : List Node) (looped : Bool) (anchor : Node) (names : List (Option Str)) (e : PyErr)
    (h1 : self.id ≠ anchor.id) (h2 : par.id ≠ anchor.id) :
    parts ⟨self, par :: ups, looped⟩ anchor (.known ⟨.error e, names⟩) = .error e := by
  simp [parts, partsRelativeTo, namesUp, Obj.parent, h1, h2]

/-- C57: relative to itself, an object that is its own parent has one part, an empty text, where `parts` has none. -/
theorem C57_relative_self (self : Node) (c : Option CacheParent) :
    partsRelativeTo ⟨self, [], true⟩ self c = .ok ([[]], false) := by
  simp [partsRelativeTo, Obj.parent]

/-- Cases that meet the hypotheses: a `None` between two names. -/
example : parts ⟨⟨['3'], ['f']⟩, [⟨['2'], ['q']⟩], true⟩ ⟨['0'], ['p']⟩ (.known ⟨.ok (some ['2']), [some ['r'], none, some ['p'], some []]⟩) =
    .ok ([['p'], ['r'], ['q'], ['f']], false) := rfl

end Verif.Parts
