import Verif.Lemmas.Ancestors
import Verif.Lemmas.Decide
import Verif.Props.Exists

/-!
# C41, C42, C58 and C59: sparse marks, the cache root, git repositories
-/

namespace Verif.FS
open Verif.Spec

set_option linter.unusedSimpArgs false

/-! ## C41 -/

/-- **C41**: with marks as the library sets them, an absolute path is sparse exactly when it or one of
its ancestors below the root is marked; at every depth and for every set of marked directories. -/
theorem C41_inherited (m : Marks) (hm : ∀ q v, m q = some v → v = [0x31]) (p : Path) :
    (isSparse (getMark m) [] p = .ok true ↔ ∃ q, q <+: p ∧ q ≠ [] ∧ Marked m q) ∧
    (isSparse (getMark m) [] p = .ok false ↔ ¬∃ q, q <+: p ∧ q ≠ [] ∧ Marked m q) := by
  have h1 : isSparse (getMark m) [] p = .ok true ↔ ∃ q, q <+: p ∧ q ≠ [] ∧ Marked m q := by
    rw [isSparse_true_iff]
    constructor
    · rintro ⟨q, a, b, c⟩
      refine ⟨q, a, b, ?_⟩
      simp only [List.nil_append] at c
      cases hq : m q with
      | none => exact absurd hq c
      | some v => rw [Marked, hq, hm q v hq]
    · rintro ⟨q, a, b, c⟩
      exact ⟨q, a, b, by simp [show m q = _ from c]⟩
  refine ⟨h1, ?_⟩
  rw [← h1]
  rcases isSparse_spec m [] p with h | h <;> simp [h]

/-- **C41**: marking a directory makes everything in it sparse and nothing else. -/
theorem C41_mark (m : Marks) (hm : ∀ q v, m q = some v → v = [0x31]) (d p : Path) (hd : d ≠ []) :
    (∀ q v, markSparse m d q = some v → v = [0x31]) ∧
    (isSparse (getMark (markSparse m d)) [] p = .ok true ↔
      d <+: p ∨ isSparse (getMark m) [] p = .ok true) := by
  have h' : ∀ q v, markSparse m d q = some v → v = [0x31] := by
    intro q v h
    unfold markSparse at h
    split at h
    · cases h; rfl
    · exact hm q v h
  refine ⟨h', ?_⟩
  rw [(C41_inherited _ h' p).1, (C41_inherited _ hm p).1]
  constructor
  · rintro ⟨q, a, b, c⟩
    by_cases e : q = d
    · subst e; exact .inl a
    · right
      refine ⟨q, a, b, ?_⟩
      simpa [Marked, markSparse, e] using c
  · rintro (h | ⟨q, a, b, c⟩)
    · exact ⟨d, h, hd, by simp [Marked, markSparse, sparseOne]⟩
    · refine ⟨q, a, b, ?_⟩
      by_cases e : q = d
      · subst e; simp [Marked, markSparse, sparseOne]
      · simpa [Marked, markSparse, e] using c

/-- **C41**: clearing takes back marking: afterwards a path is sparse exactly when another mark
reaches it; if the mark was the only one nothing is sparse. -/
theorem C41_clear (m : Marks) (hm : ∀ q v, m q = some v → v = [0x31]) (d p : Path) :
    (isSparse (getMark (clearSparse m d)) [] p = .ok true ↔
      ∃ q, q <+: p ∧ q ≠ [] ∧ q ≠ d ∧ Marked m q) ∧
    ((∀ q, Marked m q → q = d) → isSparse (getMark (clearSparse m d)) [] p = .ok false) := by
  have h' : ∀ q v, clearSparse m d q = some v → v = [0x31] := by
    intro q v h
    unfold clearSparse at h
    split at h
    · cases h
    · exact hm q v h
  have h1 : isSparse (getMark (clearSparse m d)) [] p = .ok true ↔
      ∃ q, q <+: p ∧ q ≠ [] ∧ q ≠ d ∧ Marked m q := by
    rw [(C41_inherited _ h' p).1]
    constructor
    · rintro ⟨q, a, b, c⟩
      by_cases e : q = d
      · simp [Marked, clearSparse, e] at c
      · exact ⟨q, a, b, e, by simpa [Marked, clearSparse, e] using c⟩
    · rintro ⟨q, a, b, e, c⟩
      exact ⟨q, a, b, by simpa [Marked, clearSparse, e] using c⟩
  refine ⟨h1, fun honly => ?_⟩
  rcases isSparse_spec (clearSparse m d) [] p with h | h
  · obtain ⟨q, _, _, e, c⟩ := h1.1 h
    exact absurd (honly q c) e
  · exact h

/-- **C41 is false** for an attribute with another value: it is not the mark, and the path is sparse
all the same. -/
theorem C41_other_value_counterexample :
    ∃ m : Marks, (∀ q, ¬Marked m q) ∧ isSparse (getMark m) [] [lit "a"] = .ok true := by
  refine ⟨fun p => if p = [lit "a"] then some [0x30] else none, ?_, ?_⟩
  · intro q h
    simp only [Marked] at h
    split at h <;> simp at h
  · rw [isSparse_true_iff]; exact ⟨[lit "a"], List.prefix_refl _, by simp, by simp⟩

/-- **C41 is false** for a relative path: with the working directory marked the path `a` is not
sparse, although it is as an absolute path. -/
theorem C41_relative_counterexample :
    ∃ m : Marks, Marked m [lit "w"] ∧ isSparse (getMark m) [lit "w"] [lit "a"] = .ok false ∧
      isSparse (getMark m) [] [lit "w", lit "a"] = .ok true := by
  refine ⟨fun p => if p = [lit "w"] then some [0x31] else none, rfl, ?_, ?_⟩
  · rcases isSparse_spec (fun p => if p = [lit "w"] then some [0x31] else none) [lit "w"] [lit "a"] with h | h
    · obtain ⟨q, h1, h2, h3⟩ := (isSparse_true_iff ..).1 h
      rcases List.prefix_cons_iff.1 h1 with rfl | ⟨l, rfl, hl⟩
      · exact absurd rfl h2
      · rw [List.prefix_nil.1 hl] at h3; exact absurd (by decide) h3
    · exact h
  · rw [isSparse_true_iff]; exact ⟨[lit "w"], ⟨[lit "a"], rfl⟩, by simp, by simp⟩

theorem ne_parentOf {p : Path} (hp : p ≠ []) : p ≠ parentOf p := by
  intro h
  have h1 := congrArg List.length h
  have h2 := List.length_pos_iff.2 hp
  simp only [parentOf, List.length_dropLast] at h1
  omega

/-- Nothing that a cache asks its parent for raises an exception that is not expected. -/
def MarkerEnv.Calm (E : MarkerEnv) (p : Path) : Prop :=
  E.parent p = none ∧ (E.parentMeta p = none ∨ E.parentMeta p = some .noCachedMetadataError)

/-- **C41 is false** for caches that do not use extended attributes: whatever is marked, they never answer that a path is not
sparse, and without a mark the question is an error. -/
theorem C41_cache_counterexample (E : MarkerEnv) (p : Path) :
    E.isSparse p ≠ .ok false ∧ (E.Calm p → p ≠ [] → E.marker p = .ok false → E.isSparse p = .error .fileNotFoundError) := by
  unfold MarkerEnv.isSparse MarkerEnv.sparseRoot
  refine ⟨?_, ?_⟩
  · cases E.parent p with
    | some e => simp
    | none =>
      dsimp only
      by_cases h : p = parentOf p
      · rw [if_pos h]; simp
      · rw [if_neg h]
        have key : ∀ r : Except PyErr Bool, (match r.map some with | .error e => .error e | .ok r => .ok r.isSome : Except PyErr Bool) ≠ .ok false := by
          intro r; cases r <;> simp [Except.map]
        cases E.parentMeta p with
        | none => exact key _
        | some e => cases e <;> first | exact key _ | simp
  · rintro ⟨h1, h2⟩ hp hm
    have hc : E.child p = .error .fileNotFoundError := by simp [MarkerEnv.child, hm]
    rcases h2 with h2 | h2 <;> simp [h1, h2, ne_parentOf hp, hc, Except.map]

/-- **C41**: exactly when such a cache answers at all. -/
theorem C41_cache_iff (E : MarkerEnv) (p : Path) (h : E.Calm p) :
    E.isSparse p = .ok true ↔ p = [] ∨ (E.marker p = .ok true ∧ E.cached p = .ok true ∧ ∃ b, E.there p = .ok b) := by
  unfold MarkerEnv.isSparse MarkerEnv.sparseRoot
  obtain ⟨h1, h2⟩ := h
  rw [h1]
  dsimp only
  by_cases hp : p = []
  · subst hp; simp [parentOf]
  · rw [if_neg (ne_parentOf hp)]
    have key : (match (E.child p).map some with | .error e => .error e | .ok r => .ok r.isSome : Except PyErr Bool) = .ok true ↔
        E.marker p = .ok true ∧ E.cached p = .ok true ∧ ∃ b, E.there p = .ok b := by
      unfold MarkerEnv.child
      cases E.marker p with
      | error e => simp [Except.map]
      | ok b => cases b with
        | false => simp [Except.map]
        | true => cases E.cached p with
          | error e => simp [Except.map]
          | ok b => cases b with
            | false => simp [Except.map]
            | true => cases E.there p <;> simp [Except.map]
    rcases h2 with h2 | h2 <;> simp only [h2, hp, false_or] <;> exact key

/-- **C41**: marking such a directory makes the question an `AttributeError` there, as the marker has no metadata; no other path sees
the mark, and clearing it restores every answer. -/
theorem C41_cache_mark (E : MarkerEnv) (d : Path) (h : E.Calm d) (hd : d ≠ []) (hm : E.marker d = .ok false) :
    (E.mark d).isSparse d = .error .attributeError ∧ (∀ p, p ≠ d → (E.mark d).isSparse p = E.isSparse p) ∧
      (∃ E', (E.mark d).clear d = .ok E' ∧ ∀ p, E'.isSparse p = E.isSparse p) ∧ E.clear d = .error .fileNotFoundError := by
  refine ⟨?_, ?_, ?_, by simp [MarkerEnv.clear, hm]⟩
  · obtain ⟨h1, h2⟩ := h
    rcases h2 with h2 | h2 <;>
      simp [MarkerEnv.isSparse, MarkerEnv.sparseRoot, MarkerEnv.mark, MarkerEnv.child, hm, h1, h2, ne_parentOf hd, Except.map]
  · intro p hp
    simp [MarkerEnv.isSparse, MarkerEnv.sparseRoot, MarkerEnv.mark, MarkerEnv.child, hm, hp]
  · refine ⟨{ E.mark d with marker := fun p => if p = d then .ok false else (E.mark d).marker p }, ?_, ?_⟩
    · simp [MarkerEnv.clear, MarkerEnv.mark, hm]
    · intro p
      by_cases hp : p = d
      · subst hp
        simp [MarkerEnv.isSparse, MarkerEnv.sparseRoot, MarkerEnv.mark, MarkerEnv.child, hm]
      · simp [MarkerEnv.isSparse, MarkerEnv.sparseRoot, MarkerEnv.mark, MarkerEnv.child, hm, hp]

/-- The cache of an ordinary directory, in a project where nothing is marked. -/
example : ∃ E : MarkerEnv, E.Calm [lit "a"] ∧ E.marker [lit "a"] = .ok false ∧ (E.mark [lit "a"]).isSparse [lit "a"] = .error .attributeError :=
  ⟨⟨fun _ => none, fun _ => none, fun _ => .ok false, fun _ => .ok false, fun _ => .ok true⟩, ⟨rfl, .inl rfl⟩, rfl, by decide⟩

example : isSparse (getMark (markSparse (fun _ => none) [lit "a"])) [] [lit "a", lit "b", lit "c"] = .ok true ∧
    isSparse (getMark (clearSparse (markSparse (fun _ => none) [lit "a"]) [lit "a"])) [] [lit "a", lit "b"] =
      .ok false := by
  decide +kernel

/-! ## C42 -/

/-- **C42**: for an absolute path without symlinks in it, when looking at a cache does not raise,
`find_cache_root` returns the topmost cached location, and `None` exactly when there is none.
Partial: not if the root directory itself is cached, see the counterexample. -/
theorem C42_topmost_partial (cache : Path → CacheAns) (h : ∀ p, cache p = .has ∨ cache p = .hasNot)
    (hroot : cache [] = .hasNot) (broken : Path → Bool) (p : Path) (hb : broken p = false) (fail : Bool)
    (r : Option Path) (hr : findCacheRoot cache broken (fun p => [p]) fail p = .ok r) :
    (∀ q, r = some q ↔ Topmost (fun q => cache q = .has) p q) ∧
    (r = none ↔ ∀ q, q <+: p → cache q ≠ .has) := by
  rw [findCacheRoot] at hr
  simp only [hb, Bool.false_eq_true, false_and, dite_false, searchVariants] at hr
  obtain ⟨s1, s2⟩ := searchParents_spec cache fail h none p
  rcases topmost_or_none (fun q => cache q = .has) p with ⟨w, hw⟩ | hn
  · have hwne : w ≠ [] := by rintro rfl; rw [hw.2.1] at hroot; cases hroot
    rw [s1 w hw] at hr
    simp only [ne_eq, hwne, not_false_eq_true, if_true, Except.ok.injEq] at hr
    subst hr
    refine ⟨fun q => ⟨?_, ?_⟩, ?_⟩
    · intro e; cases e; exact hw
    · intro hq; rw [topmost_unique hw hq]
    · simp only [reduceCtorEq, false_iff]; intro hall; exact hall w hw.1 hw.2.1
  · have hall : ∀ q, q <+: p → cache q = .hasNot := fun q hq => (h q).resolve_left (hn q hq)
    rw [s2 hall] at hr
    simp only [Except.ok.injEq] at hr
    subst hr
    refine ⟨fun q => ⟨?_, ?_⟩, ?_⟩
    · intro e; cases e
    · intro hq; exact absurd hq.2.1 (hn q hq.1)
    · simp only [true_iff]; exact hn

/-- **C42**: a broken symlink is looked up by its directory. -/
theorem C42_broken_link (cache : Path → CacheAns) (broken : Path → Bool) (variants : Path → List Path)
    (fail : Bool) (p : Path) (hp : p ≠ []) (hb : broken p = true) :
    findCacheRoot cache broken variants fail p =
      findCacheRoot cache broken variants fail (parentOf p) := by
  rw [findCacheRoot]; simp [hb, hp]

/-- **C42 is false** when the root directory is cached: the answer is `None` for every path,
whatever else is cached. -/
theorem C42_root_counterexample (cache : Path → CacheAns) (h : ∀ p, cache p = .has ∨ cache p = .hasNot)
    (hroot : cache [] = .has) (p : Path) (fail : Bool) :
    findCacheRoot cache (fun _ => false) (fun p => [p]) fail p = .ok none := by
  rw [findCacheRoot]
  simp only [Bool.false_eq_true, false_and, dite_false, searchVariants]
  have ht : Topmost (fun q => cache q = .has) p [] :=
    ⟨List.nil_prefix, hroot, fun q hq hne => absurd (List.prefix_nil.1 hq) hne⟩
  rw [(searchParents_spec cache fail h none p).1 [] ht]
  simp

/-- **C42 is false** when the cache class raises for a path without metadata and there is a gap: the
search stops at the gap (`/a` and `/a/b/c` are cached, `/a/b` is not). -/
theorem C42_gap_counterexample :
    ∃ cache : Path → CacheAns, cache [lit "a"] = .has ∧
      findCacheRoot cache (fun _ => false) (fun p => [p]) false [lit "a", lit "b", lit "c"] =
        .ok (some [lit "a", lit "b", lit "c"]) :=
  ⟨fun p => if p = [lit "a"] ∨ p = [lit "a", lit "b", lit "c"] then .has else .lost, by decide +kernel⟩

/-- **C42 is false** for a path with several spellings: the answer depends on the order in which the
set of spellings is walked (`/x/f` and its resolved form `/y/f`, with `/x` and `/y` cached). -/
theorem C42_spellings_counterexample :
    ∃ (cache : Path → CacheAns) (a b : Path), (∀ p, cache p = .has ∨ cache p = .hasNot) ∧
      findCacheRoot cache (fun _ => false) (fun _ => [a, b]) false a ≠
      findCacheRoot cache (fun _ => false) (fun _ => [b, a]) false a := by
  refine ⟨fun p => if p = [lit "x"] ∨ p = [lit "y"] then .has else .hasNot, [lit "x", lit "f"],
    [lit "y", lit "f"], fun p => ?_, by decide +kernel⟩
  by_cases h : p = [lit "x"] ∨ p = [lit "y"]
  · left; simp [h]
  · right; simp [h]

example : findCacheRoot (fun p => if p = [lit "a"] ∨ p = [lit "a", lit "b", lit "c"] then .has else .hasNot)
    (fun _ => false) (fun p => [p]) false [lit "a", lit "b", lit "c"] = .ok (some [lit "a"]) := by
  decide +kernel

/-! ## C58 -/

theorem hasGit_iff (L : Limits) (t : Tree) (cwd d : Path) :
    pathExists L t cwd ⟨true, d ++ [dotgit]⟩ = .ok true ↔ HasGit L t d := by
  rw [C52_exists_iff]; rfl

theorem hasGit_false (L : Limits) (t : Tree) (cwd d : Path)
    (h : pathExists L t cwd ⟨true, d ++ [dotgit]⟩ = .ok false) : ¬HasGit L t d := by
  rw [← hasGit_iff L t cwd, h]; simp

/-- **C58**: `working_dir` is the nearest ancestor-or-self (of the path made absolute) with a `.git`
in it, and `None` exactly when there is none; in every file system.  Paths for which looking is
denied raise. -/
theorem C58_innermost (L : Limits) (t : Tree) (cwd : Path) (p : UserPath)
    (hp : p.absolute = true ∨ Reachable L t cwd) :
    (∀ w, workingDir L t cwd p = .ok (some w) → Nearest' (HasGit L t) (absolute cwd p) w) ∧
    (workingDir L t cwd p = .ok none → ∀ q, q <+: absolute cwd p → ¬HasGit L t q) ∧
    (∀ e, workingDir L t cwd p = .error e → ∃ q, q <+: absolute cwd p ∧ GitRefused L t q) := by
  rw [workingDir_eq p hp]
  refine ⟨fun w h => ?_, fun h q hq => ?_, fun e h => ?_⟩
  · obtain ⟨⟨h1, h2, _⟩, h4⟩ := workingDirAbs_some _ _ _ h
    refine ⟨h1, (hasGit_iff L t cwd w).1 h2, fun q a b c => ?_⟩
    exact hasGit_false L t cwd q (h4 q a b c)
  · exact hasGit_false L t cwd q (workingDirAbs_none _ _ h q hq)
  · obtain ⟨q, h1, h2⟩ := workingDirAbs_error _ _ _ h
    refine ⟨q, h1, ?_⟩
    obtain ⟨_, hr, _⟩ := C52_false_partial L t cwd ⟨true, q ++ [dotgit]⟩
    exact hr.2 ⟨_, h2⟩

/-- **C58**: joining the working directory with `repo_relative_path` gives the path back, and
`repo_relative_path` answers exactly when there is a working directory. -/
theorem C58_relative_path (L : Limits) (t : Tree) (cwd : Path) (p : UserPath)
    (hp : p.absolute = true ∨ Reachable L t cwd) (w : Path)
    (hw : workingDir L t cwd p = .ok (some w)) :
    ∃ rel, repoRelativePath L t cwd p = .ok rel ∧ w ++ rel = absolute cwd p := by
  obtain ⟨⟨rel, hrel⟩, _⟩ := (C58_innermost L t cwd p hp).1 w hw
  refine ⟨rel, ?_, hrel⟩
  rw [repoRelativePath, hw, ← hrel]
  exact relativeTo_append w rel

/-- **C58 is false** for a path spelled with dot-dot: `/r/../x` is not in the repository `/r`, but
its `working_dir` is. -/
theorem C58_dotdot_counterexample :
    ∃ t : Tree, workingDir ⟨255, 40⟩ t [] ⟨true, [lit "r", dotdot, lit "x"]⟩ = .ok (some [lit "r"]) ∧
      HasGit ⟨255, 40⟩ t [lit "r"] ∧ ¬HasGit ⟨255, 40⟩ t [] ∧ ¬HasGit ⟨255, 40⟩ t [lit "x"] := by
  let t : Tree := fun p => if p = [] ∨ p = [lit "r"] ∨ p = [lit "x"] ∨ p = [lit "r", dotgit] then some (.dir true) else none
  refine ⟨t, ?_, ?_, ?_, ?_⟩
  · simp [workingDir, workingDirAbs, parentOf, pathExists, test, stat, walk, start, node, t, lit, utf8,
      Char.utf8Size, dotdot, dotgit, ignored]
  · rw [← hasGit_iff _ _ []]
    simp [pathExists, test, stat, walk, start, node, t, lit, utf8, Char.utf8Size, dotdot, dotgit, ignored]
  · apply hasGit_false _ _ []
    simp [pathExists, test, stat, walk, start, node, t, lit, utf8, Char.utf8Size, dotdot, dotgit, ignored]
  · apply hasGit_false _ _ []
    simp [pathExists, test, stat, walk, start, node, t, lit, utf8, Char.utf8Size, dotdot, dotgit, ignored]

example : ∃ t : Tree, workingDir ⟨255, 40⟩ t [lit "r", lit "d"] ⟨false, [lit "x"]⟩ = .ok (some [lit "r"]) ∧
    repoRelativePath ⟨255, 40⟩ t [lit "r", lit "d"] ⟨false, [lit "x"]⟩ = .ok [lit "d", lit "x"] ∧
    Reachable ⟨255, 40⟩ t [lit "r", lit "d"] := by
  let t : Tree := fun p => if p = [] ∨ p = [lit "r"] ∨ p = [lit "r", lit "d"] ∨ p = [lit "r", dotgit] then some (.dir true) else none
  have h : workingDir ⟨255, 40⟩ t [lit "r", lit "d"] ⟨false, [lit "x"]⟩ = .ok (some [lit "r"]) := by
    simp [workingDir, workingDirAbs, parentOf, pathExists, test, stat, walk, start, node, t, lit, utf8,
      Char.utf8Size, dotgit, ignored]
  refine ⟨t, h, by rw [repoRelativePath, h]; decide, ?_, ?_⟩
  · intro e he
    rcases List.prefix_cons_iff.1 he with rfl | ⟨l, rfl, hl⟩
    · simp [t]
    · rcases List.prefix_cons_iff.1 hl with rfl | ⟨l', rfl, hl'⟩
      · simp [t]
      · rw [List.prefix_nil.1 hl']; simp [t]
  · intro n hn
    simp only [List.mem_cons, List.not_mem_nil, or_false] at hn
    rcases hn with rfl | rfl <;> exact ⟨by decide, by decide, by decide⟩

/-! ## C59 -/

/-- **C59**: if `init` gets to create anything then no ancestor-or-self (of the path made absolute) had
a `.git`; if there is one, `init` raises without touching the disk: the exception is the same whatever `git init`
and `git clone` would do.  For every way in which `git init` or `git clone` may act, and every content of the class attribute `_repos`. -/
theorem C59_no_nesting (L : Limits) (t : Tree) (cwd : Path) (cached opens : Path → Bool)
    (create : Tree → UserPath → Except PyErr Tree) (p : UserPath)
    (hp : p.absolute = true ∨ Reachable L t cwd) :
    (∀ t', gitInit L t cwd cached opens create p = .ok t' →
      create t p = .ok t' ∧ ∀ q, q <+: absolute cwd p → ¬HasGit L t q) ∧
    ((∃ q, q <+: absolute cwd p ∧ HasGit L t q) →
      ∃ e, ∀ create', gitInit L t cwd cached opens create' p = .error e) := by
  have key : ∀ create t', gitInit L t cwd cached opens create p = .ok t' →
      create t p = .ok t' ∧ ∀ q, q <+: absolute cwd p → ¬HasGit L t q := by
    intro create t' h
    obtain ⟨h1, h2, _⟩ := C58_innermost L t cwd p hp
    unfold gitInit at h
    split at h
    · cases h
    · rename_i hw; exact ⟨h, h2 hw⟩
    · rename_i w hw
      split at h
      · cases h
      · split at h
        · cases h
        · cases h
        · rename_i hex
          split at h
          · -- the path does not exist but has a `.git` in it
            rename_i hpw
            exfalso
            obtain ⟨ha, hc⟩ := hpw
            have hg := (h1 w hw).2.1
            rw [← hasGit_iff L t cwd, C52_exists_iff] at hg
            obtain ⟨x, hx⟩ := hg
            have hx' := leadsTo_parent hx
            have : pathExists L t cwd p = .ok true := by
              rw [C52_exists_iff]
              refine ⟨.dir true, ?_⟩
              cases p; simp only at ha hc; subst ha hc; exact hx'
            rw [this] at hex; cases hex
          · cases h
  refine ⟨key create, ?_⟩
  rintro ⟨q, hq, hg⟩
  -- if `create` were called at all, one that works would make `init` work
  cases hr : gitInit L t cwd cached opens (fun _ _ => .ok t) p with
  | ok t' => exact absurd hg ((key _ t' hr).2 q hq)
  | error e =>
    refine ⟨e, fun create' => ?_⟩
    rw [← hr]
    unfold gitInit at hr ⊢
    cases hw : workingDir L t cwd p with
    | error e' => rfl
    | ok w =>
      cases w with
      | none => rw [hw] at hr; simp at hr
      | some wd =>
        rw [hw] at hr
        dsimp only at hr ⊢
        split
        · rfl
        · rename_i hc
          rw [if_neg hc] at hr
          cases hx : pathExists L t cwd p with
          | error e' => rfl
          | ok b =>
            cases b with
            | true => rfl
            | false =>
              rw [hx] at hr
              dsimp only at hr ⊢
              split
              · rename_i hc'
                rw [if_pos hc'] at hr
                simp at hr
              · rfl

/-- **C59**: which exception it is when `working_dir` finds a repository: that of GitPython if it was not opened before and cannot be opened,
`RepoExistsError` if it can and there is something at the path, and `AssertionError` if there is nothing. -/
theorem C59_raises (L : Limits) (t : Tree) (cwd : Path) (cached opens : Path → Bool)
    (create : Tree → UserPath → Except PyErr Tree) (p : UserPath) (hp : p.absolute = true ∨ Reachable L t cwd)
    {wd : Path} (hw : workingDir L t cwd p = .ok (some wd)) :
    (cached wd = false → opens wd = false → gitInit L t cwd cached opens create p = .error .gitError) ∧
    (cached wd = true ∨ opens wd = true →
      (pathExists L t cwd p = .ok true → gitInit L t cwd cached opens create p = .error .repoExistsError) ∧
      (pathExists L t cwd p = .ok false → gitInit L t cwd cached opens create p = .error .assertionError)) := by
  refine ⟨fun h1 h2 => by simp [gitInit, hw, h1, h2], fun h => ?_⟩
  have hc : (!cached wd && !opens wd) = false := by rcases h with h | h <;> simp [h]
  refine ⟨fun hx => by simp [gitInit, hw, hc, hx], fun hx => ?_⟩
  by_cases hpw : p.absolute = true ∧ p.comps = wd
  · obtain ⟨q, hq, hg⟩ : ∃ q, q <+: absolute cwd p ∧ HasGit L t q :=
      ⟨wd, ((C58_innermost L t cwd p hp).1 wd hw).1, ((C58_innermost L t cwd p hp).1 wd hw).2.1⟩
    have hno := (C59_no_nesting L t cwd cached opens (fun t _ => .ok t) p hp).1 t (by simp [gitInit, hw, hc, hx, hpw])
    exact absurd hg (hno.2 q hq)
  · simp [gitInit, hw, hc, hx, hpw]

/-- **C59 is false** through a symlink: with `/l -> /r/d` and the repository `/r`, nothing above
`/l/x` (by its text) has a `.git`, so a repository is created inside `/r`. -/
theorem C59_symlink_counterexample :
    ∃ t : Tree, (∀ create, gitInit ⟨255, 40⟩ t [] (fun _ => false) (fun _ => true) create
        ⟨true, [lit "l", lit "x"]⟩ = create t ⟨true, [lit "l", lit "x"]⟩) ∧
      walk ⟨255, 40⟩ t 40 [] [lit "l", lit "x"] = .ok [lit "r", lit "d", lit "x"] ∧
      HasGit ⟨255, 40⟩ t [lit "r"] := by
  let t : Tree := fun p => if p = [] ∨ p = [lit "r"] ∨ p = [lit "r", lit "d"] ∨ p = [lit "r", lit "d", lit "x"] ∨
    p = [lit "r", dotgit] then some (.dir true) else
    if p = [lit "l"] then some (.link ⟨true, [lit "r", lit "d"]⟩) else none
  refine ⟨t, fun create => ?_, ?_, ?_⟩
  · have : workingDir ⟨255, 40⟩ t [] ⟨true, [lit "l", lit "x"]⟩ = .ok none := by
      simp [workingDir, workingDirAbs, parentOf, pathExists, test, stat, walk, start, t, lit, utf8,
        Char.utf8Size, dotgit, ignored]
    rw [gitInit, this]
  · simp [walk, start, t, lit, utf8, Char.utf8Size, dotgit]
  · rw [← hasGit_iff _ _ []]
    simp [pathExists, test, stat, walk, start, node, t, lit, utf8, Char.utf8Size, dotgit]

example : ∃ t : Tree, (∃ q, q <+: absolute [] ⟨true, [lit "r", lit "d"]⟩ ∧ HasGit ⟨255, 40⟩ t q) ∧
    gitInit ⟨255, 40⟩ t [] (fun _ => false) (fun _ => true) (fun t _ => .ok t) ⟨true, [lit "r", lit "d"]⟩ =
      .error .repoExistsError := by
  let t : Tree := fun p => if p = [] ∨ p = [lit "r"] ∨ p = [lit "r", lit "d"] ∨
    p = [lit "r", dotgit] then some (.dir true) else none
  refine ⟨t, ⟨[lit "r"], ⟨[lit "d"], rfl⟩, ?_⟩, ?_⟩
  · rw [← hasGit_iff _ _ []]
    simp [pathExists, test, stat, walk, start, node, t, lit, utf8, Char.utf8Size, dotgit]
  · simp [gitInit, workingDir, workingDirAbs, parentOf, pathExists, test, stat, walk, start, node, t, lit, utf8,
      Char.utf8Size, dotgit, ignored]

/-- **C41**, the law itself: what decides is the nearest of the path and its ancestors that has the attribute at all, and `_sparse_root`
says whether its value is `1`; it says nothing exactly if none of them has it. -/
theorem C41_nearest (m : Marks) (base p : Path) :
    (sparseRoot (getMark m) base p = .ok none ↔ ∀ q, q <+: p → q ≠ [] → m (base ++ q) = none) ∧
    ∀ b, sparseRoot (getMark m) base p = .ok (some b) ↔
      ∃ q v, q <+: p ∧ q ≠ [] ∧ m (base ++ q) = some v ∧ (∀ r, q <+: r → r <+: p → r ≠ q → m (base ++ r) = none) ∧
        (b = true ↔ v = [0x31]) := by
  induction p using path_ind with
  | root =>
    rw [sparseRoot]
    simp only [dite_true, true_iff]
    refine ⟨fun q hq hne => absurd (List.prefix_nil.1 hq) hne, fun b => ⟨fun h => by simp at h, ?_⟩⟩
    rintro ⟨q, v, hq, hne, -⟩
    exact absurd (List.prefix_nil.1 hq) hne
  | step p hp ih =>
    rw [sparseRoot]
    simp only [hp, dite_false, getMark]
    cases hm : m (base ++ p) with
    | some v =>
      dsimp only
      refine ⟨⟨fun h => (by simp at h), fun h => ?_⟩, fun b => ⟨fun h => ?_, ?_⟩⟩
      · rw [h p (List.prefix_refl _) hp] at hm; cases hm
      · refine ⟨p, v, List.prefix_refl _, hp, hm, fun r h1 h2 h3 => absurd (List.IsPrefix.eq_of_length_le h2 h1.length_le) h3, ?_⟩
        simp only [Except.ok.injEq, Option.some.injEq] at h
        rw [← h]
        exact decide_eq_true_iff (p := v = sparseOne)
      · rintro ⟨q, w, h1, h2, h3, h4, h5⟩
        by_cases hq : q = p
        · subst hq
          rw [hm] at h3
          cases h3
          simp only [Except.ok.injEq, Option.some.injEq]
          rw [Bool.eq_iff_iff, h5]
          exact decide_eq_true_iff (p := v = sparseOne)
        · rw [h4 p h1 (List.prefix_refl _) (Ne.symm hq)] at hm
          cases hm
    | none =>
      dsimp only
      have hno : ∀ q, q <+: p → ∀ v, m (base ++ q) = some v → q <+: parentOf p := by
        intro q hq v hv
        rcases prefix_parent_or hq with rfl | ⟨_, h⟩
        · rw [hm] at hv; cases hv
        · exact h
      refine ⟨ih.1.trans ⟨fun h q hq hne => ?_, fun h q hq hne => h q (hq.trans (parent_prefix p)) hne⟩, fun b => (ih.2 b).trans ⟨?_, ?_⟩⟩
      · rcases prefix_parent_or hq with rfl | ⟨_, h'⟩
        · exact hm
        · exact h q h' hne
      · rintro ⟨q, v, h1, h2, h3, h4, h5⟩
        refine ⟨q, v, h1.trans (parent_prefix p), h2, h3, fun r a b c => ?_, h5⟩
        rcases prefix_parent_or b with rfl | ⟨_, b'⟩
        · exact hm
        · exact h4 r a b' c
      · rintro ⟨q, v, h1, h2, h3, h4, h5⟩
        exact ⟨q, v, hno q h1 v h3, h2, h3, fun r a b c => h4 r a (b.trans (parent_prefix p)) c, h5⟩

example : sparseRoot (getMark fun q => if q = [lit "a"] then some [0x31] else if q = [lit "a", lit "b"] then some [0x30] else none) []
    [lit "a", lit "b", lit "c"] = .ok (some false) :=
  ((C41_nearest _ _ _).2 _).2 ⟨[lit "a", lit "b"], [0x30], ⟨[lit "c"], rfl⟩, by simp, by decide, by
    intro r h1 h2 h3
    obtain ⟨s, rfl⟩ := h1
    obtain ⟨u, hu⟩ := h2
    match s with
    | [] => simp at h3
    | a :: s => simp, by simp⟩

/-- `r` is the top of a run of cached locations that ends at `w`. -/
def RunTop (cache : Path → CacheAns) (w r : Path) : Prop :=
  r <+: w ∧ (∀ x, r <+: x → x <+: w → cache x = .has) ∧ cache (parentOf r) ≠ .has

theorem run_found (cache : Path → CacheAns) (h : ∀ p, cache p = .has ∨ cache p = .lost) (hroot : cache [] = .lost) (v : Path) :
    ∀ f, f ≠ [] → ∃ r, searchParents cache false (some f) v = .returned r ∧ (cache v ≠ .has → r = f) ∧ (cache v = .has → RunTop cache v r) := by
  induction v using path_ind with
  | root =>
    intro f hf
    refine ⟨f, ?_, fun _ => rfl, fun hc => by rw [hroot] at hc; exact nomatch hc⟩
    rw [searchParents]; simp [searchStep, hroot, hf]
  | step v hv ih =>
    intro f hf
    rcases h v with hc | hc
    · obtain ⟨r, h1, h2, h3⟩ := ih v hv
      refine ⟨r, ?_, fun hn => absurd hc hn, fun _ => ?_⟩
      · rw [searchParents]; simp [searchStep, hc, hv, h1]
      · by_cases hp : cache (parentOf v) = .has
        · obtain ⟨a, b, c⟩ := h3 hp
          refine ⟨a.trans (parent_prefix v), fun x hx hxv => ?_, c⟩
          rcases prefix_parent_or hxv with rfl | ⟨-, hxp⟩
          · exact hc
          · exact b x hx hxp
        · rw [h2 hp]
          refine ⟨List.prefix_rfl, fun x hx hxv => ?_, hp⟩
          rw [hxv.eq_of_length_le hx.length_le, hc]
    · refine ⟨f, ?_, fun _ => rfl, fun hn => by rw [hc] at hn; exact nomatch hn⟩
      rw [searchParents]; simp [searchStep, hc, hf]

theorem run_search (cache : Path → CacheAns) (h : ∀ p, cache p = .has ∨ cache p = .lost) (hroot : cache [] = .lost) (v : Path) :
    (∃ w r, Nearest' (fun q => cache q = .has) v w ∧ RunTop cache w r ∧ searchParents cache false none v = .returned r) ∨
    ((∀ q, q <+: v → cache q ≠ .has) ∧ searchParents cache false none v = .goOn none) := by
  induction v using path_ind with
  | root =>
    right
    refine ⟨fun q hq => by rw [List.prefix_nil.1 hq, hroot]; exact nofun, ?_⟩
    rw [searchParents]; simp [searchStep, hroot]
  | step v hv ih =>
    rcases h v with hc | hc
    · left
      obtain ⟨r, h1, -, h3⟩ := run_found cache h hroot v v hv
      refine ⟨v, r, ⟨List.prefix_rfl, hc, fun q h1 h2 h3 => absurd (h2.eq_of_length_le h1.length_le) h3⟩, h3 hc, ?_⟩
      rw [← h1]
      conv => lhs; rw [searchParents]
      conv => rhs; rw [searchParents]
      simp [searchStep, hc]
    · have hstep : searchParents cache false none v = searchParents cache false none (parentOf v) := by
        rw [searchParents]; simp [searchStep, hc, hv]
      rw [hstep]
      rcases ih with ⟨w, r, ⟨a, b, c⟩, h2, h3⟩ | ⟨h1, h2⟩
      · left
        refine ⟨w, r, ⟨a.trans (parent_prefix v), b, fun q hq1 hq2 hq3 => ?_⟩, h2, h3⟩
        rcases prefix_parent_or hq2 with rfl | ⟨-, hqp⟩
        · intro h'; rw [h'] at hc; exact nomatch hc
        · exact c q hq1 hqp hq3
      · right
        refine ⟨fun q hq => ?_, h2⟩
        rcases prefix_parent_or hq with rfl | ⟨-, hqp⟩
        · rw [hc]; exact nofun
        · exact h1 q hqp

/-- **C42**: with a cache class that raises for a path without metadata the answer is the top of the run of cached locations that
ends at the lowest one, and `None` exactly when nothing is cached; so it is the topmost cached one exactly if there is no gap. -/
theorem C42_run (cache : Path → CacheAns) (h : ∀ p, cache p = .has ∨ cache p = .lost) (hroot : cache [] = .lost)
    (broken : Path → Bool) (p : Path) (hb : broken p = false) :
    ∃ r, findCacheRoot cache broken (fun p => [p]) false p = .ok r ∧
      (r = none ↔ ∀ q, q <+: p → cache q ≠ .has) ∧
      ∀ q, r = some q → (∃ w, Nearest' (fun q => cache q = .has) p w ∧ RunTop cache w q) ∧
        (Topmost (fun q => cache q = .has) p q ↔
          ∀ a b c, a <+: b → b <+: c → c <+: p → cache a = .has → cache c = .has → cache b = .has) := by
  rw [findCacheRoot]
  simp only [hb, Bool.false_eq_true, false_and, dite_false, searchVariants]
  rcases run_search cache h hroot p with ⟨w, r, hw, hr, hs⟩ | ⟨hn, hs⟩
  · rw [hs]
    refine ⟨some r, rfl, ⟨nofun, fun hall => absurd hw.2.1 (hall w hw.1)⟩, ?_⟩
    rintro q ⟨⟩
    refine ⟨⟨w, hw, hr⟩, ?_, ?_⟩
    · rintro ⟨-, -, htop⟩ a b c hab hbc hcp ha hc
      have hcw : c <+: w := by
        rcases List.prefix_or_prefix_of_prefix hcp hw.1 with h1 | h1
        · exact h1
        · by_cases he : c = w
          · rw [he]; exact List.prefix_rfl
          · exact absurd hc (hw.2.2 c h1 hcp he)
      have har : r <+: a := by
        rcases List.prefix_or_prefix_of_prefix hr.1 (hab.trans (hbc.trans hcw)) with h1 | h1
        · exact h1
        · by_cases he : a = r
          · rw [he]; exact List.prefix_rfl
          · exact absurd ha (htop a h1 he)
      exact hr.2.1 b (har.trans hab) (hbc.trans hcw)
    · intro hgap
      refine ⟨hr.1.trans hw.1, hr.2.1 r List.prefix_rfl hr.1, fun q hq hne hc => ?_⟩
      rcases prefix_parent_or hq with h1 | ⟨-, h1⟩
      · exact hne h1
      · exact hr.2.2 (hgap q (parentOf r) r h1 (parent_prefix r) (hr.1.trans hw.1) hc (hr.2.1 r List.prefix_rfl hr.1))
  · rw [hs]
    exact ⟨none, rfl, ⟨fun _ => hn, fun _ => rfl⟩, nofun⟩

/-- **C42**: such a class makes the search raise if it is told to fail. -/
theorem C42_fail (cache : Path → CacheAns) (h : ∀ p, cache p = .has ∨ cache p = .lost) (hroot : cache [] = .lost)
    (broken : Path → Bool) (p : Path) (hb : broken p = false) :
    findCacheRoot cache broken (fun p => [p]) true p = .error .noCachedMetadataError := by
  have key : ∀ v found, searchParents cache true found v = .raised .noCachedMetadataError := by
    intro v
    induction v using path_ind with
    | root => intro found; rw [searchParents]; simp [searchStep, hroot]
    | step v hv ih =>
      intro found
      rw [searchParents]
      rcases h v with hc | hc
      · simp [searchStep, hc, hv, ih]
      · simp [searchStep, hc]
  rw [findCacheRoot]
  simp [hb, searchVariants, key]

example : findCacheRoot (fun p => if p = [lit "a"] ∨ p = [lit "a", lit "b", lit "c"] ∨ p = [lit "a", lit "b", lit "c", lit "d"] then .has else .lost)
    (fun _ => false) (fun p => [p]) false [lit "a", lit "b", lit "c", lit "d", lit "e"] = .ok (some [lit "a", lit "b", lit "c"]) := by
  decide +kernel

/-- **C41**: the answer that `is_sparse` throws away, when there is one, does say whether the path itself is marked with a file that
has metadata, except at the root. -/
theorem C41_cache_root_law (E : MarkerEnv) (p : Path) (h : E.Calm p) (b : Bool) :
    E.sparseRoot p = .ok (some b) ↔
      (p = [] ∧ b = false) ∨ (p ≠ [] ∧ E.marker p = .ok true ∧ E.cached p = .ok true ∧ E.there p = .ok b) := by
  unfold MarkerEnv.sparseRoot
  obtain ⟨h1, h2⟩ := h
  rw [h1]
  dsimp only
  by_cases hp : p = []
  · subst hp; cases b <;> simp [parentOf]
  · rw [if_neg (ne_parentOf hp)]
    have key : (E.child p).map some = .ok (some b) ↔ E.marker p = .ok true ∧ E.cached p = .ok true ∧ E.there p = .ok b := by
      unfold MarkerEnv.child
      cases E.marker p with
      | error e => simp [Except.map]
      | ok b => cases b with
        | false => simp [Except.map]
        | true => cases E.cached p with
          | error e => simp [Except.map]
          | ok b => cases b with
            | false => simp [Except.map]
            | true => cases E.there p <;> simp [Except.map]
    rcases h2 with h2 | h2 <;> simp only [h2, hp, false_and, false_or, true_and, ne_eq, not_false_eq_true] <;> exact key

theorem searchParents_returned (cache : Path → CacheAns) (fail : Bool) : ∀ (v : Path) (found : Option Path) (r : Path),
    (∀ f, found = some f → f = [] ∨ cache f = .has) → searchParents cache fail found v = .returned r → r ≠ [] ∧ cache r = .has := by
  intro v
  induction v using path_ind with
  | root =>
    intro found r hf h
    rw [searchParents] at h
    unfold searchStep at h
    cases hc : cache [] with
    | has => simp [hc] at h
    | hasNot =>
      cases found with
      | none => simp [hc] at h
      | some f =>
        by_cases hfe : f = []
        · simp [hc, hfe] at h
        · simp [hc, hfe] at h
          subst h
          exact ⟨hfe, (hf _ rfl).resolve_left hfe⟩
    | raises e => simp [hc] at h
    | lost =>
      cases fail with
      | true => simp [hc] at h
      | false =>
        cases found with
        | none => simp [hc] at h
        | some f =>
          by_cases hfe : f = []
          · simp [hc, hfe] at h
          · simp [hc, hfe] at h
            subst h
            exact ⟨hfe, (hf _ rfl).resolve_left hfe⟩
  | step v hv ih =>
    intro found r hf h
    rw [searchParents] at h
    unfold searchStep at h
    cases hc : cache v with
    | has =>
      simp only [hc, hv, dite_false] at h
      exact ih (some v) r (by rintro f ⟨⟩; exact .inr hc) h
    | hasNot =>
      simp only [hc, hv, dite_false] at h
      exact ih found r hf h
    | raises e => simp [hc] at h
    | lost =>
      cases fail with
      | true => simp [hc] at h
      | false =>
        cases found with
        | none =>
          simp only [hc, hv, dite_false, Bool.false_eq_true, if_false] at h
          exact ih none r hf h
        | some f =>
          by_cases hfe : f = []
          · simp only [hc, hv, hfe, dite_false, Bool.false_eq_true, if_false, ne_eq, not_true_eq_false] at h
            exact ih (some []) r (by rintro f ⟨⟩; exact .inl rfl) h
          · simp [hc, hfe] at h
            subst h
            exact ⟨hfe, (hf _ rfl).resolve_left hfe⟩

theorem searchParents_goOn (cache : Path → CacheAns) (fail : Bool) : ∀ (v : Path) (found found' : Option Path),
    searchParents cache fail found v = .goOn found' → ∀ f, found' = some f → f = [] := by
  intro v
  induction v using path_ind with
  | root =>
    intro found found' h f hf
    subst hf
    rw [searchParents] at h
    cases hs : searchStep cache fail found [] with
    | goOn x =>
      rw [hs] at h
      cases x with
      | none => simp at h
      | some x =>
        by_cases hx : x = []
        · simp [hx] at h; exact h
        · simp [hx] at h
    | returned x => rw [hs] at h; simp at h
    | raised x => rw [hs] at h; simp at h
  | step v hv ih =>
    intro found found' h f hf
    rw [searchParents] at h
    cases hs : searchStep cache fail found v with
    | goOn x =>
      rw [hs] at h
      simp only [hv, dite_false] at h
      exact ih x found' h f hf
    | returned x => rw [hs] at h; simp at h
    | raised x => rw [hs] at h; simp at h

theorem searchVariants_ok (cache : Path → CacheAns) (fail : Bool) : ∀ (vs : List Path) (found : Option Path) (r : Path),
    (∀ f, found = some f → f = [] ∨ cache f = .has) → searchVariants cache fail found vs = .ok (some r) → r ≠ [] ∧ cache r = .has
  | [], found, r, _, h => by simp [searchVariants] at h
  | v :: vs, found, r, hf, h => by
    rw [searchVariants] at h
    cases hs : searchParents cache fail found v with
    | returned x =>
      rw [hs] at h
      simp only [Except.ok.injEq, Option.some.injEq] at h
      subst h
      exact searchParents_returned cache fail v found x hf hs
    | raised e => rw [hs] at h; simp at h
    | goOn x =>
      rw [hs] at h
      exact searchVariants_ok cache fail vs x r (fun f hx => .inl (searchParents_goOn cache fail v found x hs f hx)) h

/-- C41: whatever spellings the path has and wherever metadata are lost on the way up, the answer is a path with a cache, and never the
root of the file system. -/
theorem C41_never_the_root (cache : Path → CacheAns) (broken : Path → Bool) (variants : Path → List Path) (fail : Bool) (p r : Path)
    (h : findCacheRoot cache broken variants fail p = .ok (some r)) : r ≠ [] ∧ cache r = .has := by
  induction p using path_ind with
  | root =>
    rw [findCacheRoot] at h
    simp only [ne_eq, not_true_eq_false, and_false, dite_false] at h
    exact searchVariants_ok cache fail _ none r (by simp) h
  | step p hp ih =>
    rw [findCacheRoot] at h
    by_cases hb : broken p = true
    · simp only [hb, ne_eq, hp, not_false_eq_true, and_self, dite_true] at h
      exact ih h
    · simp only [hb, ne_eq, false_and, dite_false, Bool.false_eq_true] at h
      exact searchVariants_ok cache fail _ none r (by simp) h

example : findCacheRoot (fun p => if p = [] ∨ p = [lit "a"] then .has else .lost) (fun _ => false) (fun p => [p, [lit "c"]]) false [lit "b"] = .ok none := by
  decide +kernel

/-- **C41**: what asking the parent raises is raised, whatever is marked, except that there is no metadata. -/
theorem C41_cache_disturbed (E : MarkerEnv) (p : Path) (e : PyErr) :
    (E.parent p = some e → E.isSparse p = .error e) ∧
    (E.parent p = none → p ≠ [] → E.parentMeta p = some e → e ≠ .noCachedMetadataError → E.isSparse p = .error e) := by
  refine ⟨fun h => by simp [MarkerEnv.isSparse, MarkerEnv.sparseRoot, h], fun h hp hm he => ?_⟩
  simp only [MarkerEnv.isSparse, MarkerEnv.sparseRoot, h, hm, if_neg (ne_parentOf hp)]

/-- **C58**: outside of any repository `repo_relative_path` says that there is none, and that is the only time it says so; an exception about a
directory that may not be searched comes through. -/
theorem C58_outside (L : Limits) (t : Tree) (cwd : Path) (p : UserPath) (hp : p.absolute = true ∨ Reachable L t cwd) :
    (workingDir L t cwd p = .ok none → repoRelativePath L t cwd p = .error .gitError) ∧
    (∀ e, workingDir L t cwd p = .error e → repoRelativePath L t cwd p = .error e) ∧
    ((∃ e, repoRelativePath L t cwd p = .error e) → ∀ w, workingDir L t cwd p ≠ .ok (some w)) := by
  refine ⟨fun h => by rw [repoRelativePath, h], fun e h => by rw [repoRelativePath, h], fun ⟨e, he⟩ w hw => ?_⟩
  obtain ⟨rel, hrel, -⟩ := C58_relative_path L t cwd p hp w hw
  rw [hrel] at he
  cases he
example : repoRelativePath ⟨255, 40⟩ (fun p => if p = [] then some (.dir true) else none) [] ⟨true, [lit "x"]⟩ = .error .gitError := by
  have h : workingDir ⟨255, 40⟩ (fun p => if p = [] then some (.dir true) else none) [] ⟨true, [lit "x"]⟩ = .ok none := by
    simp [workingDir, workingDirAbs, parentOf, pathExists, test, stat, walk, start, node, lit, utf8,
      Char.utf8Size, dotgit, ignored]
  rw [repoRelativePath, h]

end Verif.FS
