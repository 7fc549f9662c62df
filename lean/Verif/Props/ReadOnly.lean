import Verif.Model.ReadOnly

/-!
# C158: removing a tree with read-only files on windows
-/

namespace Verif.ReadOnly

mutual
/-- How many directories are read-only. -/
def dirs : Node → Nat
  | .file _ => 0
  | .dir ro kids => (if ro then 1 else 0) + dirsIn kids
def dirsIn : List Node → Nat
  | [] => 0
  | k :: ks => dirs k + dirsIn ks
end

mutual
/-- How many files and directories are read-only. -/
def all : Node → Nat
  | .file ro => if ro then 1 else 0
  | .dir ro kids => (if ro then 1 else 0) + allIn kids
def allIn : List Node → Nat
  | [] => 0
  | k :: ks => all k + allIn ks
end

mutual
/-- The first is what may be left of the second: files and directories are missing, and some are not read-only any more. -/
inductive Less : Node → Node → Prop where
  | file {r' r : Bool} : (r' = true → r = true) → Less (.file r') (.file r)
  | dir {r' r : Bool} {l' l : List Node} : (r' = true → r = true) → LessIn l' l → Less (.dir r' l') (.dir r l)
inductive LessIn : List Node → List Node → Prop where
  | nil : LessIn [] []
  | drop {k : Node} {l' l : List Node} : LessIn l' l → LessIn l' (k :: l)
  | keep {k' k : Node} {l' l : List Node} : Less k' k → LessIn l' l → LessIn (k' :: l') (k :: l)
end

mutual
theorem Less.refl : ∀ n, Less n n
  | .file _ => .file id
  | .dir _ kids => .dir id (LessIn.refl kids)
theorem LessIn.refl : ∀ l, LessIn l l
  | [] => .nil
  | k :: ks => .keep (Less.refl k) (LessIn.refl ks)
end

mutual
theorem rmtree_helped : ∀ n, (dirs n = 0 → rmtree true n = (.ok (), none)) ∧
    (dirs n ≠ 0 → ∃ r l, rmtree true n = (.error .permissionError, some (.dir r l)) ∧ dirs (.dir r l) < dirs n)
  | .file ro => by cases ro <;> simp [dirs, rmtree, handle, helper]
  | .dir ro kids => by
    have ⟨h1, h2⟩ := loop_helped kids
    by_cases hk : dirsIn kids = 0
    · cases ro <;> simp [dirs, hk, rmtree, h1 hk, handle, helper, dirsIn]
    · obtain ⟨l, e, hl⟩ := h2 hk
      refine ⟨fun h => absurd h (by simp only [dirs]; omega), fun _ => ⟨ro, l, by simp [rmtree, e], by simp only [dirs]; omega⟩⟩
theorem loop_helped : ∀ ks, (dirsIn ks = 0 → loop true ks = (.ok true, [])) ∧
    (dirsIn ks ≠ 0 → ∃ l, loop true ks = (.error .permissionError, l) ∧ dirsIn l < dirsIn ks)
  | [] => by simp [dirsIn, loop]
  | k :: ks => by
    have ⟨a1, a2⟩ := rmtree_helped k
    have ⟨b1, b2⟩ := loop_helped ks
    by_cases hk : dirs k = 0
    · by_cases hs : dirsIn ks = 0
      · simp [dirsIn, hk, hs, loop, a1 hk, b1 hs]
      · obtain ⟨l, e, hl⟩ := b2 hs
        refine ⟨fun h => absurd h (by simp only [dirsIn]; omega), fun _ => ⟨l, by simp [loop, a1 hk, e], by simp only [dirsIn]; omega⟩⟩
    · obtain ⟨r, l, e, hl⟩ := a2 hk
      refine ⟨fun h => absurd h (by simp only [dirsIn]; omega), fun _ => ⟨.dir false l :: ks, by simp [loop, e, handle, helper], ?_⟩⟩
      simp only [dirs] at hl
      simp only [dirsIn, dirs]
      simp; omega
end

mutual
theorem rmtree_alone : ∀ n, (all n = 0 → rmtree false n = (.ok (), none)) ∧
    (all n ≠ 0 → ∃ m, rmtree false n = (.error .permissionError, some m) ∧ all m ≠ 0)
  | .file ro => by cases ro <;> simp [all, rmtree, handle]
  | .dir ro kids => by
    have ⟨h1, h2⟩ := loop_alone kids
    by_cases hk : allIn kids = 0
    · cases ro <;> simp [all, hk, rmtree, h1 hk, handle]
    · obtain ⟨l, e, hl⟩ := h2 hk
      refine ⟨fun h => absurd h (by simp only [all]; omega), fun _ => ⟨.dir ro l, by simp [rmtree, e], by simp only [all]; omega⟩⟩
theorem loop_alone : ∀ ks, (allIn ks = 0 → loop false ks = (.ok true, [])) ∧
    (allIn ks ≠ 0 → ∃ l, loop false ks = (.error .permissionError, l) ∧ allIn l ≠ 0)
  | [] => by simp [allIn, loop]
  | k :: ks => by
    have ⟨a1, a2⟩ := rmtree_alone k
    have ⟨b1, b2⟩ := loop_alone ks
    by_cases hk : all k = 0
    · by_cases hs : allIn ks = 0
      · simp [allIn, hk, hs, loop, a1 hk, b1 hs]
      · obtain ⟨l, e, hl⟩ := b2 hs
        refine ⟨fun h => absurd h (by simp only [allIn]; omega), fun _ => ⟨l, by simp [loop, a1 hk, e], hl⟩⟩
    · obtain ⟨m, e, hl⟩ := a2 hk
      refine ⟨fun h => absurd h (by simp only [allIn]; omega), fun _ => ⟨m :: ks, by simp [loop, e, handle], by simp only [allIn]; omega⟩⟩
end

/-- **C158**: with the helper a tree is removed, whatever files in it are read-only, if no directory is. Missing from the full statement: read-only directories. -/
theorem C158_removed_partial (n : Node) (h : dirs n = 0) : rmtree true n = (.ok (), none) := (rmtree_helped n).1 h

/-- **C158**, exactly: with the helper the call returns if and only if no directory is read-only, and if and only if nothing is left; otherwise it raises
`PermissionError`. -/
theorem C158_removed_iff (n : Node) : ((rmtree true n).1 = .ok () ↔ dirs n = 0) ∧ ((rmtree true n).2 = none ↔ dirs n = 0) ∧
    (dirs n ≠ 0 → (rmtree true n).1 = .error .permissionError) := by
  by_cases h : dirs n = 0
  · simp [h, (rmtree_helped n).1 h]
  · obtain ⟨r, l, e, -⟩ := (rmtree_helped n).2 h
    simp [h, e]

/-- **C158 is false** for a read-only directory, even if there is nothing in it: the helper removes files only. -/
theorem C158_directory_counterexample : rmtree true (.dir false [.dir true []]) = (.error .permissionError, some (.dir false [.dir false []])) := by
  simp [rmtree, loop, handle, helper]

/-- **C158**: without the helper the call returns if and only if nothing is read-only, and if and only if nothing is left. -/
theorem C158_without (n : Node) : ((rmtree false n).1 = .ok () ↔ all n = 0) ∧ ((rmtree false n).2 = none ↔ all n = 0) ∧
    (all n ≠ 0 → (rmtree false n).1 = .error .permissionError) := by
  by_cases h : all n = 0
  · simp [h, (rmtree_alone n).1 h]
  · obtain ⟨m, e, -⟩ := (rmtree_alone n).2 h
    simp [h, e]

/-- **C158**: each call that raises makes at least one read-only directory writable, so calling often enough removes the tree: once more than there are
read-only directories. -/
theorem C158_again : ∀ (k : Nat) (n : Node), dirs n < k → again k n = none
  | 0, _, h => absurd h (Nat.not_lt_zero _)
  | k + 1, n, h => by
    by_cases h0 : dirs n = 0
    · simp [again, (rmtree_helped n).1 h0]
    · obtain ⟨r, l, e, hl⟩ := (rmtree_helped n).2 h0
      simp only [again, e]
      exact C158_again k _ (by omega)

theorem handle_less {h : Bool} {e : PyErr} {n m m' : Node} (hn : Less m n) (hm : (handle h e (some m)).2 = some m') : Less m' n := by
  cases h
  · simp [handle] at hm; subst hm; exact hn
  · cases hn with
    | file _ => simp [handle, helper] at hm
    | dir _ hl => simp [handle, helper] at hm; subst hm; exact .dir (by simp) hl

theorem handle_none (h : Bool) (e : PyErr) : (handle h e none).2 = none := by cases h <;> rfl

theorem less_toList {o : Option Node} {k : Node} {l' l : List Node} (ho : ∀ m, o = some m → Less m k) (hl : LessIn l' l) :
    LessIn (o.toList ++ l') (k :: l) := by
  cases o with
  | none => exact .drop hl
  | some m => exact .keep (ho m rfl) hl

theorem handled_less {h : Bool} {e : PyErr} {o : Option Node} {k m : Node} (ho : ∀ m, o = some m → Less m k) (hm : (handle h e o).2 = some m) :
    Less m k := by
  cases o with
  | none => rw [handle_none] at hm; cases hm
  | some n => exact handle_less (ho n rfl) hm

mutual
theorem rmtree_less (h : Bool) : ∀ n m, (rmtree h n).2 = some m → Less m n
  | .file ro, m, hm => by
    simp only [rmtree] at hm
    split at hm
    · exact handle_less (Less.refl _) hm
    · cases hm
  | .dir ro kids, m, hm => by
    have hl := loop_less h kids
    simp only [rmtree] at hm
    split at hm
    · rename_i e; rw [e] at hl; cases hm; exact .dir id hl
    · rename_i e; rw [e] at hl; cases hm; exact .dir id hl
    · rename_i l e
      rw [e] at hl
      split at hm
      · exact handle_less (.dir id hl) hm
      · rename_i hk
        have : l = [] := by simpa using hk
        subst this
        split at hm
        · exact handle_less (.dir id hl) hm
        · cases hm
theorem loop_less (h : Bool) : ∀ ks, LessIn (loop h ks).2 ks
  | [] => by simp [loop]; exact .nil
  | k :: ks => by
    have hk := rmtree_less h k
    have hl := loop_less h ks
    simp only [loop]
    split
    · rename_i e; rw [e] at hk; exact less_toList hk hl
    · rename_i e; rw [e] at hk
      split
      · rename_i e'
        exact less_toList (fun m hm => handled_less hk (by rw [e', hm])) (LessIn.refl ks)
      · rename_i e'
        exact less_toList (fun m hm => handled_less hk (by rw [e', hm])) (LessIn.refl ks)
end

/-- **C158**: with the helper or without, what is left when the call raises is part of what was there: nothing is new, and nothing becomes read-only. -/
theorem C158_only (h : Bool) (n m : Node) (hm : (rmtree h n).2 = some m) : Less m n := rmtree_less h n m hm

/-- **C158**: the entries of a directory are removed one after the other up to the first with a read-only directory in it; part of that one is left, and all after
it is as before. -/
theorem C158_stops (ro : Bool) (good rest : List Node) (bad : Node) (hg : dirsIn good = 0) (hb : dirs bad ≠ 0) :
    ∃ m, rmtree true (.dir ro (good ++ bad :: rest)) = (.error .permissionError, some (.dir ro (m :: rest))) ∧ Less m bad ∧ dirs m < dirs bad := by
  have h : ∃ m, loop true (bad :: rest) = (.error .permissionError, m :: rest) ∧ Less m bad ∧ dirs m < dirs bad := by
    obtain ⟨r, l, e, hl⟩ := (rmtree_helped bad).2 hb
    refine ⟨.dir false l, by simp [loop, e, handle, helper], ?_, by simp only [dirs] at hl ⊢; simp; omega⟩
    exact handle_less (h := true) (e := .permissionError) (rmtree_less true bad (.dir r l) (by rw [e])) (by simp [handle, helper])
  obtain ⟨m, e, hm⟩ := h
  refine ⟨m, ?_, hm⟩
  have hloop : loop true (good ++ bad :: rest) = (.error .permissionError, m :: rest) := by
    induction good with
    | nil => exact e
    | cons k ks ih =>
      simp only [dirsIn] at hg
      have hk := (rmtree_helped k).1 (by omega)
      simp [loop, hk, ih (by omega)]
  simp [rmtree, hloop]

/-! ## Cases -/

-- C158_removed_partial: a read-only file in a directory
example : dirs (.dir false [.file true, .dir false [.file true, .file false]]) = 0 ∧ all (.dir false [.file true, .dir false [.file true, .file false]]) = 2 := by
  simp [dirs, dirsIn, all, allIn]

-- C158_again, C158_stops: two read-only directories, three calls
example : dirs (.dir true [.file true, .dir true [.file false], .file false]) < 3 ∧ dirsIn [.file true] = 0 ∧ dirs (.dir true [.file false]) ≠ 0 := by
  simp [dirs, dirsIn]

end Verif.ReadOnly
