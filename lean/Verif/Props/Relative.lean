import Verif.Lemmas.Relative
import Verif.Lemmas.Decide

/-!
# C49: relative paths lead where they say
-/

namespace Verif.FS
open Verif.Spec

/-- **C49**: `relative_path_from` of absolute paths always answers, and `other.parent` joined with the
answer denotes `self`, unless `other` is `self` or an ancestor of it (and not the root).
Partial: the full statement has no such exception, see the counterexample. -/
theorem C49_denotes_partial (self other : Path) (hs : Plain self) (ho : Plain other) :
    ∃ rel, relativePathFrom self other = .ok rel ∧
      (goes [] (parentOf other ++ rel) = self ↔ (¬other <+: self ∨ other = [])) := by
  obtain ⟨c, r, s, h1, h2, h3, h4⟩ := relativePathFrom_eq self other
  refine ⟨_, h4, ?_⟩
  have hr : Plain r := fun n hn => hs n (by simp [h1, hn])
  have hp : Plain (parentOf other) := fun n hn => ho n ((List.dropLast_sublist _).subset hn)
  rw [goes_append, goes_plain [] _ hp, List.nil_append, goes_append]
  cases s using snocInd with
  | nil =>
    have hot : other = c := by simpa using h2
    subst hot
    have hpre : other <+: self := ⟨r, h1.symm⟩
    simp only [List.length_nil, Nat.zero_sub, List.replicate_zero, goes, hpre, not_true_eq_false, false_or]
    rw [goes_plain _ _ hr, parentOf, h1]
    constructor
    · intro h
      have := List.append_cancel_right h
      have hl := congrArg List.length this
      rw [List.length_dropLast] at hl
      exact List.length_eq_zero_iff.1 (by omega)
    · rintro rfl; rfl
  | append_singleton s x =>
    have e : parentOf other = c ++ s := by
      rw [parentOf, h2, ← List.append_assoc, List.dropLast_concat]
    rw [e, List.length_append, List.length_singleton, Nat.add_sub_cancel, goes_up, goes_plain _ _ hr]
    simp only [← h1, true_iff]
    left
    rintro ⟨z, hz⟩
    rw [h2, h1, List.append_assoc] at hz
    have hz := List.append_cancel_left hz
    cases r with
    | nil => simp at hz
    | cons a r =>
      cases s with
      | nil =>
        simp only [List.nil_append, List.cons_append, List.cons.injEq] at hz
        exact h3 a rfl x rfl hz.1.symm
      | cons b s =>
        simp only [List.cons_append, List.cons.injEq] at hz
        exact h3 a rfl b rfl hz.1.symm

/-- **C49**, in a file system: if the directories above `other` are real, searchable directories,
then `other.parent / self.relative_path_from(other)` resolves exactly as `self` does: to the same
object or with the same error, and also when `self` itself is reached through symlinks. -/
theorem C49_resolves_partial (L : Limits) (t : Tree) (cwd self other : Path) (hs : Plain self)
    (ho : ∀ n ∈ other, FitsName L n) (hd : ∀ d, d <+: parentOf other → t d = some (.dir true))
    (hne : ¬other <+: self ∨ other = []) (rel : List Name)
    (hrel : relativePathFrom self other = .ok rel) :
    stat L t cwd ⟨true, parentOf other ++ rel⟩ = stat L t cwd ⟨true, self⟩ := by
  obtain ⟨c, r, s, h1, h2, h3, h4⟩ := relativePathFrom_eq self other
  rw [h4] at hrel
  cases hrel
  have hroot : t [] = some (.dir true) := hd [] (List.nil_prefix)
  cases s using snocInd with
  | nil =>
    have hot : other = c := by simpa using h2
    subst hot
    rcases hne with h | h
    · exact absurd ⟨r, h1.symm⟩ h
    · subst h
      simp only [List.nil_append] at h1
      subst h1
      simp [parentOf]
  | append_singleton s x =>
    have e : parentOf other = c ++ s := by
      rw [parentOf, h2, ← List.append_assoc, List.dropLast_concat]
    have hm : ∀ n ∈ c ++ s, FitsName L n := fun n hn => ho n ((List.dropLast_sublist _).subset (by rw [← e] at hn; exact hn))
    have step : walk L t L.maxLinks [] (parentOf other ++
        (List.replicate ((s ++ [x]).length - 1) dotdot ++ r)) = walk L t L.maxLinks [] self := by
      rw [e, walk_down_all [] (c ++ s) _ hm fun d _ h => hd d (by rw [e]; simpa using h)]
      simp only [List.nil_append, List.length_append, List.length_singleton, Nat.add_sub_cancel]
      rw [walk_ups c s r fun d _ h => hd d (by rw [e]; exact h)]
      have := walk_down_all (L := L) (t := t) (b := L.maxLinks) [] c r
        (fun n hn => hm n (by simp [hn])) (fun d _ h => hd d (by
          rw [e]; exact (by simpa using h : d <+: c).trans (List.prefix_append ..)))
      rw [h1, this]
      simp
    simp only [stat, start, if_true, step]

/-- **C49 is false** when `other` is an ancestor of `self` (here `/a` and `/a/b`), and when it is the
same path. -/
theorem C49_ancestor_counterexample :
    relativePathFrom [lit "a", lit "b"] [lit "a"] = .ok [lit "b"] ∧
    goes [] (parentOf [lit "a"] ++ [lit "b"]) = [lit "b"] ∧
    relativePathFrom [lit "a", lit "b"] [lit "a", lit "b"] = .ok [] ∧
    goes [] (parentOf [lit "a", lit "b"] ++ []) = [lit "a"] := by
  decide

/-- **C49 is false** in a file system in which a directory above `other` is a symlink: with
`/d/l -> /x/y`, the file `/d/g` and `other = /d/l/f`, the answer `../g` leads from `/d/l` to `/x/g`. -/
theorem C49_symlink_counterexample :
    ∃ t : Tree, relativePathFrom [lit "d", lit "g"] [lit "d", lit "l", lit "f"] = .ok [dotdot, lit "g"] ∧
      stat ⟨255, 40⟩ t [] ⟨true, [lit "d", lit "g"]⟩ = .ok (.file [1]) ∧
      stat ⟨255, 40⟩ t [] ⟨true, [lit "d", lit "l", dotdot, lit "g"]⟩ = .ok (.file [2]) := by
  refine ⟨fun p => if p = [] ∨ p = [lit "d"] ∨ p = [lit "x"] ∨ p = [lit "x", lit "y"] then some (.dir true)
    else if p = [lit "d", lit "l"] then some (.link ⟨true, [lit "x", lit "y"]⟩)
    else if p = [lit "d", lit "g"] then some (.file [1])
    else if p = [lit "x", lit "g"] then some (.file [2]) else none, by decide, ?_, ?_⟩ <;>
    simp [stat, walk, start, node, lit, utf8, Char.utf8Size, dotdot]

/-- **C49**: `relative_path_to` is the same question asked from the other end. -/
theorem C49_to (self other : Path) (hs : Plain self) (ho : Plain other) (h : ¬self <+: other) :
    ∃ rel, relativePathTo self other = .ok rel ∧ goes [] (parentOf self ++ rel) = other := by
  obtain ⟨rel, h1, h2⟩ := C49_denotes_partial other self ho hs
  exact ⟨rel, h1, h2.2 (.inl h)⟩

example : relativePathFrom [lit "a", lit "b", lit "c"] [lit "a", lit "x", lit "y"] =
    .ok [dotdot, lit "b", lit "c"] ∧ ¬[lit "a", lit "x", lit "y"] <+: [lit "a", lit "b", lit "c"] := by
  decide

end Verif.FS
