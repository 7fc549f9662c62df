import Verif.Lemmas.FS
import Verif.Spec.Relative

namespace Verif.FS
open Verif.Spec

@[elab_as_elim]
theorem snocInd {α : Type} {motive : List α → Prop} (l : List α) (nil : motive [])
    (append_singleton : ∀ (l : List α) (a : α), motive l → motive (l ++ [a])) : motive l := by
  generalize h : l.length = n
  induction n generalizing l with
  | zero => rw [List.length_eq_zero_iff.1 h]; exact nil
  | succ n ih =>
    have hne : l ≠ [] := by intro e; rw [e] at h; simp at h
    rw [← List.dropLast_concat_getLast hne]
    exact append_singleton _ _ (ih _ (by rw [List.length_dropLast]; omega))

theorem relativeTo_append (b r : Path) : relativeTo (b ++ r) b = .ok r := by
  induction b with
  | nil => cases r <;> simp [relativeTo]
  | cons a as ih => simp [relativeTo, ih]

/-- The common path is a common prefix, and the rests start differently. -/
theorem commonpath_spec (p q : Path) : ∃ r s, p = commonpath p q ++ r ∧ q = commonpath p q ++ s ∧
    ∀ a ∈ r.head?, ∀ b ∈ s.head?, a ≠ b := by
  induction p generalizing q with
  | nil => exact ⟨[], q, by simp [commonpath], by simp [commonpath], by simp⟩
  | cons a as ih =>
    cases q with
    | nil => exact ⟨a :: as, [], by simp [commonpath], by simp [commonpath], by simp⟩
    | cons b bs =>
      by_cases h : a = b
      · subst h
        obtain ⟨r, s, h1, h2, h3⟩ := ih bs
        refine ⟨r, s, ?_, ?_, h3⟩
        · simp only [commonpath, if_true, List.cons_append]; rw [← h1]
        · simp only [commonpath, if_true, List.cons_append]; rw [← h2]
      · refine ⟨a :: as, b :: bs, by simp [commonpath, h], by simp [commonpath, h], by simpa using h⟩

theorem relativePathFrom_eq (p q : Path) : ∃ c r s, p = c ++ r ∧ q = c ++ s ∧
    (∀ a ∈ r.head?, ∀ b ∈ s.head?, a ≠ b) ∧
    relativePathFrom p q = .ok (List.replicate (s.length - 1) dotdot ++ r) := by
  obtain ⟨r, s, h1, h2, h3⟩ := commonpath_spec p q
  refine ⟨commonpath p q, r, s, h1, h2, h3, ?_⟩
  have e1 : relativeTo q (commonpath p q) = .ok s := by
    have := relativeTo_append (commonpath p q) s
    rwa [← h2] at this
  have e2 : relativeTo p (commonpath p q) = .ok r := by
    have := relativeTo_append (commonpath p q) r
    rwa [← h1] at this
  simp [relativePathFrom, toRelative, e1, e2, List.map_const']

theorem goes_append (c a b : List Name) : goes c (a ++ b) = goes (goes c a) b := by
  induction a generalizing c with
  | nil => rfl
  | cons n a ih => simp only [List.cons_append, goes]; split <;> exact ih _

theorem goes_plain (c p : Path) (h : Plain p) : goes c p = c ++ p := by
  induction p generalizing c with
  | nil => simp [goes]
  | cons n p ih =>
    have := (h n (by simp)).2
    simp only [goes, this, if_false]
    rw [ih _ fun m hm => h m (by simp [hm])]
    simp

theorem goes_up (c s : Path) : goes (c ++ s) (List.replicate s.length dotdot) = c := by
  induction s using snocInd with
  | nil => simp [goes]
  | append_singleton s x ih =>
    rw [List.length_append, List.length_singleton, List.replicate_succ]
    simp only [goes, dotdot, if_true]
    rw [← List.append_assoc, List.dropLast_concat]
    exact ih

theorem walk_ups {L : Limits} {t : Tree} {b : Nat} (c s : Path) (rest : List Name)
    (h : ∀ d, c <+: d → d <+: c ++ s → t d = some (.dir true)) :
    walk L t b (c ++ s) (List.replicate s.length dotdot ++ rest) = walk L t b c rest := by
  induction s using snocInd with
  | nil => simp
  | append_singleton s x ih =>
    rw [List.length_append, List.length_singleton, List.replicate_succ]
    rw [List.cons_append, dotdot, walk_up (h _ (List.prefix_append ..) (List.prefix_refl _)),
      ← List.append_assoc, List.dropLast_concat]
    exact ih fun d h1 h2 => h d h1 (h2.trans ⟨[x], by simp⟩)

theorem walk_down_all {L : Limits} {t : Tree} {b : Nat} (c s : Path) (rest : List Name)
    (hn : ∀ n ∈ s, FitsName L n)
    (h : ∀ d, c <+: d → d <+: c ++ s → t d = some (.dir true)) :
    walk L t b c (s ++ rest) = walk L t b (c ++ s) rest := by
  induction s generalizing c with
  | nil => simp
  | cons x s ih =>
    rw [List.cons_append, walk_down (x := .dir true) (h c (List.prefix_refl _) (List.prefix_append ..))
      (hn x (by simp)) (h _ (List.prefix_append ..) ⟨s, by simp⟩) (by simp),
      ih (c ++ [x]) (fun n hm => hn n (by simp [hm]))]
    · simp
    · intro d h1 h2
      exact h d ((List.prefix_append c [x]).trans h1) (by simpa using h2)

end Verif.FS
