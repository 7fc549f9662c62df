import Verif.Model.Swap
import Verif.Lemmas.Rmtree

namespace Verif.FS

/-- Neither is below the other. -/
def Apart (a b : Path) : Prop := ¬ a <+: b ∧ ¬ b <+: a

theorem Apart.symm {a b : Path} (h : Apart a b) : Apart b a := ⟨h.2, h.1⟩

theorem Apart.below {a b : Path} (h : Apart a b) (s : List Name) : ¬ b <+: a ++ s := by
  intro hc
  rcases List.prefix_or_prefix_of_prefix hc (List.prefix_append a s) with h' | h'
  · exact h.2 h'
  · exact h.1 h'

theorem drop_append_prefix (a s : List Name) : (a ++ s).drop a.length = s := by simp

/-- What a move does to the content. -/
def mv {ν : Type} (t : Path → Option ν) (src dst : Path) : Path → Option ν := fun r =>
  if dst <+: r then t (src ++ r.drop dst.length) else if src <+: r then none else t r

theorem at_move {ν : Type} (d : Disk ν) {src dst : Path} (h : Apart src dst) : (d.move src dst).at_ = mv d.at_ src dst := by
  funext r
  unfold mv
  induction d with
  | nil => simp [Disk.move, Disk.at_]
  | cons e d ih =>
    unfold Disk.move at ih ⊢
    rw [List.filter_cons]
    by_cases h1 : dst <+: e.1
    · -- dropped
      rw [if_neg (by simpa using h1), ih]
      have h2 : ∀ s, e.1 ≠ src ++ s := by
        rintro s hs
        rw [hs] at h1
        exact h.below s h1
      split
      · rw [Disk.at_cons, if_neg (h2 _)]
      · split
        · rfl
        · rename_i h3 h4
          rw [Disk.at_cons, if_neg (fun he : e.1 = r => h3 (he ▸ h1))]
    · rw [if_pos (by simpa using h1), List.map_cons, Disk.at_cons, ih]
      by_cases h2 : src <+: e.1
      · obtain ⟨s, hs⟩ := h2
        have he : (if src <+: e.1 then (dst ++ e.1.drop src.length, e.2) else e) = (dst ++ s, e.2) := by
          rw [if_pos ⟨s, hs⟩, ← hs, drop_append_prefix]
        rw [he]
        dsimp only
        by_cases h3 : dst <+: r
        · obtain ⟨t, rfl⟩ := h3
          rw [if_pos (List.prefix_append _ _), if_pos (List.prefix_append _ _), drop_append_prefix, Disk.at_cons, ← hs]
          simp
        · rw [if_neg h3, if_neg h3, if_neg]
          · by_cases h4 : src <+: r
            · rw [if_pos h4, if_pos h4]
            · rw [if_neg h4, if_neg h4, Disk.at_cons, if_neg]
              rintro rfl
              exact h4 ⟨s, hs⟩
          · rintro rfl
            exact h3 (List.prefix_append _ _)
      · have he : (if src <+: e.1 then (dst ++ e.1.drop src.length, e.2) else e) = e := if_neg h2
        rw [he]
        by_cases h3 : dst <+: r
        · rw [if_pos h3, if_pos h3, if_neg (fun he : e.1 = r => h1 (he ▸ h3)), Disk.at_cons, if_neg]
          intro he
          exact h2 ⟨_, he.symm⟩
        · rw [if_neg h3, if_neg h3]
          by_cases h4 : src <+: r
          · rw [if_pos h4, if_pos h4, if_neg (fun he : e.1 = r => h2 (he ▸ h4))]
          · rw [if_neg h4, if_neg h4, Disk.at_cons]

/-- What an exchange does to the content. -/
def xchg {ν : Type} (t : Path → Option ν) (a b : Path) : Path → Option ν := fun r =>
  if a <+: r then t (b ++ r.drop a.length) else if b <+: r then t (a ++ r.drop b.length) else t r

theorem at_exchange {ν : Type} (d : Disk ν) {a b : Path} (h : Apart a b) :
    Disk.at_ (d.map fun e => if a <+: e.1 then (b ++ e.1.drop a.length, e.2)
      else if b <+: e.1 then (a ++ e.1.drop b.length, e.2) else e) = xchg d.at_ a b := by
  funext r
  unfold xchg
  induction d with
  | nil => simp [Disk.at_]
  | cons e d ih =>
    rw [List.map_cons, Disk.at_cons, ih]
    by_cases h1 : a <+: e.1
    · rw [if_pos h1]
      obtain ⟨s, hs⟩ := h1
      dsimp only
      rw [← hs, drop_append_prefix]
      by_cases h2 : a <+: r
      · rw [if_pos h2, if_pos h2, if_neg (by rintro rfl; exact h.symm.below s h2), Disk.at_cons, if_neg]
        rw [← hs]
        intro he
        exact h.symm.below _ ⟨s, he⟩
      · rw [if_neg h2, if_neg h2]
        by_cases h3 : b <+: r
        · obtain ⟨t, rfl⟩ := h3
          rw [if_pos (List.prefix_append _ _), if_pos (List.prefix_append _ _), drop_append_prefix, Disk.at_cons, ← hs]
          simp
        · rw [if_neg h3, if_neg h3, if_neg (by rintro rfl; exact h3 (List.prefix_append _ _)), Disk.at_cons, if_neg]
          rintro rfl; exact h2 ⟨s, hs⟩
    · rw [if_neg h1]
      by_cases h2 : b <+: e.1
      · rw [if_pos h2]
        obtain ⟨s, hs⟩ := h2
        dsimp only
        rw [← hs, drop_append_prefix]
        by_cases h3 : a <+: r
        · obtain ⟨t, rfl⟩ := h3
          rw [if_pos (List.prefix_append _ _), if_pos (List.prefix_append _ _), drop_append_prefix, Disk.at_cons, ← hs]
          simp
        · rw [if_neg h3, if_neg h3, if_neg (by rintro rfl; exact h3 (List.prefix_append _ _))]
          by_cases h4 : b <+: r
          · rw [if_pos h4, if_pos h4, Disk.at_cons, if_neg (fun he => h1 ⟨_, he.symm⟩)]
          · rw [if_neg h4, if_neg h4, Disk.at_cons, if_neg]
            rintro rfl; exact h4 ⟨s, hs⟩
      · rw [if_neg h2]
        by_cases h3 : a <+: r
        · rw [if_pos h3, if_pos h3, if_neg (fun he : e.1 = r => h1 (he ▸ h3)), Disk.at_cons, if_neg (fun he => h2 ⟨_, he.symm⟩)]
        · rw [if_neg h3, if_neg h3]
          by_cases h4 : b <+: r
          · rw [if_pos h4, if_pos h4, if_neg (fun he : e.1 = r => h2 (he ▸ h4)), Disk.at_cons, if_neg (fun he => h1 ⟨_, he.symm⟩)]
          · rw [if_neg h4, if_neg h4, Disk.at_cons]

/-- A rename to a free place succeeds only with a source, and then is a move. -/
theorem rename_free {ν : Type} [Kinded ν] {d d' : Disk ν} {src dst : Path} (h : Apart src dst) (hfree : d.at_ dst = none)
    (hok : d.rename src dst = .ok d') : d'.at_ = mv d.at_ src dst ∧ ∃ x, d.at_ src = some x := by
  unfold Disk.rename at hok
  split at hok
  · simp at hok
  · simp at hok
  · rename_i x p hx hp
    split at hok
    · simp at hok
    · rw [if_neg (fun he : src = dst => h.1 (he ▸ List.prefix_refl _)), if_neg h.1, if_neg h.2, hfree] at hok
      simp only [Except.ok.injEq] at hok
      rw [← hok]
      exact ⟨at_move d h, x, hx⟩

end Verif.FS
