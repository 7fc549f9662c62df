import Verif.Lemmas.Str
import Verif.Model.FileSize
import Verif.Spec.FileSize

namespace Verif

theorem hrLoop_not_mem (n : Nat) {c : Char} (hc : digitVal? c = none) (hdot : c ≠ '.')
    (hY : c ≠ 'Y') (hi : c ≠ 'i') : ∀ (units : List Str) (d : Nat), (∀ u ∈ units, c ∉ u) →
    c ∉ hrLoop n d units := by
  intro units
  induction units with
  | nil =>
    intro d _
    simp [hrLoop, natStr_not_mem _ hc, hdot, hY, hi]
  | cons u us ih =>
    intro d h
    simp only [hrLoop]
    split
    · simp [natStr_not_mem _ hc, h u (by simp)]
    · exact ih _ fun u hu => h u (by simp [hu])

theorem hr_not_mem (i : Int) {c : Char} (hc : c ∈ ['/', '|', '!', '#', ';']) : c ∉ hr i := by
  unfold hr
  split
  · apply hrLoop_not_mem <;> revert c <;> decide
  · revert c; decide

theorem hr_ne_nil (i : Int) : hr i ≠ [] := by
  unfold hr
  split
  · generalize toDouble i.toNat = n
    generalize 1 = d
    generalize hrUnits = us
    induction us generalizing d with
    | nil => simp [hrLoop]
    | cons u us ih =>
      simp only [hrLoop]
      split
      · simp [natStr_ne_nil]
      · exact ih _
  · decide

theorem roundHalfEven_nearest (n d : Nat) (hd : 0 < d) : Spec.Nearest (roundHalfEven n d) n d := by
  have h1 := Nat.div_add_mod n d
  have h2 := Nat.mod_lt n hd
  have h3 : d * (n / d) = n / d * d := Nat.mul_comm _ _
  unfold roundHalfEven Spec.Nearest
  dsimp only
  have e1 : (n / d + 1) * d = n / d * d + d := by rw [Nat.add_mul, Nat.one_mul]
  split
  · refine ⟨by omega, by omega, ?_, ?_⟩ <;> intro <;> omega
  · split
    · rw [e1]
      refine ⟨by omega, by omega, ?_, ?_⟩ <;> intro <;> omega
    · split
      · refine ⟨by omega, by omega, ?_, ?_⟩ <;> intro <;> omega
      · rw [e1]
        refine ⟨by omega, by omega, ?_, ?_⟩ <;> intro <;> omega

theorem hrLoop_spec (n : Nat) : ∀ (units : List Str) (d : Nat), d ≤ n ∨ d = 1 → 0 < d →
    (∃ k u, units[k]? = some u ∧ (d * 1024 ^ k ≤ n ∨ d * 1024 ^ k = 1) ∧ n < d * 1024 ^ (k + 1) ∧
      hrLoop n d units = natStr (roundHalfEven n (d * 1024 ^ k)) ++ u) ∨
    (d * 1024 ^ units.length ≤ n ∨ d * 1024 ^ units.length = 1) ∧
      hrLoop n d units = hrLoop n (d * 1024 ^ units.length) [] := by
  intro units
  induction units with
  | nil =>
    intro d hd hp
    right
    simpa using hd
  | cons u us ih =>
    intro d hd hp
    simp only [hrLoop]
    split
    · rename_i hlt
      left
      refine ⟨0, u, rfl, by simpa using hd, by simpa [Nat.mul_comm] using hlt, by simp⟩
    · rename_i hge
      have e : ∀ k, 1024 * d * 1024 ^ k = d * 1024 ^ (k + 1) := by
        intro k; rw [Nat.pow_succ, Nat.mul_comm 1024 d, Nat.mul_assoc, Nat.mul_comm 1024]
      rcases ih (1024 * d) (by omega) (by omega) with ⟨k, v, h1, h2, h3, h4⟩ | h
      · left
        rw [e] at h2 h3 h4
        exact ⟨k + 1, v, by simpa using h1, h2, h3, h4⟩
      · right
        simp only [e] at h
        simpa [hrLoop] using h

theorem toDouble_small {n : Nat} (h : n < 2 ^ 53) : toDouble n = n := by simp [toDouble, h]

theorem foldl_replaceC (l : List Char) (h : '-' ∉ l) (s : Str) :
    l.foldl (fun s evil => replaceC evil '-' s) s = s.map fun c => if c ∈ l then '-' else c := by
  induction l generalizing s with
  | nil => simp
  | cons a l ih =>
    simp only [List.mem_cons, not_or] at h
    rw [List.foldl_cons, ih h.2, replaceC, List.map_map]
    apply List.map_congr_left
    intro c _
    by_cases hc : c = a
    · simp [hc, h.2]
    · simp [hc]

theorem fsSafeId_map (s : Str) : fsSafeId s =
    s.map fun c => if c ∈ Spec.unsafeChars then '-' else c :=
  foldl_replaceC Spec.unsafeChars (by decide) s

end Verif
