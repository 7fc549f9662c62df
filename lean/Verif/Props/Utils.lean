import Verif.Lemmas.FileSize

/-!
# C30 and C67: safe names and human readable sizes
-/

namespace Verif
open Verif.Spec

/-! ## C30 -/

/-- **C30**: the result has the same length, differs from the argument exactly at the unsafe
characters, where it has a dash, and contains no unsafe character. -/
theorem C30_fs_safe_id (s : Str) :
    (fsSafeId s).length = s.length ∧
    (∀ (i : Nat) (c : Char), s[i]? = some c → c ∈ unsafeChars → (fsSafeId s)[i]? = some '-') ∧
    (∀ (i : Nat) (c : Char), s[i]? = some c → c ∉ unsafeChars → (fsSafeId s)[i]? = some c) ∧
    (∀ c ∈ unsafeChars, c ∉ fsSafeId s) := by
  rw [fsSafeId_map]
  refine ⟨by simp, ?_, ?_, ?_⟩
  · intro i c h hc
    simp [h, hc]
  · intro i c h hc
    simp [h, hc]
  · intro c hc hm
    obtain ⟨d, _, hd⟩ := List.mem_map.1 hm
    split at hd
    · subst hd; revert hc; decide
    · subst hd; contradiction

/-- **C30**: safe strings are left alone, and applying it twice is the same as once. -/
theorem C30_fs_safe_id_idempotent (s : Str) :
    ((∀ c ∈ s, c ∉ unsafeChars) ↔ fsSafeId s = s) ∧ fsSafeId (fsSafeId s) = fsSafeId s := by
  have fwd : ∀ t : Str, (∀ c ∈ t, c ∉ unsafeChars) → fsSafeId t = t := by
    intro t h
    rw [fsSafeId_map]
    conv => rhs; rw [← List.map_id t]
    apply List.map_congr_left
    intro c hc
    simp [h c hc]
  refine ⟨⟨fwd s, ?_⟩, ?_⟩
  · intro h c hc hu
    rw [← h] at hc
    exact (C30_fs_safe_id s).2.2.2 c hu hc
  · exact fwd _ fun c hc hu => (C30_fs_safe_id s).2.2.2 c hu hc

example : fsSafeId (lit "N:package:1/2 \t?") = lit "N-package-1-2---" ∧ '/' ∈ unsafeChars := by decide

/-! ## C67 -/

/-- **C67**, sizes below 8 PiB (`2 ** 53`, where a double represents every integer): the unit shown
is the largest one that does not exceed the size, and the number shown is the size in that unit,
rounded to the nearest integer.  Partial because for larger sizes the claim is false, see the
counterexample. -/
theorem C67_unit_partial (n : Nat) (hn : n < 2 ^ 53) :
    ∃ k u q, units[k]? = some u ∧ (k = 0 ∨ 1024 ^ k ≤ n) ∧ n < 1024 ^ (k + 1) ∧
      Nearest q n (1024 ^ k) ∧ hr n = natStr q ++ u := by
  have h := hrLoop_spec n hrUnits 1 (by omega) (by omega)
  have hh : hr n = hrLoop n 1 hrUnits := by simp [hr, toDouble_small hn]
  rw [hh]
  rcases h with ⟨k, u, h1, h2, h3, h4⟩ | h
  · simp only [Nat.one_mul] at h2 h3 h4
    refine ⟨k, u, _, h1, ?_, h3, roundHalfEven_nearest n (1024 ^ k) (Nat.pow_pos (by omega)), h4⟩
    rcases h2 with h2 | h2
    · exact .inr h2
    · left
      cases k with
      | zero => rfl
      | succ k =>
        rw [Nat.pow_succ] at h2
        omega
  · exfalso
    have := h.1
    simp only [hrUnits, List.length_cons, List.length_nil] at this
    omega

/-- **C67**, every size: the same with the size replaced by the double nearest to it. -/
theorem C67_unit_double (n : Nat) :
    (∃ k u q, units[k]? = some u ∧ (k = 0 ∨ 1024 ^ k ≤ toDouble n) ∧ toDouble n < 1024 ^ (k + 1) ∧
      Nearest q (toDouble n) (1024 ^ k) ∧ hr n = natStr q ++ u) ∨
    (1024 ^ 8 ≤ toDouble n ∧ ∃ q, Nearest q (10 * toDouble n) (1024 ^ 8) ∧
      hr n = natStr (q / 10) ++ ['.'] ++ natStr (q % 10) ++ ['Y', 'i']) := by
  have hh : hr n = hrLoop (toDouble n) 1 hrUnits := by simp [hr]
  rw [hh]
  generalize toDouble n = m
  rcases hrLoop_spec m hrUnits 1 (by omega) (by omega) with ⟨k, u, h1, h2, h3, h4⟩ | h
  · left
    simp only [Nat.one_mul] at h2 h3 h4
    refine ⟨k, u, _, h1, ?_, h3, roundHalfEven_nearest m (1024 ^ k) (Nat.pow_pos (by omega)), h4⟩
    rcases h2 with h2 | h2
    · exact .inr h2
    · left
      cases k with
      | zero => rfl
      | succ k =>
        rw [Nat.pow_succ] at h2
        omega
  · right
    obtain ⟨h1, h2⟩ := h
    have hl : (1 : Nat) * 1024 ^ hrUnits.length = 1024 ^ 8 := by simp [hrUnits]
    rw [hl] at h1 h2
    refine ⟨by omega, _, roundHalfEven_nearest (10 * m) (1024 ^ 8) (Nat.pow_pos (by omega)), ?_⟩
    rw [h2]
    simp [hrLoop]

/-- **C67 is false** for large sizes: one byte less than an exbibyte is shown as `1E`, a unit that
exceeds the size, because the size is first rounded to a double. -/
theorem C67_unit_counterexample :
    hr (2 ^ 60 - 1) = lit "1E" ∧ (2 ^ 60 - 1 : Nat) < 1024 ^ 6 ∧ units[6]? = some ['E'] := by
  decide +kernel

/-- **C67**: no size is shown with a path separator or one of the separators of the link encoding
(also not from the yobi range on, and not for negative sizes). -/
theorem C67_no_separator (i : Int) (c : Char) (hc : c ∈ ['/', '|', '!', '#', ';']) : c ∉ hr i :=
  hr_not_mem i hc

example : hr 1536 = lit "2K" ∧ hr 2560 = lit "2K" ∧ hr 1023 = lit "1023" ∧ hr (1024 * 1024 - 1) = lit "1024K" ∧
    hr (1024 ^ 8) = lit "1.0Yi" := by decide +kernel

/-- The non-negative integers that a double can represent (without the upper bound). -/
def IsDouble (x : Nat) : Prop := ∃ m e, m < 2 ^ 53 ∧ x = m * 2 ^ e

/-- How far two sizes are apart. -/
def apart (a b : Nat) : Nat := (a - b) + (b - a)

theorem log2_bounds {n : Nat} (h : 2 ^ 53 ≤ n) : 2 ^ 52 * 2 ^ (n.log2 - 52) ≤ n ∧ n < 2 ^ 53 * 2 ^ (n.log2 - 52) ∧ 53 ≤ n.log2 := by
  have hn : n ≠ 0 := by intro h0; subst h0; simp at h
  have h1 : 53 ≤ n.log2 := (Nat.le_log2 hn).2 h
  have h2 : 2 ^ n.log2 ≤ n := Nat.log2_self_le hn
  have h3 : n < 2 ^ (n.log2 + 1) := Nat.lt_log2_self
  refine ⟨?_, ?_, h1⟩
  · rw [← Nat.pow_add]
    have : 52 + (n.log2 - 52) = n.log2 := by omega
    rwa [this]
  · rw [← Nat.pow_add]
    have : 53 + (n.log2 - 52) = n.log2 + 1 := by omega
    rwa [this]

theorem nearest_apart {q n d z : Nat} (h : Nearest q n d) : apart (q * d) n ≤ apart (z * d) n := by
  obtain ⟨h1, h2, -, -⟩ := h
  unfold apart
  rcases Nat.lt_trichotomy z q with hz | rfl | hz
  · have : (z + 1) * d ≤ q * d := Nat.mul_le_mul_right _ hz
    rw [Nat.add_mul, Nat.one_mul] at this
    omega
  · exact Nat.le_refl _
  · have : (q + 1) * d ≤ z * d := Nat.mul_le_mul_right _ hz
    rw [Nat.add_mul, Nat.one_mul] at this
    omega

/-- **C67**: the double that a size is replaced by is the nearest one. -/
theorem C67_nearest_double (n : Nat) : IsDouble (toDouble n) ∧ ∀ y, IsDouble y → apart (toDouble n) n ≤ apart y n := by
  unfold toDouble
  split
  · rename_i h
    exact ⟨⟨n, 0, h, by simp⟩, fun y _ => by simp [apart]⟩
  · rename_i h
    obtain ⟨h1, h2, h3⟩ := log2_bounds (Nat.le_of_not_lt h)
    generalize hd : n.log2 - 52 = e at h1 h2
    have hpos : 0 < 2 ^ e := Nat.pow_pos (by omega)
    have hq := roundHalfEven_nearest n (2 ^ e) hpos
    generalize roundHalfEven n (2 ^ e) = q at hq
    constructor
    · by_cases hlt : q < 2 ^ 53
      · exact ⟨q, e, hlt, rfl⟩
      · refine ⟨1, 53 + e, by decide, ?_⟩
        have hle : q ≤ 2 ^ 53 := by
          by_cases hgt : 2 ^ 53 < q
          · exfalso
            have : (2 ^ 53 + 1) * 2 ^ e ≤ q * 2 ^ e := Nat.mul_le_mul_right _ hgt
            rw [Nat.add_mul, Nat.one_mul] at this
            have := hq.1
            omega
          · omega
        have : q = 2 ^ 53 := by omega
        rw [this, Nat.one_mul, Nat.pow_add]
    · rintro y ⟨m, e', hm, rfl⟩
      by_cases he : e ≤ e'
      · have : m * 2 ^ e' = (m * 2 ^ (e' - e)) * 2 ^ e := by
          rw [Nat.mul_assoc, ← Nat.pow_add]
          congr 2
          omega
        rw [this]
        exact nearest_apart hq
      · have h4 : m * 2 ^ e' ≤ 2 ^ 52 * 2 ^ e := by
          have : m * 2 ^ e' ≤ 2 ^ 53 * 2 ^ (e - 1) :=
            Nat.mul_le_mul (by omega) (Nat.pow_le_pow_right (by omega) (by omega))
          have h5 : 2 ^ 53 * 2 ^ (e - 1) = 2 ^ 52 * 2 ^ e := by
            rw [← Nat.pow_add, ← Nat.pow_add]
            congr 1
            omega
          rwa [h5] at this
        have h5 := nearest_apart (z := 2 ^ 52) hq
        unfold apart at h5 ⊢
        omega

theorem toDouble_le {n y : Nat} (hy : IsDouble y) (h : n ≤ y) : toDouble n ≤ y := by
  have := (C67_nearest_double n).2 y hy
  unfold apart at this
  omega

theorem le_toDouble {n y : Nat} (hy : IsDouble y) (h : y ≤ n) : y ≤ toDouble n := by
  have := (C67_nearest_double n).2 y hy
  unfold apart at this
  omega

theorem isDouble_pow (k : Nat) : IsDouble (1024 ^ k) := ⟨1, 10 * k, by decide, by rw [Nat.one_mul, Nat.pow_mul]⟩

/-- The largest double below a power of two. -/
theorem below_pow {k x : Nat} (hx : IsDouble x) (h : x < 2 ^ (53 + k)) : x ≤ 2 ^ (53 + k) - 2 ^ k := by
  obtain ⟨m, e, hm, rfl⟩ := hx
  have hs : 2 ^ (53 + k) - 2 ^ k = (2 ^ 53 - 1) * 2 ^ k := by rw [Nat.pow_add, Nat.sub_mul, Nat.one_mul]
  rw [hs]
  by_cases he : k ≤ e
  · have e1 : m * 2 ^ e = (m * 2 ^ (e - k)) * 2 ^ k := by
      rw [Nat.mul_assoc, ← Nat.pow_add]
      congr 2
      omega
    rw [e1, Nat.pow_add] at h
    have h2 := Nat.lt_of_mul_lt_mul_right h
    rw [e1]
    exact Nat.mul_le_mul_right _ (by omega)
  · exact Nat.mul_le_mul (by omega) (Nat.pow_le_pow_right (by omega) (by omega))

/-- The sizes that are so close below a power of 1024 that the nearest double is that power. -/
def JustBelow (n K : Nat) : Prop := 1024 ^ K - 2 ^ (10 * K - 54) ≤ n ∧ n < 1024 ^ K

theorem toDouble_reaches {n K : Nat} (hK : K = 6 ∨ K = 7 ∨ K = 8) (hn : n < 1024 ^ K) :
    1024 ^ K ≤ toDouble n ↔ JustBelow n K := by
  have key : ∀ k, 1024 ^ K = 2 ^ (53 + (k + 1)) → 10 * K - 54 = k → (1024 ^ K ≤ toDouble n ↔ JustBelow n K) := by
    intro k hk hk'
    have hp : 2 ^ (k + 1) = 2 * 2 ^ k := by rw [Nat.pow_succ]; omega
    have hle : 2 ^ (k + 1) ≤ 2 ^ (53 + (k + 1)) := Nat.pow_le_pow_right (by omega) (by omega)
    have hy : IsDouble (2 ^ (53 + (k + 1)) - 2 ^ (k + 1)) :=
      ⟨2 ^ 53 - 1, k + 1, by decide, by rw [Nat.pow_add, Nat.sub_mul, Nat.one_mul]⟩
    have hx := isDouble_pow K
    have hnx := (C67_nearest_double n).2 _ hx
    have hny := (C67_nearest_double n).2 _ hy
    unfold JustBelow
    rw [hk']
    rw [hk] at hn hx hnx ⊢
    constructor
    · intro h
      refine ⟨?_, hn⟩
      unfold apart at hny
      clear hnx hx hk
      rw [hp] at hny hle
      have hB : 0 < 2 ^ k := Nat.pow_pos (by omega)
      generalize 2 ^ (53 + (k + 1)) = A at *
      generalize 2 ^ k = B at *
      omega
    · rintro ⟨h1, -⟩
      rcases Nat.lt_or_ge (toDouble n) (2 ^ (53 + (k + 1))) with hlt | hge
      · exfalso
        have hb := below_pow (C67_nearest_double n).1 hlt
        unfold apart at hnx
        have hn' : n = 2 ^ (53 + (k + 1)) - 2 ^ k := by omega
        revert hlt
        rw [hn']
        clear hn' hnx hny hb hx hy h1 hn hle hp
        rcases hK with rfl | rfl | rfl
        · obtain rfl : k = 6 := by omega
          decide +kernel
        · obtain rfl : k = 16 := by omega
          decide +kernel
        · obtain rfl : k = 26 := by omega
          decide +kernel
      · exact hge
  rcases hK with rfl | rfl | rfl
  · exact key 6 (by decide) rfl
  · exact key 16 (by decide) rfl
  · exact key 26 (by decide) rfl

theorem unit_mem {k : Nat} {u : Str} (h : units[k]? = some u) :
    k < 8 ∧ (k ≠ 0 → ∃ c, u = [c] ∧ digitVal? c = none ∧ ∀ j v, units[j]? = some v → c ∈ v → j = k) ∧ '.' ∉ u := by
  have hk : k < 8 := by
    have := (List.getElem?_eq_some_iff.1 h).1
    simpa [units] using this
  have hall : ∀ k < 8, ∀ u, units[k]? = some u → (k ≠ 0 → ∃ c, u = [c] ∧ digitVal? c = none ∧
      ∀ j < 8, ∀ v, units[j]? = some v → c ∈ v → j = k) ∧ '.' ∉ u := by
    intro k hk
    have : k = 0 ∨ k = 1 ∨ k = 2 ∨ k = 3 ∨ k = 4 ∨ k = 5 ∨ k = 6 ∨ k = 7 := by omega
    rcases this with rfl | rfl | rfl | rfl | rfl | rfl | rfl | rfl
    all_goals
      simp only [units, List.getElem?_cons_zero, List.getElem?_cons_succ, Option.some.injEq]
      rintro u rfl
      refine ⟨fun hk0 => ?_, by decide⟩
      first
      | exact absurd rfl hk0
      | refine ⟨_, rfl, by decide, ?_⟩
        intro j hj v
        have : j = 0 ∨ j = 1 ∨ j = 2 ∨ j = 3 ∨ j = 4 ∨ j = 5 ∨ j = 6 ∨ j = 7 := by omega
        rcases this with rfl | rfl | rfl | rfl | rfl | rfl | rfl | rfl
        all_goals
          simp only [List.getElem?_cons_zero, List.getElem?_cons_succ, Option.some.injEq]
          rintro rfl
          decide
  obtain ⟨h1, h2⟩ := hall k hk u h
  refine ⟨hk, fun h0 => ?_, h2⟩
  obtain ⟨c, hc, hd, hj⟩ := h1 h0
  refine ⟨c, hc, hd, fun j v hv => hj j ?_ v hv⟩
  have := (List.getElem?_eq_some_iff.1 hv).1
  simpa [units] using this

/-- **C67**, exactly when the unit is right (below the yobi range): unless the size is so close below an exbibyte, a zebibyte or a
yobibyte that the nearest double is that unit. -/
theorem C67_unit_iff (n : Nat) (hn : n < 1024 ^ 8) :
    (∃ k u q, units[k]? = some u ∧ (k = 0 ∨ 1024 ^ k ≤ n) ∧ n < 1024 ^ (k + 1) ∧ hr n = natStr q ++ u) ↔
      ¬ (JustBelow n 6 ∨ JustBelow n 7 ∨ JustBelow n 8) := by
  have hr6 := @toDouble_reaches n 6 (by simp)
  have hr7 := @toDouble_reaches n 7 (by simp)
  have hr8 := @toDouble_reaches n 8 (by simp) hn
  have hlow : ∀ k, 1024 ^ k ≤ n → 1024 ^ k ≤ toDouble n := fun k h => le_toDouble (isDouble_pow k) h
  have hsmall : n < 2 ^ 53 → toDouble n = n := toDouble_small
  have hmono : ∀ a b, 1024 ^ a < 1024 ^ b → a < b := fun a b h => (Nat.pow_lt_pow_iff_right (by omega)).1 h
  constructor
  · rintro ⟨k, u, q, hu, hk, hk', hh⟩ hj
    have hex : ∃ K, (K = 6 ∨ K = 7 ∨ K = 8) ∧ JustBelow n K := by
      rcases hj with h | h | h
      · exact ⟨6, by simp, h⟩
      · exact ⟨7, by simp, h⟩
      · exact ⟨8, by simp, h⟩
    obtain ⟨K, hK, hJ⟩ := hex
    have hreach := (toDouble_reaches hK hJ.2).2 hJ
    have hkK : k < K := by
      rcases hk with rfl | hk
      · omega
      · exact hmono _ _ (Nat.lt_of_le_of_lt hk hJ.2)
    obtain ⟨-, -, hdot⟩ := unit_mem hu
    rcases C67_unit_double n with ⟨k', u', q', hu', -, hb', -, hh'⟩ | ⟨-, q', -, hh'⟩
    · have hkk : K < k' + 1 := hmono _ _ (Nat.lt_of_le_of_lt hreach hb')
      obtain ⟨c, rfl, hd, huniq⟩ := (unit_mem hu').2.1 (by omega)
      have hc : c ∈ natStr q ++ u := by rw [← hh, hh']; simp
      rcases List.mem_append.1 hc with hc | hc
      · exact natStr_not_mem q hd hc
      · have := huniq k u hu hc
        omega
    · have hc : '.' ∈ natStr q ++ u := by rw [← hh, hh']; simp
      rcases List.mem_append.1 hc with hc | hc
      · exact natStr_not_mem q (by decide) hc
      · exact hdot hc
  · intro hno
    rcases C67_unit_double n with ⟨k, u, q, hu, hk, hk', -, hh⟩ | ⟨h8, -⟩
    · refine ⟨k, u, q, hu, ?_, ?_, hh⟩
      · rcases hk with rfl | hk
        · exact .inl rfl
        · rcases Nat.lt_or_ge n (1024 ^ k) with hlt | hge
          · exfalso
            have hbig : ¬ n < 2 ^ 53 := fun h => by rw [hsmall h] at hk; omega
            have h5 : 1024 ^ 5 < 1024 ^ k := by
              have : (1024 : Nat) ^ 5 = 2 ^ 50 := by decide
              omega
            have h6 := hmono _ _ h5
            have h7 := (unit_mem hu).1
            have : k = 6 ∨ k = 7 := by omega
            rcases this with rfl | rfl
            · exact hno (.inl ((hr6 hlt).1 hk))
            · exact hno (.inr (.inl ((hr7 hlt).1 hk)))
          · exact .inr hge
      · rcases Nat.lt_or_ge n (1024 ^ (k + 1)) with h | h
        · exact h
        · exact absurd (hlow _ h) (by omega)
    · exact absurd (hr8.1 h8) (fun h => hno (.inr (.inr h)))

example : JustBelow (2 ^ 60 - 1) 6 ∧ ¬ (JustBelow (2 ^ 60 - 65) 6 ∨ JustBelow (2 ^ 60 - 65) 7 ∨ JustBelow (2 ^ 60 - 65) 8) := by
  unfold JustBelow
  omega

/-- **C67**, every size below the yobi range that a double represents: unit and number are right.  Partial because for other sizes the claim
can be false. -/
theorem C67_exact_partial (n : Nat) (hd : IsDouble n) (hn : n < 1024 ^ 8) :
    ∃ k u q, units[k]? = some u ∧ (k = 0 ∨ 1024 ^ k ≤ n) ∧ n < 1024 ^ (k + 1) ∧ Nearest q n (1024 ^ k) ∧ hr n = natStr q ++ u := by
  have ht : toDouble n = n := by
    have := (C67_nearest_double n).2 n hd
    unfold apart at this
    omega
  have h := C67_unit_double n
  rw [ht] at h
  rcases h with h | ⟨h, -⟩
  · exact h
  · omega

example : IsDouble (3 * 2 ^ 60) := ⟨3, 60, by decide, rfl⟩

end Verif
