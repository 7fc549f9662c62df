import Verif.Model.Data
import Verif.Spec.Data

namespace Verif.Data
open Verif.Spec

theorem dataChunks_flatten (n : Nat) (hn : 0 < n) (content : Bytes) :
    (dataChunks n content).flatten = content := by
  fun_induction dataChunks n content with
  | case1 rest d h =>
    simp only [d, List.take_eq_nil_iff] at h
    rcases h with h | h
    · omega
    · simp [h]
  | case2 rest d h ih => simp [ih, d]

theorem dataChunks_bounds (n : Nat) (content : Bytes) :
    ∀ c ∈ dataChunks n content, 0 < c.length ∧ c.length ≤ n := by
  fun_induction dataChunks n content with
  | case1 rest d h => simp
  | case2 rest d h ih =>
    intro c hc
    rcases List.mem_cons.1 hc with rfl | hc
    · exact ⟨List.length_pos_iff.2 h, by simp [d]; omega⟩
    · exact ih c hc

theorem dataChunks_nil_iff (n : Nat) (hn : 0 < n) (content : Bytes) :
    dataChunks n content = [] ↔ content = [] := by
  constructor
  · intro h
    have := dataChunks_flatten n hn content
    rw [h] at this; simpa using this.symm
  · rintro rfl
    unfold dataChunks; simp

theorem readChunks_flatten (content : Bytes) (n k : Nat) (last : Int) (hl : 0 ≤ last) :
    ∀ pos, (readChunks content n k pos last).flatten =
      (content.drop pos).take (k * n + last.toNat) := by
  have hl' : ¬ last < 0 := by omega
  induction k with
  | zero => intro pos; simp [readChunks, readAt, hl']
  | succ k ih =>
    intro pos
    have hn : ¬ ((n : Int) < 0) := by omega
    simp only [readChunks, readAt, hn, if_false, Int.toNat_natCast, List.flatten_cons, ih]
    have e : (k + 1) * n + last.toNat = n + (k * n + last.toNat) := by
      rw [Nat.add_mul]; omega
    rw [e]
    generalize k * n + last.toNat = t
    rw [List.take_add]
    congr 1
    by_cases h : n ≤ (content.drop pos).length
    · rw [List.drop_drop, List.length_take, Nat.min_eq_left h]
    · have h' : (content.drop pos).length ≤ n := by omega
      rw [List.drop_of_length_le h', List.take_of_length_le h', List.drop_of_length_le]
      simp only [List.length_drop]; omega

theorem foldl_append (rest : List Bytes) : ∀ acc : Bytes,
    rest.foldl (fun acc c => acc ++ c) acc = acc ++ rest.flatten := by
  induction rest with
  | nil => simp
  | cons c cs ih => intro acc; simp [ih]

theorem foldl_hash {κ : Type} (chunks : List Bytes) : ∀ (a : Bytes) (es : List (κ × Bytes)),
    chunks.foldl (fun st chunk => (st.1 ++ chunk, st.2.map fun e => (e.1, e.2 ++ chunk))) (a, es) =
      (a ++ chunks.flatten, es.map fun e => (e.1, e.2 ++ chunks.flatten)) := by
  induction chunks with
  | nil => intro a es; simp
  | cons c cs ih => intro a es; simp [ih]

theorem rangesLoop_spec (content : Bytes) (n : Nat) (hn : 0 < n) (ranges : List (Int × Option Int)) :
    ∀ locals,
    (∀ r ∈ ranges, ValidRange content r.1 r.2) →
    (∀ r ∈ ranges, ∀ e, r.2 = some e → e - r.1 ≠ n) →
    (rangesLoop content n locals ranges).1.flatten =
        (ranges.map fun r => slice content r.1 r.2).flatten ∧
      (rangesLoop content n locals ranges).2 = none := by
  induction ranges with
  | nil => intro locals _ _; simp [rangesLoop]
  | cons r rest ih =>
    intro locals hv hne
    obtain ⟨start, stop⟩ := r
    have hv0 := hv (start, stop) (by simp)
    have hne0 := hne (start, stop) (by simp)
    have ih' := fun l => ih l (fun r hr => hv r (by simp [hr])) (fun r hr => hne r (by simp [hr]))
    have hseek : seek content start = some (normIndex content.length start) := by
      have := hv0.1
      simp only [seek, normIndex]
      split
      · rw [if_neg (by simp at this; omega)]
      · rfl
    unfold rangesLoop
    rw [hseek]
    cases stop with
    | none =>
      have := ih' locals
      refine ⟨?_, by simpa using this.2⟩
      simp [slice, dataChunks_flatten n hn, this.1]
    | some e =>
      have hne1 := hne0 e rfl
      have hv1 := hv0.2
      simp only at hv1 hne1
      have hlen : normIndex content.length e - normIndex content.length start =
          (e - start).toNat := by
        have := hv0.1
        simp only at this
        simp only [normIndex]
        split <;> split <;> omega
      by_cases hlt : e - start < n
      · have hs : splitTotal n (e - start) locals = some (0, e - start) := by simp [splitTotal, hlt]
        have := ih' (some (0, e - start))
        simp only [hs]
        refine ⟨?_, this.2⟩
        have hr := readChunks_flatten content n 0 (e - start) (by omega)
          (normIndex content.length start)
        simp only [List.flatten_append, hr, this.1, List.map_cons, List.flatten_cons, slice, hlen]
        simp
      · have hs : splitTotal n (e - start) locals =
            some (((e - start) / n).toNat, (e - start) % n) := by
          simp only [splitTotal, hlt, if_false]
          rw [if_pos (by omega)]
        have := ih' (some (((e - start) / n).toNat, (e - start) % n))
        simp only [hs]
        refine ⟨?_, this.2⟩
        have hmod : 0 ≤ (e - start) % n := Int.emod_nonneg _ (by omega)
        have hr := readChunks_flatten content n ((e - start) / n).toNat ((e - start) % n) hmod
          (normIndex content.length start)
        have htot : ((e - start) / n).toNat * n + ((e - start) % n).toNat = (e - start).toNat := by
          have h1 := Int.mul_ediv_add_emod (e - start) n
          have h2 : 0 ≤ (e - start) / n := Int.ediv_nonneg (by omega) (by omega)
          have h3 : (((e - start) / n).toNat : Int) = (e - start) / n := Int.toNat_of_nonneg h2
          have h4 : (((e - start) % n).toNat : Int) = (e - start) % n := Int.toNat_of_nonneg hmod
          have h5 : ((((e - start) / n).toNat * n + ((e - start) % n).toNat : Nat) : Int) =
              e - start := by
            rw [Int.natCast_add, Int.natCast_mul, h3, h4, Int.mul_comm]; exact h1
          omega
        simp only [List.flatten_append, hr, this.1, List.map_cons, List.flatten_cons, slice, hlen,
          htot]

end Verif.Data
