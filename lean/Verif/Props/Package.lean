import Verif.Model.Package
import Verif.Props.Pep440

/-!
# C77: the next version is greater than every release
-/

namespace Verif.Pep440

open Verif.Pep440.Spec

/-! ## The order of the model is the order of PEP 440 -/

theorem relLt_cons (n m : Nat) (r s : List Nat) :
    RelLt (n :: r) (m :: s) ↔ n < m ∨ n = m ∧ RelLt r s := by
  constructor
  · rintro ⟨i, hi, hj⟩
    cases i with
    | zero => exact .inl (by simpa using hi)
    | succ i =>
      refine .inr ⟨by simpa using hj 0 (by omega), i, by simpa using hi, fun j hj' => ?_⟩
      simpa using hj (j + 1) (by omega)
  · rintro (h | ⟨rfl, i, hi, hj⟩)
    · exact ⟨0, by simpa using h, by omega⟩
    · refine ⟨i + 1, by simpa using hi, fun j hj' => ?_⟩
      cases j with
      | zero => simp
      | succ j => simpa using hj j (by omega)

theorem relEq_cons (n m : Nat) (r s : List Nat) : RelEq (n :: r) (m :: s) ↔ n = m ∧ RelEq r s := by
  constructor
  · intro h
    exact ⟨by simpa using h 0, fun i => by simpa using h (i + 1)⟩
  · rintro ⟨rfl, h⟩ i
    cases i with
    | zero => simp
    | succ i => simpa using h i

theorem relPad (r : List Nat) (i : Nat) : ([] : List Nat).getD i 0 = ([0] : List Nat).getD i 0 := by
  cases i <;> simp

theorem relLt_nil_cons (m : Nat) (s : List Nat) : RelLt [] (m :: s) ↔ 0 < m ∨ 0 = m ∧ RelLt [] s := by
  rw [← relLt_cons]
  unfold RelLt
  simp only [relPad []]

theorem relLt_cons_nil (n : Nat) (r : List Nat) : RelLt (n :: r) [] ↔ n < 0 ∨ n = 0 ∧ RelLt r [] := by
  rw [← relLt_cons]
  unfold RelLt
  simp only [relPad []]

theorem relEq_nil_cons (m : Nat) (s : List Nat) : RelEq [] (m :: s) ↔ 0 = m ∧ RelEq [] s := by
  rw [← relEq_cons]
  unfold RelEq
  simp only [relPad []]

theorem relEq_cons_nil (n : Nat) (r : List Nat) : RelEq (n :: r) [] ↔ n = 0 ∧ RelEq r [] := by
  rw [← relEq_cons]
  unfold RelEq
  simp only [relPad []]

theorem compare_lt (m n : Nat) : compare m n = .lt ↔ m < n := Nat.compare_eq_lt
theorem compare_eq (m n : Nat) : compare m n = .eq ↔ m = n := Nat.compare_eq_eq

theorem cmpZero_spec (s : List Nat) : (cmpZero s = .lt ↔ RelLt [] s) ∧ (cmpZero s = .eq ↔ RelEq [] s) := by
  induction s with
  | nil => simp [cmpZero, RelLt, RelEq]
  | cons m ms ih =>
    rw [cmpZero, Ordering.then_eq_lt, Ordering.then_eq_eq, compare_lt, compare_eq, ih.1, ih.2, relLt_nil_cons, relEq_nil_cons]
    exact ⟨Iff.rfl, Iff.rfl⟩

theorem cmpRel_spec (r s : List Nat) : (cmpRel r s = .lt ↔ RelLt r s) ∧ (cmpRel r s = .eq ↔ RelEq r s) := by
  fun_induction cmpRel r s with
  | case1 ms => exact cmpZero_spec ms
  | case2 n ns ih =>
    rw [Ordering.then_eq_lt, Ordering.then_eq_eq, compare_lt, compare_eq, ih.1, ih.2, relLt_cons_nil, relEq_cons_nil]
    exact ⟨Iff.rfl, Iff.rfl⟩
  | case3 n ns m ms ih =>
    rw [Ordering.then_eq_lt, Ordering.then_eq_eq, compare_lt, compare_eq, ih.1, ih.2, relLt_cons, relEq_cons]
    exact ⟨Iff.rfl, Iff.rfl⟩

theorem char_lt (a b : Char) : a.toNat < b.toNat ↔ a < b := Iff.rfl

theorem char_eq (a b : Char) : a.toNat = b.toNat ↔ a = b :=
  ⟨fun h => Char.toNat_inj.1 h, fun h => by rw [h]⟩

theorem cmpStr_spec (s t : Str) : (cmpStr s t = .lt ↔ s < t) ∧ (cmpStr s t = .eq ↔ s = t) := by
  fun_induction cmpStr s t with
  | case1 => simp
  | case2 => simp
  | case3 => simp
  | case4 a as b bs ih =>
    rw [Ordering.then_eq_lt, Ordering.then_eq_eq, compare_lt, compare_eq, ih.1, ih.2, char_lt, char_eq, List.cons_lt_cons_iff]
    simp

theorem cmpSeg_eq (a b : Seg) : cmpSeg a b = .eq ↔ a = b := by
  cases a <;> cases b <;> simp [cmpSeg, (cmpStr_spec _ _).2]

theorem labelLt_cons (a b : Seg) (as bs : List Seg) :
    LabelLt (a :: as) (b :: bs) ↔ cmpSeg a b = .lt ∨ a = b ∧ LabelLt as bs := by
  constructor
  · intro h
    cases h with
    | num h => exact .inl ((compare_lt _ _).2 h)
    | mixed => exact .inl rfl
    | text h => exact .inl ((cmpStr_spec _ _).1.2 h)
    | tail h => exact .inr ⟨rfl, h⟩
  · rintro (h | ⟨rfl, h⟩)
    · cases a <;> cases b <;> simp only [cmpSeg, reduceCtorEq] at h
      · exact .num ((compare_lt _ _).1 h)
      · exact .mixed
      · exact .text ((cmpStr_spec _ _).1.1 h)
    · exact .tail h

theorem cmpLabel_spec (l m : List Seg) : (cmpLabel l m = .lt ↔ LabelLt l m) ∧ (cmpLabel l m = .eq ↔ l = m) := by
  fun_induction cmpLabel l m with
  | case1 => exact ⟨⟨by simp, fun h => by cases h⟩, by simp⟩
  | case2 => exact ⟨⟨fun _ => .nil, by simp⟩, by simp⟩
  | case3 => exact ⟨⟨by simp, fun h => by cases h⟩, by simp⟩
  | case4 a as b bs ih =>
    rw [Ordering.then_eq_lt, Ordering.then_eq_eq, ih.1, ih.2, labelLt_cons, cmpSeg_eq]
    simp

theorem cmpLoc_spec (a b : Option (List Seg)) : (cmpLoc a b = .lt ↔ LocLt a b) ∧ (cmpLoc a b = .eq ↔ a = b) := by
  cases a <;> cases b <;> simp [cmpLoc, LocLt, cmpLabel_spec]

theorem cmpDev_spec (a b : Option Nat) : (cmpDev a b = .lt ↔ DevLt a b) ∧ (cmpDev a b = .eq ↔ a = b) := by
  cases a <;> cases b <;> simp [cmpDev, DevLt, compare_lt, compare_eq]

theorem cmpPost_spec (v w : Version) :
    (cmpPost v.post w.post = .lt ↔ postRank v < postRank w) ∧ (cmpPost v.post w.post = .eq ↔ postRank v = postRank w) := by
  simp only [postRank]
  cases v.post <;> cases w.post <;> simp [cmpPost, compare_lt, compare_eq]

theorem preKey_phase (v : Version) : preKey v = phase v := by
  obtain ⟨e, r, p, po, d, l⟩ := v
  rcases p with _ | ⟨k, n⟩
  · cases po <;> cases d <;> simp [preKey, phase]
  · cases k <;> simp [preKey, phase, kind]

/-- Two versions that count as the same. -/
def Same (v w : Version) : Prop :=
  v.epoch = w.epoch ∧ RelEq v.release w.release ∧ (phase v).1 = (phase w).1 ∧ (phase v).2 = (phase w).2 ∧
    postRank v = postRank w ∧ v.dev = w.dev ∧ v.loc = w.loc

theorem vlt_iff (v w : Version) : vlt v w = true ↔ Lt v w := by
  simp only [vlt, beq_iff_eq, cmp, Ordering.then_eq_lt, compare_lt, compare_eq, (cmpRel_spec _ _).1, (cmpRel_spec _ _).2,
    preKey_phase, (cmpPost_spec _ _).1, (cmpPost_spec _ _).2, (cmpDev_spec _ _).1, (cmpDev_spec _ _).2,
    (cmpLoc_spec _ _).1, Lt]

theorem veq_iff (v w : Version) : veq v w = true ↔ Same v w := by
  simp only [veq, beq_iff_eq, cmp, Ordering.then_eq_eq, compare_eq, (cmpRel_spec _ _).2,
    preKey_phase, (cmpPost_spec _ _).2, (cmpDev_spec _ _).2, (cmpLoc_spec _ _).2, Same]

theorem cmpRel_swap (r s : List Nat) : (cmpRel r s).swap = cmpRel s r := by
  fun_induction cmpRel r s with
  | case1 ms =>
    induction ms with
    | nil => rfl
    | cons m ms ih => simp [cmpZero, cmpRel, Ordering.swap_then, Nat.compare_swap, ih]
  | case2 n ns ih => simp [cmpZero, cmpRel, Ordering.swap_then, Nat.compare_swap, ih]
  | case3 n ns m ms ih => simp [cmpRel, Ordering.swap_then, Nat.compare_swap, ih]

theorem cmpStr_swap (s t : Str) : (cmpStr s t).swap = cmpStr t s := by
  fun_induction cmpStr s t <;> simp [cmpStr, Ordering.swap_then, Nat.compare_swap, *]

theorem cmpSeg_swap (a b : Seg) : (cmpSeg a b).swap = cmpSeg b a := by
  cases a <;> cases b <;> simp [cmpSeg, Nat.compare_swap, cmpStr_swap]

theorem cmpLabel_swap (l m : List Seg) : (cmpLabel l m).swap = cmpLabel m l := by
  fun_induction cmpLabel l m <;> simp [cmpLabel, Ordering.swap_then, cmpSeg_swap, *]

theorem cmp_swap (v w : Version) : (cmp v w).swap = cmp w v := by
  have h1 : ∀ a b : Option Nat, (cmpPost a b).swap = cmpPost b a := by
    intro a b; cases a <;> cases b <;> simp [cmpPost, Nat.compare_swap]
  have h2 : ∀ a b : Option Nat, (cmpDev a b).swap = cmpDev b a := by
    intro a b; cases a <;> cases b <;> simp [cmpDev, Nat.compare_swap]
  have h3 : ∀ a b : Option (List Seg), (cmpLoc a b).swap = cmpLoc b a := by
    intro a b; cases a <;> cases b <;> simp [cmpLoc, cmpLabel_swap]
  simp only [cmp, Ordering.swap_then, Nat.compare_swap, cmpRel_swap, h1, h2, h3]

theorem lt_total (v w : Version) : Lt v w ∨ Same v w ∨ Lt w v := by
  rw [← vlt_iff, ← vlt_iff, ← veq_iff]
  simp only [vlt, veq, beq_iff_eq, ← cmp_swap v w]
  cases cmp v w <;> simp

theorem same_lt {u v w : Version} (h : Same u v) (h' : Lt v w) : Lt u w := by
  obtain ⟨h1, h2, h3, h4, h5, h6, h7⟩ := h
  unfold Lt at *
  rw [h1, h3, h4, h5, h6, h7]
  rcases h' with h' | ⟨e, h' | ⟨r, h'⟩⟩
  · exact .inl h'
  · exact .inr ⟨e, .inl (relEq_lt h2 h')⟩
  · exact .inr ⟨e, .inr ⟨fun i => (h2 i).trans (r i), h'⟩⟩

theorem Same.symm {v w : Version} (h : Same v w) : Same w v :=
  ⟨h.1.symm, fun i => (h.2.1 i).symm, h.2.2.1.symm, h.2.2.2.1.symm, h.2.2.2.2.1.symm, h.2.2.2.2.2.1.symm,
    h.2.2.2.2.2.2.symm⟩

theorem lt_same {u v w : Version} (h : Lt u v) (h' : Same v w) : Lt u w := by
  rcases lt_total u w with h1 | h1 | h1
  · exact h1
  · exact absurd (same_lt h' (same_lt h1.symm h)) (lt_irrefl v)
  · exact absurd (same_lt h' (lt_trans h1 h)) (lt_irrefl v)

theorem not_lt_lt {u v w : Version} (h : ¬ Lt v u) (h' : Lt v w) : Lt u w := by
  rcases lt_total u v with h1 | h1 | h1
  · exact lt_trans h1 h'
  · exact same_lt h1 h'
  · exact absurd h1 h

theorem mem_place (v w : Version) (l : List Version) : w ∈ place v l ↔ w = v ∨ w ∈ l := by
  induction l with
  | nil => simp [place]
  | cons x xs ih =>
    simp only [place]
    split
    · simp only [List.mem_cons, ih]
      constructor
      · rintro (h | h | h) <;> simp [h]
      · rintro (h | h | h) <;> simp [h]
    · simp

theorem mem_sorted (w : Version) (l : List Version) : w ∈ sorted l ↔ w ∈ l := by
  induction l with
  | nil => simp [sorted]
  | cons x xs ih => simp [sorted, mem_place, ih]

theorem place_pairwise (v : Version) (l : List Version) (h : l.Pairwise fun a b => ¬ Lt b a) :
    (place v l).Pairwise fun a b => ¬ Lt b a := by
  induction l with
  | nil => simp [place]
  | cons x xs ih =>
    rw [List.pairwise_cons] at h
    simp only [place]
    split
    · rename_i hx
      rw [vlt_iff] at hx
      rw [List.pairwise_cons]
      refine ⟨fun b hb => ?_, ih h.2⟩
      rcases (mem_place v b xs).1 hb with rfl | hb
      · exact fun h' => lt_irrefl _ (lt_trans hx h')
      · exact h.1 b hb
    · rename_i hx
      rw [vlt_iff] at hx
      rw [List.pairwise_cons, List.pairwise_cons]
      refine ⟨fun b hb => ?_, h.1, h.2⟩
      rcases List.mem_cons.1 hb with rfl | hb
      · exact hx
      · exact fun h' => hx (not_lt_lt (h.1 b hb) h')

/-- Sorting puts the versions in order. -/
theorem sorted_pairwise (l : List Version) : (sorted l).Pairwise fun a b => ¬ Lt b a := by
  induction l with
  | nil => simp [sorted]
  | cons x xs ih => exact place_pairwise x _ ih

/-- The last of the sorted versions is one of them, and none is greater. -/
theorem latest_spec (vs : List Version) (m : Version) (h : latest vs = some m) : m ∈ vs ∧ ∀ v ∈ vs, ¬ Lt m v := by
  obtain ⟨init, hi⟩ : ∃ init, sorted vs = init ++ [m] := by
    obtain ⟨ys, hl⟩ := List.getLast?_eq_some_iff.1 h
    exact ⟨_, hl⟩
  have hmem : ∀ v, v ∈ vs ↔ v ∈ init ++ [m] := fun v => by rw [← hi]; exact (mem_sorted v vs).symm
  have hs := sorted_pairwise vs
  refine ⟨(hmem m).2 (by simp), fun v hv => ?_⟩
  rw [hi, List.pairwise_append] at hs
  rcases List.mem_append.1 ((hmem v).1 hv) with h1 | h1
  · exact hs.2.2 v h1 m (by simp)
  · rw [List.mem_singleton.1 h1]; exact lt_irrefl m

theorem mapM_mem {α β : Type} (f : α → Option β) (l : List α) (vs : List β) (h : l.mapM f = some vs) :
    ∀ r ∈ l, ∃ x ∈ vs, f r = some x := by
  induction l generalizing vs with
  | nil => simp
  | cons a as ih =>
    rw [List.mapM_cons] at h
    cases ha : f a with
    | none => simp [ha] at h
    | some b =>
      cases has : as.mapM f with
      | none => simp [ha, has] at h
      | some bs =>
        simp only [ha, has, Option.bind_eq_bind, Option.bind_some, Option.pure_def, Option.some.injEq] at h
        subst h
        intro r hr
        rcases List.mem_cons.1 hr with rfl | hr
        · exact ⟨b, by simp, ha⟩
        · obtain ⟨x, hx, hx'⟩ := ih bs has r hr
          exact ⟨x, by simp [hx], hx'⟩

/-! ## C77 -/

/-- C77: the version that is proposed next is greater than every version that was released; if the index
knows no release it is the version in the repository. -/
theorem C77_greater_than_all (parse : Str → Option Version) (hp : ∀ s v, parse s = some v → v.release ≠ [])
    (s : Sources) (next comp : Word) (hc : IsComponent comp) (w : Version)
    (h : versionNext parse s next comp = .ok w) :
    (∀ i, s.first = some i → ∀ r ∈ i.releases, ∃ v, parse r = some v ∧ Lt v w) ∧
    (s.first = none → parse s.repo = some w) := by
  unfold versionNext at h
  cases hf : s.first with
  | none =>
    rw [hf] at h
    refine ⟨by simp, fun _ => ?_⟩
    simp only [latestPypi] at h
    cases hl : latestReleased parse s.second with
    | error e => simp [hl] at h
    | ok o =>
      cases o with
      | some m => simp [hl] at h
      | none =>
        cases hq : parse s.repo with
        | none => simp [hl, hq] at h
        | some v => simpa [hl, hq] using h
  | some i =>
    rw [hf] at h
    refine ⟨fun j hj r hr => ?_, by simp⟩
    obtain rfl : i = j := by simpa using hj
    simp only [latestPypi, latestReleased, Option.isSome_some, if_true] at h
    cases hv : parse i.version with
    | none => simp [hv] at h
    | some v =>
      cases hm : i.releases.mapM parse with
      | none => simp [hv, hm] at h
      | some vs =>
        cases hl : latest vs with
        | none => simp [hv, hm, hl] at h
        | some m =>
          simp only [hv, hm, hl] at h
          by_cases hs : veq v m = true
          · simp only [hs, Bool.not_true, Bool.false_eq_true, if_false] at h
            cases hn : nextVersion v next comp with
            | error e => simp [hn] at h
            | ok w' =>
              simp only [hn, Except.ok.injEq] at h
              subst h
              have hlt : Lt v w' := C63_next_greater v w' next comp (hp _ _ hv) hc hn
              obtain ⟨-, hmax⟩ := latest_spec vs m hl
              have hrv := mapM_mem parse i.releases vs hm r hr
              obtain ⟨x, hx, hxp⟩ := hrv
              refine ⟨x, hxp, ?_⟩
              have hsm := (veq_iff v m).1 hs
              exact not_lt_lt (fun hvx => hmax x hx (by
                have hsym : Same m v := hsm.symm
                exact same_lt hsym hvx)) hlt
          · simp [hs] at h

/-- C77: so `bump` never finds that the next version is released already. -/
theorem C77_never_released (parse : Str → Option Version) (hp : ∀ s v, parse s = some v → v.release ≠ [])
    (s : Sources) (i : Index) (next comp : Word) (hc : IsComponent comp) (w : Version) (hf : s.first = some i)
    (h : versionNext parse s next comp = .ok w) (r : Str) (hr : r ∈ i.releases) (v : Version) (hv : parse r = some v) :
    veq w v = false := by
  obtain ⟨v', h1, h2⟩ := (C77_greater_than_all parse hp s next comp hc w h).1 i hf r hr
  obtain rfl : v = v' := by simpa [hv] using h1
  rw [Bool.eq_false_iff, ne_eq, veq_iff]
  intro hs
  exact lt_irrefl w (same_lt hs h2)

/-- C77: there is an answer if and only if the version the index calls the latest is as late as any and can be advanced. -/
theorem C77_answers (parse : Str → Option Version) (s : Sources) (i : Index) (next comp : Word) (hf : s.first = some i)
    (v : Version) (hv : parse i.version = some v) (vs : List Version) (hvs : i.releases.mapM parse = some vs) :
    (∃ w, versionNext parse s next comp = .ok w) ↔
      (∃ m ∈ vs, Same v m) ∧ (∀ m ∈ vs, ¬ Lt v m) ∧ ∃ w, nextVersion v next comp = .ok w := by
  cases hl : latest vs with
  | none =>
    have : vs = [] := by
      have h1 := List.getLast?_eq_none_iff.1 hl
      cases vs with
      | nil => rfl
      | cons x xs => exact absurd ((mem_sorted x (x :: xs)).2 (by simp)) (by simp [h1])
    subst this
    simp [versionNext, latestPypi, latestReleased, hf, hv, hvs, hl]
  | some m =>
    obtain ⟨hm, hmax⟩ := latest_spec vs m hl
    simp only [versionNext, latestPypi, latestReleased, hf, hv, hvs, hl, Option.isSome_some, if_true]
    by_cases hs : veq v m = true
    · simp only [hs, Bool.not_true, Bool.false_eq_true, if_false]
      have hs' := (veq_iff v m).1 hs
      have hsym : Same m v := hs'.symm
      refine ⟨fun ⟨w, hw⟩ => ⟨⟨m, hm, hs'⟩, fun x hx h => hmax x hx (same_lt hsym h), ?_⟩, fun ⟨_, _, w, hw⟩ => ⟨w, by simp [hw]⟩⟩
      cases hn : nextVersion v next comp with
      | ok w' => exact ⟨w', rfl⟩
      | error e => simp [hn] at hw
    · refine ⟨fun ⟨w, hw⟩ => by simp [hs] at hw, fun ⟨⟨x, hx, hxs⟩, hall, _⟩ => absurd ?_ hs⟩
      rw [veq_iff]
      rcases lt_total v m with h | h | h
      · exact absurd h (hall m hm)
      · exact h
      · exact absurd (lt_same h hxs) (hmax x hx)

/-! Cases that meet the hypotheses: versions are single numbers here. -/

/-- A parser that reads a text of digits as a release number. -/
def digits (s : Str) : Option Version :=
  if s.isEmpty then none else some ⟨0, [s.foldl (fun n c => 10 * n + (c.toNat - 48)) 0], none, none, none, none⟩

example : ∀ s v, digits s = some v → v.release ≠ [] := by
  intro s v h
  simp only [digits] at h
  split at h
  · simp at h
  · simp only [Option.some.injEq] at h; rw [← h]; simp

example : (versionNext digits ⟨some ⟨lit "10", [lit "9", lit "10", lit "2"]⟩, none, lit "1"⟩ .release .release) =
    .ok ⟨0, [11], none, none, none, none⟩ := by decide +kernel

/-- C77: an index whose latest version is not its greatest is refused, as when a pre-release came last. -/
example : (versionNext digits ⟨some ⟨lit "9", [lit "9", lit "10"]⟩, none, lit "1"⟩ .release .release) =
    .error .assertion := by decide +kernel

/-- C77: and so is one that does not answer at first. -/
example : (versionNext digits ⟨none, some ⟨lit "9", [lit "9"]⟩, lit "1"⟩ .release .release) =
    .error .assertion := by decide +kernel

end Verif.Pep440
