import Verif.Model.Etag
import Verif.Spec.Etag

namespace Verif.Etag
open Verif.Spec

/-- Invariant of an etag object whose every `digest` so far happened on a block boundary. -/
structure Inv (H : Bytes → Bytes) (s : Obj) (fed : Bytes) : Prop where
  m : s.m = []
  last : s.lastChunksize = 0
  rem : s.remainder.length < s.chunksize
  parts : ∃ bl : List Bytes, (∀ b ∈ bl, b.length = s.chunksize) ∧ s.parts = bl.map H ∧
    fed = bl.flatten ++ s.remainder

theorem loop_inv (H : Bytes → Bytes) (n : Nat) (hn : 0 < n) (fuel : Nat) :
    ∀ (s : Obj) (bio : Bytes) (bl : List Bytes),
      s.chunksize = n → s.m = [] → s.lastChunksize = 0 →
      s.remainder.length ≤ n →
      (s.remainder ≠ [] → s.remainder.length < n → bio = []) →
      (∀ b ∈ bl, b.length = n) → s.parts = bl.map H →
      bio.length + (if s.remainder = [] ∧ bio = [] then 1 else 2) ≤ fuel →
      ∃ s', loop H fuel s bio = .returned s' ∧ s'.chunksize = n ∧
        Inv H s' (bl.flatten ++ s.remainder ++ bio) := by
  induction fuel with
  | zero =>
    intro s bio bl _ _ _ _ _ _ _ hf
    split at hf <;> omega
  | succ fuel ih =>
    intro s bio bl hcs hm hl hr hb hbl hp hf
    unfold loop
    by_cases hbio : bio = []
    · subst hbio
      by_cases hlt : s.remainder.length < n
      · refine ⟨{ s with remainder := s.remainder, lastChunksize := 0 }, ?_, hcs, ?_⟩
        · simp [iter, hl, hcs, hlt]
        · exact ⟨hm, rfl, by simpa [hcs] using hlt, bl, by simpa [hcs] using hbl, hp, by simp⟩
      · have hfull : s.remainder.length = n := by omega
        have hne : s.remainder ≠ [] := by
          intro h; rw [h] at hfull; simp at hfull; omega
        have hit : iter H s [] = .again
            { s with remainder := [], lastChunksize := 0, m := [],
                     parts := s.parts ++ [H (s.m ++ s.remainder)] } [] := by
          simp [iter, hl, hcs, hlt, hne]
        rw [hit]
        have := ih { s with remainder := [], lastChunksize := 0, m := [],
                            parts := s.parts ++ [H (s.m ++ s.remainder)] } []
          (bl ++ [s.remainder]) hcs rfl rfl (by simp) (by simp)
          (by
            intro b hb'
            rcases List.mem_append.1 hb' with h | h
            · exact hbl b h
            · simp at h; subst h; exact hfull)
          (by simp [hp, hm])
          (by simp [hne] at hf; simp; omega)
        simpa using this
    · have hpos : 0 < bio.length := List.length_pos_iff.2 hbio
      have htk : bio.take n ≠ [] := by
        simp [List.take_eq_nil_iff, hbio]; omega
      have hcond : s.remainder = [] ∨ s.remainder.length = n := by
        by_cases h : s.remainder = []
        · exact .inl h
        · right
          by_cases h2 : s.remainder.length < n
          · exact absurd (hb h h2) hbio
          · omega
      have hfuel : (bio.drop n).length +
          (if (bio.take n = [] ∧ bio.drop n = []) then 1 else 2) ≤ fuel := by
        simp [htk, hbio] at hf ⊢; omega
      have htl : (bio.take n).length ≤ n := by simp; omega
      have hdr : bio.take n ≠ [] → (bio.take n).length < n → bio.drop n = [] := by
        intro _ h; simp at h ⊢; omega
      rcases hcond with h | h
      · have hit : iter H s bio = .again
            { s with remainder := bio.take n, lastChunksize := 0 } (bio.drop n) := by
          simp [iter, hl, hcs, h, hbio]
        rw [hit]
        have := ih { s with remainder := bio.take n, lastChunksize := 0 } (bio.drop n) bl hcs hm rfl
          htl hdr hbl hp hfuel
        simpa [h] using this
      · have hne : s.remainder ≠ [] := by
          intro h'; rw [h'] at h; simp at h; omega
        have hit : iter H s bio = .again
            { s with remainder := bio.take n, lastChunksize := 0, m := [],
                     parts := s.parts ++ [H (s.m ++ s.remainder)] } (bio.drop n) := by
          simp [iter, hl, hcs, h, hne]
        rw [hit]
        have := ih { s with remainder := bio.take n, lastChunksize := 0, m := [],
                            parts := s.parts ++ [H (s.m ++ s.remainder)] } (bio.drop n)
          (bl ++ [s.remainder]) hcs rfl rfl htl hdr
          (by
            intro b hb'
            rcases List.mem_append.1 hb' with h' | h'
            · exact hbl b h'
            · simp at h'; subst h'; exact h)
          (by simp [hp, hm]) hfuel
        simpa using this

theorem update_inv (H : Bytes → Bytes) (s : Obj) (fed b : Bytes) (h : Inv H s fed) :
    ∃ s', update H s b = some s' ∧ s'.chunksize = s.chunksize ∧ Inv H s' (fed ++ b) := by
  obtain ⟨bl, hbl, hp, hf⟩ := h.parts
  have hn : 0 < s.chunksize := Nat.lt_of_le_of_lt (Nat.zero_le _) h.rem
  have := loop_inv H s.chunksize hn (s.remainder.length + b.length + 3)
    { s with remainder := [] } (s.remainder ++ b) bl rfl h.m h.last (by simp) (by simp) hbl hp
    (by simp; split <;> omega)
  obtain ⟨s', h1, h2, h3⟩ := this
  refine ⟨s', ?_, h2, ?_⟩
  · simp [update, updateFuel, h1]
  · rw [hf]; simpa using h3

theorem init_inv (H : Bytes → Bytes) (n : Nat) (hn : 0 < n) : Inv H (init n) [] :=
  ⟨rfl, rfl, by simpa [init] using hn, [], by simp, rfl, rfl⟩

theorem feed_inv (H : Bytes → Bytes) (inputs : List Bytes) :
    ∀ (s : Obj) (fed : Bytes), Inv H s fed →
    ∃ s', feed H s inputs = some s' ∧ s'.chunksize = s.chunksize ∧
      Inv H s' (fed ++ inputs.flatten) := by
  induction inputs with
  | nil => intro s fed h; exact ⟨s, rfl, rfl, by simpa using h⟩
  | cons b bs ih =>
    intro s fed h
    obtain ⟨s1, h1, h2, h3⟩ := update_inv H s fed b h
    obtain ⟨s2, h4, h5, h6⟩ := ih s1 _ h3
    refine ⟨s2, ?_, by rw [h5, h2], by simpa using h6⟩
    simp only [feed, List.map_cons, run, step] at h4 ⊢
    rw [h1]; exact h4

theorem digest_isEtag (H : Bytes → Bytes) (s : Obj) (fed : Bytes) (h : Inv H s fed) :
    IsEtag H s.chunksize fed (digest H s).2 := by
  obtain ⟨bl, hbl, hp, hf⟩ := h.parts
  have hn : 0 < s.chunksize := Nat.lt_of_le_of_lt (Nat.zero_le _) h.rem
  by_cases hr : s.remainder = []
  · refine ⟨bl, ⟨by simp [hf, hr], fun b hb => hbl b (List.dropLast_subset _ hb), ?_⟩, ?_⟩
    · intro b hb; have := hbl b hb; omega
    · simp [digest, hr, hp]
  · refine ⟨bl ++ [s.remainder], ⟨by simp [hf], ?_, ?_⟩, ?_⟩
    · simpa using hbl
    · intro b hb
      rcases List.mem_append.1 hb with h' | h'
      · have := hbl b h'; omega
      · simp at h'; subst h'
        exact ⟨List.length_pos_iff.2 hr, Nat.le_of_lt h.rem⟩
    · simp [digest, hr, hp, h.m]

/-- On a block boundary `digest` does not change the object. -/
theorem digest_boundary (H : Bytes → Bytes) (s : Obj) (fed : Bytes) (h : Inv H s fed)
    (hb : fed.length % s.chunksize = 0) : (digest H s).1 = s := by
  obtain ⟨bl, hbl, hp, hf⟩ := h.parts
  have hlen : bl.flatten.length % s.chunksize = 0 := by
    clear hp hf
    induction bl with
    | nil => simp
    | cons b bs ih =>
      have h1 := hbl b (by simp)
      have h2 := ih (fun b' hb' => hbl b' (by simp [hb']))
      simp only [List.flatten_cons, List.length_append, h1]
      rw [Nat.add_mod_left]; exact h2
  have hr : s.remainder = [] := by
    rw [hf, List.length_append, Nat.add_mod, hlen, Nat.zero_add, Nat.mod_mod,
      Nat.mod_eq_of_lt h.rem] at hb
    exact List.length_eq_zero_iff.1 hb
  simp [digest, hr]

theorem loop_terminates (H : Bytes → Bytes) (n : Nat) (hn : 0 < n) (fuel : Nat) :
    ∀ (s : Obj) (bio : Bytes),
      s.chunksize = n → s.lastChunksize = 0 → s.remainder.length ≤ n →
      bio.length + (if s.remainder = [] ∧ bio = [] then 1 else 2) ≤ fuel →
      ∃ s', loop H fuel s bio = .returned s' ∧ s'.chunksize = n ∧ s'.lastChunksize = 0 ∧
        s'.remainder.length < n := by
  induction fuel with
  | zero =>
    intro s bio _ _ _ hf
    split at hf <;> omega
  | succ fuel ih =>
    intro s bio hcs hl hr hf
    unfold loop
    by_cases hret : bio = [] ∧ s.remainder.length < n
    · obtain ⟨rfl, hlt⟩ := hret
      exact ⟨{ s with remainder := s.remainder, lastChunksize := 0 },
        by simp [iter, hl, hcs, hlt], hcs, rfl, hlt⟩
    · have hnt : ¬ (bio.take n = [] ∧ s.remainder.length < n) := by
        simp only [List.take_eq_nil_iff]
        intro ⟨h1, h2⟩
        rcases h1 with h1 | h1
        · omega
        · exact hret ⟨h1, h2⟩
      have htl : (bio.take n).length ≤ n := by simp; omega
      have hfuel : (bio.drop n).length +
          (if (bio.take n = [] ∧ bio.drop n = []) then 1 else 2) ≤ fuel := by
        by_cases hbio : bio = []
        · subst hbio
          have hne : s.remainder ≠ [] := by
            intro h; simp [h] at hret; omega
          simp [hne] at hf ⊢; omega
        · have hpos : 0 < bio.length := List.length_pos_iff.2 hbio
          have htk : bio.take n ≠ [] := by
            simp [List.take_eq_nil_iff, hbio]; omega
          simp [htk, hbio] at hf ⊢; omega
      by_cases hne : s.remainder = []
      · have hit : iter H s bio = .again
            { s with remainder := bio.take n, lastChunksize := 0 } (bio.drop n) := by
          simp only [iter, hl, hcs, ne_eq, not_true_eq_false, if_false, if_neg hnt]
          simp [hne]
        rw [hit]
        exact ih _ _ hcs rfl htl hfuel
      · have hit : iter H s bio = .again
            { s with remainder := bio.take n, lastChunksize := 0, m := [],
                     parts := s.parts ++ [H (s.m ++ s.remainder)] } (bio.drop n) := by
          simp only [iter, hl, hcs, ne_eq, not_true_eq_false, if_false, if_neg hnt]
          simp [hne]
        rw [hit]
        exact ih _ _ hcs rfl htl hfuel

/-- What every reachable object satisfies. -/
structure Reach (n : Nat) (s : Obj) : Prop where
  cs : s.chunksize = n
  last : s.lastChunksize < n
  rem : s.remainder.length < n

theorem update_terminates (H : Bytes → Bytes) (n : Nat) (hn : 0 < n) (s : Obj) (b : Bytes)
    (h : Reach n s) :
    ∃ s', update H s b = some s' ∧ Reach n s' := by
  suffices hs : ∃ s', updateFuel H (s.remainder.length + b.length + 3) s b = .returned s' ∧
      Reach n s' by
    obtain ⟨s', h1, h2⟩ := hs
    exact ⟨s', by simp [update, h1], h2⟩
  unfold updateFuel
  generalize hbio : s.remainder ++ b = bio
  have hlen : s.remainder.length + b.length = bio.length := by simp [← hbio]
  rw [hlen]
  by_cases hl : s.lastChunksize = 0
  · obtain ⟨s', h1, h2, h3, h4⟩ := loop_terminates H n hn (bio.length + 3)
      { s with remainder := [] } bio h.cs hl (by simp) (by split <;> omega)
    exact ⟨s', h1, h2, by omega, h4⟩
  · unfold loop
    have hk : 0 < n - s.lastChunksize := by have := h.last; omega
    by_cases hb : bio = []
    · subst hb
      refine ⟨{ s with remainder := [], lastChunksize := 0 }, ?_, h.cs, hn, by simpa using hn⟩
      simp [iter, hl, h.cs, hk]
    · have hit : iter H { s with remainder := [] } bio = .again
          { s with remainder := bio.take (n - s.lastChunksize), lastChunksize := 0 }
          (bio.drop (n - s.lastChunksize)) := by
        simp [iter, hl, h.cs, hb]
      rw [hit]
      have hlast := h.last
      obtain ⟨s', h1, h2, h3, h4⟩ := loop_terminates H n hn (bio.length + 2)
        { s with remainder := bio.take (n - s.lastChunksize), lastChunksize := 0 }
        (bio.drop (n - s.lastChunksize)) h.cs rfl (by simp; omega)
        (by
          simp only [List.length_drop]
          split <;> omega)
      exact ⟨s', h1, h2, by omega, h4⟩

theorem digest_reach (H : Bytes → Bytes) (n : Nat) (s : Obj) (h : Reach n s) :
    Reach n (digest H s).1 := by
  unfold digest
  by_cases hr : s.remainder = []
  · simpa [hr] using h
  · simp only [ne_eq, hr, not_false_eq_true, if_true]
    exact ⟨h.cs, h.rem, by have := h.rem; simp; omega⟩

theorem run_reach (H : Bytes → Bytes) (n : Nat) (hn : 0 < n) (ops : List Op) :
    ∀ s, Reach n s → ∃ s', run H s ops = some s' ∧ Reach n s' := by
  induction ops with
  | nil => intro s h; exact ⟨s, rfl, h⟩
  | cons op ops ih =>
    intro s h
    cases op with
    | update b =>
      obtain ⟨s1, h1, h2⟩ := update_terminates H n hn s b h
      obtain ⟨s2, h3, h4⟩ := ih s1 h2
      exact ⟨s2, by simp [run, step, h1, h3], h4⟩
    | digest =>
      obtain ⟨s2, h3, h4⟩ := ih _ (digest_reach H n s h)
      exact ⟨s2, by simp [run, step, h3], h4⟩

/-- Calls that feed nothing leave `parts` alone once the remainder is empty. -/
theorem quiet (H : Bytes → Bytes) (n : Nat) (hn : 0 < n) (ops : List Op) :
    ∀ s s', Reach n s → s.remainder = [] → (∀ b, Op.update b ∈ ops → b = []) →
      run H s ops = some s' → s'.remainder = [] ∧ s'.parts = s.parts := by
  induction ops with
  | nil => intro s s' _ hr _ h; simp [run] at h; subst h; exact ⟨hr, rfl⟩
  | cons op ops ih =>
    intro s s' hR hr hb h
    cases op with
    | digest =>
      have hd : (digest H s).1 = s := by simp [digest, hr]
      simp only [run, step, hd, Option.bind] at h
      exact ih s s' hR hr (fun b hb' => hb b (by simp [hb'])) h
    | update b =>
      have : b = [] := hb b (by simp)
      subst this
      have hu : update H s [] = some { s with remainder := [], lastChunksize := 0 } := by
        have h1 := hR.last
        have h2 := hR.cs
        have : 0 < (if s.lastChunksize = 0 then s.chunksize else s.chunksize - s.lastChunksize) := by
          split <;> omega
        simp [update, updateFuel, hr, loop, iter, this]
      simp only [run, step, hu, Option.bind] at h
      have := ih { s with remainder := [], lastChunksize := 0 } s'
        ⟨hR.cs, hn, by simpa using hn⟩ rfl (fun b hb' => hb b (by simp [hb'])) h
      exact this

theorem loop_mono (H : Bytes → Bytes) (fuel : Nat) : ∀ (s : Obj) (bio : Bytes) (s' : Obj),
    loop H fuel s bio = .returned s' → ∀ k, loop H (fuel + k) s bio = .returned s' := by
  induction fuel with
  | zero => intro s bio s' h; simp [loop] at h
  | succ f ih =>
    intro s bio s' h k
    have : f + 1 + k = (f + k) + 1 := by omega
    rw [this]
    unfold loop at h ⊢
    split at h
    · simpa using h
    · exact ih _ _ _ h k
    · simp at h

theorem isBlocks_unique {n : Nat} (hn : 0 < n) : ∀ {bl bl' : List Bytes} {data : Bytes},
    IsBlocks n data bl → IsBlocks n data bl' → bl = bl'
  | [], [], _, _, _ => rfl
  | [], b :: bs, data, h, h' => by
    have h1 := h.concat; have h2 := h'.concat
    have := (h'.bounds b (by simp)).1
    simp at h1 h2; subst h1; simp at h2; simp [h2.1] at this
  | b :: bs, [], data, h, h' => by
    have h1 := h.concat; have h2 := h'.concat
    have := (h.bounds b (by simp)).1
    simp at h1 h2; subst h2; simp at h1; simp [h1.1] at this
  | b :: bs, b' :: bs', data, h, h' => by
    have h1 := h.concat; have h2 := h'.concat
    have e : b ++ bs.flatten = b' ++ bs'.flatten := by
      simpa using h1.trans h2.symm
    have hb := h.bounds b (by simp)
    have hb' := h'.bounds b' (by simp)
    have key : b.length = b'.length := by
      have hlen := congrArg List.length e
      simp only [List.length_append] at hlen
      by_cases hbs : bs = []
      · by_cases hbs' : bs' = []
        · subst hbs; subst hbs'; simpa using hlen
        · have : b'.length = n := h'.full b' (by
            obtain ⟨x, xs, rfl⟩ := List.exists_cons_of_ne_nil hbs'; simp)
          obtain ⟨x, xs, rfl⟩ := List.exists_cons_of_ne_nil hbs'
          have := (h'.bounds x (by simp)).1
          subst hbs; simp at hlen; omega
      · have hbn : b.length = n := h.full b (by
            obtain ⟨x, xs, rfl⟩ := List.exists_cons_of_ne_nil hbs; simp)
        by_cases hbs' : bs' = []
        · obtain ⟨x, xs, rfl⟩ := List.exists_cons_of_ne_nil hbs
          have := (h.bounds x (by simp)).1
          subst hbs'; simp at hlen; omega
        · have : b'.length = n := h'.full b' (by
            obtain ⟨x, xs, rfl⟩ := List.exists_cons_of_ne_nil hbs'; simp)
          omega
    obtain ⟨rfl, e2⟩ := List.append_inj e key
    have tl : ∀ {c : Bytes} {cs : List Bytes}, IsBlocks n data (c :: cs) →
        IsBlocks n cs.flatten cs := by
      intro c cs hh
      refine ⟨rfl, ?_, fun x hx => hh.bounds x (by simp [hx])⟩
      intro x hx
      apply hh.full
      cases cs with
      | nil => simp at hx
      | cons y ys => simp [hx]
    have t1 := tl h
    have t2 := tl h'
    rw [e2] at t1
    rw [isBlocks_unique hn t1 t2]

theorem isEtag_unique (H : Bytes → Bytes) {n : Nat} (hn : 0 < n) {data : Bytes}
    {r r' : Bytes × Nat} (h : IsEtag H n data r) (h' : IsEtag H n data r') : r = r' := by
  obtain ⟨bl, hb, rfl⟩ := h
  obtain ⟨bl', hb', rfl⟩ := h'
  rw [isBlocks_unique hn hb hb']

end Verif.Etag
