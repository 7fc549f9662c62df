import Verif.Lemmas.MetaObj
import Verif.Model.Merge
import Verif.Spec.Merge

namespace Verif
open Verif.Spec

theorem carries_iff (v : PyVal) : ¬(v = .none ∨ v.emptyIterable = true) ↔ Carries v := by
  cases v <;> simp [PyVal.emptyIterable, Carries]

theorem metaBool_iff (m : Meta) (h : ∃ l, m .errors = .strs l) : metaBool m = true ↔ SomethingSet m := by
  obtain ⟨l, hl⟩ := h
  simp only [metaBool, List.any_eq_true, SomethingSet, hl, Carries]
  constructor
  · rintro ⟨f, _, hf⟩
    by_cases he : f = .errors
    · subst he
      right
      simpa [hl, PyVal.truthy] using hf
    · left
      exact ⟨f, he, by simpa [he] using hf⟩
  · rintro (⟨f, he, hf⟩ | hf)
    · exact ⟨f, Field.mem_all f, by simpa [he] using hf⟩
    · exact ⟨.errors, Field.mem_all _, by simpa [hl, PyVal.truthy] using hf⟩

theorem setField_self (m : Meta) (k : Field) (v : PyVal) : setField m k v k = v := by simp [setField]

theorem setField_ne (m : Meta) {k f : Field} (v : PyVal) (h : f ≠ k) : setField m k v f = m f := by
  simp [setField, h]

/-- One step changes only its own field. -/
theorem mergeStep_spec {new : Meta} {st st' : MergeState} {k : Field}
    (h : mergeStep new st k = .ok st') :
    (∀ f, f ≠ k → st'.kw f = st.kw f) ∧ st'.kw k = overlay st.kw new k ∧
    (st'.different = true ↔ st.different = true ∨ (k ∈ diffFields ∧ Conflict st.kw new k)) := by
  unfold mergeStep at h
  dsimp only at h
  split at h
  · rename_i hc
    have hn : ¬Carries (new k) := fun hh => (carries_iff _).2 hh hc
    cases h
    refine ⟨fun _ _ => rfl, by simp [overlay, hn], ?_⟩
    simp [Conflict, hn]
  · rename_i hc
    have hn : Carries (new k) := (carries_iff _).1 hc
    split at h
    · rename_i hd
      have hcf : Conflict st.kw new k := ⟨hd.1, hn, by simpa using hd.2⟩
      split at h
      · cases h
        refine ⟨fun f hf => setField_ne _ _ hf, by simp [setField_self, overlay, hn], ?_⟩
        simp [hcf, diffFields]
      · cases h
      · cases h
        refine ⟨fun f hf => setField_ne _ _ hf, by simp [setField_self, overlay, hn], ?_⟩
        simp [hcf]
    · rename_i hd
      cases h
      refine ⟨fun f hf => setField_ne _ _ hf, by simp [setField_self, overlay, hn], ?_⟩
      have : ¬Conflict st.kw new k := by
        rintro ⟨h1, _, h3⟩
        exact hd ⟨h1, by simpa using h3⟩
      simp [this]

theorem mergeLoop_spec {new : Meta} : ∀ (ks : List Field) (st st' : MergeState), ks.Nodup →
    mergeLoop new ks st = .ok st' →
    (∀ f, f ∉ ks → st'.kw f = st.kw f) ∧ (∀ f, f ∈ ks → st'.kw f = overlay st.kw new f) ∧
    (st'.different = true ↔ st.different = true ∨ ∃ k, k ∈ ks ∧ k ∈ diffFields ∧ Conflict st.kw new k) := by
  intro ks
  induction ks with
  | nil => intro st st' _ h; cases h; simp
  | cons k ks ih =>
    intro st st' hnd h
    obtain ⟨hk, hnd⟩ := List.nodup_cons.1 hnd
    simp only [mergeLoop] at h
    split at h
    · rename_i st1 hs
      obtain ⟨h1, h2, h3⟩ := mergeStep_spec hs
      obtain ⟨g1, g2, g3⟩ := ih st1 st' hnd h
      refine ⟨?_, ?_, ?_⟩
      · intro f hf
        simp only [List.mem_cons, not_or] at hf
        rw [g1 f hf.2, h1 f hf.1]
      · intro f hf
        by_cases he : f = k
        · subst he
          rw [g1 f hk, h2]
        · have : f ∈ ks := by simpa [he] using hf
          rw [g2 f this]
          simp [overlay, h1 f he]
      · rw [g3, h3]
        have : ∀ f, f ∈ ks → (Conflict st1.kw new f ↔ Conflict st.kw new f) := by
          intro f hf
          have hne : f ≠ k := fun h => hk (h ▸ hf)
          simp [Conflict, h1 f hne]
        constructor
        · rintro ((h | h) | ⟨f, p, q, r⟩)
          · exact .inl h
          · exact .inr ⟨k, by simp, h⟩
          · exact .inr ⟨f, by simp [p], q, (this f p).1 r⟩
        · rintro (h | ⟨f, p, q, r⟩)
          · exact .inl (.inl h)
          · rcases List.mem_cons.1 p with rfl | p
            · exact .inl (.inr ⟨q, r⟩)
            · exact .inr ⟨f, p, q, (this f p).2 r⟩
    · cases h

theorem mergeLoop_total {new : Meta} (ks : List Field) (st : MergeState)
    (h : ∃ a, new .checksum = .bytes a ∨ new .checksum = .none)
    (h' : ∃ a, st.kw .checksum = .bytes a ∨ st.kw .checksum = .none) :
    ∃ st', mergeLoop new ks st = .ok st' := by
  induction ks generalizing st with
  | nil => exact ⟨st, rfl⟩
  | cons k ks ih =>
    simp only [mergeLoop]
    have : ∃ st', mergeStep new st k = .ok st' := by
      obtain ⟨a, ha⟩ := h
      obtain ⟨b, hb⟩ := h'
      unfold mergeStep
      dsimp only
      split
      · exact ⟨_, rfl⟩
      · rename_i hc
        split
        · rename_i hd
          split
          · exact ⟨_, rfl⟩
          · rename_i hno
            exfalso
            rcases ha with ha | ha
            · rcases hb with hb | hb
              · exact hno b a hb ha
              · exact hd.1 hb
            · exact hc (.inl ha)
          · exact ⟨_, rfl⟩
        · exact ⟨_, rfl⟩
    obtain ⟨st', hs⟩ := this
    rw [hs]
    apply ih
    obtain ⟨h1, h2, _⟩ := mergeStep_spec hs
    by_cases hk : k = .checksum
    · subst hk
      rw [h2, overlay]
      split
      · exact h
      · exact h'
    · rw [h1 _ (Ne.symm hk)]
      exact h'

theorem stripLoop_spec {new : Meta} : ∀ (ks : List Field) (kw : Meta) (f : Field),
    stripLoop new ks kw f =
      if f ∈ ks ∧ f ≠ .old_id ∧ new f = .none then defaultArg f else kw f := by
  intro ks
  induction ks with
  | nil => intro kw f; simp [stripLoop]
  | cons k ks ih =>
    intro kw f
    simp only [stripLoop]
    split
    · rename_i hk
      rw [ih]
      by_cases he : f = k
      · subst he
        simp [hk, setField_self]
      · simp [he, setField_ne _ _ he]
    · rename_i hk
      rw [ih]
      by_cases he : f = k
      · subst he
        have : ¬(f ≠ Field.old_id ∧ new f = PyVal.none) := hk
        rw [if_neg (fun h => this h.2), if_neg (fun h => this h.2)]
      · simp [he]

theorem itemFields_all (f : Field) : f ∈ itemFields := by cases f <;> decide

theorem itemFields_nodup : itemFields.Nodup := by decide

theorem diffFields_iff (f : Field) : f ∈ diffFields ↔ IsContentField f := by
  simp [diffFields, IsContentField]

/-- The metadata the loops start from: the old one with the old id recorded. -/
def withOldId (old new : Meta) : Meta :=
  if pyEq (old .id) (new .id) then old else setField old .old_id (old .id)

theorem withOldId_ne (old new : Meta) {f : Field} (h : f ≠ .old_id) : withOldId old new f = old f := by
  unfold withOldId
  split
  · rfl
  · exact setField_ne _ _ h

theorem conflict_withOldId (old new : Meta) {f : Field} (h : IsContentField f) :
    Conflict (withOldId old new) new f ↔ Conflict old new f := by
  have : f ≠ .old_id := by rintro rfl; simp [IsContentField] at h
  simp [Conflict, withOldId_ne old new this]

/-- Everything about a merge of two pieces of metadata in which something is set. -/
theorem updateMeta_spec (old new : Meta) (ho : WellTyped old) (hn : WellTyped new)
    (hso : SomethingSet old) (hsn : SomethingSet new) :
    ∃ d m, updateMeta (some old) (some new) = .ok (d, some m) ∧
      (d = true ↔ FileDiffers old new) ∧
      (∀ f, m f = if d = true ∧ f ≠ .old_id ∧ new f = .none then .none
        else overlay (withOldId old new) new f) := by
  have herr : ∀ m : Meta, WellTyped m → ∃ l, m .errors = .strs l := by
    intro m hm
    have := hm .errors
    cases he : m .errors <;> simp [he, HasType] at this
    exact ⟨_, rfl⟩
  have hck : ∀ m : Meta, WellTyped m → ∃ a, m .checksum = .bytes a ∨ m .checksum = .none := by
    intro m hm
    have := hm .checksum
    cases he : m .checksum <;> simp [he, HasType] at this ⊢
  have hbo := (metaBool_iff old (herr old ho)).2 hso
  have hbn := (metaBool_iff new (herr new hn)).2 hsn
  obtain ⟨st, hst⟩ := mergeLoop_total itemFields ⟨withOldId old new, false⟩ (hck new hn)
    (by rw [show (⟨withOldId old new, false⟩ : MergeState).kw .checksum = old .checksum from
          withOldId_ne old new (by decide)]; exact hck old ho)
  obtain ⟨h1, h2, h3⟩ := mergeLoop_spec itemFields _ st itemFields_nodup hst
  refine ⟨st.different, if st.different then stripLoop new itemFields st.kw else st.kw, ?_, ?_, ?_⟩
  · simp only [updateMeta, hbo, hbn, Bool.not_true, Bool.false_eq_true, if_false]
    have : (if pyEq (old .id) (new .id) = true then old else setField old .old_id (old .id)) =
        withOldId old new := rfl
    rw [this, hst]
  · rw [h3]
    simp only [Bool.false_eq_true, false_or]
    constructor
    · rintro ⟨k, _, hk, hc⟩
      exact ⟨k, (diffFields_iff k).1 hk, (conflict_withOldId old new ((diffFields_iff k).1 hk)).1 hc⟩
    · rintro ⟨k, hk, hc⟩
      exact ⟨k, itemFields_all k, (diffFields_iff k).2 hk, (conflict_withOldId old new hk).2 hc⟩
  · intro f
    have hkw := h2 f (itemFields_all f)
    by_cases hd : st.different = true
    · simp only [hd, if_true, true_and]
      rw [stripLoop_spec]
      simp only [itemFields_all, true_and]
      by_cases hc : f ≠ .old_id ∧ new f = .none
      · rw [if_pos hc, if_pos hc]
        have : f ≠ .errors := by
          rintro rfl
          obtain ⟨l, hl⟩ := herr new hn
          rw [hl] at hc
          simp at hc
        simp [defaultArg, this]
      · rw [if_neg hc, if_neg hc, hkw]
    · rw [if_neg hd, if_neg (fun h => hd h.1), hkw]

/-- Merged metadata is well typed again. -/
theorem merge_wellTyped (old new : Meta) (ho : WellTyped old) (hn : WellTyped new) (m : Meta) (d : Bool)
    (h : ∀ f, m f = if d = true ∧ f ≠ .old_id ∧ new f = .none then .none
        else overlay (withOldId old new) new f) : WellTyped m := by
  intro f
  rw [h f]
  split
  · rename_i hc
    have h1 := hn f
    rw [hc.2.2] at h1
    exact h1
  · unfold overlay
    split
    · exact hn f
    · by_cases hf : f = .old_id
      · subst hf
        unfold withOldId
        split
        · exact ho .old_id
        · rw [setField_self]
          have := ho .id
          cases hv : old .id <;> simp [hv, HasType] at this ⊢
      · rw [withOldId_ne old new hf]; exact ho f

/-- `PathMeta(**kwargs)` of well typed values gives an object with exactly these values. -/
theorem merge_constructs (env : Env) (m : Meta) (hm : WellTyped m) :
    ∃ o, mkMeta (kwOf (fun f => some (m f)) Field.all) = .ok o ∧ o.Shows env m := by
  have hget : ∀ f : Field, dictGet f.toStr (kwOf (fun f => some (m f)) Field.all) = some (m f) := by
    intro f
    rw [dictGet_kwOf _ f _ Field.nodup_all]
    simp [Field.mem_all]
  obtain ⟨o, h1, h2, _⟩ := mkMeta_shows env (kwOf (fun f => some (m f)) Field.all) m
    (dictGet_self_kwOf _ _) (by
      intro f
      rw [hget f]
      have ht := hm f
      cases f <;> simp only [ArgOK, Option.getD_some] <;>
        (try rfl) <;> (cases hv : m _ <;> simp_all [HasType, mkSlot, Slot.get, mkSize, mkErrors]))
  exact ⟨o, h1, h2⟩

end Verif
