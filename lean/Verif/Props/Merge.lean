import Verif.Lemmas.Merge
import Verif.Lemmas.Samples

/-!
# C24 – C26: merging metadata
-/

namespace Verif
open Verif.Spec

/-! ## C24 -/

/-- **C24**, recognition: the file is recognised as different exactly when created, updated, size,
checksum or file_id is set on both sides and differs. -/
theorem C24_different_iff (old new : Meta) (ho : WellTyped old) (hn : WellTyped new)
    (hso : SomethingSet old) (hsn : SomethingSet new) :
    ∃ d m, updateMeta (some old) (some new) = .ok (d, some m) ∧ (d = true ↔ FileDiffers old new) := by
  obtain ⟨d, m, h, hd, _⟩ := updateMeta_spec old new ho hn hso hsn
  exact ⟨d, m, h, hd⟩

/-- **C24**, every field except `old_id`: when the file is not different, new information wins and
old information is kept. -/
theorem C24_merge (old new : Meta) (ho : WellTyped old) (hn : WellTyped new)
    (hso : SomethingSet old) (hsn : SomethingSet new) (hd : ¬FileDiffers old new) :
    ∃ m, updateMeta (some old) (some new) = .ok (false, some m) ∧
      ∀ f, f ≠ .old_id → m f = if Carries (new f) then new f else old f := by
  obtain ⟨d, m, h, hdd, hm⟩ := updateMeta_spec old new ho hn hso hsn
  have : d = false := by
    cases d
    · rfl
    · exact absurd (hdd.1 rfl) hd
  subst this
  refine ⟨m, h, ?_⟩
  intro f hf
  rw [hm f]
  simp [overlay, withOldId_ne old new hf]

/-- **C24**, `old_id`: if the new metadata has an id, and no `old_id` of its own, then a change of id
is recorded and without a change nothing happens to `old_id`.  The full claim is false without these
two conditions, see the counterexamples. -/
theorem C24_old_id_partial (old new : Meta) (ho : WellTyped old) (hn : WellTyped new)
    (hso : SomethingSet old) (hsn : SomethingSet new) (hid : Carries (new .id))
    (hold : ¬Carries (new .old_id)) :
    ∃ d m, updateMeta (some old) (some new) = .ok (d, some m) ∧ m .id = new .id ∧
      m .old_id = if pyEq (old .id) (new .id) then old .old_id else old .id := by
  obtain ⟨d, m, h, hdd, hm⟩ := updateMeta_spec old new ho hn hso hsn
  refine ⟨d, m, h, ?_, ?_⟩
  · rw [hm .id]
    have : new .id ≠ .none := by intro e; rw [e] at hid; exact hid
    simp [overlay, hid, this]
  · rw [hm .old_id]
    simp only [ne_eq, not_true_eq_false, false_and, and_false, if_false, overlay, hold]
    unfold withOldId
    split
    · rfl
    · exact setField_self _ _ _

/-- Metadata with the given fields. -/
def someFields (l : List (Field × PyVal)) : Meta := fun f =>
  match dictGet f l with
  | some v => v
  | none => if f = .errors then .strs [] else .none

/-- **C24 is false** for `old_id`: metadata that brings its own `old_id` hides the change of id, and
merging metadata without an id claims that the id has changed although it has not. -/
theorem C24_old_id_counterexample :
    (∃ m, updateMeta (some (someFields [(.id, .str (lit "a"))]))
        (some (someFields [(.id, .str (lit "b")), (.old_id, .str (lit "z"))])) = .ok (false, some m) ∧
      m .id = .str (lit "b") ∧ m .old_id = .str (lit "z")) ∧
    (∃ m, updateMeta (some (someFields [(.id, .str (lit "a"))]))
        (some (someFields [(.size, .int 3)])) = .ok (false, some m) ∧
      m .id = .str (lit "a") ∧ m .old_id = .str (lit "a")) := by
  exact ⟨⟨_, rfl, rfl, rfl⟩, ⟨_, rfl, rfl, rfl⟩⟩

/-- **C24**, missing metadata: merging with nothing gives the other side. -/
theorem C24_merge_with_nothing (m : Meta) (h : ∃ l, m .errors = .strs l) (hs : SomethingSet m) (e : Meta)
    (he : ∃ l, e .errors = .strs l) (hne : ¬SomethingSet e) :
    updateMeta none (some m) = .ok (false, some m) ∧ updateMeta (some m) none = .ok (false, some m) ∧
    updateMeta (some e) (some m) = .ok (false, some m) ∧
    updateMeta (some m) (some e) = .ok (false, some m) := by
  have h1 := (metaBool_iff m h).2 hs
  have h2 : metaBool e = false := by
    cases hb : metaBool e
    · rfl
    · exact absurd ((metaBool_iff e he).1 hb) hne
  simp [updateMeta, h1, h2]

/-- **C24**: the merged values make a metadata object that has exactly these values. -/
theorem C24_merge_constructs (env : Env) (old new : Meta) (ho : WellTyped old) (hn : WellTyped new)
    (hso : SomethingSet old) (hsn : SomethingSet new) :
    ∃ d m o, updateMeta (some old) (some new) = .ok (d, some m) ∧ WellTyped m ∧
      mkMeta (kwOf (fun f => some (m f)) Field.all) = .ok o ∧ o.Shows env m := by
  obtain ⟨d, m, h, hdd, hm⟩ := updateMeta_spec old new ho hn hso hsn
  have hw := merge_wellTyped old new ho hn m d hm
  obtain ⟨o, h1, h2⟩ := merge_constructs env m hw
  exact ⟨d, m, o, h, hw, h1, h2⟩

example : WellTyped sampleMeta ∧ WellTyped (someFields [(.id, .str (lit "b")), (.size, .int 123456)]) ∧
    SomethingSet sampleMeta ∧ SomethingSet (someFields [(.id, .str (lit "b")), (.size, .int 123456)]) ∧
    ¬FileDiffers sampleMeta (someFields [(.id, .str (lit "b")), (.size, .int 123456)]) ∧
    Carries (someFields [(.id, .str (lit "b")), (.size, .int 123456)] .id) := by
  refine ⟨sampleMeta_wellTyped, ?_, .inl ⟨.id, by decide, by decide⟩, .inl ⟨.id, by decide, by decide⟩, ?_, by decide⟩
  · intro f; cases f <;> simp [someFields, dictGet, HasType]
  · rintro ⟨f, hf, h1, h2, h3⟩
    rcases hf with rfl | rfl | rfl | rfl | rfl <;> revert h2 h3 <;> decide

/-! ## C25 -/

/-- **C25**, exactly: when the file is different every field except `old_id` is the one of the new
metadata, unless the new value is an empty text, empty bytes or an empty tuple, in which case the old
one survives. -/
theorem C25_nothing_stale_partial (old new : Meta) (ho : WellTyped old) (hn : WellTyped new)
    (hso : SomethingSet old) (hsn : SomethingSet new) (hd : FileDiffers old new) :
    ∃ m, updateMeta (some old) (some new) = .ok (true, some m) ∧
      ∀ f, f ≠ .old_id → m f = if new f = .none ∨ Carries (new f) then new f else old f := by
  obtain ⟨d, m, h, hdd, hm⟩ := updateMeta_spec old new ho hn hso hsn
  have : d = true := hdd.2 hd
  subst this
  refine ⟨m, h, ?_⟩
  intro f hf
  rw [hm f]
  by_cases h0 : new f = .none
  · simp [h0, hf]
  · simp [h0, overlay, withOldId_ne old new hf]

/-- **C25 is false** for `errors`: the new metadata of a different file has no errors, the errors of
the previous file survive (and with them the mark that switches off checksum verification). -/
theorem C25_stale_errors_counterexample :
    ∃ m, updateMeta (some (someFields [(.id, .str (lit "a")), (.size, .int 1),
          (.errors, .strs [lit "checksum-mismatch"])]))
        (some (someFields [(.id, .str (lit "a")), (.size, .int 2)])) = .ok (true, some m) ∧
      m .size = .int 2 ∧ m .errors = .strs [lit "checksum-mismatch"] :=
  ⟨_, rfl, rfl, rfl⟩

example : FileDiffers sampleMeta (someFields [(.id, .str (lit "b")), (.size, .int 3)]) :=
  ⟨.size, by simp [IsContentField], by decide, by decide, by decide⟩

/-! ## C26 -/

/-- **C26**: merging the same new metadata a second time is not recognised as different and changes
nothing.  Partial: ids must not be the empty text, see the counterexample. -/
theorem C26_converges_partial (old new : Meta) (ho : WellTyped old) (hn : WellTyped new)
    (hso : SomethingSet old) (hsn : SomethingSet new) (hid : new .id ≠ .str []) :
    ∃ d m, updateMeta (some old) (some new) = .ok (d, some m) ∧
      updateMeta (some m) (some new) = .ok (false, some m) := by
  obtain ⟨d, m, h, hdd, hm⟩ := updateMeta_spec old new ho hn hso hsn
  refine ⟨d, m, h, ?_⟩
  have hwm := merge_wellTyped old new ho hn m d hm
  -- something is set in the merged metadata
  have hsm : SomethingSet m := by
    by_cases hd : d = true
    · obtain ⟨f, hf, h1, h2, h3⟩ := hdd.1 hd
      have hne : new f ≠ .none := by intro e; rw [e] at h2; exact h2
      left
      refine ⟨f, by rintro rfl; simp [IsContentField] at hf, ?_⟩
      rw [hm f]
      simp [hne, overlay, h2]
    · rcases hso with ⟨f, hf, hv⟩ | he
      · left
        by_cases hci : Carries (new .id)
        · refine ⟨.id, by decide, ?_⟩
          have hne : new .id ≠ .none := by intro e; rw [e] at hci; exact hci
          rw [hm .id]
          simp [hne, overlay, hci]
        have hni : new .id = .none := by
          have := hn .id
          cases hv : new .id <;> simp [hv, HasType, Carries] at this hci hid ⊢
          exact absurd hci hid
        refine ⟨f, hf, ?_⟩
        rw [hm f]
        simp only [hd, Bool.false_eq_true, false_and, if_false, overlay]
        split
        · rename_i hc; intro e; rw [e] at hc; exact hc
        · by_cases hfo : f = .old_id
          · subst hfo
            unfold withOldId
            split
            · exact hv
            · rename_i hne
              rw [setField_self]
              intro e
              rw [e, hni] at hne
              exact hne rfl
          · rw [withOldId_ne old new hfo]; exact hv
      · right
        rw [hm .errors]
        simp only [hd, Bool.false_eq_true, false_and, if_false, overlay]
        split
        · assumption
        · rw [withOldId_ne old new (by decide)]; exact he
  obtain ⟨d2, m2, h2, hdd2, hm2⟩ := updateMeta_spec m new hwm hn hsm hsn
  have hd2 : d2 = false := by
    cases hb : d2
    · rfl
    · obtain ⟨f, hf, c1, c2, c3⟩ := hdd2.1 hb
      rw [hm f] at c3
      have hne : new f ≠ .none := by intro e; rw [e] at c2; exact c2
      simp [hne, overlay, c2, pyEq_refl] at c3
  subst hd2
  rw [h2]
  congr 3
  funext f
  rw [hm2 f]
  simp only [Bool.false_eq_true, false_and, if_false, overlay]
  split
  · rename_i hc
    rw [hm f]
    have hne : new f ≠ .none := by intro e; rw [e] at hc; exact hc
    simp [hne, overlay, hc]
  · rename_i hc
    by_cases hfo : f = .old_id
    · subst hfo
      unfold withOldId
      split
      · rfl
      · rename_i hne
        rw [setField_self, hm .old_id, hm .id]
        rw [hm .id] at hne
        simp only [overlay, hc, if_false, ne_eq, not_true_eq_false, false_and, and_false] at hne ⊢
        by_cases hcid : Carries (new .id)
        · exfalso
          have hni : new .id ≠ .none := by intro e; rw [e] at hcid; exact hcid
          simp [hcid, hni, pyEq_refl] at hne
        · by_cases hni : d = true ∧ new .id = .none
          · exfalso
            simp [hni, pyEq] at hne
          · have hni' : ¬(d = true ∧ ¬Field.id = Field.old_id ∧ new .id = .none) := fun h => hni ⟨h.1, h.2.2⟩
            simp only [hni', hcid, if_false] at hne ⊢
            rw [withOldId_ne old new (by decide)] at hne ⊢
            simp [withOldId, hne, setField_self]
    · rw [withOldId_ne m new hfo]

/-- **C26 is false** when the new id is the empty text: the first merge leaves nothing at all, the
second one then takes over the empty id. -/
theorem C26_converges_counterexample :
    ∃ m m', updateMeta (some (someFields [(.old_id, .str (lit "x"))]))
        (some (someFields [(.id, .str [])])) = .ok (false, some m) ∧
      updateMeta (some m) (some (someFields [(.id, .str [])])) = .ok (false, some m') ∧
      m .id = .none ∧ m .old_id = .none ∧ m' .id = .str [] :=
  ⟨_, _, rfl, rfl, rfl, rfl, rfl⟩

example : WellTyped (someFields [(.id, .str (lit "b")), (.size, .int 3)]) ∧
    SomethingSet (someFields [(.id, .str (lit "b")), (.size, .int 3)]) ∧
    someFields [(.id, .str (lit "b")), (.size, .int 3)] .id ≠ .str [] := by
  refine ⟨?_, .inl ⟨.id, by decide, by decide⟩, by decide⟩
  intro f; cases f <;> simp [someFields, dictGet, HasType]

/-- **C26**: merging metadata into itself changes nothing. -/
theorem C26_self (m : Meta) (hw : WellTyped m) (hs : SomethingSet m) :
    updateMeta (some m) (some m) = .ok (false, some m) := by
  obtain ⟨d, m', h, hdd, hm⟩ := updateMeta_spec m m hw hw hs hs
  have hd : d = false := by
    cases hb : d
    · rfl
    · obtain ⟨f, _, _, _, c⟩ := hdd.1 hb
      simp [pyEq_refl] at c
  subst hd
  rw [h]
  congr 3
  funext f
  rw [hm f]
  simp [overlay, withOldId, pyEq_refl]

theorem merge_again (old new m : Meta) (d : Bool) (ho : WellTyped old) (hn : WellTyped new) (hsn : SomethingSet new)
    (hm : ∀ f, m f = if d = true ∧ f ≠ .old_id ∧ new f = .none then .none else overlay (withOldId old new) new f)
    (hsm : SomethingSet m) : updateMeta (some m) (some new) = .ok (false, some m) := by
  have hwm := merge_wellTyped old new ho hn m d hm
  obtain ⟨d2, m2, h2, hdd2, hm2⟩ := updateMeta_spec m new hwm hn hsm hsn
  have hd2 : d2 = false := by
    cases hb : d2
    · rfl
    · obtain ⟨f, hf, c1, c2, c3⟩ := hdd2.1 hb
      rw [hm f] at c3
      have hne : new f ≠ .none := by intro e; rw [e] at c2; exact c2
      simp [hne, overlay, c2, pyEq_refl] at c3
  subst hd2
  rw [h2]
  congr 3
  funext f
  rw [hm2 f]
  simp only [Bool.false_eq_true, false_and, if_false, overlay]
  split
  · rename_i hc
    rw [hm f]
    have hne : new f ≠ .none := by intro e; rw [e] at hc; exact hc
    simp [hne, overlay, hc]
  · rename_i hc
    by_cases hfo : f = .old_id
    · subst hfo
      unfold withOldId
      split
      · rfl
      · rename_i hne
        rw [setField_self, hm .old_id, hm .id]
        rw [hm .id] at hne
        simp only [overlay, hc, if_false, ne_eq, not_true_eq_false, false_and, and_false] at hne ⊢
        by_cases hcid : Carries (new .id)
        · exfalso
          have hni : new .id ≠ .none := by intro e; rw [e] at hcid; exact hcid
          simp [hcid, hni, pyEq_refl] at hne
        · by_cases hni : d = true ∧ new .id = .none
          · exfalso
            simp [hni, pyEq] at hne
          · have hni' : ¬(d = true ∧ ¬Field.id = Field.old_id ∧ new .id = .none) := fun h => hni ⟨h.1, h.2.2⟩
            simp only [hni', hcid, if_false] at hne ⊢
            rw [withOldId_ne old new (by decide)] at hne ⊢
            simp [withOldId, hne, setField_self]
    · rw [withOldId_ne m new hfo]

/-- **C26**, exactly when it holds: merging the same new metadata a second time changes nothing, unless the new metadata has an empty
text for its id and nothing else that could be taken over, and the old metadata has nothing but an `old_id`. -/
theorem C26_converges_iff (old new : Meta) (ho : WellTyped old) (hn : WellTyped new)
    (hso : SomethingSet old) (hsn : SomethingSet new) :
    ∃ d m, updateMeta (some old) (some new) = .ok (d, some m) ∧
      (updateMeta (some m) (some new) = .ok (false, some m) ↔
        ¬ (new .id = .str [] ∧ (∀ f, ¬ Carries (new f)) ∧ (∀ f, f ≠ .old_id → f ≠ .errors → old f = .none) ∧ ¬ Carries (old .errors))) := by
  obtain ⟨d, m, h, hdd, hm⟩ := updateMeta_spec old new ho hn hso hsn
  refine ⟨d, m, h, ?_⟩
  constructor
  · rintro hagain ⟨hid, hnc, hof, hoe⟩
    have hd : d = false := by
      cases hb : d with
      | false => rfl
      | true => obtain ⟨f, -, -, h2, -⟩ := hdd.1 hb; exact absurd h2 (hnc f)
    subst hd
    have hmf : ∀ f, m f = withOldId old new f := by
      intro f; rw [hm f]; simp [overlay, hnc f]
    have hoid : old .id = .none := hof .id (by decide) (by decide)
    have hbool : metaBool m = false := by
      rw [metaBool, List.any_eq_false]
      intro f _
      split
      · next hf =>
        subst hf
        rw [hmf, withOldId_ne old new (by decide)]
        have := ho .errors
        cases he : old .errors <;> simp [he, HasType, Carries, PyVal.truthy] at this hoe ⊢
        simp [hoe]
      · next hf =>
        by_cases hfo : f = .old_id
        · subst hfo
          rw [hmf]
          simp [withOldId, hid, hoid, pyEq, setField_self]
        · rw [hmf, withOldId_ne old new hfo, hof f hfo hf]; simp
    have hidm : m .id = .none := by rw [hmf, withOldId_ne old new (by decide), hoid]
    simp only [updateMeta, hbool, Bool.not_false, if_true, Except.ok.injEq, Prod.mk.injEq, Option.some.injEq, true_and] at hagain
    rw [← hagain, hid] at hidm
    exact nomatch hidm
  · intro hno
    refine merge_again old new m d ho hn hsn hm ?_
    refine Classical.byContradiction fun hns => hno ?_
    have hmn : ∀ f, f ≠ .errors → m f = .none := fun f hf => Classical.byContradiction fun hc => hns (.inl ⟨f, hf, hc⟩)
    have hme : ¬ Carries (m .errors) := fun hc => hns (.inr hc)
    have hnc : ∀ f, ¬ Carries (new f) := by
      intro f hc
      have hne : new f ≠ .none := by intro e; rw [e] at hc; exact hc
      have hmf : m f = new f := by rw [hm f]; simp [hne, overlay, hc]
      by_cases hf : f = .errors
      · subst hf; rw [hmf] at hme; exact hme hc
      · exact hne (hmf ▸ hmn f hf)
    have hd : d = false := by
      cases hb : d with
      | false => rfl
      | true => obtain ⟨f, -, -, h2, -⟩ := hdd.1 hb; exact absurd h2 (hnc f)
    subst hd
    have hmf : ∀ f, m f = withOldId old new f := by
      intro f; rw [hm f]; simp [overlay, hnc f]
    have hof : ∀ f, f ≠ .old_id → f ≠ .errors → old f = .none := fun f h1 h2 => by
      rw [← withOldId_ne old new h1, ← hmf, hmn f h2]
    have hoe : ¬ Carries (old .errors) := by
      rw [← withOldId_ne old new (show Field.errors ≠ .old_id by decide), ← hmf]; exact hme
    refine ⟨?_, hnc, hof, hoe⟩
    have hoo : old .old_id ≠ .none := by
      rcases hso with ⟨f, hf, hv⟩ | he
      · by_cases hfo : f = .old_id
        · rw [← hfo]; exact hv
        · exact absurd (hof f hfo hf) hv
      · exact absurd he hoe
    have hoid : old .id = .none := hof .id (by decide) (by decide)
    have hmo := hmn .old_id (by decide)
    rw [hmf] at hmo
    have hni : new .id ≠ .none := by
      intro e
      simp [withOldId, hoid, e, pyEq] at hmo
      exact hoo hmo
    have := hn .id
    have hc := hnc .id
    cases hv : new .id <;> simp [hv, HasType, Carries] at this hc hni ⊢
    exact hc

end Verif
