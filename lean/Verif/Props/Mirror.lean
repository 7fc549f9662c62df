import Verif.Model.Mirror
import Verif.Props.PrimaryMeta
import Verif.Props.Yields
import Verif.Lemmas.Decide

/-!
# C124: the tree that a recursive bootstrap makes
-/

namespace Verif.Cache
open Verif.FS Verif.Spec
variable (C : PEnv) {q : Path} {d0 : Disk CObj}

theorem setMeta_fresh (m : Meta) (hm : metaBool m = true) {mp : Option Meta} (hp : d0.at_ q.dropLast = some (.dir mp))
    (hq : d0.at_ q = none) :
    Hoare (fun d => d = d0) (C.setMeta q (some m))
      (fun _ d => OnlyAt q d0 d ∧ d.at_ q = some (if C.remoteIsDir then .dir (laid none m) else .link (some m)))
      (fun e d => (∃ n, C.F n = some e) ∧ OnlyAt q d0 d ∧
        (d.at_ q = none ∨ C.remoteIsDir = true ∧ ∃ o, PartlyLaid none m o ∧ d.at_ q = some (.dir o))) := by
  have hcr : ∀ x, d0.create q x = .ok (d0.put q x) := by
    intro x; simp [Disk.create, hq, hp, Kinded.isDir]
  have herr : ∀ (α : Type) (a : α) (e : PyErr) (d : Disk CObj), d = d0 → (∃ n, C.F n = some e) ∨ (Except.ok a : Except PyErr α) = .error e →
      (∃ n, C.F n = some e) ∧ OnlyAt q d0 d ∧
        (d.at_ q = none ∨ C.remoteIsDir = true ∧ ∃ o, PartlyLaid none m o ∧ d.at_ q = some (.dir o)) := by
    rintro α a e d rfl (h | h)
    · exact ⟨h, .refl _ _, .inl hq⟩
    · simp at h
  rw [setMeta_unfold C m hm]
  refine .bind_ (Q := fun ex d => ex = false ∧ d = d0) (.look_err ?_ (fun e d hd h => herr _ _ e d hd h)) fun ex => .of_pre fun hex => ?_
  · rintro d a rfl h
    simp only [Except.ok.injEq] at h
    exact ⟨h ▸ not_there_none hq, rfl⟩
  subst hex
  simp only [Bool.false_eq_true, if_false]
  cases hr : C.remoteIsDir with
  | true =>
    rw [hr] at herr
    refine .bind_ (Q := fun _ d => OnlyAt q d0 d ∧ d.at_ q = some (.dir none)) ?_ fun _ => ?_
    · unfold PEnv.prepare
      rw [if_pos hr]
      refine .bind_ (Q := fun ex d => ex = false ∧ d = d0) (.look_err ?_ (fun e d hd h => herr _ _ e d hd h)) fun ex => .of_pre fun hex => ?_
      · rintro d a rfl h
        simp only [Except.ok.injEq] at h
        exact ⟨h ▸ not_there_none hq, rfl⟩
      subst hex
      refine .act_err ?_ ?_
      · rintro d d' rfl h
        rw [hcr] at h
        simp only [Except.ok.injEq] at h
        subst h
        exact ⟨(OnlyAt.refl _ _).put _, at_put_self _ _ _⟩
      · rintro e d rfl h
        rw [hcr] at h
        exact herr _ _ e d rfl h
    · refine .bind_ (Q := fun ex d => ex = true ∧ OnlyAt q d0 d ∧ d.at_ q = some (.dir none)) (.look_err ?_ ?_) fun ex => .of_pre fun hex => ?_
      · rintro d a ⟨h1, h2⟩ h
        simp only [Except.ok.injEq] at h
        exact ⟨h ▸ there_holder .dir h2, h1, h2⟩
      · rintro e d ⟨h1, h2⟩ (h | h)
        · exact ⟨h, h1, .inr ⟨rfl, none, fun _ => .inl rfl, h2⟩⟩
        · simp at h
      subst hex
      simp only [if_true]
      exact (setXattrs_holder C .dir m).mono (fun _ h => h) (fun _ _ h => h) (fun _ _ h => ⟨h.1, h.2.1, .inr ⟨trivial, h.2.2⟩⟩)
  | false =>
    rw [hr] at herr
    refine .bind_ (Q := fun _ d => d = d0) ?_ fun _ => ?_
    · unfold PEnv.prepare
      rw [if_neg (by simp [hr])]
      refine .bind_ (Q := fun ex d => ex = true ∧ d = d0) (.look_err ?_ (fun e d hd h => herr _ _ e d hd h)) fun ex => .of_pre fun hex => ?_
      · rintro d a rfl h
        simp only [Except.ok.injEq] at h
        exact ⟨h ▸ there_holder .dir hp, rfl⟩
      subst hex
      exact .pure_ fun _ h => h
    · refine .bind_ (Q := fun ex d => ex = false ∧ d = d0) (.look_err ?_ (fun e d hd h => herr _ _ e d hd h)) fun ex => .of_pre fun hex => ?_
      · rintro d a rfl h
        simp only [Except.ok.injEq] at h
        exact ⟨h ▸ not_there_none hq, rfl⟩
      subst hex
      simp only [Bool.false_eq_true, if_false]
      unfold PEnv.setLink
      refine .bind_ (Q := fun o d => o = none ∧ d = d0) (.look_err ?_ (fun e d hd h => by simpa using herr _ _ e d hd h)) fun o => .of_pre fun ho => ?_
      · rintro d a rfl h
        simp only [Except.ok.injEq] at h
        exact ⟨h ▸ hq, rfl⟩
      subst ho
      refine .act_err ?_ ?_
      · rintro d d' rfl h
        rw [hcr] at h
        simp only [Except.ok.injEq] at h
        subst h
        exact ⟨(OnlyAt.refl _ _).put _, at_put_self _ _ _⟩
      · rintro e d rfl h
        rw [hcr] at h
        simpa using herr _ _ e d rfl h

/-- A link whose metadata need not be replaced. -/
theorem setMeta_keep {old : Meta} (m : Meta) (hm : metaBool m = true) (hr : C.remoteIsDir = false) (hrep : C.replace old m = .ok false)
    {mp : Option Meta} (hp : d0.at_ q.dropLast = some (.dir mp)) (hq : d0.at_ q = some (.link (some old))) :
    Hoare (fun d => d = d0) (C.setMeta q (some m)) (fun _ d => d = d0) (fun e d => (∃ n, C.F n = some e) ∧ d = d0) := by
  have herr : ∀ (α : Type) (a : α) (e : PyErr) (d : Disk CObj), d = d0 → (∃ n, C.F n = some e) ∨ (Except.ok a : Except PyErr α) = .error e →
      (∃ n, C.F n = some e) ∧ d = d0 := by
    rintro α a e d rfl (h | h)
    · exact ⟨h, rfl⟩
    · simp at h
  rw [setMeta_unfold C m hm]
  refine .bind_ (Q := fun ex d => ex = false ∧ d = d0) (.look_err ?_ (fun e d hd h => herr _ _ e d hd h)) fun ex => .of_pre fun hex => ?_
  · rintro d a rfl h
    simp only [Except.ok.injEq] at h
    exact ⟨h ▸ not_there_link hq, rfl⟩
  subst hex
  simp only [Bool.false_eq_true, if_false]
  refine .bind_ (Q := fun _ d => d = d0) ?_ fun _ => ?_
  · unfold PEnv.prepare
    rw [if_neg (by simp [hr])]
    refine .bind_ (Q := fun ex d => ex = true ∧ d = d0) (.look_err ?_ (fun e d hd h => herr _ _ e d hd h)) fun ex => .of_pre fun hex => ?_
    · rintro d a rfl h
      simp only [Except.ok.injEq] at h
      exact ⟨h ▸ there_holder .dir hp, rfl⟩
    subst hex
    exact .pure_ fun _ h => h
  · refine .bind_ (Q := fun ex d => ex = false ∧ d = d0) (.look_err ?_ (fun e d hd h => herr _ _ e d hd h)) fun ex => .of_pre fun hex => ?_
    · rintro d a rfl h
      simp only [Except.ok.injEq] at h
      exact ⟨h ▸ not_there_link hq, rfl⟩
    subst hex
    simp only [Bool.false_eq_true, if_false]
    unfold PEnv.setLink
    refine .bind_ (Q := fun o d => o = some (.link (some old)) ∧ d = d0) (.look_err ?_ (fun e d hd h => herr _ _ e d hd h)) fun o => .of_pre fun ho => ?_
    · rintro d a rfl h
      simp only [Except.ok.injEq] at h
      exact ⟨h ▸ hq, rfl⟩
    subst ho
    simp only [hrep]
    exact .pure_ fun _ h => h

open Verif.Yields Verif.Sweep

/-- Whether the cache of a remote object is as it should be: a directory that shows the metadata, or a symlink that holds them. -/
def Done (a : Path) (d : Disk CObj) (c : Child) : Prop :=
  (c.shape = .dir ∧ ∃ o, d.at_ (a ++ c.path) = some (.dir o) ∧ Overlaid none c.info o) ∨
  (c.shape = .file ∧ d.at_ (a ++ c.path) = some (.link (some c.info)))

/-- Nothing is at the place of a remote object yet, or a bootstrap was interrupted there, or it is done. -/
def Ready (a : Path) (d : Disk CObj) (c : Child) : Prop :=
  d.at_ (a ++ c.path) = none ∨
  (c.shape = .dir ∧ ∃ o, d.at_ (a ++ c.path) = some (.dir o) ∧ PartlyLaid none c.info o) ∨
  (c.shape = .file ∧ d.at_ (a ++ c.path) = some (.link (some c.info)))

theorem Overlaid.partly {mo : Option Meta} {m : Meta} {o : Option Meta} (h : Overlaid mo m o) : PartlyLaid mo m o := fun f => by
  rw [h f]
  split
  · exact .inr ⟨‹_›, rfl⟩
  · exact .inl rfl

theorem Done.ready {a : Path} {d : Disk CObj} {c : Child} (h : Done a d c) : Ready a d c := by
  rcases h with ⟨h1, o, h2, h3⟩ | h
  · exact .inr (.inl ⟨h1, o, h2, h3.partly⟩)
  · exact .inr (.inr h)

theorem storable_iff (v : PyVal) : Storable v ↔ Spec.Carries v := by
  rw [← carries_iff]
  simp [Storable]

theorem unset_typed (f : Field) : HasType f (unset f) := by cases f <;> simp [unset, HasType]

theorem errors_strs {m : Meta} (h : WellTyped m) : ∃ l, m .errors = .strs l := by
  have := h .errors
  cases he : m .errors <;> simp [he, HasType] at this
  exact ⟨_, rfl⟩

/-- The metadata of the remote, added to a part of them. -/
theorem update_part {o info : Meta} (hw : WellTyped info) (hs : SomethingSet info) (hp : PartlyLaid none info (some o)) (hb : metaBool o = true) :
    ∃ m, updateMeta (some o) (some info) = .ok (false, some m) ∧ metaBool m = true ∧ Overlaid none info (laid (some o) m) ∧
      ∀ f, m f = if Storable (info f) then info f else unset f := by
  have how : WellTyped o := fun f => by
    rcases hp f with h | h
    · simp only [shownField] at h
      rw [h]; exact unset_typed f
    · have := h.2
      simp only [shownField] at this
      rw [this]; exact hw f
  have hso := (metaBool_iff o (errors_strs how)).1 hb
  obtain ⟨d, m, h, hd, hm⟩ := updateMeta_spec o info how hw hso hs
  have hdf : d = false := by
    cases hb : d with
    | false => rfl
    | true =>
      obtain ⟨f, hf, c1, c2, c3⟩ := hd.1 hb
      rcases hp f with h | h
      · simp only [shownField] at h
        have hfe : f ≠ .errors := by
          rintro rfl
          simp [IsContentField] at hf
        simp [h, unset, hfe] at c1
      · have := h.2
        simp only [shownField] at this
        simp [this, pyEq_refl] at c3
  subst hdf
  simp only [Bool.false_eq_true, false_and, if_false] at hm
  have hov : ∀ f, m f = if Storable (info f) then info f else unset f := by
    intro f
    rw [hm f, overlay]
    by_cases hst : Storable (info f)
    · rw [if_pos hst, if_pos ((storable_iff _).1 hst)]
    · rw [if_neg hst, if_neg (fun h => hst ((storable_iff _).2 h))]
      have hof : ∀ g, ¬ Storable (info g) → o g = unset g := fun g hg => by
        rcases hp g with h | h
        · exact h
        · exact absurd h.1 hg
      by_cases hfo : f = .old_id
      · subst hfo
        unfold withOldId
        split
        · exact hof _ hst
        · rename_i hne
          simp only [Verif.setField, if_true]
          rcases hp .id with h | h
          · exact h
          · have := h.2
            simp only [shownField] at this
            simp [this, pyEq_refl] at hne
      · rw [withOldId_ne _ _ hfo]
        exact hof _ hst
  refine ⟨m, h, ?_, fun f => ?_, hov⟩
  · have hwm := merge_wellTyped o info how hw m false (by simpa using hm)
    refine (metaBool_iff m (errors_strs hwm)).2 ?_
    rcases hso with ⟨f, h1, h2⟩ | h
    · rcases hp f with h | ⟨hst, h⟩
      · exact absurd h (by simpa [shownField, unset, h1] using h2)
      · refine .inl ⟨f, h1, ?_⟩
        rw [hov f, if_pos hst]
        exact hst.1
    · rcases hp .errors with h' | ⟨hst, h'⟩
      · simp only [shownField] at h'
        rw [h'] at h
        simp [unset, Spec.Carries] at h
      · right
        rw [hov, if_pos hst]
        exact (storable_iff _).1 hst
  · rw [overlaid_laid (some o) m f, hov f]
    have hof : ¬ Storable (info f) → o f = unset f := fun hg => by
      rcases hp f with h | h
      · exact h
      · exact absurd h.1 hg
    by_cases hst : Storable (info f)
    · simp [hst]
    · simp [hst, shownField, hof hst]

variable {a : Path} {c : Child} {S : Sent}

/-- What comes out when a call fails: an `AttributeError` becomes another one. -/
def PEnv.Raised (C : PEnv) (e : PyErr) : Prop := ∃ n e', C.F n = some e' ∧ (e = e' ∨ e' = .attributeError ∧ e = .augPathlibError)

theorem PEnv.Raised.of {C : PEnv} {e : PyErr} : (∃ n, C.F n = some e) → C.Raised e := fun ⟨n, h⟩ => ⟨n, e, h, .inl rfl⟩

/-- Only the kind of an error changes when a cache is made. -/
theorem makeChild_hoare (C : PEnv) {q : Path} {info : Meta} {P Q : Disk CObj → Prop} {R : PyErr → Disk CObj → Prop}
    (h : Hoare P (C.metaUpdater q info true) (fun _ => Q) R) :
    Hoare P (C.makeChild q info) (fun p d => p = q ∧ Q d) (fun e d => ∃ e', R e' d ∧ (e = e' ∨ e' = .attributeError ∧ e = .augPathlibError)) :=
  .try_ (.bind_ h fun _ => .pure_ fun _ h => ⟨rfl, h⟩) fun e =>
    .ite_ (fun he => .throw_ fun _ h => ⟨e, h, .inr ⟨he, rfl⟩⟩) fun _ => .throw_ fun _ h => ⟨e, h, .inl rfl⟩

/-- Updating the metadata of the cache of a remote object. -/
theorem childInit_stays (hw : c.Sound) (hk : c.shape = .dir ∨ c.shape = .file) (hrep : C.replace c.info c.info = .ok false)
    {mp : Option Meta} (hp : d0.at_ (a ++ c.path).dropLast = some (.dir mp)) (hr : Ready a d0 c) :
    Hoare (fun d => d = d0) (C.childInit S a c)
      (fun p d => p = a ++ c.path ∧ OnlyAt (a ++ c.path) d0 d ∧ Done a d c)
      (fun e d => C.Raised e ∧ OnlyAt (a ++ c.path) d0 d ∧ Ready a d c ∧ (d0.at_ (a ++ c.path) ≠ none → d.at_ (a ++ c.path) ≠ none)) := by
  have hset := sound_set hw
  have hmb : metaBool c.info = true := (metaBool_iff _ (errors_strs hw.2.1)).2 hset
  refine (makeChild_hoare (C.of S c) (Q := fun d => OnlyAt (a ++ c.path) d0 d ∧ Done a d c)
    (R := fun e d => (∃ n, C.F n = some e) ∧ OnlyAt (a ++ c.path) d0 d ∧ Ready a d c ∧ (d0.at_ (a ++ c.path) ≠ none → d.at_ (a ++ c.path) ≠ none)) ?_).mono (fun _ h => h) (fun _ _ h => h)
    (fun e d ⟨e', ⟨⟨n, h1⟩, h2⟩, h3⟩ => ⟨⟨n, e', h1, h3⟩, h2⟩)
  unfold PEnv.metaUpdater
  rcases hr with hn | ⟨hdir, o, ho, hpl⟩ | ⟨hfile, hl⟩
  · refine .bind_ (Q := fun mo d => mo = none ∧ d = d0) ?_ fun mo => .of_pre fun hmo => ?_
    · refine .look_err ?_ ?_
      · rintro d x rfl h
        rw [hn] at h
        simp only [Except.ok.injEq] at h
        exact ⟨h.symm, rfl⟩
      · rintro e d rfl (h | h)
        · exact ⟨h, .refl _ _, .inl hn, id⟩
        · rw [hn] at h; simp at h
    · subst hmo
      simp only [updateMeta, Bool.false_eq_true, if_false]
      refine .bind_ (Q := fun b d => b = false ∧ d = d0) (.pure_ fun d h => ⟨rfl, h⟩) fun b => .of_pre fun hb => ?_
      subst hb
      simp only [Bool.false_and, Bool.false_eq_true, if_false]
      refine .bind_ (Q := fun _ d => OnlyAt (a ++ c.path) d0 d ∧ Done a d c) ?_ fun _ => .pure_ fun d h => h
      refine (setMeta_fresh (C.of S c) c.info hmb hp hn).mono (fun _ h => h) ?_ ?_
      · rintro _ d ⟨h1, h2⟩
        refine ⟨h1, ?_⟩
        rcases hk with hk | hk
        · have : (C.of S c).remoteIsDir = true := by simp [PEnv.of, Child.dir, hk]
          rw [this, if_pos rfl] at h2
          exact .inl ⟨hk, _, h2, overlaid_laid _ _⟩
        · have : (C.of S c).remoteIsDir = false := by simp [PEnv.of, Child.dir, hk]
          rw [this, if_neg (by simp)] at h2
          exact .inr ⟨hk, h2⟩
      · rintro e d ⟨h1, h2, h3⟩
        refine ⟨h1, h2, ?_, fun h => absurd hn h⟩
        rcases h3 with h3 | ⟨h3, o, h4, h5⟩
        · exact .inl h3
        · exact .inr (.inl ⟨by simpa [PEnv.of, Child.dir] using h3, o, h5, h4⟩)
  · refine .bind_ (Q := fun mo d => (mo = none ∨ ∃ w, mo = some w ∧ o = some w ∧ metaBool w = true) ∧ d = d0) ?_ fun mo => .of_pre fun hmo => ?_
    · refine .look_err ?_ ?_
      · rintro d x rfl h
        rw [ho] at h
        refine ⟨?_, rfl⟩
        cases o with
        | none =>
          simp only [Except.ok.injEq] at h
          exact .inl h.symm
        | some w =>
          simp only [Except.ok.injEq] at h
          split at h
          · exact .inr ⟨w, h.symm, rfl, ‹_›⟩
          · exact .inl h.symm
      · rintro e d rfl (h | h)
        · exact ⟨h, .refl _ _, .inr (.inl ⟨hdir, o, ho, hpl⟩), id⟩
        · rw [ho] at h; cases o <;> simp at h
    have hup : ∃ m, updateMeta mo (some c.info) = .ok (false, some m) ∧ metaBool m = true ∧ Overlaid none c.info (laid o m) ∧
        ∀ x, PartlyLaid o m x → PartlyLaid none c.info x := by
      rcases hmo with rfl | ⟨w, rfl, rfl, hb⟩
      · refine ⟨c.info, rfl, hmb, fun f => ?_, fun x hx f => ?_⟩
        · rw [overlaid_laid o c.info f]
          rcases hpl f with h | h
          · rw [h]
          · simp [h.1]
        · rcases hx f with h | h
          · rw [h]
            exact hpl f
          · exact .inr h
      · obtain ⟨m, h1, h2, h3, h4⟩ := update_part hw.2.1 hset hpl hb
        refine ⟨m, h1, h2, h3, fun x hx f => ?_⟩
        rcases hx f with h | h
        · rw [h]
          exact hpl f
        · rw [h.2, h4 f]
          split
          · exact .inr ⟨‹_›, rfl⟩
          · exact .inl rfl
    obtain ⟨m, h1, h2, h3, h4⟩ := hup
    rw [h1]
    dsimp only
    refine .bind_ (Q := fun b d => b = false ∧ d = d0) (.pure_ fun d h => ⟨rfl, h⟩) fun b => .of_pre fun hb => ?_
    subst hb
    simp only [Bool.false_and, Bool.false_eq_true, if_false]
    refine .bind_ (Q := fun _ d => OnlyAt (a ++ c.path) d0 d ∧ Done a d c) ?_ fun _ => .pure_ fun d h => h
    refine (setMeta_holder (C.of S c) (d0 := d0) .dir (mo := o) m h2).mono ?_ ?_ ?_
    · rintro d rfl
      exact ⟨.refl _ _, ho⟩
    · rintro _ d ⟨g1, g2⟩
      exact ⟨g1, .inl ⟨hdir, _, g2, h3⟩⟩
    · rintro e d ⟨g1, g2, x, g3, g4⟩
      exact ⟨g1, g2, .inr (.inl ⟨hdir, x, g4, h4 x g3⟩), fun _ => by rw [g4]; simp [Holder.obj]⟩
  · have hrd : (C.of S c).remoteIsDir = false := by simp [PEnv.of, Child.dir, hfile]
    refine .bind_ (Q := fun mo d => mo = some c.info ∧ d = d0) ?_ fun mo => .of_pre fun hmo => ?_
    · refine .look_err ?_ ?_
      · rintro d x rfl h
        rw [hl] at h
        simp only [Except.ok.injEq] at h
        exact ⟨h.symm, rfl⟩
      · rintro e d rfl (h | h)
        · exact ⟨h, .refl _ _, .inr (.inr ⟨hfile, hl⟩), id⟩
        · rw [hl] at h; simp at h
    · subst hmo
      rw [C26_self _ hw.2.1 hset]
      dsimp only
      refine .bind_ (Q := fun b d => b = false ∧ d = d0) (.pure_ fun d h => ⟨rfl, h⟩) fun b => .of_pre fun hb => ?_
      subst hb
      simp only [Bool.false_and, Bool.false_eq_true, if_false]
      refine .bind_ (Q := fun _ d => OnlyAt (a ++ c.path) d0 d ∧ Done a d c) ?_ fun _ => .pure_ fun d h => h
      refine (setMeta_keep (C.of S c) c.info hmb hrd hrep hp hl).mono (fun _ h => h) ?_ ?_
      · rintro _ d rfl
        exact ⟨.refl _ _, .inr ⟨hfile, hl⟩⟩
      · rintro e d ⟨h1, rfl⟩
        exact ⟨h1, .refl _ _, .inr (.inr ⟨hfile, hl⟩), id⟩

theorem childInit_hoare (hw : c.Sound) (hk : c.shape = .dir ∨ c.shape = .file) (hrep : C.replace c.info c.info = .ok false)
    {mp : Option Meta} (hp : d0.at_ (a ++ c.path).dropLast = some (.dir mp)) (hr : Ready a d0 c) :
    Hoare (fun d => d = d0) (C.childInit S a c)
      (fun p d => p = a ++ c.path ∧ OnlyAt (a ++ c.path) d0 d ∧ Done a d c)
      (fun e d => C.Raised e ∧ OnlyAt (a ++ c.path) d0 d ∧ Ready a d c) :=
  (childInit_stays C hw hk hrep hp hr).mono (fun _ h => h) (fun _ _ h => h) fun _ _ h => ⟨h.1, h.2.1, h.2.2.1⟩

/-- What is known about files by their ids: if there is one for a remote file, it is the symlink that belongs there. -/
def Known (a : Path) (files : List (Rel × Option Id)) (d : Disk CObj) (c : Child) : Prop :=
  c.shape = .file → ∀ p, lookup files c.id = some p → p = c.path ∧ d.at_ (a ++ c.path) = some (.link (some c.info))

theorem strapOne_hoare {files : List (Rel × Option Id)} (hw : c.Sound) (hk : c.shape = .dir ∨ c.shape = .file) (hlink : c.link = none)
    (hrep : C.replace c.info c.info = .ok false) {mp : Option Meta} (hp : d0.at_ (a ++ c.path).dropLast = some (.dir mp))
    (hr : Ready a d0 c) (hfiles : Known a files d0 c) :
    Hoare (fun d => d = d0) (C.strapOne S a files c)
      (fun p d => p = a ++ c.path ∧ OnlyAt (a ++ c.path) d0 d ∧ Done a d c)
      (fun e d => C.Raised e ∧ OnlyAt (a ++ c.path) d0 d ∧ Ready a d c) := by
  have hinit := childInit_hoare C (S := S) hw hk hrep hp hr
  unfold PEnv.strapOne
  simp only [hlink]
  refine .ite_ (fun hf => ?_) fun _ => hinit
  have hf : c.shape = .file := by simpa [Child.file] using hf
  cases hlk : lookup files c.id with
  | none => exact hinit
  | some p =>
    obtain ⟨rfl, hl⟩ := hfiles hf p hlk
    dsimp only
    refine .bind_ (Q := fun mo d => mo = some c.info ∧ d = d0) ?_ fun mo => .of_pre fun hmo => ?_
    · refine .look_err ?_ ?_
      · rintro d x rfl h
        rw [hl] at h
        simp only [Except.ok.injEq] at h
        exact ⟨h.symm, rfl⟩
      · rintro e d rfl (h | h)
        · exact ⟨.of h, .refl _ _, hr⟩
        · rw [hl] at h; simp at h
    · subst hmo
      dsimp only
      rw [C26_self _ hw.2.1 (sound_set hw)]
      simp only [Bool.false_eq_true, if_false]
      refine .pure_ ?_
      rintro d rfl
      exact ⟨rfl, .refl _ _, .inr ⟨hf, hl⟩⟩

/-- Remote objects that can be mirrored. -/
structure Fit (C : PEnv) (c : Child) : Prop where
  sound : c.Sound
  shape : c.shape = .dir ∨ c.shape = .file
  link : c.link = none
  path : c.path ≠ []
  same : C.replace c.info c.info = .ok false

/-- Everything but the places of these objects is as it was. -/
def Elsewhere (a : Path) (cs : List Child) (d0 d : Disk CObj) : Prop :=
  ∀ p, (∀ c ∈ cs, p ≠ a ++ c.path) → d.at_ p = d0.at_ p

theorem at_parent {d : Disk CObj} {ds : List Child} (hroot : ∃ m, d.at_ a = some (.dir m)) (hdone : ∀ x ∈ ds, Done a d x) (hne : c.path ≠ [])
    (h : c.path.dropLast = [] ∨ ∃ x ∈ ds, x.shape = .dir ∧ x.path = c.path.dropLast) :
    ∃ m, d.at_ (a ++ c.path).dropLast = some (.dir m) := by
  rw [List.dropLast_append_of_ne_nil hne]
  rcases h with h | ⟨x, hx, hs, h⟩
  · rw [h, List.append_nil]
    exact hroot
  · rw [← h]
    rcases hdone x hx with ⟨-, o, ho, -⟩ | ⟨hf, -⟩
    · exact ⟨o, ho⟩
    · rw [hs] at hf
      simp at hf

/-- Each object comes after the directory that it is in. -/
def ParentsFirst : List Child → List Child → Prop
  | _, [] => True
  | ds, c :: cs => (c.path.dropLast = [] ∨ ∃ x ∈ ds, x.shape = .dir ∧ x.path = c.path.dropLast) ∧ ParentsFirst (c :: ds) cs

theorem ready_elsewhere {x : Child} {d d' : Disk CObj} (h : OnlyAt (a ++ c.path) d d') (hne : x.path ≠ c.path) (hx : Ready a d x) : Ready a d' x := by
  have : d'.at_ (a ++ x.path) = d.at_ (a ++ x.path) := h _ fun h => hne (List.append_cancel_left h)
  unfold Ready
  rw [this]
  exact hx

theorem done_elsewhere {x : Child} {d d' : Disk CObj} (h : OnlyAt (a ++ c.path) d d') (hne : x.path ≠ c.path) (hx : Done a d x) : Done a d' x := by
  have : d'.at_ (a ++ x.path) = d.at_ (a ++ x.path) := h _ fun h => hne (List.append_cancel_left h)
  unfold Done
  rw [this]
  exact hx

theorem known_elsewhere {x : Child} {files : List (Rel × Option Id)} {d d' : Disk CObj} (h : OnlyAt (a ++ c.path) d d') (hne : x.path ≠ c.path)
    (hx : Known a files d x) : Known a files d' x := by
  have : d'.at_ (a ++ x.path) = d.at_ (a ++ x.path) := h _ fun h => hne (List.append_cancel_left h)
  unfold Known
  rw [this]
  exact hx

theorem strapLoop_hoare {files : List (Rel × Option Id)} : ∀ (cs ds : List Child) (d0 : Disk CObj), (∀ c ∈ cs, Fit C c) → ParentsFirst ds cs →
    (ds ++ cs).Pairwise (fun x y => x.path ≠ y.path) → (∃ m, d0.at_ a = some (.dir m)) → (∀ x ∈ ds, Done a d0 x) →
    (∀ c ∈ cs, Ready a d0 c ∧ Known a files d0 c) →
    Hoare (fun d => d = d0) (C.strapLoop S a files cs)
      (fun ps d => ps = cs.map (fun c => a ++ c.path) ∧ Elsewhere a cs d0 d ∧ ∀ c ∈ ds ++ cs, Done a d c)
      (fun e d => C.Raised e ∧ Elsewhere a cs d0 d ∧ ∃ k, ∃ r, cs = k ++ r ∧ (∀ c ∈ ds ++ k, Done a d c) ∧ ∀ c ∈ r, Ready a d c)
  | [], ds, d0, _, _, _, _, hdone, _ => by
    refine .pure_ ?_
    rintro d rfl
    exact ⟨rfl, fun _ _ => rfl, by simpa using hdone⟩
  | c :: cs, ds, d0, hfit, hord, hpw, hroot, hdone, hready => by
    have hf := hfit c List.mem_cons_self
    obtain ⟨mp, hp⟩ := at_parent hroot hdone hf.path hord.1
    have hpw' := List.pairwise_append.1 hpw
    have hone := strapOne_hoare C (S := S) hf.sound hf.shape hf.link hf.same hp (hready c List.mem_cons_self).1 (hready c List.mem_cons_self).2
    have hcs : ∀ x ∈ cs, x.path ≠ c.path := fun x hx => ((List.pairwise_cons.1 hpw'.2.1).1 x hx).symm
    have hds : ∀ x ∈ ds, x.path ≠ c.path := fun x hx => hpw'.2.2 x hx c List.mem_cons_self
    refine .bind_ (Q := fun p d => p = a ++ c.path ∧ OnlyAt (a ++ c.path) d0 d ∧ Done a d c) (hone.mono (fun _ h => h) (fun _ _ h => h) ?_)
      fun p => .of_pre fun hpe => ?_
    · rintro e d ⟨h1, h2, h3⟩
      refine ⟨h1, fun p hp => h2 p (hp c List.mem_cons_self), [], c :: cs, rfl, ?_, ?_⟩
      · intro x hx
        rw [List.append_nil] at hx
        exact done_elsewhere h2 (hds x hx) (hdone x hx)
      · intro x hx
        rcases List.mem_cons.1 hx with rfl | hx
        · exact h3
        · exact ready_elsewhere h2 (hcs x hx) (hready x (List.mem_cons_of_mem _ hx)).1
    · subst hpe
      intro s hs
      obtain ⟨h2, h3⟩ := hs
      have hroot' : ∃ m, s.disk.at_ a = some (.dir m) := by
        obtain ⟨m, hm⟩ := hroot
        refine ⟨m, ?_⟩
        rw [h2 a ?_, hm]
        intro h
        exact hf.path (List.self_eq_append_right.1 h)
      have ih := strapLoop_hoare (files := files) cs (c :: ds) s.disk (fun x hx => hfit x (List.mem_cons_of_mem _ hx)) hord.2 ?_ hroot' ?_ ?_
      · have hels : ∀ d, Elsewhere a cs s.disk d → Elsewhere a (c :: cs) d0 d := fun d h p hp => by
          rw [h p fun x hx => hp x (List.mem_cons_of_mem _ hx), h2 p (hp c List.mem_cons_self)]
        have := Hoare.bind_ (Q' := fun ps d => ps = (c :: cs).map (fun c => a ++ c.path) ∧ Elsewhere a (c :: cs) d0 d ∧ ∀ x ∈ ds ++ c :: cs, Done a d x)
          (f := fun ps => Prog.pure ((a ++ c.path) :: ps))
          (ih.mono (R' := fun e d => C.Raised e ∧ Elsewhere a (c :: cs) d0 d ∧ ∃ k, ∃ r, c :: cs = k ++ r ∧ (∀ x ∈ ds ++ k, Done a d x) ∧ ∀ x ∈ r, Ready a d x)
            (fun _ h => h) (fun _ _ h => h) ?_) ?_
        · exact this s rfl
        · rintro e d ⟨g1, g2, k, r, rfl, g3, g4⟩
          refine ⟨g1, hels d g2, c :: k, r, rfl, fun x hx => g3 x ?_, g4⟩
          simp only [List.mem_append, List.mem_cons] at hx ⊢
          rcases hx with h | h | h <;> simp [h]
        · intro ps
          refine .pure_ ?_
          rintro d ⟨rfl, g2, g3⟩
          refine ⟨rfl, hels d g2, fun x hx => g3 x ?_⟩
          simp only [List.mem_append, List.mem_cons] at hx ⊢
          rcases hx with h | h | h <;> simp [h]
      · refine List.Pairwise.perm hpw ?_ (fun h => Ne.symm h)
        exact List.perm_middle
      · intro x hx
        rcases List.mem_cons.1 hx with rfl | hx
        · exact h3
        · exact done_elsewhere h2 (hds x hx) (hdone x hx)
      · intro x hx
        have := hready x (List.mem_cons_of_mem _ hx)
        exact ⟨ready_elsewhere h2 (hcs x hx) this.1, known_elsewhere h2 (hcs x hx) this.2⟩

/-- A list of remote objects that is a tree below the object that is bootstrapped: all can be mirrored, no two have the same path, and
each is there or in a directory of the list. -/
structure Tree (C : PEnv) (rcs : List Child) : Prop where
  fit : ∀ c ∈ rcs, Fit C c
  apart : rcs.Pairwise fun x y => x.path ≠ y.path
  closed : ∀ c ∈ rcs, c.path.dropLast = [] ∨ ∃ x ∈ rcs, x.shape = .dir ∧ x.path = c.path.dropLast

theorem parentsFirst_of : ∀ (l ds : List Child), (∀ c ∈ l, c.path ≠ []) →
    l.Pairwise (fun x y => ¬ (y.path ≠ [] ∧ y.path <+: x.path ∧ y.path ≠ x.path)) →
    (∀ c ∈ l, c.path.dropLast = [] ∨ ∃ x, (x ∈ ds ∨ x ∈ l) ∧ x.shape = .dir ∧ x.path = c.path.dropLast) → ParentsFirst ds l
  | [], _, _, _, _ => trivial
  | c :: cs, ds, hne, hpw, hcl => by
    have hpw' := List.pairwise_cons.1 hpw
    refine ⟨?_, parentsFirst_of cs (c :: ds) (fun x hx => hne x (List.mem_cons_of_mem _ hx)) hpw'.2 fun x hx => ?_⟩
    · rcases hcl c List.mem_cons_self with h | ⟨x, hx, hs, h⟩
      · exact .inl h
      · have hlen : x.path.length < c.path.length := by
          rw [h, List.length_dropLast]
          have := List.length_pos_iff.2 (hne c List.mem_cons_self)
          omega
        rcases hx with hx | hx
        · exact .inr ⟨x, hx, hs, h⟩
        · rcases List.mem_cons.1 hx with rfl | hx
          · omega
          · by_cases hnil : c.path.dropLast = []
            · exact .inl hnil
            · exfalso
              refine hpw'.1 x hx ⟨h ▸ hnil, h ▸ List.dropLast_prefix _, fun he => ?_⟩
              rw [he] at hlen
              omega
    · rcases hcl x (List.mem_cons_of_mem _ hx) with h | ⟨y, hy, hs, h⟩
      · exact .inl h
      · refine .inr ⟨y, ?_, hs, h⟩
        rcases hy with hy | hy
        · exact .inl (List.mem_cons_of_mem _ hy)
        · rcases List.mem_cons.1 hy with rfl | hy
          · exact .inl List.mem_cons_self
          · exact .inr hy

theorem strap_hoare {C : PEnv} {S : Sent} {a : Path} {files : List (Rel × Option Id)} {rcs : List Child} (ht : Tree C rcs) {d0 : Disk CObj}
    (hroot : ∃ m, d0.at_ a = some (.dir m)) (hready : ∀ c ∈ rcs, Ready a d0 c ∧ Known a files d0 c) :
    Hoare (fun d => d = d0) (C.strap S a files false rcs)
      (fun ps d => ps.Perm (rcs.map fun c => a ++ c.path) ∧ Elsewhere a rcs d0 d ∧ ∀ c ∈ rcs, Done a d c)
      (fun e d => C.Raised e ∧ Elsewhere a rcs d0 d ∧ ∀ c ∈ rcs, Ready a d c) := by
  obtain ⟨hperm, hord, -⟩ := C102_order rcs
  have hmem : ∀ c, c ∈ gen false rcs ↔ c ∈ rcs := fun c => hperm.mem_iff
  have hels : ∀ d, Elsewhere a (gen false rcs) d0 d → Elsewhere a rcs d0 d := fun d h p hp => h p fun c hc => hp c ((hmem c).1 hc)
  refine (strapLoop_hoare C (S := S) (files := files) (gen false rcs) [] d0 (fun c hc => ht.fit c ((hmem c).1 hc)) ?_ ?_ hroot (by simp)
    (fun c hc => hready c ((hmem c).1 hc))).mono (fun _ h => h) ?_ ?_
  · refine parentsFirst_of _ _ (fun c hc => (ht.fit c ((hmem c).1 hc)).path) hord fun c hc => ?_
    refine (ht.closed c ((hmem c).1 hc)).imp_right ?_
    rintro ⟨x, hx, h⟩
    exact ⟨x, .inr ((hmem x).2 hx), h⟩
  · rw [List.nil_append]
    exact List.Pairwise.perm ht.apart hperm.symm (fun h => Ne.symm h)
  · rintro ps d ⟨rfl, h1, h2⟩
    exact ⟨hperm.map _, hels d h1, fun c hc => h2 c (by simpa using (hmem c).2 hc)⟩
  · rintro e d ⟨h1, h2, k, r, hkr, h3, h4⟩
    refine ⟨h1, hels d h2, fun c hc => ?_⟩
    have := (hmem c).2 hc
    rw [hkr] at this
    rcases List.mem_append.1 this with h | h
    · exact (h3 c (by simpa using h)).ready
    · exact h4 c h

section
variable {C : PEnv} {S : Sent} {a : Path} {files : List (Rel × Option Id)} {rcs : List Child} {s : Machine CObj}

/-- C124: a recursive bootstrap with no failing calls, in a directory where nothing is at the places of the remote objects (or what an
earlier bootstrap left there), returns one path for each object; afterwards there is a directory with its metadata for each remote
directory and a symlink with its metadata for each remote file, and everything else is as it was.  The remote may list the objects in
any order. -/
theorem C124_mirrors (ht : Tree C rcs) (hF : ∀ n, C.F n = none) (hroot : ∃ m, s.disk.at_ a = some (.dir m))
    (hready : ∀ c ∈ rcs, Ready a s.disk c ∧ Known a files s.disk c) :
    ∃ ps s', C.strap S a files false rcs s = (.ok ps, s') ∧ ps.Perm (rcs.map fun c => a ++ c.path) ∧
      (∀ c ∈ rcs, c.shape = .dir → ∃ o, s'.disk.at_ (a ++ c.path) = some (.dir o) ∧ Overlaid none c.info o) ∧
      (∀ c ∈ rcs, c.shape = .file → s'.disk.at_ (a ++ c.path) = some (.link (some c.info))) ∧
      ∀ p, (∀ c ∈ rcs, p ≠ a ++ c.path) → s'.disk.at_ p = s.disk.at_ p := by
  have h := strap_hoare (S := S) ht hroot hready s rfl
  generalize hrun : C.strap S a files false rcs s = r at h
  obtain ⟨r, s'⟩ := r
  cases r with
  | error e =>
    obtain ⟨⟨n, hn⟩, -⟩ := h
    rw [hF] at hn
    simp at hn
  | ok ps =>
    obtain ⟨h1, h2, h3⟩ := h
    refine ⟨ps, s', rfl, h1, fun c hc hs => ?_, fun c hc hs => ?_, h2⟩
    · rcases h3 c hc with h | h
      · exact h.2
      · rw [hs] at h; simp at h
    · rcases h3 c hc with h | h
      · rw [hs] at h; simp at h
      · exact h.2

/-- C124: if a bootstrap raises, the exception is that of a call that failed; each place is empty, done, or a directory with a part of the
metadata, and everything else is as it was. -/
theorem C124_interrupted (ht : Tree C rcs) (hroot : ∃ m, s.disk.at_ a = some (.dir m))
    (hready : ∀ c ∈ rcs, Ready a s.disk c ∧ Known a files s.disk c) {e : PyErr} {s' : Machine CObj}
    (hrun : C.strap S a files false rcs s = (.error e, s')) :
    C.Raised e ∧ (∀ c ∈ rcs, Ready a s'.disk c) ∧ ∀ p, (∀ c ∈ rcs, p ≠ a ++ c.path) → s'.disk.at_ p = s.disk.at_ p := by
  have h := strap_hoare (S := S) ht hroot hready s rfl
  rw [hrun] at h
  exact ⟨h.1, h.2.2, h.2.1⟩

/-- C124: a bootstrap that was interrupted can be started again, and then leaves the same as one that was not. -/
theorem C124_resumes (ht : Tree C rcs) (hroot : ∃ m, s.disk.at_ a = some (.dir m))
    (hready : ∀ c ∈ rcs, Ready a s.disk c ∧ Known a files s.disk c) {e : PyErr} {s1 : Machine CObj}
    (hrun : C.strap S a files false rcs s = (.error e, s1)) {files' : List (Rel × Option Id)} (hknown : ∀ c ∈ rcs, Known a files' s1.disk c) :
    ∃ ps s', { C with F := fun _ => none }.strap S a files' false rcs s1 = (.ok ps, s') ∧ ps.Perm (rcs.map fun c => a ++ c.path) ∧
      (∀ c ∈ rcs, c.shape = .dir → ∃ o, s'.disk.at_ (a ++ c.path) = some (.dir o) ∧ Overlaid none c.info o) ∧
      (∀ c ∈ rcs, c.shape = .file → s'.disk.at_ (a ++ c.path) = some (.link (some c.info))) ∧
      ∀ p, (∀ c ∈ rcs, p ≠ a ++ c.path) → s'.disk.at_ p = s.disk.at_ p := by
  obtain ⟨-, h2, h3⟩ := C124_interrupted ht hroot hready hrun
  have hroot' : ∃ m, s1.disk.at_ a = some (.dir m) := by
    obtain ⟨m, hm⟩ := hroot
    refine ⟨m, ?_⟩
    rw [h3 a ?_, hm]
    intro c hc h
    exact (ht.fit c hc).path (List.self_eq_append_right.1 h)
  have ht' : Tree { C with F := fun _ => none } rcs :=
    ⟨fun c hc => ⟨(ht.fit c hc).sound, (ht.fit c hc).shape, (ht.fit c hc).link, (ht.fit c hc).path, (ht.fit c hc).same⟩, ht.apart, ht.closed⟩
  obtain ⟨ps, s', g1, g2, g3, g4, g5⟩ := C124_mirrors (S := S) (files := files') ht' (fun _ => rfl) hroot' (fun c hc => ⟨h2 c hc, hknown c hc⟩)
  exact ⟨ps, s', g1, g2, g3, g4, fun p hp => by rw [g5 p hp, h3 p hp]⟩

/-- C124 for a sparse bootstrap, of a remote that lists directories before what is in them: directories and the files that are wanted. -/
theorem C124_sparse_partial (ht : Tree C rcs) (hF : ∀ n, C.F n = none) (hroot : ∃ m, s.disk.at_ a = some (.dir m))
    (hready : ∀ c ∈ rcs, Ready a s.disk c ∧ Known a files s.disk c)
    (hord : rcs.Pairwise fun x y => ¬ (y.path <+: x.path ∧ y.path ≠ x.path)) :
    ∃ ps s', C.strap S a files true rcs s = (.ok ps, s') ∧
      ps = (rcs.filter fun c => c.shape = .dir ∨ (c.shape = .file ∧ c.wanted)).map (fun c => a ++ c.path) ∧
      (∀ c ∈ rcs, c.shape = .dir → ∃ o, s'.disk.at_ (a ++ c.path) = some (.dir o) ∧ Overlaid none c.info o) ∧
      (∀ c ∈ rcs, c.shape = .file → c.wanted = true → s'.disk.at_ (a ++ c.path) = some (.link (some c.info))) ∧
      ∀ p, (∀ c ∈ rcs, c.shape = .dir ∨ c.wanted = true → p ≠ a ++ c.path) → s'.disk.at_ p = s.disk.at_ p := by
  have hgen := (C102_order rcs).2.2
  have hmem : ∀ c, c ∈ gen true rcs ↔ c ∈ rcs ∧ (c.shape = .dir ∨ c.shape = .file ∧ c.wanted = true) := fun c => by
    rw [hgen, List.mem_filter]
    simp
  have hsub : (gen true rcs).Sublist rcs := by
    rw [hgen]
    exact List.filter_sublist
  have h := strapLoop_hoare C (S := S) (files := files) (gen true rcs) [] s.disk (fun c hc => ht.fit c ((hmem c).1 hc).1) ?_ ?_ hroot (by simp)
    (fun c hc => hready c ((hmem c).1 hc).1) s rfl
  · have hst : C.strap S a files true rcs s = C.strapLoop S a files (gen true rcs) s := rfl
    rw [hst]
    generalize C.strapLoop S a files (gen true rcs) s = r at h
    obtain ⟨r, s'⟩ := r
    cases r with
    | error e =>
      obtain ⟨⟨n, hn⟩, -⟩ := h
      rw [hF] at hn
      simp at hn
    | ok ps =>
      obtain ⟨h1, h2, h3⟩ := h
      refine ⟨ps, s', rfl, by rw [h1, hgen], fun c hc hs => ?_, fun c hc hs hw => ?_, fun p hp => h2 p fun c hc => hp c ((hmem c).1 hc).1 ?_⟩
      · rcases h3 c (by simpa using (hmem c).2 ⟨hc, .inl hs⟩) with h | h
        · exact h.2
        · rw [hs] at h; simp at h
      · rcases h3 c (by simpa using (hmem c).2 ⟨hc, .inr ⟨hs, hw⟩⟩) with h | h
        · rw [hs] at h; simp at h
        · exact h.2
      · exact ((hmem c).1 hc).2.imp_right And.right
  · refine parentsFirst_of _ _ (fun c hc => (ht.fit c ((hmem c).1 hc).1).path) ((hord.sublist hsub).imp fun h1 h2 => h1 h2.2) fun c hc => ?_
    refine (ht.closed c ((hmem c).1 hc).1).imp_right ?_
    rintro ⟨x, hx, h⟩
    exact ⟨x, .inr ((hmem x).2 ⟨hx, .inl h.1⟩), h⟩
  · rw [List.nil_append]
    exact ht.apart.sublist hsub

end

/-! ### Examples -/

def mirrorEnv : PEnv where
  F := fun _ => none
  long := fun _ => false
  loc := [lit "trash"]
  replace := fun _ _ => .ok false
  hash := id
  cypher := fun _ => .ok id
  remoteSum := .ok []
  remoteIsDir := false
  chunks := []
  cacheKey := none
  refresh := .pure ()

def mirrorSent : Sent := ⟨fun _ => [], fun _ => .ok [], fun _ => none, fun _ => .pure ()⟩

def mirrorChild (p : Rel) (i : Str) (k : Shape) (w : Bool) : Child := ⟨p, i, k, w, fun f => if f = .id then .str i else unset f, none⟩

/-- The remote lists what is in a directory before the directory. -/
def mirrorList : List Child :=
  [mirrorChild [lit "a", lit "b"] (lit "N:b") .dir true, mirrorChild [lit "a", lit "f"] (lit "N:f") .file true, mirrorChild [lit "a"] (lit "N:a") .dir true]

example : Tree mirrorEnv mirrorList ∧ ∀ c ∈ mirrorList, Ready [lit "r"] ([([lit "r"], CObj.dir none)] : Disk CObj) c ∧ Known [lit "r"] [] [([lit "r"], CObj.dir none)] c := by
  have hs : ∀ (p : Rel) (i : Str) (k : Shape) (w : Bool), i ≠ [] → (mirrorChild p i k w).Sound := by
    intro p i k w hi
    refine ⟨hi, fun f => ?_, by simp [mirrorChild]⟩
    cases f <;> simp [mirrorChild, unset, HasType]
  refine ⟨⟨?_, by decide, by decide⟩, ?_⟩
  · intro c hc
    simp only [mirrorList, List.mem_cons, List.not_mem_nil, or_false] at hc
    rcases hc with rfl | rfl | rfl <;> exact ⟨hs _ _ _ _ (by decide), by decide, rfl, by decide, rfl⟩
  · intro c hc
    simp only [mirrorList, List.mem_cons, List.not_mem_nil, or_false] at hc
    rcases hc with rfl | rfl | rfl <;> exact ⟨.inl (by decide), by intro _ p hp; simp [lookup] at hp⟩

/-- C124 fails for a sparse bootstrap of a remote that does not: the objects are gone through as they come, and making a directory in one
that is not there yet raises. -/
theorem C124_sparse_counterexample :
    (mirrorEnv.strap mirrorSent [lit "r"] [] true mirrorList ⟨[([lit "r"], CObj.dir none)], 0⟩).1 = .error .fileNotFoundError ∧
    (mirrorEnv.strap mirrorSent [lit "r"] [] false mirrorList ⟨[([lit "r"], CObj.dir none)], 0⟩).1 =
      .ok [[lit "r", lit "a"], [lit "r", lit "a", lit "b"], [lit "r", lit "a", lit "f"]] := by
  decide +kernel

/-- What is at a path and can be read as metadata. -/
def HoldsMeta (d : Disk CObj) (p : Path) (m : Meta) : Prop :=
  d.at_ p = some (.link (some m)) ∨ ∃ b, d.at_ p = some (.file b (some m))

/-- C124: a remote file for which there is a file or symlink with its id elsewhere: if the metadata are not those of another version, that one
is yielded and nothing is made; otherwise a cache is made at the path of the remote.  The cache that a remote has already is yielded
as it is. -/
theorem C124_moved {C : PEnv} {S : Sent} {a : Path} {files : List (Rel × Option Id)} {c : Child} {s : Machine CObj} {p : Rel} {m : Meta}
    (hF : ∀ n, C.F n = none) (hk : c.shape = .file) (hw : c.Sound) (hm : WellTyped m) (hset : SomethingSet m) :
    (c.link = some p → C.strapOne S a files c s = (.ok (a ++ p), s)) ∧
    (c.link = none → lookup files c.id = some p → HoldsMeta s.disk (a ++ p) m →
      (¬ FileDiffers m c.info → ∃ s', C.strapOne S a files c s = (.ok (a ++ p), s') ∧ s'.disk = s.disk) ∧
      (FileDiffers m c.info → C.replace c.info c.info = .ok false → (∃ mp, s.disk.at_ (a ++ c.path).dropLast = some (.dir mp)) →
        Ready a s.disk c → ∃ s', C.strapOne S a files c s = (.ok (a ++ c.path), s') ∧ s'.disk.at_ (a ++ c.path) = some (.link (some c.info)) ∧
          ∀ r, r ≠ a ++ c.path → s'.disk.at_ r = s.disk.at_ r)) := by
  refine ⟨fun h => by simp [PEnv.strapOne, h, Prog.pure], fun hl hlk hh => ?_⟩
  have hmb : metaBool m = true := (metaBool_iff _ (errors_strs hm)).2 hset
  have hget : C.getMeta (a ++ p) s = (.ok (some m), ⟨s.disk, s.tick + 1⟩) := by
    unfold PEnv.getMeta Prog.look Prog.sys
    simp only [hF]
    rcases hh with h | ⟨b, h⟩ <;> simp [h, hmb]
  obtain ⟨d, w, h1, h2, -⟩ := updateMeta_spec m c.info hm hw.2.1 hset (sound_set hw)
  have hf : c.file = true := by simp [Child.file, hk]
  have hrun : C.strapOne S a files c s = if d then C.childInit S a c ⟨s.disk, s.tick + 1⟩ else (.ok (a ++ p), ⟨s.disk, s.tick + 1⟩) := by
    unfold PEnv.strapOne
    simp only [hl, hf, if_true, hlk, Prog.bind, hget, h1]
    cases d <;> simp [Prog.pure]
  refine ⟨fun hd => ?_, fun hd hrep hp hr => ?_⟩
  · have : d = false := by
      cases d
      · rfl
      · exact absurd (h2.1 rfl) hd
    subst this
    exact ⟨_, hrun, rfl⟩
  · have := h2.2 hd
    subst this
    obtain ⟨mp, hp⟩ := hp
    have h := childInit_hoare C (S := S) hw (.inr hk) hrep hp hr ⟨s.disk, s.tick + 1⟩ rfl
    rw [if_pos rfl] at hrun
    rw [hrun]
    generalize C.childInit S a c ⟨s.disk, s.tick + 1⟩ = r at h
    obtain ⟨r, s'⟩ := r
    cases r with
    | error e =>
      obtain ⟨⟨n, hn⟩, -⟩ := h
      rw [hF] at hn
      simp at hn
    | ok q =>
      obtain ⟨rfl, h2, h3⟩ := h
      refine ⟨s', rfl, ?_, h2⟩
      rcases h3 with h | h
      · rw [hk] at h; simp at h
      · exact h.2

end Verif.Cache
