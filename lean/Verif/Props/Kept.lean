import Verif.Props.Mirror
import Verif.Props.UpdateCache
import Verif.Lemmas.Relative

/-!
# C125: a recursive bootstrap of a tree that is there already
-/

namespace Verif.Cache
open Verif.FS Verif.Spec Verif.Yields Verif.Sweep

/-! ## One update -/

/-- Writing metadata and fetching where nothing is changes nothing elsewhere, whatever the remote is. -/
theorem refetch_only (C : PEnv) {q : Path} {d1 : Disk CObj} (hdir : InDir d1 q) (hrf : Harmless q C.refresh) (u : Option Meta) (hq : d1.at_ q = none) :
    Hoare (fun d => d = d1) (.bind (C.setMeta q u) fun _ => C.fetch q none) (fun _ d => OnlyAt q d1 d) (fun _ d => OnlyAt q d1 d) := by
  cases hr : C.remoteIsDir with
  | false =>
    refine (refetch_hoare C hr hdir hrf u).mono ?_ (fun _ _ h => h.1) (fun _ _ h => h.1)
    rintro d rfl
    exact ⟨.refl _ _, hq⟩
  | true =>
    obtain ⟨-, mp, hp⟩ := hdir
    refine .bind_ (Q := fun _ d => OnlyAt q d1 d ∧ (d.at_ q = none ∨ ∃ o, d.at_ q = some (.dir o))) ?_ fun _ => ?_
    · have hsame : ∀ d, d = d1 → OnlyAt q d1 d ∧ (d.at_ q = none ∨ ∃ o, d.at_ q = some (.dir o)) := by
        rintro d rfl
        exact ⟨.refl _ _, .inl hq⟩
      cases u with
      | none => exact .pure_ hsame
      | some m =>
        cases hm : metaBool m with
        | false =>
          unfold PEnv.setMeta
          simp only [hm, Bool.not_false, if_true]
          exact .pure_ hsame
        | true =>
          refine (setMeta_fresh C m hm hp hq).mono (fun _ h => h) ?_ ?_
          · rintro _ d ⟨h1, h2⟩
            rw [hr, if_pos rfl] at h2
            exact ⟨h1, .inr ⟨_, h2⟩⟩
          · rintro e d ⟨-, h1, -⟩
            exact h1
    · unfold PEnv.fetch
      refine .bind_ (Q := fun mo d => OnlyAt q d1 d ∧ ((mo = none ∧ d.at_ q = none) ∨ ∃ o, d.at_ q = some (.dir o))) (.look_ ?_ fun _ _ h => h.1) fun mo => ?_
      · rintro d x ⟨h1, h2⟩ h
        refine ⟨h1, h2.imp_left fun hn => ⟨?_, hn⟩⟩
        rw [hn] at h
        simp only [Except.ok.injEq] at h
        exact h.symm
      · refine .bind_ (Q := fun isd d => OnlyAt q d1 d ∧ (isd = true ∨ mo = none)) (.look_ ?_ fun _ _ h => h.1) fun isd => ?_
        · rintro d x ⟨h1, h2⟩ h
          simp only [Except.ok.injEq] at h
          refine ⟨h1, ?_⟩
          rcases h2 with ⟨h2, -⟩ | ⟨o, h2⟩
          · exact .inr h2
          · exact .inl (by rw [← h]; simp [isDirAt, h2])
        · refine .ite_ (fun _ => .throw_ fun _ h => h.1) fun hn => ?_
          refine .of_each fun dd hdd => ?_
          have : mo = none := hdd.2.resolve_left hn
          subst this
          refine .throw_ ?_
          rintro d rfl
          exact hdd.1

/-- Everything outside of `q` and of the place in the trash is as it was, and the content is at one of the two; nothing is new below `q`. -/
def SafeAt (q p : Path) (b : Bytes) (d0 d : Disk CObj) : Prop :=
  (∀ r, ¬ q <+: r → ¬ p <+: r → d.at_ r = d0.at_ r) ∧ (Has d q b ∨ Has d p b) ∧ ∀ r, q <+: r → r ≠ q → d.at_ r = d0.at_ r ∨ d.at_ r = none

/-- An update of the metadata of a file, whatever the remote is. -/
theorem updater_safe (C : PEnv) {q : Path} {new m : Meta} {b : Bytes} {i : Str} {fetch : Bool} {d0 : Disk CObj}
    (hrec : d0.at_ q = some (.file b (some m))) (hm : metaBool m = true) (hid : m .id = .str i) (hu : Usable C.trash i)
    (hF : ∀ n, C.F n ≠ some .nameTooLongError) (hloc : ∃ m, d0.at_ C.loc = some (.dir m)) (hap : Apart q C.loc) (hdir : InDir d0 q)
    (hrf : Harmless q C.refresh) :
    Hoare (fun d => d = d0) (C.metaUpdater q new fetch) (fun _ d => SafeAt q (C.loc ++ [fsSafeId i]) b d0 d)
      (fun _ d => SafeAt q (C.loc ++ [fsSafeId i]) b d0 d) := by
  have hap' : Apart q (C.loc ++ [fsSafeId i]) := (apart_append' hap.symm _).symm
  have hsame : ∀ d, d = d0 → SafeAt q (C.loc ++ [fsSafeId i]) b d0 d := by
    rintro d rfl
    exact ⟨fun _ _ _ => rfl, .inl ⟨_, hrec⟩, fun _ _ _ => .inl rfl⟩
  have honly : ∀ d, OnlyAt q d0 d → Has d q b → SafeAt q (C.loc ++ [fsSafeId i]) b d0 d := by
    intro d h1 h2
    exact ⟨fun r hr _ => h1 r fun he => hr (he ▸ List.prefix_refl _), .inl h2, fun r _ hr => .inl (h1 r hr)⟩
  unfold PEnv.metaUpdater
  refine .bind_ (Q := fun mm d => mm = some m ∧ d = d0) (.look_ ?_ fun _ d hd => hsame d hd) fun mm => .of_pre fun hmm => ?_
  · rintro d a rfl ha
    rw [hrec] at ha
    simp only [hm, if_true, Except.ok.injEq] at ha
    exact ⟨ha.symm, rfl⟩
  subst hmm
  cases hup : updateMeta (some m) (some new) with
  | error e => exact .throw_ hsame
  | ok xu =>
    obtain ⟨x, u⟩ := xu
    dsimp only
    refine .bind_ (Q := fun _ d => d = d0) (.ite_ (fun _ => .look_ (fun d _ h _ => h) fun _ d hd => hsame d hd) fun _ => .pure_ fun _ h => h) fun isf => ?_
    refine .ite_ (fun _ => ?_) fun _ => ?_
    · refine .bind_ (Q := fun _ d => d = d0) ((localChanges_hoare C q new d0).mono (fun _ h => h) (fun _ _ h => h) fun _ d h => hsame d h) fun _ => ?_
      have hi : (some m).bind idIn = some i := by simp [idIn, hid]
      rw [hi]
      refine .bind_ (Q := fun p d => p = C.loc ++ [fsSafeId i] ∧ d0.rename q (C.loc ++ [fsSafeId i]) = .ok d) ?_ fun p => .of_pre fun hp => ?_
      · refine (crumple_exact C.trash hF hu (q := q) (d0 := d0) ?_).mono (fun _ h => h) (fun _ _ h => h) (fun _ d h => hsame d h)
        obtain ⟨ml, hloc⟩ := hloc
        simp [PEnv.trash, there, hloc]
      subst hp
      refine .of_each fun d1 hs1 => ?_
      obtain ⟨-, ⟨heq, -⟩ | ⟨-, hmv⟩⟩ := rename_ok hs1
      · exact absurd (heq ▸ List.prefix_refl _) hap'.1
      have hsq : d1.at_ q = none := by rw [hmv, mv, if_neg hap'.2, if_pos (List.prefix_refl _)]
      have hst : d1.at_ (C.loc ++ [fsSafeId i]) = some (.file b (some m)) := by
        rw [hmv, mv, if_pos (List.prefix_refl _), List.drop_length, List.append_nil, hrec]
      have hrest : ∀ r, ¬ q <+: r → ¬ C.loc ++ [fsSafeId i] <+: r → d1.at_ r = d0.at_ r := by
        intro r h1 h2; rw [hmv, mv, if_neg h2, if_neg h1]
      have hqne : q ≠ [] := hdir.1
      have hpar : ∃ m, d1.at_ q.dropLast = some (.dir m) := by
        obtain ⟨-, md, hmd⟩ := hdir
        refine ⟨md, ?_⟩
        rw [hrest, hmd]
        · intro hc
          have := hc.length_le
          rw [List.length_dropLast] at this
          have := List.length_pos_iff.2 hqne
          omega
        · intro hc
          exact hap'.2 (hc.trans (List.dropLast_prefix _))
      have htq : C.loc ++ [fsSafeId i] ≠ q := fun he => hap'.2 (he ▸ List.prefix_refl _)
      have hfar : ∀ d, OnlyAt q d1 d → SafeAt q (C.loc ++ [fsSafeId i]) b d0 d := by
        intro d h
        refine ⟨fun r h1 h2 => by rw [h r fun he => h1 (he ▸ List.prefix_refl _), hrest r h1 h2], .inr ⟨_, by rw [h _ htq, hst]⟩, fun r h1 h2 => .inr ?_⟩
        rw [h r h2, hmv, mv, if_neg (fun hc => ?_), if_pos h1]
        rcases List.prefix_or_prefix_of_prefix h1 hc with h' | h'
        · exact hap'.1 h'
        · exact hap'.2 h'
      refine .bind_ (Q := fun _ d => SafeAt q (C.loc ++ [fsSafeId i]) b d0 d) ?_ fun _ => .pure_ fun _ h => h
      refine .try_ (R := fun _ d => OnlyAt q d1 d) ((refetch_only C ⟨hqne, hpar⟩ hrf u hsq).mono (fun _ h => h) (fun _ d h => hfar d h) (fun _ _ h => h)) fun e => ?_
      refine .bind_ (Q := fun _ d => SafeAt q (C.loc ++ [fsSafeId i]) b d0 d) (.act_ ?_ fun _ d h => hfar d h) fun _ => .throw_ fun _ h => h
      rintro d d' h hrn
      obtain ⟨-, ⟨heq, -⟩ | ⟨-, hmv'⟩⟩ := rename_ok hrn
      · exact absurd heq htq
      refine ⟨fun r h1 h2 => ?_, .inl ⟨some m, ?_⟩, fun r h1 h2 => .inl ?_⟩
      · rw [hmv', mv, if_neg h1, if_neg h2, h r fun he => h1 (he ▸ List.prefix_refl _), hrest r h1 h2]
      · rw [hmv', mv, if_pos (List.prefix_refl _), List.drop_length, List.append_nil, h _ htq, hst]
      · obtain ⟨t, rfl⟩ := h1
        have hne : C.loc ++ [fsSafeId i] ++ t ≠ q := fun he => hap'.2 (he ▸ List.prefix_append _ _)
        rw [hmv', mv, if_pos (List.prefix_append _ _), drop_append_prefix, h _ hne, hmv, mv, if_pos (List.prefix_append _ _), drop_append_prefix]
    · cases u with
      | none => exact .bind_ (.pure_ fun d h => hsame d h) fun _ => .pure_ fun _ h => h
      | some u =>
        refine .bind_ ((setMeta_file C (q := q) (d0 := d0) (W := True) (R := fun _ d => OnlyAt q d0 d ∧ Has d q b)
          (fun _ _ _ => trivial) (b := b) (mo := some m) u (fun _ e d mo' h1 _ h2 => ⟨h1, _, h2⟩)).mono ?_ (fun _ _ h => h) ?_)
          fun _ => .pure_ ?_
        · rintro d rfl
          exact ⟨.refl _ _, hrec⟩
        · rintro _ d ⟨h1, h2⟩
          exact honly d h1 h2
        · rintro d ⟨h1, h2⟩
          exact honly d h1 ⟨_, h2⟩

/-- A symlink where the remote is a directory: the setter never returns, and changes nothing. -/
theorem setMeta_link_dir (C : PEnv) {q : Path} {d0 : Disk CObj} {mo : Option Meta} (m : Meta) (hm : metaBool m = true) (hr : C.remoteIsDir = true)
    (hq : d0.at_ q = some (.link mo)) :
    Hoare (fun d => d = d0) (C.setMeta q (some m)) (fun _ _ => False) (fun _ d => d = d0) := by
  rw [setMeta_unfold C m hm]
  refine .bind_ (Q := fun ex d => ex = false ∧ d = d0) (.look_ ?_ (fun _ d h => h)) fun ex => .of_pre fun hex => ?_
  · rintro d a rfl h
    simp only [Except.ok.injEq] at h
    exact ⟨h ▸ not_there_link hq, rfl⟩
  subst hex
  simp only [Bool.false_eq_true, if_false]
  refine .bind_ (Q := fun _ _ => False) ?_ fun _ => fun _ h => h.elim
  unfold PEnv.prepare
  rw [if_pos hr]
  refine .bind_ (Q := fun ex d => ex = false ∧ d = d0) (.look_ ?_ (fun _ d h => h)) fun ex => .of_pre fun hex => ?_
  · rintro d a rfl h
    simp only [Except.ok.injEq] at h
    exact ⟨h ▸ not_there_link hq, rfl⟩
  subst hex
  refine .act_ ?_ (fun _ d h => h)
  rintro d d' rfl h
  have := (create_ok h).1
  rw [hq] at this
  simp at this

/-! ## One remote object -/

/-- Where what is at a path goes if it is replaced: a place in the trash that is named after its id. -/
def Binned (C : PEnv) (d : Disk CObj) (q p : Path) : Prop :=
  ∃ m i, (d.at_ q = some (.link (some m)) ∨ ∃ b, d.at_ q = some (.file b (some m))) ∧ m .id = .str i ∧ p = C.loc ++ [fsSafeId i]

/-- What a pass of the loop may change. -/
structure Step (C : PEnv) (k : Shape) (q : Path) (d0 d : Disk CObj) : Prop where
  outside : ∀ r, ¬ q <+: r → (∀ p, Binned C d0 q p → ¬ p <+: r) →
    d.at_ r = d0.at_ r ∨ (r = q.dropLast ∨ r <+: C.loc) ∧ d0.at_ r = none ∧ d.at_ r = some (.dir none)
  below : ∀ r, q <+: r → r ≠ q → (isDirAt d0 q = true → d.at_ r = d0.at_ r) ∧ (k = .dir → d.at_ r = d0.at_ r ∨ d.at_ r = none)
  content : ∀ b, Has d0 q b → Has d q b ∨ ∃ p, Binned C d0 q p ∧ Has d p b
  dirs : isDirAt d0 q = true → isDirAt d q = true

theorem Step.frame {C : PEnv} {k : Shape} {q : Path} {d0 d : Disk CObj} (h : Step C k q d0 d) (r : Path) (h1 : ¬ q <+: r)
    (h2 : ∀ p, Binned C d0 q p → ¬ p <+: r) : d.at_ r = d0.at_ r ∨ d0.at_ r = none ∧ d.at_ r = some (.dir none) :=
  (h.outside r h1 h2).imp_right fun h => h.2

theorem Step.refl (C : PEnv) (k : Shape) (q : Path) (d : Disk CObj) : Step C k q d d :=
  ⟨fun _ _ _ => .inl rfl, fun _ _ _ => ⟨fun _ => rfl, fun _ => .inl rfl⟩, fun _ h => .inl h, id⟩

theorem isDirAt_iff {d : Disk CObj} {q : Path} : isDirAt d q = true ↔ ∃ m, d.at_ q = some (.dir m) := by
  unfold isDirAt
  split
  · rename_i m h; simp [h]
  · rename_i h
    constructor
    · simp
    · rintro ⟨m, hm⟩; exact absurd hm (h m)

/-- What has to be known about the path of a remote object. -/
structure Site (C : PEnv) (S : Sent) (c : Child) (q : Path) (d : Disk CObj) : Prop where
  recorded : ∀ m, d.at_ q = some (.link (some m)) ∨ (∃ b, d.at_ q = some (.file b (some m))) → ∃ i, m .id = .str i ∧ Usable C.trash i
  calls : ∀ n, C.F n ≠ some .nameTooLongError
  trash : ∃ m, d.at_ C.loc = some (.dir m)
  apart : Apart q C.loc
  parent : d.at_ q ≠ none → isDirAt d q = true ∨ InDir d q
  refresh : Harmless q (S.refresh c)

theorem childInit_safe {C : PEnv} {S : Sent} {a : Path} {c : Child} {d0 : Disk CObj} (h : Site C S c (a ++ c.path) d0)
    (hk : c.shape = .dir ∨ c.shape = .file) :
    Hoare (fun d => d = d0) (C.childInit S a c) (fun _ d => Step C c.shape (a ++ c.path) d0 d) (fun _ d => Step C c.shape (a ++ c.path) d0 d) := by
  generalize hqe : a ++ c.path = q at *
  have hqne : q ≠ [] := by
    rintro rfl
    exact h.apart.1 (List.nil_prefix)
  have hsame : ∀ d, d = d0 → Step C c.shape q d0 d := by
    rintro d rfl
    exact .refl _ _ _ _
  unfold PEnv.childInit
  rw [hqe]
  refine (makeChild_hoare (C.of S c) (Q := fun d => Step C c.shape q d0 d) (R := fun _ d => Step C c.shape q d0 d) ?_).mono (fun _ h => h)
    (fun _ _ h => h.2) (fun _ _ ⟨_, h, _⟩ => h)
  cases hq : d0.at_ q with
  | none =>
    unfold PEnv.metaUpdater
    refine .bind_ (Q := fun mo d => mo = none ∧ d = d0) (.look_ ?_ fun _ d hd => hsame d hd) fun mo => .of_pre fun hmo => ?_
    · rintro d x rfl hx
      rw [hq] at hx
      simp only [Except.ok.injEq] at hx
      exact ⟨hx.symm, rfl⟩
    subst hmo
    simp only [updateMeta, Bool.false_eq_true, if_false]
    refine .bind_ (Q := fun b d => b = false ∧ d = d0) (.pure_ fun d h => ⟨rfl, h⟩) fun b => .of_pre fun hb => ?_
    subst hb
    simp only [Bool.false_and, Bool.false_eq_true, if_false]
    refine .bind_ (Q := fun _ d => Step C c.shape q d0 d) ?_ fun _ => .pure_ fun _ h => h
    have hpm : ∀ d, ParentMade q d0 d → Step C c.shape q d0 d := by
      intro d hd
      refine ⟨fun r hr _ => ?_, fun r hr hne => ?_, fun b ⟨m, hb⟩ => ?_, fun hd => ?_⟩
      · rcases hd r (fun he => hr (he ▸ List.prefix_refl _)) with h | ⟨h0, h1, h2⟩
        · exact .inl h
        · exact .inr ⟨.inl h0, h1, h2⟩
      · have : d.at_ r = d0.at_ r := by
          rcases hd r hne with h | ⟨h1, -⟩
          · exact h
          · exfalso
            rw [h1] at hr
            have := hr.length_le
            rw [List.length_dropLast] at this
            have := List.length_pos_iff.2 hqne
            omega
        exact ⟨fun _ => this, fun _ => .inl this⟩
      · rw [hq] at hb; simp at hb
      · rw [isDirAt_iff, hq] at hd; simp at hd
    have hon : ∀ d, OnlyAt q d0 d → ParentMade q d0 d := fun d hd r hr => .inl (hd r hr)
    cases hm : metaBool c.info with
    | false =>
      unfold PEnv.setMeta
      simp only [hm, Bool.not_false, if_true]
      exact .pure_ hsame
    | true =>
      refine (setMeta_nothing (C.of S c) c.info hm hqne hq).mono (fun _ h => h) ?_ ?_
      · intro _ d h
        split at h
        · exact hpm d (hon d h.1)
        · exact hpm d h.1
      · intro _ d h
        split at h
        · exact hpm d (hon d h.1)
        · exact hpm d h.1
  | some x =>
    cases x with
    | dir o =>
      have hd0 : isDirAt d0 q = true := isDirAt_iff.2 ⟨o, hq⟩
      have hon : ∀ d o', OnlyAt q d0 d → d.at_ q = some (.dir o') → Step C c.shape q d0 d := by
        intro d o' h1 h2
        refine ⟨fun r hr _ => .inl (h1 r fun he => hr (he ▸ List.prefix_refl _)), fun r _ hne => ⟨fun _ => h1 r hne, fun _ => .inl (h1 r hne)⟩,
          fun b ⟨m, hb⟩ => ?_, fun _ => isDirAt_iff.2 ⟨o', h2⟩⟩
        rw [hq] at hb; simp at hb
      unfold PEnv.metaUpdater
      refine .bind_ (Q := fun _ d => d = d0) (.look_ (fun d _ hd _ => hd) fun _ d hd => hsame d hd) fun mo => ?_
      cases hup : updateMeta mo (some c.info) with
      | error e => exact .throw_ hsame
      | ok xu =>
        obtain ⟨x, u⟩ := xu
        dsimp only
        refine .bind_ (Q := fun isf d => isf = false ∧ d = d0) ?_ fun isf => .of_pre fun hisf => ?_
        · refine .ite_ (fun _ => .look_ ?_ fun _ d hd => hsame d hd) fun _ => .pure_ fun _ h => ⟨rfl, h⟩
          rintro d y rfl hy
          simp only [isFile, hq, Except.ok.injEq] at hy
          exact ⟨hy.symm, rfl⟩
        subst hisf
        simp only [Bool.false_and, Bool.false_eq_true, if_false]
        refine .bind_ (Q := fun _ d => Step C c.shape q d0 d) ?_ fun _ => .pure_ fun _ h => h
        cases u with
        | none => exact .pure_ hsame
        | some u =>
          cases hm : metaBool u with
          | false =>
            unfold PEnv.setMeta
            simp only [hm, Bool.not_false, if_true]
            exact .pure_ hsame
          | true =>
            refine (setMeta_holder (C.of S c) (d0 := d0) .dir (mo := o) u hm).mono ?_ ?_ ?_
            · rintro d rfl
              exact ⟨.refl _ _, hq⟩
            · rintro _ d ⟨h1, h2⟩
              exact hon d _ h1 h2
            · rintro _ d ⟨-, h1, o', -, h2⟩
              exact hon d _ h1 h2
    | link mo =>
      unfold PEnv.metaUpdater
      refine .bind_ (Q := fun x d => (x = mo ∧ mo ≠ none) ∧ d = d0) (.look_ ?_ fun _ d hd => hsame d hd) fun x => .of_pre fun hx => ?_
      · rintro d x rfl hx
        rw [hq] at hx
        cases mo with
        | none => simp at hx
        | some w =>
          simp only [Except.ok.injEq] at hx
          exact ⟨⟨hx.symm, by simp⟩, rfl⟩
      obtain ⟨rfl, hne⟩ := hx
      cases x with
      | none => exact absurd rfl hne
      | some w =>
        cases hup : updateMeta (some w) (some c.info) with
        | error e => exact .throw_ hsame
        | ok xu =>
          obtain ⟨x, u⟩ := xu
          dsimp only
          refine .bind_ (Q := fun isf d => isf = false ∧ d = d0) ?_ fun isf => .of_pre fun hisf => ?_
          · refine .ite_ (fun _ => .look_ ?_ fun _ d hd => hsame d hd) fun _ => .pure_ fun _ h => ⟨rfl, h⟩
            rintro d y rfl hy
            simp only [isFile, hq, Except.ok.injEq] at hy
            exact ⟨hy.symm, rfl⟩
          subst hisf
          simp only [Bool.false_and, Bool.false_eq_true, if_false]
          refine .bind_ (Q := fun _ d => Step C c.shape q d0 d) ?_ fun _ => .pure_ fun _ h => h
          cases u with
          | none => exact .pure_ hsame
          | some u =>
            cases hm : metaBool u with
            | false =>
              unfold PEnv.setMeta
              simp only [hm, Bool.not_false, if_true]
              exact .pure_ hsame
            | true =>
              rcases hk with hk | hk
              · exact (setMeta_link_dir (C.of S c) u hm (by simp [PEnv.of, Child.dir, hk]) hq).mono (fun _ h => h) (fun _ _ h => h.elim) (fun _ d h => hsame d h)
              · have hpar : there d0 q.dropLast = true := by
                  obtain ⟨-, m, hm⟩ := (h.parent (by simp [hq])).resolve_left (by rw [isDirAt_iff, hq]; simp)
                  simp [there, hm]
                have hnd : ¬ isDirAt d0 q = true := by rw [isDirAt_iff, hq]; simp
                have hbase : ∀ d, (∀ r, ¬ q <+: r → (∀ p, Binned C d0 q p → ¬ p <+: r) →
                    d.at_ r = d0.at_ r ∨ (r = q.dropLast ∨ r <+: C.loc) ∧ d0.at_ r = none ∧ d.at_ r = some (.dir none)) →
                    Step C c.shape q d0 d := by
                  intro d hd
                  refine ⟨hd, fun r _ _ => ⟨fun h => absurd h hnd, fun h => ?_⟩, fun b ⟨m, hb⟩ => ?_, fun h => absurd h hnd⟩
                  · rw [hk] at h; simp at h
                  · rw [hq] at hb; simp at hb
                have hrep : ∀ d i y, idIn w = some i → Replaced (C.of S c) q i w y d0 d → Step C c.shape q d0 d := by
                  rintro d i y hi ⟨p, hp, -, -, -, hr⟩
                  obtain ⟨i', hi', hus⟩ := h.recorded w (.inl hq)
                  have : i = i' := by simpa [idIn, hi'] using hi.symm
                  subst this
                  have hp' : p = C.loc ++ [fsSafeId i] := by
                    have hpl : (C.of S c).trash.place (fsSafeId i) = C.loc ++ [fsSafeId i] := hus.place
                    rcases hp with hp | ⟨htl, -⟩
                    · rw [hp, hpl]
                    · exfalso
                      rcases htl with htl | ⟨n, hn⟩
                      · rw [hpl] at htl
                        simp only [List.getLast?_append, List.getLast?_singleton, Option.some_or, Option.any_some] at htl
                        have : C.trash.long (fsSafeId i) = false := hus.2.2.2
                        rw [show (C.of S c).trash.long = C.trash.long from rfl, this] at htl
                        simp at htl
                      · exact h.calls n hn
                  refine hbase d fun r h1 h2 => ?_
                  rcases hr r (by rw [hp']; exact h2 _ ⟨w, i, .inl hq, hi', rfl⟩) h1 with h | ⟨h, h0, h'⟩
                  · exact .inl h
                  · exact .inr ⟨.inr h0, h, h'⟩
                have hdis : ∀ d i y, Discarded (C.of S c) q i y d0 d → Step C c.shape q d0 d := by
                  rintro d i y ⟨-, -, hr⟩
                  refine hbase d fun r h1 _ => ?_
                  rcases hr r (fun h => h1 (h ▸ List.prefix_refl _)) with h | ⟨h, h0, h'⟩
                  · exact .inl h
                  · exact .inr ⟨.inr h0, h, h'⟩
                refine (setMeta_onLink (C.of S c) u hm hpar hq).mono (fun _ h => h) ?_ ?_
                · rintro _ d ⟨-, ⟨-, hd⟩ | ⟨-, i, hi, hr | hr⟩⟩
                  · exact hsame d hd
                  · exact hrep d i _ hi hr
                  · exact hdis d i _ hr
                · rintro _ d (⟨-, hg⟩ | ⟨-, i, hi, hr | hr⟩)
                  · refine hbase d fun r _ _ => ?_
                    rcases hg r with h | ⟨h0, h, h'⟩
                    · exact .inl h
                    · exact .inr ⟨.inr h0, h, h'⟩
                  · exact hrep d i _ hi hr
                  · exact hdis d i _ hr
    | file b mo =>
      have hnd : ¬ isDirAt d0 q = true := by rw [isDirAt_iff, hq]; simp
      by_cases hmo : ∃ w, mo = some w ∧ metaBool w = true
      · obtain ⟨w, rfl, hb⟩ := hmo
        obtain ⟨i, hi, hus⟩ := h.recorded w (.inr ⟨b, hq⟩)
        have hs : ∀ d, SafeAt q (C.loc ++ [fsSafeId i]) b d0 d → Step C c.shape q d0 d := by
          rintro d ⟨h1, h2, h3⟩
          have hbin : Binned C d0 q (C.loc ++ [fsSafeId i]) := ⟨w, i, .inr ⟨b, hq⟩, hi, rfl⟩
          refine ⟨fun r hr hp => .inl (h1 r hr (hp _ hbin)), fun r hr hne => ⟨fun h => absurd h hnd, fun _ => h3 r hr hne⟩, fun b' ⟨m, hb'⟩ => ?_, fun h => absurd h hnd⟩
          rw [hq] at hb'
          simp only [Option.some.injEq, CObj.file.injEq] at hb'
          rw [← hb'.1]
          exact h2.imp_right fun h => ⟨_, hbin, h⟩
        exact (updater_safe (C.of S c) hq hb hi hus h.calls h.trash h.apart ((h.parent (by simp [hq])).resolve_left hnd) h.refresh).mono (fun _ h => h) (fun _ d h => hs d h) (fun _ d h => hs d h)
      · have hon : ∀ d mo', OnlyAt q d0 d → d.at_ q = some (.file b mo') → Step C c.shape q d0 d := by
          intro d mo' h1 h2
          refine ⟨fun r hr _ => .inl (h1 r fun he => hr (he ▸ List.prefix_refl _)), fun r _ hne => ⟨fun _ => h1 r hne, fun _ => .inl (h1 r hne)⟩,
            fun b' ⟨m, hb⟩ => ?_, fun h => absurd h hnd⟩
          rw [hq] at hb
          simp only [Option.some.injEq, CObj.file.injEq] at hb
          rw [← hb.1]
          exact .inl ⟨_, h2⟩
        unfold PEnv.metaUpdater
        refine .bind_ (Q := fun x d => x = none ∧ d = d0) (.look_ ?_ fun _ d hd => hsame d hd) fun x => .of_pre fun hx => ?_
        · rintro d x rfl hx
          rw [hq] at hx
          cases mo with
          | none =>
            simp only [Except.ok.injEq] at hx
            exact ⟨hx.symm, rfl⟩
          | some w =>
            have : metaBool w = false := by
              cases hb : metaBool w
              · rfl
              · exact absurd ⟨w, rfl, hb⟩ hmo
            simp only [this, Except.ok.injEq] at hx
            exact ⟨by simpa using hx.symm, rfl⟩
        subst hx
        simp only [updateMeta, Bool.false_eq_true, if_false]
        refine .bind_ (Q := fun b d => b = false ∧ d = d0) (.pure_ fun d h => ⟨rfl, h⟩) fun b => .of_pre fun hb => ?_
        subst hb
        simp only [Bool.false_and, Bool.false_eq_true, if_false]
        refine .bind_ (Q := fun _ d => Step C c.shape q d0 d) ?_ fun _ => .pure_ fun _ h => h
        refine (setMeta_file (C.of S c) (q := q) (d0 := d0) (W := True) (R := fun _ d => Step C c.shape q d0 d)
          (fun _ _ _ => trivial) (b := b) (mo := mo) c.info (fun _ e d mo' h1 _ h2 => hon d _ h1 h2)).mono ?_ (fun _ d h => hon d _ h.1 h.2) (fun _ _ h => h)
        rintro d rfl
        exact ⟨.refl _ _, hq⟩

theorem strapOne_safe {C : PEnv} {S : Sent} {a : Path} {files : List (Rel × Option Id)} {c : Child} {d0 : Disk CObj}
    (h : Site C S c (a ++ c.path) d0) (hk : c.shape = .dir ∨ c.shape = .file) :
    Hoare (fun d => d = d0) (C.strapOne S a files c) (fun _ d => Step C c.shape (a ++ c.path) d0 d)
      (fun _ d => Step C c.shape (a ++ c.path) d0 d) := by
  have hsame : ∀ d, d = d0 → Step C c.shape (a ++ c.path) d0 d := by
    rintro d rfl
    exact .refl _ _ _ _
  have hinit := childInit_safe h hk
  unfold PEnv.strapOne
  cases c.link with
  | some p => exact .pure_ hsame
  | none =>
    dsimp only
    refine .ite_ (fun _ => ?_) fun _ => hinit
    cases lookup files c.id with
    | none => exact hinit
    | some p =>
      refine .bind_ (Q := fun _ d => d = d0) (.look_ (fun d _ hd _ => hd) fun _ d hd => hsame d hd) fun mo => ?_
      cases mo with
      | none => exact .throw_ hsame
      | some m =>
        dsimp only
        cases updateMeta (some m) (some c.info) with
        | error e => exact .throw_ hsame
        | ok r => exact .ite_ (fun _ => hinit) fun _ => .pure_ hsame

/-! ## All of them -/

/-- A local tree and the remote objects that are bootstrapped in it: what is there already may be anything. -/
structure Placed (C : PEnv) (S : Sent) (a : Path) (D : Disk CObj) (rcs : List Child) : Prop where
  shape : ∀ c ∈ rcs, c.shape = .dir ∨ c.shape = .file
  distinct : rcs.Pairwise fun x y => x.path ≠ y.path
  leaf : ∀ c ∈ rcs, ∀ c' ∈ rcs, c.shape = .file → c.path <+: c'.path → c'.path = c.path
  tree : ∀ p, p ≠ [] → D.at_ p ≠ none → isDirAt D p.dropLast = true
  trash : isDirAt D C.loc = true
  apart : ∀ c ∈ rcs, Apart (a ++ c.path) C.loc
  calls : ∀ n, C.F n ≠ some .nameTooLongError
  recorded : ∀ c ∈ rcs, ∀ m, D.at_ (a ++ c.path) = some (.link (some m)) ∨ (∃ b, D.at_ (a ++ c.path) = some (.file b (some m))) →
    ∃ i, m .id = .str i ∧ Usable C.trash i
  ids : ∀ c ∈ rcs, ∀ c' ∈ rcs, ∀ p, Binned C D (a ++ c.path) p → Binned C D (a ++ c'.path) p → c.path = c'.path
  refresh : ∀ c ∈ rcs, Harmless (a ++ c.path) (S.refresh c)

theorem dir_above {D : Disk CObj} (ht : ∀ p, p ≠ [] → D.at_ p ≠ none → isDirAt D p.dropLast = true) {q r : Path} (h : q <+: r) (hne : r ≠ q)
    (hr : D.at_ r ≠ none) : isDirAt D q = true := by
  obtain ⟨t, rfl⟩ := h
  induction t using snocInd with
  | nil => simp at hne
  | append_singleton l x ih =>
    have h1 := ht _ (by simp) hr
    rw [← List.append_assoc, List.dropLast_concat] at h1
    by_cases hl : l = []
    · simpa [hl] using h1
    · refine ih (by simpa using hl) ?_
      obtain ⟨m, hm⟩ := isDirAt_iff.1 h1
      simp [hm]

/-- Where the content that was at a path is now. -/
def Tracked (C : PEnv) (a : Path) (D d : Disk CObj) (done : Child → Prop) (p : Path) (b : Bytes) : Prop :=
  Has d p b ∨ ∃ c, done c ∧ p = a ++ c.path ∧ ∃ t, Binned C D p t ∧ Has d t b

/-- What holds after each pass. -/
structure Inv (C : PEnv) (a : Path) (D : Disk CObj) (rcs todo : List Child) (d : Disk CObj) : Prop where
  untouched : ∀ c ∈ todo, d.at_ (a ++ c.path) = D.at_ (a ++ c.path) ∨ D.at_ (a ++ c.path) = none ∧ d.at_ (a ++ c.path) = some (.dir none)
  dirs : ∀ r, isDirAt D r = true → (C.loc <+: r → r = C.loc) → isDirAt d r = true
  content : ∀ p b, Has D p b → ¬ C.loc <+: p → Tracked C a D d (fun c => c ∈ rcs ∧ ∀ x ∈ todo, x.path ≠ c.path) p b

theorem binned_loc {C : PEnv} {d : Disk CObj} {q p : Path} (h : Binned C d q p) : C.loc <+: p ∧ p.length = C.loc.length + 1 := by
  obtain ⟨_, _, _, _, rfl⟩ := h
  exact ⟨List.prefix_append _ _, by simp⟩

theorem Inv.site {C : PEnv} {S : Sent} {a : Path} {D d : Disk CObj} {rcs todo : List Child} {c : Child} (hp : Placed C S a D rcs)
    (h : Inv C a D rcs todo d) (hc : c ∈ todo) (hcr : c ∈ rcs) : Site C S c (a ++ c.path) d where
  recorded := fun m hm => by
    rcases h.untouched c hc with h | ⟨-, h⟩
    · rw [h] at hm
      exact hp.recorded c hcr m hm
    · rw [h] at hm
      simp at hm
  calls := hp.calls
  trash := isDirAt_iff.1 (h.dirs _ hp.trash fun _ => rfl)
  apart := hp.apart c hcr
  parent := fun hne => by
    have hq : a ++ c.path ≠ [] := fun he => (hp.apart c hcr).1 (he ▸ List.nil_prefix)
    rcases h.untouched c hc with h' | ⟨-, h'⟩
    · right
      refine ⟨hq, isDirAt_iff.1 (h.dirs _ (hp.tree _ hq (h' ▸ hne)) fun hl => ?_)⟩
      exact absurd (hl.trans (List.dropLast_prefix _)) (hp.apart c hcr).2
    · exact .inl (isDirAt_iff.2 ⟨_, h'⟩)
  refresh := hp.refresh c hcr

theorem Inv.step {C : PEnv} {S : Sent} {a : Path} {D d0 d : Disk CObj} {rcs todo : List Child} {c : Child} (hp : Placed C S a D rcs)
    (h : Inv C a D rcs (c :: todo) d0) (hcr : c ∈ rcs) (htodo : ∀ x ∈ todo, x ∈ rcs) (hne : ∀ x ∈ todo, x.path ≠ c.path)
    (hs : Step C c.shape (a ++ c.path) d0 d) : Inv C a D rcs todo d := by
  have hap := hp.apart c hcr
  have hbD : ∀ t, Binned C d0 (a ++ c.path) t → Binned C D (a ++ c.path) t := by
    rintro t ⟨m, i, h1, h2⟩
    refine ⟨m, i, ?_, h2⟩
    rcases h.untouched c List.mem_cons_self with h' | ⟨-, h'⟩
    · rwa [h'] at h1
    · rw [h'] at h1; simp at h1
  have hoff : ∀ r, (C.loc <+: r → r = C.loc) → ∀ t, Binned C d0 (a ++ c.path) t → ¬ t <+: r := by
    intro r hr t ht hle
    obtain ⟨h1, h2⟩ := binned_loc ht
    have := hr (h1.trans hle)
    subst this
    have := hle.length_le
    omega
  have hup : ∀ r, a ++ c.path <+: r → r ≠ a ++ c.path → D.at_ r ≠ none → d.at_ r = d0.at_ r := by
    intro r h1 h2 h3
    refine (hs.below r h1 h2).1 (h.dirs _ (dir_above hp.tree h1 h2 h3) fun hl => absurd hl hap.2)
  refine ⟨fun x hx => ?_, fun r hr hl => ?_, fun p b hb hl => ?_⟩
  · have hxr := htodo x hx
    have hold := h.untouched x (List.mem_cons_of_mem _ hx)
    by_cases hpre : a ++ c.path <+: a ++ x.path
    · have hxne : a ++ x.path ≠ a ++ c.path := fun he => hne x hx (List.append_cancel_left he)
      rcases hp.shape c hcr with hk | hk
      · rcases (hs.below _ hpre hxne).2 hk with h' | h'
        · rw [h']; exact hold
        · cases hD : D.at_ (a ++ x.path) with
          | none => exact .inl h'
          | some y =>
            rw [hup _ hpre hxne (by simp [hD])]
            simpa [hD] using hold
      · exact absurd (hp.leaf c hcr x hxr hk ((List.prefix_append_right_inj a).1 hpre)) (hne x hx)
    · rcases hs.frame _ hpre (hoff _ fun hl => absurd hl (hp.apart x hxr).2) with h' | ⟨h', h''⟩
      · rw [h']; exact hold
      · rcases hold with hold | ⟨-, hold⟩
        · exact .inr ⟨by rw [← hold, h'], h''⟩
        · rw [h'] at hold; simp at hold
  · have hold := h.dirs r hr hl
    obtain ⟨m, hm⟩ := isDirAt_iff.1 hold
    obtain ⟨m', hm'⟩ := isDirAt_iff.1 hr
    by_cases hpre : a ++ c.path <+: r
    · by_cases hrq : r = a ++ c.path
      · subst hrq
        exact hs.dirs hold
      · exact isDirAt_iff.2 ⟨m, by rw [hup r hpre hrq (by simp [hm']), hm]⟩
    · rcases hs.frame r hpre (hoff r hl) with h' | ⟨h', -⟩
      · exact isDirAt_iff.2 ⟨m, by rw [h', hm]⟩
      · rw [h'] at hm; simp at hm
  · have hkeep : ∀ {r}, d.at_ r = d0.at_ r ∨ d0.at_ r = none ∧ d.at_ r = some (.dir none) → Has d0 r b → Has d r b := by
      rintro r (h' | ⟨h', -⟩) ⟨m, hm⟩
      · exact ⟨m, by rw [h', hm]⟩
      · rw [h'] at hm; simp at hm
    rcases h.content p b hb hl with hh | ⟨x, ⟨hxr, hxn⟩, hpx, t, ht, hh⟩
    · by_cases hpre : a ++ c.path <+: p
      · by_cases hpq : p = a ++ c.path
        · subst hpq
          rcases hs.content b hh with h' | ⟨t, ht, h'⟩
          · exact .inl h'
          · exact .inr ⟨c, ⟨hcr, hne⟩, rfl, t, hbD t ht, h'⟩
        · obtain ⟨m, hm⟩ := hb
          exact .inl (hkeep (.inl (hup p hpre hpq (by simp [hm]))) hh)
      · exact .inl (hkeep (hs.frame p hpre (hoff p fun h' => absurd h' hl)) hh)
    · refine .inr ⟨x, ⟨hxr, fun y hy => hxn y (List.mem_cons_of_mem _ hy)⟩, hpx, t, ht, hkeep (hs.frame t ?_ ?_) hh⟩
      · intro hle
        obtain ⟨h1, -⟩ := binned_loc ht
        rcases List.prefix_or_prefix_of_prefix hle h1 with h' | h'
        · exact hap.1 h'
        · exact hap.2 h'
      · intro t' ht' hle
        have h1 := (binned_loc ht).2
        have h2 := (binned_loc ht').2
        have : t' = t := hle.eq_of_length (by omega)
        subst this
        exact hxn c List.mem_cons_self (hp.ids c hcr x hxr t' (hbD _ ht') (hpx ▸ ht))

theorem Inv.fewer {C : PEnv} {a : Path} {D d : Disk CObj} {rcs todo : List Child} (h : Inv C a D rcs todo d) : Inv C a D rcs [] d := by
  refine ⟨by simp, h.dirs, fun p b h1 h2 => (h.content p b h1 h2).imp_right ?_⟩
  rintro ⟨c, hc, h⟩
  exact ⟨c, ⟨hc.1, by simp⟩, h⟩

theorem strapLoop_safe {C : PEnv} {S : Sent} {a : Path} {files : List (Rel × Option Id)} {D : Disk CObj} {rcs : List Child}
    (hp : Placed C S a D rcs) : ∀ (todo : List Child), (∀ c ∈ todo, c ∈ rcs) → todo.Pairwise (fun x y => x.path ≠ y.path) →
    Hoare (fun d => Inv C a D rcs todo d) (C.strapLoop S a files todo) (fun _ d => Inv C a D rcs [] d) (fun _ d => Inv C a D rcs [] d)
  | [], _, _ => .pure_ fun _ h => h
  | c :: todo, hsub, hpw => by
    have hcr := hsub c List.mem_cons_self
    have hpw' := List.pairwise_cons.1 hpw
    have hst : ∀ d0 d, Inv C a D rcs (c :: todo) d0 → Step C c.shape (a ++ c.path) d0 d → Inv C a D rcs todo d := fun d0 d h hs =>
      h.step hp hcr (fun x hx => hsub x (List.mem_cons_of_mem _ hx)) (fun x hx => (hpw'.1 x hx).symm) hs
    refine .bind_ (Q := fun _ d => Inv C a D rcs todo d) ?_ fun p => ?_
    · intro s hs
      have := strapOne_safe (files := files) (hs.site hp List.mem_cons_self hcr) (hp.shape c hcr) s rfl
      generalize C.strapOne S a files c s = r at this ⊢
      obtain ⟨r, s'⟩ := r
      cases r with
      | ok x => exact hst _ _ hs this
      | error e => exact (hst _ _ hs this).fewer
    · exact .bind_ (strapLoop_safe hp todo (fun x hx => hsub x (List.mem_cons_of_mem _ hx)) hpw'.2) fun _ => .pure_ fun _ h => h

theorem strap_safe {C : PEnv} {S : Sent} {a : Path} {files : List (Rel × Option Id)} {sparse : Bool} {rcs : List Child} {s : Machine CObj}
    (hp : Placed C S a s.disk rcs) : Inv C a s.disk rcs [] (C.strap S a files sparse rcs s).2.disk := by
  have hpw : (gen sparse rcs).Pairwise fun x y => x.path ≠ y.path := by
    cases sparse with
    | true => exact hp.distinct.sublist (by simp only [gen, if_true]; exact List.filter_sublist)
    | false => exact List.Pairwise.perm hp.distinct (C102_order rcs).1.symm fun h => Ne.symm h
  have h0 : Inv C a s.disk rcs (gen sparse rcs) s.disk := ⟨fun _ _ => .inl rfl, fun _ h _ => h, fun _ _ h _ => .inl h⟩
  have h := strapLoop_safe (files := files) hp (gen sparse rcs) gen_sub hpw s h0
  unfold PEnv.strap
  generalize C.strapLoop S a files (gen sparse rcs) s = r at h ⊢
  obtain ⟨r, s'⟩ := r
  cases r <;> exact h

section
variable {C : PEnv} {S : Sent} {a : Path} {files : List (Rel × Option Id)} {sparse : Bool} {rcs : List Child} {s : Machine CObj}

/-- C125: whatever is on disk when a recursive bootstrap starts, and whichever calls fail, the content of each local file is there afterwards:
where it was, or in the trash under its recorded id if it was at the path of a remote object. -/
theorem C125_content (hp : Placed C S a s.disk rcs) (p : Path) (b : Bytes) (hb : Has s.disk p b) (hl : ¬ C.loc <+: p) :
    Has (C.strap S a files sparse rcs s).2.disk p b ∨
    ∃ c ∈ rcs, p = a ++ c.path ∧ ∃ m i, s.disk.at_ p = some (.file b (some m)) ∧ m .id = .str i ∧
      Has (C.strap S a files sparse rcs s).2.disk (C.loc ++ [fsSafeId i]) b := by
  refine ((strap_safe (files := files) (sparse := sparse) hp).content p b hb hl).imp_right ?_
  rintro ⟨c, ⟨hc, -⟩, rfl, t, ⟨m, i, hm, hi, rfl⟩, h⟩
  refine ⟨c, hc, rfl, m, i, ?_, hi, h⟩
  obtain ⟨m', hb⟩ := hb
  rw [hb] at hm ⊢
  rcases hm with hm | ⟨b', hm⟩
  · simp at hm
  · simp only [Option.some.injEq, CObj.file.injEq] at hm ⊢
    exact ⟨trivial, hm.2⟩

/-- C125: every local directory is a directory afterwards. -/
theorem C125_directories (hp : Placed C S a s.disk rcs) (p : Path) {m : Option Meta} (hd : s.disk.at_ p = some (.dir m))
    (hl : C.loc <+: p → p = C.loc) : ∃ m', (C.strap S a files sparse rcs s).2.disk.at_ p = some (.dir m') :=
  isDirAt_iff.1 ((strap_safe (files := files) (sparse := sparse) hp).dirs p (isDirAt_iff.2 ⟨m, hd⟩) hl)

end

/-! ### Examples -/

/-- Metadata of a file of three bytes, with a checksum. -/
def keptMeta (i : Str) (c : Bytes) : Meta := fun f => match f with
  | .id => .str i | .file_id => .int 7 | .size => .int 3 | .checksum => .bytes c | .errors => .strs [] | _ => .none

/-- Two local files that were fetched, one that was not, and one that the remote does not know. -/
def keptDisk (i j : Str) : Disk CObj :=
  [([], .dir none), ([['t']], .dir none), ([['r']], .dir none), ([['r'], ['d']], .dir none),
    ([['r'], ['d'], ['x']], .file [1, 1, 1] (some (keptMeta i [1]))), ([['r'], ['y']], .file [1, 2, 2] (some (keptMeta j [1]))),
    ([['r'], ['z']], .link (some (keptMeta ['k'] [1]))), ([['r'], ['d'], ['w']], .file [8] none)]

/-- The remote has other versions of all of them. -/
def keptList : List Child :=
  [⟨[['d'], ['x']], ['i'], .file, true, keptMeta ['i'] [2], none⟩, ⟨[['d']], ['n'], .dir, true, keptMeta ['n'] [], none⟩,
    ⟨[['y']], ['j'], .file, true, keptMeta ['j'] [2], none⟩, ⟨[['z']], ['k'], .file, true, keptMeta ['k'] [2], none⟩]

def keptSent : Sent := ⟨fun _ => [.ok [2], .ok [3, 4]], fun _ => .ok [2], fun _ => none, fun _ => .pure ()⟩

example : Placed simple keptSent [['r']] (keptDisk ['i'] ['j']) keptList ∧
    ((simple.strap keptSent [['r']] [] false keptList ⟨keptDisk ['i'] ['j'], 0⟩).1 =
      .ok [[['r'], ['d']], [['r'], ['y']], [['r'], ['z']], [['r'], ['d'], ['x']]]) ∧
    (shown (simple.strap keptSent [['r']] [] false keptList ⟨keptDisk ['i'] ['j'], 0⟩).2.disk [['r'], ['y']]).map Prod.fst = some [2, 3, 4] ∧
    (shown (simple.strap keptSent [['r']] [] false keptList ⟨keptDisk ['i'] ['j'], 0⟩).2.disk [['t'], ['j']]).map Prod.fst = some [1, 2, 2] := by
  refine ⟨⟨by decide, by decide, by decide, ?_, by decide, ?_, by simp [simple], ?_, ?_, ?_⟩, by decide +kernel, by decide +kernel, by decide +kernel⟩
  · intro p hp hne
    have : p ∈ (keptDisk ['i'] ['j']).map Prod.fst := by
      cases hx : (keptDisk ['i'] ['j']).at_ p with
      | none => exact absurd hx hne
      | some x => exact List.mem_map_of_mem (f := Prod.fst) (Disk.mem_of_at hx)
    simp only [keptDisk, List.map_cons, List.map_nil, List.mem_cons, List.not_mem_nil, or_false] at this
    rcases this with rfl | rfl | rfl | rfl | rfl | rfl | rfl | rfl
    · exact absurd rfl hp
    all_goals decide
  · intro c hc
    simp only [keptList, List.mem_cons, List.not_mem_nil, or_false] at hc
    rcases hc with rfl | rfl | rfl | rfl <;> (unfold Apart; decide)
  · intro c hc m hm
    simp only [keptList, List.mem_cons, List.not_mem_nil, or_false] at hc
    rcases hc with rfl | rfl | rfl | rfl
    · exact ⟨['i'], by simp [keptDisk, Disk.at_] at hm; subst hm; rfl, by decide⟩
    · simp [keptDisk, Disk.at_] at hm
    · exact ⟨['j'], by simp [keptDisk, Disk.at_] at hm; subst hm; rfl, by decide⟩
    · exact ⟨['k'], by simp [keptDisk, Disk.at_] at hm; subst hm; rfl, by decide⟩
  · rintro c hc c' hc' p ⟨m, i, h1, h2, rfl⟩ ⟨m', i', h1', h2', h3⟩
    simp only [keptList, List.mem_cons, List.not_mem_nil, or_false] at hc hc'
    rcases hc with rfl | rfl | rfl | rfl <;> rcases hc' with rfl | rfl | rfl | rfl <;> simp [keptDisk, Disk.at_] at h1 h1' <;>
      first | rfl | (exfalso; subst h1 h1'; simp only [keptMeta, PyVal.str.injEq] at h2 h2'; subst h2 h2'; revert h3; decide)
  · intro c _ d0
    exact .pure_ fun _ h => h

/-- C125 fails for two files that have the same recorded id (one was copied with its attributes, say): both go to the same place in the
trash, and the content of one of them is nowhere afterwards. -/
theorem C125_same_id_counterexample :
    let s := (simple.strap keptSent [['r']] [] false keptList ⟨keptDisk ['i'] ['i'], 0⟩).2
    Has (keptDisk ['i'] ['i']) [['r'], ['y']] [1, 2, 2] ∧ ∀ p, ¬ Has s.disk p [1, 2, 2] := by
  refine ⟨⟨_, rfl⟩, ?_⟩
  rintro p ⟨m, hm⟩
  have h : ∀ e ∈ contents (simple.strap keptSent [['r']] [] false keptList ⟨keptDisk ['i'] ['i'], 0⟩).2.disk, e.2 ≠ some [1, 2, 2] := by
    decide +kernel
  exact h _ (List.mem_map_of_mem (Disk.mem_of_at hm)) rfl

end Verif.Cache
