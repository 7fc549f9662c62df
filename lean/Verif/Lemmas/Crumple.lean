import Verif.Model.Crumple
import Verif.Lemmas.Hoare
import Verif.Lemmas.Move

namespace Verif.Cache
open Verif.FS

variable {ν : Type} [Kinded ν]

/-- `d` is `d0` with new directories on the way to `q`. -/
def Grown (T : Trash ν) (q : Path) (d0 d : Disk ν) : Prop :=
  ∀ r, d.at_ r = d0.at_ r ∨ (r <+: q ∧ d0.at_ r = none ∧ d.at_ r = some T.newDir)

theorem Grown.refl (T : Trash ν) (q : Path) (d : Disk ν) : Grown T q d d := fun _ => .inl rfl

theorem create_ok {d d' : Disk ν} {q : Path} {x : ν} (h : d.create q x = .ok d') : d.at_ q = none ∧ d' = d.put q x := by
  unfold Disk.create at h
  split at h
  · simp at h
  · rename_i hq
    split at h
    · simp at h
    · split at h
      · simp only [Except.ok.injEq] at h
        exact ⟨hq, h.symm⟩
      · simp at h

theorem Grown.create {T : Trash ν} {q r : Path} {d0 d d' : Disk ν} (h : Grown T q d0 d) (hr : r <+: q)
    (hc : d.create r T.newDir = .ok d') : Grown T q d0 d' := by
  obtain ⟨h1, rfl⟩ := create_ok hc
  intro s
  rw [Disk.at_put]
  by_cases hs : s = r
  · subst hs
    rw [if_pos rfl]
    rcases h s with h' | h'
    · exact .inr ⟨hr, by rw [← h', h1], rfl⟩
    · rw [h1] at h'; simp at h'
  · rw [if_neg hs]; exact h s

theorem osMkdir_grown (T : Trash ν) {q r : Path} (d0 : Disk ν) (hr : r <+: q) :
    Hoare (Grown T q d0) (T.osMkdir r) (fun _ => Grown T q d0) (fun _ => Grown T q d0) :=
  .act_ (fun _ _ h hc => h.create hr hc) (fun _ _ h => h)

theorem tolerate_grown (T : Trash ν) {q r : Path} (d0 : Disk ν) (eo : Bool) (e : PyErr) :
    Hoare (Grown T q d0) (T.tolerate r eo e) (fun _ => Grown T q d0) (fun _ => Grown T q d0) := by
  refine .ite_ (fun _ => ?_) (fun _ => .throw_ fun _ h => h)
  refine .bind_ (.look_ (Q := fun _ => Grown T q d0) (fun _ _ h _ => h) (fun _ _ h => h)) fun b => ?_
  exact .ite_ (fun _ => .pure_ fun _ h => h) (fun _ => .throw_ fun _ h => h)

theorem mkdirs_grown (T : Trash ν) {q : Path} (d0 : Disk ν) : ∀ (r : List Name) (eo : Bool), r.reverse <+: q →
    Hoare (Grown T q d0) (T.mkdirs r eo) (fun _ => Grown T q d0) (fun _ => Grown T q d0)
  | [], eo, hr => .try_ (osMkdir_grown T d0 hr) fun e => tolerate_grown T d0 eo e
  | n :: r, eo, hr => by
    refine .try_ (osMkdir_grown T d0 hr) fun e => .ite_ (fun _ => ?_) (fun _ => tolerate_grown T d0 eo e)
    refine .bind_ (mkdirs_grown T d0 r true ?_) fun _ => ?_
    · rw [List.reverse_cons] at hr
      exact (List.prefix_append _ _).trans hr
    · exact .try_ (osMkdir_grown T d0 hr) fun e => .ite_ (fun _ => .throw_ fun _ h => h) (fun _ => tolerate_grown T d0 eo e)

/-- What a successful rename does. -/
theorem rename_ok {d d' : Disk ν} {src dst : Path} (h : d.rename src dst = .ok d') :
    (∃ x, d.at_ src = some x) ∧ (src = dst ∧ d' = d ∨ Apart src dst ∧ d'.at_ = mv d.at_ src dst) := by
  unfold Disk.rename at h
  split at h
  · simp at h
  · simp at h
  · rename_i x p hx hp
    refine ⟨⟨x, hx⟩, ?_⟩
    split at h
    · simp at h
    · split at h
      · rename_i heq
        simp only [Except.ok.injEq] at h
        exact .inl ⟨heq, h.symm⟩
      · split at h
        · simp at h
        · rename_i h1
          split at h
          · simp at h
          · rename_i h2
            right
            have hap : Apart src dst := ⟨h1, h2⟩
            refine ⟨hap, ?_⟩
            have : d' = d.move src dst := by
              split at h
              · simpa using h.symm
              · split at h
                · split at h
                  · simp at h
                  · split at h
                    · simp at h
                    · simpa using h.symm
                · split at h
                  · simp at h
                  · simpa using h.symm
            rw [this]
            exact at_move d hap

/-- A rename never says that something exists already, nor that a name is too long. -/
theorem rename_error {d : Disk ν} {src dst : Path} {e : PyErr} (h : d.rename src dst = .error e) :
    e = .fileNotFoundError ∨ e = .notADirectoryError ∨ e = .isADirectoryError ∨ e = .osError := by
  unfold Disk.rename at h
  repeat' split at h
  all_goals simp_all

theorem osRename_hoare (T : Trash ν) (src dst : Path) (P : Disk ν → Prop) (Q : Disk ν → Prop) (R : PyErr → Disk ν → Prop)
    (hok : ∀ d d', P d → d.rename src dst = .ok d' → Q d')
    (herr : ∀ e d, P d → (e = .nameTooLongError → dst.getLast?.any T.long ∨ ∃ n, T.F n = some .nameTooLongError) →
      (e = .fileExistsError → ∃ n, T.F n = some .fileExistsError) → R e d) :
    Hoare P (T.osRename src dst) (fun _ => Q) R := by
  refine .act_err ?_ ?_
  · intro d d' hP h
    split at h
    · split at h
      · simp at h
      · exact hok d d' hP h
    · exact hok d d' hP h
  · intro e d hP h
    rcases h with ⟨n, hn⟩ | h
    · exact herr e d hP (fun he => .inr ⟨n, he ▸ hn⟩) (fun he => ⟨n, he ▸ hn⟩)
    · split at h
      · split at h
        · rename_i hl
          simp only [Except.error.injEq] at h
          subst h
          exact herr _ d hP (fun _ => .inl hl.2) (by simp)
        · have := rename_error h
          exact herr e d hP (by rintro rfl; simp at this) (by rintro rfl; simp at this)
      · have := rename_error h
        exact herr e d hP (by rintro rfl; simp at this) (by rintro rfl; simp at this)

/-- `d` is `d0` with everything at `src` moved to `dst` (and perhaps new directories on the way to the trash). -/
def Moved (T : Trash ν) (src dst : Path) (d0 d : Disk ν) : Prop :=
  ∃ d1, Grown T T.loc d0 d1 ∧ (∃ x, d1.at_ src = some x) ∧
    (src = dst ∧ d = d1 ∨ Apart src dst ∧ d.at_ = mv d1.at_ src dst)

/-- The name for this id is too long, or some call reports that error for no reason. -/
def TooLong (T : Trash ν) (i : Str) : Prop :=
  (T.place (fsSafeId i)).getLast?.any T.long ∨ ∃ n, T.F n = some .nameTooLongError

theorem path_dropLast (T : Trash ν) (s : Name) : (T.path s).dropLast <+: T.loc := by
  unfold Trash.path
  split
  · exact List.dropLast_prefix _
  · simp

theorem Grown.mono {T : Trash ν} {q q' : Path} {d0 d : Disk ν} (h : Grown T q d0 d) (hq : q <+: q') : Grown T q' d0 d :=
  fun r => (h r).imp_right fun h => ⟨h.1.trans hq, h.2⟩

/-- Why trashing may say that something exists already: a call says so for no reason, or the trash leads to nothing. -/
def Taken (T : Trash ν) (i : Str) (d0 : Disk ν) : Prop :=
  (∃ n, T.F n = some .fileExistsError) ∨ T.leads d0 (T.path (fsSafeId i)).dropLast = false

/-- Every run of `crumple`. -/
theorem crumple_hoare (T : Trash ν) (i : Str) (src : Path) (d0 : Disk ν) :
    Hoare (fun d => d = d0) (T.crumple (some i) src)
      (fun p d => p = T.place (fsSafeId i) ∧
        (Moved T src p d0 d ∨ TooLong T i ∧ Moved T src (T.place (src.getLast?.getD [])) d0 d))
      (fun e d => Grown T T.loc d0 d ∧ (e = .fileExistsError → Taken T i d0)) := by
  unfold Trash.crumple
  have hpre : ((T.path (fsSafeId i)).dropLast.reverse).reverse <+: T.loc := by
    rw [List.reverse_reverse]; exact path_dropLast T _
  refine .bind_ (Q := fun b d => b = T.leads d0 (T.path (fsSafeId i)).dropLast ∧ Grown T T.loc d0 d) (.look_err ?_ ?_) fun b => .of_pre fun hb => ?_
  · rintro d a rfl h
    simp only [Except.ok.injEq] at h
    exact ⟨h.symm, .refl _ _ _⟩
  · rintro e d rfl (⟨n, h⟩ | h)
    · exact ⟨.refl _ _ _, fun he => .inl ⟨n, he ▸ h⟩⟩
    · simp at h
  refine .bind_ (Q := fun _ d => Grown T T.loc d0 d) (.ite_ (fun _ => .pure_ fun _ h => h) (fun h =>
    (mkdirs_grown T d0 _ _ hpre).mono (fun _ h => h) (fun _ _ h => h) fun _ _ h' => ⟨h', fun _ => .inr (by rw [← hb]; simpa using h)⟩)) fun _ => ?_
  refine .bind_ (Q := fun _ d => Moved T src (T.place (fsSafeId i)) d0 d ∨
      TooLong T i ∧ Moved T src (T.place (src.getLast?.getD [])) d0 d) ?_ fun _ => .pure_ fun _ h => ⟨rfl, h⟩
  refine .try_ (R := fun e d => Grown T T.loc d0 d ∧ (e = .nameTooLongError → TooLong T i) ∧ (e = .fileExistsError → Taken T i d0)) ?_
    fun e => .ite_ (fun he => ?_) (fun _ => .throw_ fun _ h => ⟨h.1, h.2.2⟩)
  · exact osRename_hoare T _ _ _ _ _ (fun d d' h hr => .inl ⟨d, h, rename_ok hr⟩) (fun e d h h1 h2 => ⟨h, fun he => h1 he, fun he => .inl (h2 he)⟩)
  · exact osRename_hoare T _ _ _ _ _ (fun d d' h hr => .inr ⟨h.2.1 he, d, h.1, rename_ok hr⟩) (fun e d h _ h2 => ⟨h.1, fun he => .inl (h2 he)⟩)

end Verif.Cache
