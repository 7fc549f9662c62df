import Verif.Props.Fetch
import Verif.Lemmas.Decide

/-!
# C100: giving metadata to a primary cache

`PrimaryCache._meta_setter` (`augpathlib/caches.py` lines 1314-1345) with `PrimaryCache.meta` (1282-1312), on files, directories,
symlinks, and where nothing is yet.
-/

namespace Verif.Cache
open Verif.FS

/-- What the fields are when nothing was stored. -/
def unset (f : Field) : PyVal := if f = .errors then .strs [] else .none

/-- What the metadata stored on a file or directory say about a field. -/
def shownField : Option Meta → Field → PyVal
  | some w, f => w f
  | none, f => unset f

/-- Whether there is something to store for a value. -/
def Storable (v : PyVal) : Prop := v ≠ .none ∧ v.emptyIterable = false

instance (v : PyVal) : Decidable (Storable v) := inferInstanceAs (Decidable (_ ∧ _))

/-- `o` shows the fields of `m`, and where `m` has nothing to store, those of `mo`. -/
def Overlaid (mo : Option Meta) (m : Meta) (o : Option Meta) : Prop :=
  ∀ f, shownField o f = if Storable (m f) then m f else shownField mo f

theorem shownField_eq (o : Option Meta) (f : Field) : shownField o f = (o.getD blank) f := by
  cases o <;> rfl

theorem overlaid_laid (mo : Option Meta) (m : Meta) : Overlaid mo m (laid mo m) := fun f => by
  rw [shownField_eq, laid_get, shownField_eq]
  rfl

/-- Some of the fields are the new ones already. -/
def PartlyLaid (mo : Option Meta) (m : Meta) (o : Option Meta) : Prop :=
  ∀ f, shownField o f = shownField mo f ∨ Storable (m f) ∧ shownField o f = m f

/-- Files and directories with metadata. -/
inductive Holder where
  | dir
  | file (b : Bytes)

def Holder.obj : Holder → Option Meta → CObj
  | .dir, o => .dir o
  | .file b, o => .file b o

variable (C : PEnv) {q : Path} {d0 : Disk CObj}

theorem setXattrs_holder (k : Holder) {mo : Option Meta} (m : Meta) :
    Hoare (fun d => OnlyAt q d0 d ∧ d.at_ q = some (k.obj mo)) (C.setXattrs q m)
      (fun _ d => OnlyAt q d0 d ∧ d.at_ q = some (k.obj (laid mo m)))
      (fun e d => (∃ n, C.F n = some e) ∧ OnlyAt q d0 d ∧ ∃ o, PartlyLaid mo m o ∧ d.at_ q = some (k.obj o)) := by
  have := Hoare.each_fold (R := fun e d => (∃ n, C.F n = some e) ∧ OnlyAt q d0 d ∧ ∃ o, PartlyLaid mo m o ∧ d.at_ q = some (k.obj o))
    (f := fun f => C.setField q f (m f))
    (I := fun o d => PartlyLaid mo m o ∧ OnlyAt q d0 d ∧ d.at_ q = some (k.obj o))
    (g := fun o f => some (Verif.setField (o.getD blank) f (m f))) (storedFields m) mo fun f hf o => .act_err ?_ ?_
  · exact this.mono (fun d h => ⟨fun _ => .inl rfl, h⟩) (fun _ d h => h.2) (fun _ _ h => h)
  · rintro d d' ⟨h0, h1, h2⟩ h
    rw [h2] at h
    have h : Except.ok (ε := PyErr) (d.put q (k.obj (some (Verif.setField (o.getD blank) f (m f))))) = .ok d' := by cases k <;> exact h
    simp only [Except.ok.injEq] at h
    subst h
    refine ⟨fun g => ?_, h1.put _, at_put_self _ _ _⟩
    by_cases hg : g = f
    · subst hg
      simp only [storedFields, List.mem_filter, decide_eq_true_eq] at hf
      exact .inr ⟨⟨hf.2.1, by simpa using hf.2.2⟩, by simp [shownField, Verif.setField]⟩
    · have : shownField (some (Verif.setField (o.getD blank) f (m f))) g = shownField o g := by
        rw [shownField_eq o]
        simp [shownField, Verif.setField, hg]
      rw [this]
      exact h0 g
  · rintro e d ⟨h0, h1, h2⟩ h
    rcases h with h | h
    · exact ⟨h, h1, o, h0, h2⟩
    · rw [h2] at h
      cases k <;> simp [Holder.obj] at h

theorem there_holder (k : Holder) {d : Disk CObj} {mo : Option Meta} (h : d.at_ q = some (k.obj mo)) : there d q = true := by
  cases k <;> simp [there, h, Holder.obj]

theorem setMeta_unfold (m : Meta) (hm : metaBool m = true) : C.setMeta q (some m) =
    .bind (.look C.F fun d => .ok (there d q)) fun ex =>
      if ex then C.setXattrs q m
      else
        .bind (C.prepare q) fun _ =>
        .bind (.look C.F fun d => .ok (there d q)) fun ex =>
        if ex then C.setXattrs q m else C.setLink q m := by
  simp [PEnv.setMeta, hm]

/-- On a file or directory. -/
theorem setMeta_holder (k : Holder) {mo : Option Meta} (m : Meta) (hm : metaBool m = true) :
    Hoare (fun d => OnlyAt q d0 d ∧ d.at_ q = some (k.obj mo)) (C.setMeta q (some m))
      (fun _ d => OnlyAt q d0 d ∧ d.at_ q = some (k.obj (laid mo m)))
      (fun e d => (∃ n, C.F n = some e) ∧ OnlyAt q d0 d ∧ ∃ o, PartlyLaid mo m o ∧ d.at_ q = some (k.obj o)) := by
  rw [setMeta_unfold C m hm]
  refine .bind_ (Q := fun ex d => ex = true ∧ OnlyAt q d0 d ∧ d.at_ q = some (k.obj mo)) (.look_err ?_ ?_) fun ex => .of_pre fun hex => ?_
  · rintro d a ⟨h1, h2⟩ h
    simp only [Except.ok.injEq] at h
    exact ⟨h ▸ there_holder k h2, h1, h2⟩
  · rintro e d ⟨h1, h2⟩ (h | h)
    · exact ⟨h, h1, mo, fun _ => .inl rfl, h2⟩
    · simp at h
  · subst hex
    exact setXattrs_holder C k m

/-- C100: metadata given to a file or directory: if the setter returns, the fields are the new ones, or those from before where
there is nothing to store, and the content and everything else is as before. -/
theorem C100_existing {mo : Option Meta} {m : Meta} {s s' : Machine CObj} (hm : metaBool m = true) (hrun : C.setMeta q (some m) s = (.ok (), s')) :
    (∀ b, s.disk.at_ q = some (.file b mo) → ∃ o, s'.disk.at_ q = some (.file b o) ∧ Overlaid mo m o) ∧
    (s.disk.at_ q = some (.dir mo) → ∃ o, s'.disk.at_ q = some (.dir o) ∧ Overlaid mo m o) ∧
    (there s.disk q = true → ∀ r, r ≠ q → s'.disk.at_ r = s.disk.at_ r) := by
  have key : ∀ (k : Holder) mo, s.disk.at_ q = some (k.obj mo) →
      s'.disk.at_ q = some (k.obj (laid mo m)) ∧ ∀ r, r ≠ q → s'.disk.at_ r = s.disk.at_ r := by
    intro k mo h
    have := setMeta_holder C (d0 := s.disk) k m hm s ⟨.refl _ _, h⟩
    rw [hrun] at this
    exact ⟨this.2, this.1⟩
  refine ⟨fun b h => ⟨_, (key (.file b) mo h).1, overlaid_laid _ _⟩, fun h => ⟨_, (key .dir mo h).1, overlaid_laid _ _⟩, fun h => ?_⟩
  unfold there at h
  split at h
  · rename_i mo' h'
    exact (key .dir mo' h').2
  · rename_i b mo' h'
    exact (key (.file b) mo' h').2
  · simp at h

/-- C100: if the setter raises for a file or directory, a call failed; each field is the old or the new one, and the content
and everything else is as before. -/
theorem C100_torn {mo : Option Meta} {m : Meta} {s s' : Machine CObj} {e : PyErr} (hm : metaBool m = true)
    (hrun : C.setMeta q (some m) s = (.error e, s')) :
    (∀ b, s.disk.at_ q = some (.file b mo) → ∃ o, s'.disk.at_ q = some (.file b o) ∧ PartlyLaid mo m o) ∧
    (s.disk.at_ q = some (.dir mo) → ∃ o, s'.disk.at_ q = some (.dir o) ∧ PartlyLaid mo m o) ∧
    (there s.disk q = true → (∃ n, C.F n = some e) ∧ ∀ r, r ≠ q → s'.disk.at_ r = s.disk.at_ r) := by
  have key : ∀ (k : Holder) mo, s.disk.at_ q = some (k.obj mo) → (∃ n, C.F n = some e) ∧ (∀ r, r ≠ q → s'.disk.at_ r = s.disk.at_ r) ∧
      ∃ o, PartlyLaid mo m o ∧ s'.disk.at_ q = some (k.obj o) := by
    intro k mo h
    have := setMeta_holder C (d0 := s.disk) k m hm s ⟨.refl _ _, h⟩
    rw [hrun] at this
    exact this
  refine ⟨fun b h => ?_, fun h => ?_, fun h => ?_⟩
  · obtain ⟨-, -, o, h1, h2⟩ := key (.file b) mo h
    exact ⟨o, h2, h1⟩
  · obtain ⟨-, -, o, h1, h2⟩ := key .dir mo h
    exact ⟨o, h2, h1⟩
  · unfold there at h
    split at h
    · rename_i mo' h'
      exact ⟨(key .dir mo' h').1, (key .dir mo' h').2.1⟩
    · rename_i b mo' h'
      exact ⟨(key (.file b) mo' h').1, (key (.file b) mo' h').2.1⟩
    · simp at h

/-- The directory above may have been made. -/
def ParentMade (q : Path) (d0 d : Disk CObj) : Prop :=
  ∀ r, r ≠ q → d.at_ r = d0.at_ r ∨ r = q.dropLast ∧ d0.at_ r = none ∧ d.at_ r = some (.dir none)

theorem not_there_none {d : Disk CObj} (h : d.at_ q = none) : there d q = false := by simp [there, h]

theorem not_there_link {d : Disk CObj} {mo : Option Meta} (h : d.at_ q = some (.link mo)) : there d q = false := by simp [there, h]

/-- Where nothing is. -/
theorem setMeta_nothing (m : Meta) (hm : metaBool m = true) (hne : q ≠ []) (hq : d0.at_ q = none) :
    Hoare (fun d => d = d0) (C.setMeta q (some m))
      (fun _ d => if C.remoteIsDir then OnlyAt q d0 d ∧ d.at_ q = some (.dir (laid none m))
        else ParentMade q d0 d ∧ d.at_ q = some (.link (some m)))
      (fun _ d => if C.remoteIsDir then OnlyAt q d0 d ∧ (d.at_ q = none ∨ ∃ o, PartlyLaid none m o ∧ d.at_ q = some (.dir o))
        else ParentMade q d0 d ∧ d.at_ q = none) := by
  have hdl : q ≠ q.dropLast := by
    intro h
    have := congrArg List.length h
    have hl : 0 < q.length := List.length_pos_iff.2 hne
    simp at this
    omega
  rw [setMeta_unfold C m hm]
  refine .bind_ (Q := fun ex d => ex = false ∧ d = d0) (.look_ ?_ ?_) fun ex => .of_pre fun hex => ?_
  · rintro d a rfl h
    simp only [Except.ok.injEq] at h
    exact ⟨h ▸ not_there_none hq, rfl⟩
  · rintro e d rfl
    split
    · exact ⟨.refl _ _, .inl hq⟩
    · exact ⟨fun _ _ => .inl rfl, hq⟩
  subst hex
  simp only [Bool.false_eq_true, if_false]
  cases hr : C.remoteIsDir with
  | true =>
    simp only [if_true]
    refine .bind_ (Q := fun _ d => OnlyAt q d0 d ∧ d.at_ q = some (Holder.dir.obj none)) ?_ fun _ => ?_
    · unfold PEnv.prepare
      rw [if_pos hr]
      refine .bind_ (Q := fun ex d => ex = false ∧ d = d0) (.look_ ?_ ?_) fun ex => .of_pre fun hex => ?_
      · rintro d a rfl h
        simp only [Except.ok.injEq] at h
        exact ⟨h ▸ not_there_none hq, rfl⟩
      · rintro e d rfl
        exact ⟨.refl _ _, .inl hq⟩
      subst hex
      refine .act_ ?_ ?_
      · rintro d d' rfl h
        obtain ⟨-, rfl⟩ := create_ok h
        exact ⟨(OnlyAt.refl _ _).put _, at_put_self _ _ _⟩
      · rintro e d rfl
        exact ⟨.refl _ _, .inl hq⟩
    · refine .bind_ (Q := fun ex d => ex = true ∧ OnlyAt q d0 d ∧ d.at_ q = some (Holder.dir.obj none)) (.look_ ?_ ?_) fun ex => .of_pre fun hex => ?_
      · rintro d a ⟨h1, h2⟩ h
        simp only [Except.ok.injEq] at h
        exact ⟨h ▸ there_holder .dir h2, h1, h2⟩
      · rintro e d ⟨h1, h2⟩
        exact ⟨h1, .inr ⟨none, fun _ => .inl rfl, h2⟩⟩
      subst hex
      simp only [if_true]
      exact (setXattrs_holder C .dir m).mono (fun _ h => h) (fun _ _ h => h) (fun _ _ h => ⟨h.2.1, .inr h.2.2⟩)
  | false =>
    simp only [Bool.false_eq_true, if_false]
    refine .bind_ (Q := fun _ d => ParentMade q d0 d ∧ d.at_ q = none) ?_ fun _ => ?_
    · unfold PEnv.prepare
      rw [if_neg (by simp [hr])]
      refine .bind_ (Q := fun _ d => d = d0) (.look_ ?_ ?_) fun ex => ?_
      · rintro d a rfl h
        rfl
      · rintro e d rfl
        exact ⟨fun _ _ => .inl rfl, hq⟩
      refine .ite_ (fun _ => .pure_ ?_) fun _ => .act_ ?_ ?_
      · rintro d rfl
        exact ⟨fun _ _ => .inl rfl, hq⟩
      · rintro d d' rfl h
        obtain ⟨h1, rfl⟩ := create_ok h
        refine ⟨fun r hr => ?_, ?_⟩
        · rw [Disk.at_put]
          by_cases hrq : r = q.dropLast
          · rw [if_pos hrq]
            exact .inr ⟨hrq, by rw [hrq]; exact h1, rfl⟩
          · rw [if_neg hrq]
            exact .inl rfl
        · rw [Disk.at_put]
          rw [if_neg hdl]
          exact hq
      · rintro e d rfl
        exact ⟨fun _ _ => .inl rfl, hq⟩
    · refine .bind_ (Q := fun ex d => ex = false ∧ ParentMade q d0 d ∧ d.at_ q = none) (.look_ ?_ (fun _ _ h => h)) fun ex => .of_pre fun hex => ?_
      · rintro d a ⟨h1, h2⟩ h
        simp only [Except.ok.injEq] at h
        exact ⟨h ▸ not_there_none h2, h1, h2⟩
      subst hex
      simp only [Bool.false_eq_true, if_false]
      unfold PEnv.setLink
      refine .bind_ (Q := fun o d => o = none ∧ ParentMade q d0 d ∧ d.at_ q = none) (.look_ ?_ (fun _ _ h => h)) fun o => .of_pre fun ho => ?_
      · rintro d a ⟨h1, h2⟩ h
        simp only [Except.ok.injEq] at h
        exact ⟨h ▸ h2, h1, h2⟩
      subst ho
      refine .act_ ?_ (fun _ _ h => h)
      rintro d d' ⟨h1, h2⟩ h
      obtain ⟨-, rfl⟩ := create_ok h
      refine ⟨fun r hr => ?_, at_put_self _ _ _⟩
      rw [Disk.at_put, if_neg hr]
      exact h1 r hr

/-- C100: metadata given where nothing is: for a remote directory a directory is made that shows them, for a remote file a
symlink that holds them; besides, at most the directory above is made. -/
theorem C100_nothing_there {m : Meta} {s s' : Machine CObj} (hm : metaBool m = true) (hne : q ≠ []) (hq : s.disk.at_ q = none)
    (hrun : C.setMeta q (some m) s = (.ok (), s')) :
    (C.remoteIsDir = true → (∃ o, s'.disk.at_ q = some (.dir o) ∧ Overlaid none m o) ∧ ∀ r, r ≠ q → s'.disk.at_ r = s.disk.at_ r) ∧
    (C.remoteIsDir = false → s'.disk.at_ q = some (.link (some m)) ∧ ParentMade q s.disk s'.disk) := by
  have := setMeta_nothing C m hm hne hq s rfl
  rw [hrun] at this
  dsimp only at this
  refine ⟨fun h => ?_, fun h => ?_⟩
  · rw [if_pos h] at this
    exact ⟨⟨_, this.2, overlaid_laid _ _⟩, this.1⟩
  · rw [if_neg (by simp [h])] at this
    exact ⟨this.2, this.1⟩

/-- C100: if that raises, nothing is there still (or, for a remote directory, a new directory with some of the metadata), and
besides at most the directory above was made. -/
theorem C100_nothing_lost {m : Meta} {s s' : Machine CObj} {e : PyErr} (hm : metaBool m = true) (hne : q ≠ []) (hq : s.disk.at_ q = none)
    (hrun : C.setMeta q (some m) s = (.error e, s')) :
    ParentMade q s.disk s'.disk ∧ (s'.disk.at_ q = none ∨ C.remoteIsDir = true ∧ ∃ o, PartlyLaid none m o ∧ s'.disk.at_ q = some (.dir o)) := by
  have := setMeta_nothing C m hm hne hq s rfl
  rw [hrun] at this
  dsimp only at this
  cases hr : C.remoteIsDir with
  | true =>
    rw [if_pos hr] at this
    exact ⟨fun r h => .inl (this.1 r h), this.2.imp_right fun h => ⟨rfl, h⟩⟩
  | false =>
    rw [if_neg (by simp [hr])] at this
    exact ⟨this.1, .inl this.2⟩

/-- The old link is in the trash, `x` is in its place, and nothing else is different, except that the directory of the trash may be
new, and that what was at that place in the trash is gone. -/
def Replaced (C : PEnv) (q : Path) (i : Str) (old : Meta) (x : Option CObj) (d0 d : Disk CObj) : Prop :=
  ∃ p, (p = C.trash.place (fsSafeId i) ∨ TooLong C.trash i ∧ p = C.trash.place (q.getLast?.getD [])) ∧ Apart q p ∧
    d.at_ p = some (.link (some old)) ∧ d.at_ q = x ∧
    ∀ r, ¬ p <+: r → ¬ q <+: r → d.at_ r = d0.at_ r ∨ d0.at_ r = none ∧ r <+: C.loc ∧ d.at_ r = some (.dir none)

/-- The old link is gone, not even kept in the trash, since the trash says that something exists already; `x` is in its place, and
nothing else is different, except that the directory of the trash may be new. -/
def Discarded (C : PEnv) (q : Path) (i : Str) (x : Option CObj) (d0 d : Disk CObj) : Prop :=
  Taken C.trash i d0 ∧ d.at_ q = x ∧ ∀ r, r ≠ q → d.at_ r = d0.at_ r ∨ d0.at_ r = none ∧ r <+: C.loc ∧ d.at_ r = some (.dir none)

theorem replaced_of_moved {i : Str} {old : Meta} {p : Path} {d : Disk CObj}
    (hp : p = C.trash.place (fsSafeId i) ∨ TooLong C.trash i ∧ p = C.trash.place (q.getLast?.getD []))
    (hq : d0.at_ q = some (.link (some old))) (h : Moved C.trash q p d0 d) :
    Replaced C q i old none d0 d ∨ q = p ∧ d.at_ q = some (.link (some old)) ∧ Grown C.trash C.loc d0 d := by
  obtain ⟨d1, hg, -, h⟩ := h
  have hq1 : d1.at_ q = some (.link (some old)) := by
    rcases hg q with h | ⟨-, h, -⟩
    · rw [h, hq]
    · rw [hq] at h; simp at h
  rcases h with ⟨rfl, rfl⟩ | ⟨ha, hmv⟩
  · exact .inr ⟨rfl, hq1, hg⟩
  · refine .inl ⟨p, hp, ha, ?_, ?_, ?_⟩
    · rw [hmv]
      simp [mv, hq1]
    · rw [hmv]
      simp [mv, ha.2]
    · intro r h1 h2
      rw [hmv]
      simp only [mv, if_neg h1, if_neg h2]
      rcases hg r with h | ⟨h, h', h''⟩
      · exact .inl h
      · exact .inr ⟨h', h, h''⟩

/-- On a symlink. -/
theorem setMeta_onLink {old : Meta} (m : Meta) (hm : metaBool m = true) (hp : there d0 q.dropLast = true)
    (hq : d0.at_ q = some (.link (some old))) :
    Hoare (fun d => d = d0) (C.setMeta q (some m))
      (fun _ d => C.remoteIsDir = false ∧ (C.replace old m = .ok false ∧ d = d0 ∨
        C.replace old m = .ok true ∧ ∃ i, idIn old = some i ∧
          (Replaced C q i old (some (.link (some m))) d0 d ∨ Discarded C q i (some (.link (some m))) d0 d)))
      (fun _ d => d.at_ q = some (.link (some old)) ∧ Grown C.trash C.loc d0 d ∨
        C.replace old m = .ok true ∧ ∃ i, idIn old = some i ∧ (Replaced C q i old none d0 d ∨ Discarded C q i none d0 d)) := by
  have hsame : ∀ d, d = d0 → d.at_ q = some (.link (some old)) ∧ Grown C.trash C.loc d0 d := by
    rintro d rfl
    exact ⟨hq, .refl _ _ _⟩
  rw [setMeta_unfold C m hm]
  refine .bind_ (Q := fun ex d => ex = false ∧ d = d0) (.look_ ?_ (fun _ d h => .inl (hsame d h))) fun ex => .of_pre fun hex => ?_
  · rintro d a rfl h
    simp only [Except.ok.injEq] at h
    exact ⟨h ▸ not_there_link hq, rfl⟩
  subst hex
  simp only [Bool.false_eq_true, if_false]
  refine .bind_ (Q := fun _ d => C.remoteIsDir = false ∧ d = d0) ?_ fun _ => .of_pre fun hr => ?_
  · unfold PEnv.prepare
    refine .ite_ (fun hr => ?_) fun hr => ?_
    · refine .bind_ (Q := fun ex d => ex = false ∧ d = d0) (.look_ ?_ (fun _ d h => .inl (hsame d h))) fun ex => .of_pre fun hex => ?_
      · rintro d a rfl h
        simp only [Except.ok.injEq] at h
        exact ⟨h ▸ not_there_link hq, rfl⟩
      subst hex
      refine .act_ ?_ (fun _ d h => .inl (hsame d h))
      rintro d d' rfl h
      have := (create_ok h).1
      rw [hq] at this
      simp at this
    · refine .bind_ (Q := fun ex d => ex = true ∧ d = d0) (.look_ ?_ (fun _ d h => .inl (hsame d h))) fun ex => .of_pre fun hex => ?_
      · rintro d a rfl h
        simp only [Except.ok.injEq] at h
        exact ⟨h ▸ hp, rfl⟩
      subst hex
      exact .pure_ fun d h => ⟨by simpa using hr, h⟩
  refine .bind_ (Q := fun ex d => ex = false ∧ d = d0) (.look_ ?_ (fun _ d h => .inl (hsame d h))) fun ex => .of_pre fun hex => ?_
  · rintro d a rfl h
    simp only [Except.ok.injEq] at h
    exact ⟨h ▸ not_there_link hq, rfl⟩
  subst hex
  simp only [Bool.false_eq_true, if_false]
  unfold PEnv.setLink
  refine .bind_ (Q := fun o d => o = some (.link (some old)) ∧ d = d0) (.look_ ?_ (fun _ d h => .inl (hsame d h))) fun o => .of_pre fun ho => ?_
  · rintro d a rfl h
    simp only [Except.ok.injEq] at h
    exact ⟨h ▸ hq, rfl⟩
  subst ho
  dsimp only
  cases hrep : C.replace old m with
  | error e => exact .throw_ fun d h => .inl (hsame d h)
  | ok b =>
    cases b with
    | false => exact .pure_ fun d h => ⟨hr, .inl ⟨rfl, h⟩⟩
    | true =>
      dsimp only
      cases hi : idIn old with
      | none => exact .bind_ (Q := fun _ _ => False) (.throw_ fun d h => .inl (hsame d h)) fun _ => fun _ h => h.elim
      | some i =>
        have hold : ∀ d, Grown C.trash C.loc d0 d → d.at_ q = some (.link (some old)) := by
          intro d hg
          rcases hg q with h | ⟨-, h, -⟩
          · rw [h, hq]
          · rw [hq] at h; simp at h
        refine .bind_ (Q := fun _ d => (Replaced C q i old none d0 d ∨ Discarded C q i none d0 d) ∨
          d.at_ q = some (.link (some old)) ∧ Grown C.trash C.loc d0 d) ?_ fun _ => ?_
        · unfold Trash.crumpleOr
          refine .try_ (.bind_ (crumple_hoare C.trash i q d0) fun _ => .pure_ ?_) fun e => .ite_ (fun he => ?_) fun _ => .throw_ fun d h => .inl ⟨hold d h.1, h.1⟩
          · rintro d ⟨rfl, h | ⟨hl, h⟩⟩
            · exact (replaced_of_moved C (.inl rfl) hq h).imp .inl fun h => h.2
            · exact (replaced_of_moved C (.inr ⟨hl, rfl⟩) hq h).imp .inl fun h => h.2
          · refine .act_ ?_ fun _ d h => .inl ⟨hold d h.1, h.1⟩
            rintro d d' ⟨hg, ht⟩ h
            rw [Disk.unlink, hold d hg] at h
            simp only [Kinded.isDir, Bool.false_eq_true, if_false, Except.ok.injEq] at h
            subst h
            refine .inl (.inr ⟨ht he, by rw [Disk.at_erase, if_pos rfl], fun r hr => ?_⟩)
            rw [Disk.at_erase, if_neg hr]
            exact (hg r).imp_right fun h => ⟨h.2.1, h.1, h.2.2⟩
        · refine .act_ ?_ ?_
          · rintro d d' h hc
            obtain ⟨hn, rfl⟩ := create_ok hc
            rcases h with (⟨p, h1, h2, h3, h4, h5⟩ | ⟨h1, h2, h3⟩) | ⟨h, -⟩
            · refine ⟨hr, .inr ⟨rfl, i, rfl, .inl ⟨p, h1, h2, ?_, at_put_self _ _ _, fun r hr hr' => ?_⟩⟩⟩
              · rw [Disk.at_put, if_neg (fun h : p = q => h2.1 (h ▸ List.prefix_refl _)), h3]
              · rw [Disk.at_put, if_neg (fun h : r = q => hr' (h ▸ List.prefix_refl _))]
                exact h5 r hr hr'
            · refine ⟨hr, .inr ⟨rfl, i, rfl, .inr ⟨h1, at_put_self _ _ _, fun r hr => ?_⟩⟩⟩
              rw [Disk.at_put, if_neg hr]
              exact h3 r hr
            · rw [hn] at h; simp at h
          · rintro e d (h | h)
            · exact .inr ⟨rfl, i, rfl, h⟩
            · exact .inl h

/-- C100: metadata given to a symlink that holds other metadata: if the setter returns, either they are not to replace the old ones
and nothing changes, or the link holds the new ones and the old link is in the trash, or is gone if the trash said that something
exists already.  For a remote directory it never returns. -/
theorem C100_link {old m : Meta} {s s' : Machine CObj} (hm : metaBool m = true) (hp : there s.disk q.dropLast = true)
    (hq : s.disk.at_ q = some (.link (some old))) (hrun : C.setMeta q (some m) s = (.ok (), s')) :
    C.remoteIsDir = false ∧ (C.replace old m = .ok false ∧ s'.disk = s.disk ∨
      C.replace old m = .ok true ∧ ∃ i, idIn old = some i ∧
        (Replaced C q i old (some (.link (some m))) s.disk s'.disk ∨ Discarded C q i (some (.link (some m))) s.disk s'.disk)) := by
  have := setMeta_onLink C m hm hp hq s rfl
  rw [hrun] at this
  exact this

/-- C100: if that raises, the old link is where it was or in the trash, or gone if the trash said that something exists already. -/
theorem C100_link_raised {old m : Meta} {s s' : Machine CObj} {e : PyErr} (hm : metaBool m = true) (hp : there s.disk q.dropLast = true)
    (hq : s.disk.at_ q = some (.link (some old))) (hrun : C.setMeta q (some m) s = (.error e, s')) :
    s'.disk.at_ q = some (.link (some old)) ∨
      ∃ i, idIn old = some i ∧ (Replaced C q i old none s.disk s'.disk ∨ Discarded C q i none s.disk s'.disk) := by
  have := setMeta_onLink C m hm hp hq s rfl
  rw [hrun] at this
  exact this.imp (fun h => h.1) (fun h => h.2)

/-- C100: empty metadata are not stored. -/
theorem C100_empty (m : Option Meta) (h : ∀ m', m = some m' → metaBool m' = false) (s : Machine CObj) :
    C.setMeta q m s = (.ok (), s) := by
  cases m with
  | none => rfl
  | some m => simp [PEnv.setMeta, h m rfl, Prog.pure]

/-- C100: what was stored is what is read: the metadata of a link, and those of a file or directory unless they are all unset. -/
theorem C100_read (s : Machine CObj) (hF : ∀ n, C.F n = none) (m : Meta) :
    (s.disk.at_ q = some (.link (some m)) → (C.getMeta q s).1 = .ok (some m)) ∧
    (∀ k : Holder, s.disk.at_ q = some (k.obj (some m)) → metaBool m = true → (C.getMeta q s).1 = .ok (some m)) := by
  constructor
  · intro h
    simp [PEnv.getMeta, Prog.look, Prog.sys, hF, h]
  · intro k h hm
    cases k <;> simp [PEnv.getMeta, Prog.look, Prog.sys, hF, h, hm, Holder.obj]

theorem create_runs {d : Disk CObj} {mo : Option Meta} (x : CObj) (h1 : d.at_ q = none) (h2 : d.at_ q.dropLast = some (.dir mo)) :
    d.create q x = .ok (d.put q x) := by
  simp [Disk.create, h1, h2, Kinded.isDir]

theorem setXattrs_returns (hF : ∀ n, C.F n = none) (k : Holder) {mo : Option Meta} (m : Meta) (s : Machine CObj)
    (h : s.disk.at_ q = some (k.obj mo)) : (C.setXattrs q m s).1 = .ok () := by
  have := setXattrs_holder C (d0 := s.disk) k m s ⟨.refl _ _, h⟩
  generalize C.setXattrs q m s = r at this ⊢
  obtain ⟨r, s'⟩ := r
  cases r with
  | ok a => rfl
  | error e =>
    obtain ⟨⟨n, h⟩, -⟩ := this
    rw [hF n] at h
    simp at h

/-- C100: when no call fails, the setter does return: for files and directories; where nothing is, if the directory above is there,
or, for a remote file, if at least the one above that is; and for symlinks that are not to be replaced. -/
theorem C100_returns (hF : ∀ n, C.F n = none) (m : Meta) (s : Machine CObj) (hne : q ≠ [])
    (h : there s.disk q = true ∨ s.disk.at_ q = none ∧ (∃ mo, s.disk.at_ q.dropLast = some (.dir mo)) ∨
      C.remoteIsDir = false ∧ s.disk.at_ q = none ∧ q.dropLast ≠ [] ∧ s.disk.at_ q.dropLast = none ∧
        (∃ mo, s.disk.at_ q.dropLast.dropLast = some (.dir mo)) ∨
      C.remoteIsDir = false ∧ there s.disk q.dropLast = true ∧ ∃ old, s.disk.at_ q = some (.link (some old)) ∧ C.replace old m = .ok false) :
    (C.setMeta q (some m) s).1 = .ok () := by
  cases hm : metaBool m with
  | false => rw [C100_empty C (some m) (by rintro _ ⟨⟩; exact hm)]
  | true =>
  rw [setMeta_unfold C m hm]
  have hlook : ∀ (s : Machine CObj) (f : Bool → Prog CObj Unit),
      Prog.bind (.look C.F fun d => .ok (there d q)) f s = f (there s.disk q) ⟨s.disk, s.tick + 1⟩ := by
    intro s f
    simp [Prog.bind, Prog.look, Prog.sys, hF]
  rw [hlook]
  have hdl : q.dropLast ≠ q := by
    intro h
    have := congrArg List.length h
    have hl : 0 < q.length := List.length_pos_iff.2 hne
    simp at this
    omega
  rcases h with h | ⟨h1, mo, h2⟩ | ⟨hr, h1, h2, h3, mo, h4⟩ | ⟨hr, hp, old, h1, h2⟩
  · rw [if_pos h]
    unfold there at h
    split at h
    · rename_i mo' h'
      exact setXattrs_returns C hF .dir m _ h'
    · rename_i b mo' h'
      exact setXattrs_returns C hF (.file b) m _ h'
    · simp at h
  · rw [if_neg (by simp [not_there_none h1])]
    cases hr : C.remoteIsDir with
    | true =>
      have hprep : C.prepare q ⟨s.disk, s.tick + 1⟩ = (.ok (), ⟨s.disk.put q (.dir none), s.tick + 1 + 1 + 1⟩) := by
        simp [PEnv.prepare, hr, Prog.bind, Prog.look, Prog.act, Prog.sys, hF, not_there_none h1, create_runs (.dir none) h1 h2]
      rw [Prog.bind, hprep]
      dsimp only
      rw [hlook]
      have hd : (s.disk.put q (.dir none)).at_ q = some (Holder.dir.obj none) := at_put_self _ _ _
      dsimp only
      rw [if_pos (there_holder .dir hd)]
      exact setXattrs_returns C hF .dir m _ hd
    | false =>
      have hprep : C.prepare q ⟨s.disk, s.tick + 1⟩ = (.ok (), ⟨s.disk, s.tick + 1 + 1⟩) := by
        simp [PEnv.prepare, hr, Prog.bind, Prog.look, Prog.sys, hF, there, h2, Prog.pure]
      rw [Prog.bind, hprep]
      dsimp only
      rw [hlook]
      dsimp only
      rw [if_neg (by simp [not_there_none h1])]
      simp [PEnv.setLink, Prog.bind, Prog.look, Prog.act, Prog.sys, hF, h1, create_runs _ h1 h2]
  · rw [if_neg (by simp [not_there_none h1])]
    have hprep : C.prepare q ⟨s.disk, s.tick + 1⟩ = (.ok (), ⟨s.disk.put q.dropLast (.dir none), s.tick + 1 + 1 + 1⟩) := by
      simp [PEnv.prepare, hr, Prog.bind, Prog.look, Prog.act, Prog.sys, hF, not_there_none h3, create_runs (.dir none) h3 h4]
    rw [Prog.bind, hprep]
    dsimp only
    rw [hlook]
    dsimp only
    have h5 : (s.disk.put q.dropLast (.dir none)).at_ q = none := by rw [Disk.at_put, if_neg (Ne.symm hdl), h1]
    have h6 : (s.disk.put q.dropLast (.dir none)).at_ q.dropLast = some (.dir none) := at_put_self _ _ _
    rw [if_neg (by simp [not_there_none h5])]
    simp [PEnv.setLink, Prog.bind, Prog.look, Prog.act, Prog.sys, hF, h5, create_runs _ h5 h6]
  · rw [if_neg (by simp [not_there_link h1])]
    have hprep : C.prepare q ⟨s.disk, s.tick + 1⟩ = (.ok (), ⟨s.disk, s.tick + 1 + 1⟩) := by
      simp [PEnv.prepare, hr, Prog.bind, Prog.look, Prog.sys, hF, hp, Prog.pure]
    rw [Prog.bind, hprep]
    dsimp only
    rw [hlook]
    dsimp only
    rw [if_neg (by simp [not_there_link h1])]
    simp [PEnv.setLink, Prog.bind, Prog.look, Prog.sys, hF, h1, h2, Prog.pure]

/-- Beside C100: a symlink where the remote has a directory by now is in the way: the metadata cannot be set. -/
theorem C100_directory_counterexample (hr : C.remoteIsDir = true) {old m : Meta} (hm : metaBool m = true) (s : Machine CObj)
    (hp : there s.disk q.dropLast = true) (hq : s.disk.at_ q = some (.link (some old))) :
    ∃ e, (C.setMeta q (some m) s).1 = .error e := by
  cases h : (C.setMeta q (some m) s).1 with
  | error e => exact ⟨e, rfl⟩
  | ok u =>
    have := C100_link C (s := s) (s' := (C.setMeta q (some m) s).2) hm hp hq (by rw [← h])
    rw [hr] at this
    simp at this

/-- Nothing is at `/b`; for a remote file the metadata go into a symlink, for a remote directory onto a directory, and in a directory
that is not there yet, it is made. -/
example : metaBool (threeBytes [1]) = true ∧
    (simple.setMeta [['b']] (some (threeBytes [1])) ⟨withFile [], 0⟩).1 = .ok () ∧
    (simple.setMeta [['b']] (some (threeBytes [1])) ⟨withFile [], 0⟩).2.disk.at_ [['b']] = some (.link (some (threeBytes [1]))) ∧
    ({ simple with remoteIsDir := true }.setMeta [['b']] (some (threeBytes [1])) ⟨withFile [], 0⟩).1 = .ok () ∧
    (simple.setMeta [['c'], ['b']] (some (threeBytes [1])) ⟨withFile [], 0⟩).1 = .ok () ∧
    (simple.setMeta [['c'], ['b']] (some (threeBytes [1])) ⟨withFile [], 0⟩).2.disk.at_ [['c']] = some (.dir none) :=
  ⟨by decide +kernel, by decide +kernel, by decide +kernel, by decide +kernel, by decide +kernel, by decide +kernel⟩

/-- Beside C100: when the trash is a symlink that leads to nothing, the old link is not kept: it is deleted, and its metadata are
nowhere on the disk any more. -/
theorem C100_discarded_counterexample :
    ∃ (C : PEnv) (q : Path) (old m : Meta) (d : Disk CObj), (∀ n, C.F n = none) ∧ there d q.dropLast = true ∧
      d.at_ q = some (.link (some old)) ∧ (C.setMeta q (some m) ⟨d, 0⟩).1 = .ok () ∧
      ∀ r, (C.setMeta q (some m) ⟨d, 0⟩).2.disk.at_ r ≠ some (.link (some old)) := by
  refine ⟨{ simple with replace := fun _ _ => .ok true }, [['b']], threeBytes [1], threeBytes [2],
    [([], .dir none), (simple.loc, .link none), ([['b']], .link (some (threeBytes [1])))], fun _ => rfl, by decide +kernel, rfl, by decide +kernel, ?_⟩
  have : ({ simple with replace := fun _ _ => .ok true }.setMeta [['b']] (some (threeBytes [2]))
      ⟨[([], .dir none), (simple.loc, .link none), ([['b']], .link (some (threeBytes [1])))], 0⟩).2.disk =
      [([['b']], .link (some (threeBytes [2]))), ([], .dir none), (simple.loc, .link none)] := by
    decide +kernel
  intro r h
  rw [this] at h
  simp only [Disk.at_cons] at h
  have hne : threeBytes [2] ≠ threeBytes [1] := by decide +kernel
  split at h
  · exact hne (by simpa using h)
  · split at h
    · simp at h
    · split at h
      · simp at h
      · simp [Disk.at_] at h

end Verif.Cache
