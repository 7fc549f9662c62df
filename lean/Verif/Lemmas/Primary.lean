import Verif.Model.Primary
import Verif.Lemmas.Crumple

namespace Verif.Cache
open Verif.FS

/-- Nothing but what is at `q` is different. -/
def OnlyAt (q : Path) (d0 d : Disk CObj) : Prop := ∀ r, r ≠ q → d.at_ r = d0.at_ r

theorem OnlyAt.refl (q : Path) (d : Disk CObj) : OnlyAt q d d := fun _ _ => rfl

theorem OnlyAt.put {q : Path} {d0 d : Disk CObj} (h : OnlyAt q d0 d) (x : CObj) : OnlyAt q d0 (d.put q x) := fun r hr => by
  rw [Disk.at_put, if_neg hr, h r hr]

theorem OnlyAt.erase {q : Path} {d0 d : Disk CObj} (h : OnlyAt q d0 d) : OnlyAt q d0 (d.erase q) := fun r hr => by
  rw [Disk.at_erase, if_neg hr, h r hr]

theorem at_put_self (q : Path) (x : CObj) (d : Disk CObj) : (d.put q x).at_ q = some x := by
  rw [Disk.at_put, if_pos rfl]

/-- The metadata after that in `m` was stored over it, attribute by attribute. -/
def laid (mo : Option Meta) (m : Meta) : Option Meta :=
  (storedFields m).foldl (fun o f => some (Verif.setField (o.getD blank) f (m f))) mo

theorem laid_fold (m : Meta) : ∀ (fs : List Field) (mo : Option Meta) (g : Field),
    ((fs.foldl (fun o f => some (Verif.setField (o.getD blank) f (m f))) mo).getD blank) g =
      if g ∈ fs then m g else (mo.getD blank) g
  | [], mo, g => by simp
  | f :: fs, mo, g => by
    rw [List.foldl_cons, laid_fold m fs]
    by_cases h : g ∈ fs
    · simp [h]
    · by_cases hg : g = f
      · subst hg; simp [h, Verif.setField]
      · simp [h, hg, Verif.setField]

theorem mem_all (f : Field) : f ∈ Field.all := by cases f <;> decide

/-- The attributes after the metadata was stored over it: the new values, where there are some. -/
theorem laid_get (mo : Option Meta) (m : Meta) (f : Field) :
    ((laid mo m).getD blank) f = if m f ≠ .none ∧ (m f).emptyIterable = false then m f else (mo.getD blank) f := by
  rw [laid, laid_fold]
  simp [storedFields, mem_all]

theorem laid_some (mo : Option Meta) (m : Meta) (h : mo.isSome ∨ storedFields m ≠ []) : (laid mo m).isSome := by
  unfold laid
  generalize storedFields m = fs at h
  induction fs generalizing mo with
  | nil => simpa using h
  | cons f fs ih => exact ih _ (.inl rfl)

section
variable (C : PEnv) {q : Path} {R : PyErr → Disk CObj → Prop} {d0 : Disk CObj} {W : Prop}

/-- Reading metadata. -/
theorem getMeta_hoare {P : Disk CObj → Prop} {Q : Option Meta → Disk CObj → Prop}
    (h1 : ∀ d b m, P d → d.at_ q = some (.file b (some m)) → Q (if metaBool m then some m else none) d)
    (h2 : ∀ d m, P d → d.at_ q = some (.link (some m)) → Q (some m) d)
    (h3 : ∀ d m, P d → d.at_ q = some (.dir (some m)) → Q (if metaBool m then some m else none) d)
    (h4 : ∀ d, P d → (d.at_ q = none ∨ d.at_ q = some (.dir none) ∨ ∃ b, d.at_ q = some (.file b none)) → Q none d)
    (herr : ∀ e d, P d → (∃ n, C.F n = some e) ∨ d.at_ q = some (.link none) → R e d) : Hoare P (C.getMeta q) Q R := by
  refine .look_err (fun d a hP h => ?_) (fun e d hP h => herr e d hP (h.imp_right fun h => ?_))
  rotate_left
  · split at h <;> simp_all
  split at h
  · rename_i m hq
    simp only [Except.ok.injEq] at h; subst h
    exact h3 d m hP hq
  · rename_i b m hq
    simp only [Except.ok.injEq] at h; subst h
    exact h1 d b m hP hq
  · rename_i m hq
    simp only [Except.ok.injEq] at h; subst h
    exact h2 d m hP hq
  · simp at h
  · rename_i n1 n2 n3 n4
    simp only [Except.ok.injEq] at h; subst h
    refine h4 d hP ?_
    cases hq : d.at_ q with
    | none => exact .inl rfl
    | some o => cases o with
      | dir m => cases m with
        | none => exact .inr (.inl rfl)
        | some m => exact absurd hq (n1 m)
      | file b m => cases m with
        | none => exact .inr (.inr ⟨b, rfl⟩)
        | some m => exact absurd hq (n2 b m)
      | link m => cases m with
        | none => exact absurd hq n4
        | some m => exact absurd hq (n3 m)

/-- Some of the metadata in `m` is stored over that in `mo`. -/
def Mixed (mo : Option Meta) (m : Meta) (o : Option Meta) : Prop :=
  (mo.isSome → o.isSome) ∧ ∀ f, (o.getD blank) f = (mo.getD blank) f ∨ (o.getD blank) f = m f

theorem Mixed.refl (mo : Option Meta) (m : Meta) : Mixed mo m mo := ⟨id, fun _ => .inl rfl⟩

theorem Mixed.set {mo o : Option Meta} {m : Meta} (h : Mixed mo m o) (f : Field) :
    Mixed mo m (some (Verif.setField (o.getD blank) f (m f))) := by
  refine ⟨fun _ => rfl, fun g => ?_⟩
  simp only [Option.getD_some, Verif.setField]
  split
  · rename_i hg; exact .inr (hg ▸ rfl)
  · exact h.2 g

/-- Storing metadata on a file. -/
theorem setXattrs_file (hF : ∀ n e, C.F n = some e → W) {b : Bytes} {mo : Option Meta} (m : Meta)
    (herr : W → ∀ e d mo', OnlyAt q d0 d → Mixed mo m mo' → d.at_ q = some (.file b mo') → R e d) :
    Hoare (fun d => OnlyAt q d0 d ∧ d.at_ q = some (.file b mo)) (C.setXattrs q m)
      (fun _ d => OnlyAt q d0 d ∧ d.at_ q = some (.file b (laid mo m))) R := by
  have := Hoare.each_fold (R := R) (f := fun f => C.setField q f (m f))
    (I := fun o d => Mixed mo m o ∧ OnlyAt q d0 d ∧ d.at_ q = some (.file b o))
    (g := fun o f => some (Verif.setField (o.getD blank) f (m f))) (storedFields m) mo fun f _ o => .act_err ?_ ?_
  · exact this.mono (fun d h => ⟨.refl _ _, h⟩) (fun _ d h => h.2) (fun _ _ h => h)
  · rintro d d' ⟨h0, h1, h2⟩ h
    rw [h2] at h
    simp only [Except.ok.injEq] at h
    subst h
    exact ⟨h0.set f, h1.put _, at_put_self _ _ _⟩
  · rintro e d ⟨h0, h1, h2⟩ h
    rcases h with ⟨n, h⟩ | h
    · exact herr (hF n e h) e d _ h1 h0 h2
    · simp [h2] at h

theorem there_file {d : Disk CObj} {b : Bytes} {mo : Option Meta} (h : d.at_ q = some (.file b mo)) : there d q = true := by
  simp [there, h]

/-- `_meta_setter` on a file. -/
theorem setMeta_file (hF : ∀ n e, C.F n = some e → W) {b : Bytes} {mo : Option Meta} (m : Meta)
    (herr : W → ∀ e d mo', OnlyAt q d0 d → Mixed mo m mo' → d.at_ q = some (.file b mo') → R e d) :
    Hoare (fun d => OnlyAt q d0 d ∧ d.at_ q = some (.file b mo)) (C.setMeta q (some m))
      (fun _ d => OnlyAt q d0 d ∧ d.at_ q = some (.file b (if metaBool m then laid mo m else mo))) R := by
  unfold PEnv.setMeta
  dsimp only
  cases hm : metaBool m with
  | false =>
    simp only [Bool.not_false, if_true, Bool.false_eq_true, if_false]
    exact .pure_ fun _ h => h
  | true =>
    simp only [Bool.not_true, Bool.false_eq_true, if_false, if_true]
    refine .bind_ (Q := fun ex d => ex = true ∧ OnlyAt q d0 d ∧ d.at_ q = some (.file b mo)) (.look_err ?_ ?_) fun ex => .of_pre fun hex => ?_
    · rintro d a ⟨h1, h2⟩ h
      simp only [Except.ok.injEq] at h
      exact ⟨h ▸ there_file h2, h1, h2⟩
    · rintro e d ⟨h1, h2⟩ (⟨n, h⟩ | h)
      · exact herr (hF n e h) e d _ h1 (.refl _ _) h2
      · simp at h
    · subst hex
      exact setXattrs_file C hF m herr

/-- `_meta_setter` where nothing is, for a remote file. -/
theorem setMeta_none (hr : C.remoteIsDir = false) (m : Option Meta) (hp : ∀ d, OnlyAt q d0 d → there d q.dropLast = true) :
    Hoare (fun d => OnlyAt q d0 d ∧ d.at_ q = none) (C.setMeta q m)
      (fun _ d => OnlyAt q d0 d ∧ (d.at_ q = none ∧ (∀ m', m = some m' → metaBool m' = false) ∨
        ∃ m', m = some m' ∧ metaBool m' = true ∧ d.at_ q = some (.link (some m'))))
      (fun _ d => OnlyAt q d0 d ∧ d.at_ q = none) := by
  cases m with
  | none => exact .pure_ fun _ h => ⟨h.1, .inl ⟨h.2, by simp⟩⟩
  | some m =>
    unfold PEnv.setMeta
    refine .ite_ (fun hb => .pure_ fun _ h => ⟨h.1, .inl ⟨h.2, by rintro m' ⟨⟩; simpa using hb⟩⟩) fun hb => ?_
    have hno : ∀ d : Disk CObj, d.at_ q = none → there d q = false := fun d h => by simp [there, h]
    refine .bind_ (Q := fun ex d => ex = false ∧ OnlyAt q d0 d ∧ d.at_ q = none) (.look_ ?_ (fun _ _ h => h)) fun ex => .of_pre fun hex => ?_
    · rintro d a ⟨h1, h2⟩ h
      simp only [Except.ok.injEq] at h
      exact ⟨h ▸ hno d h2, h1, h2⟩
    subst hex
    simp only [Bool.false_eq_true, if_false]
    refine .bind_ (Q := fun _ d => OnlyAt q d0 d ∧ d.at_ q = none) ?_ fun _ => ?_
    · unfold PEnv.prepare
      rw [hr]
      simp only [Bool.false_eq_true, if_false]
      refine .bind_ (Q := fun ex d => ex = true ∧ OnlyAt q d0 d ∧ d.at_ q = none) (.look_ ?_ (fun _ _ h => h)) fun ex => .of_pre fun hex => ?_
      · rintro d a ⟨h1, h2⟩ h
        simp only [Except.ok.injEq] at h
        exact ⟨h ▸ hp d h1, h1, h2⟩
      subst hex
      exact .pure_ fun _ h => h
    · refine .bind_ (Q := fun ex d => ex = false ∧ OnlyAt q d0 d ∧ d.at_ q = none) (.look_ ?_ (fun _ _ h => h)) fun ex => .of_pre fun hex => ?_
      · rintro d a ⟨h1, h2⟩ h
        simp only [Except.ok.injEq] at h
        exact ⟨h ▸ hno d h2, h1, h2⟩
      subst hex
      simp only [Bool.false_eq_true, if_false]
      unfold PEnv.setLink
      refine .bind_ (Q := fun o d => o = none ∧ OnlyAt q d0 d ∧ d.at_ q = none) (.look_ ?_ (fun _ _ h => h)) fun o => .of_pre fun ho => ?_
      · rintro d a ⟨h1, h2⟩ h
        simp only [Except.ok.injEq] at h
        exact ⟨h ▸ h2, h1, h2⟩
      subst ho
      refine .act_ ?_ (fun _ _ h => h)
      rintro d d' ⟨h1, h2⟩ h
      obtain ⟨-, rfl⟩ := create_ok h
      exact ⟨h1.put _, .inr ⟨m, rfl, by simpa using hb, at_put_self _ _ _⟩⟩

/-- The chunks that come before an error, or all. -/
def goodChunks : List (Except PyErr Bytes) → Option Bytes
  | [] => some []
  | .ok b :: r => (goodChunks r).map (b ++ ·)
  | .error _ :: _ => none

theorem append_hoare (hF : ∀ n e, C.F n = some e → W) {mo : Option Meta} (b x : Bytes) (herr : W → ∀ e d b, OnlyAt q d0 d → d.at_ q = some (.file b mo) → R e d) :
    Hoare (fun d => OnlyAt q d0 d ∧ d.at_ q = some (.file b mo)) (C.append q x)
      (fun _ d => OnlyAt q d0 d ∧ d.at_ q = some (.file (b ++ x) mo)) R := by
  refine .act_err ?_ ?_
  · rintro d d' ⟨h1, h2⟩ h
    rw [h2] at h
    simp only [Except.ok.injEq] at h
    subst h
    exact ⟨h1.put _, at_put_self _ _ _⟩
  · rintro e d ⟨h1, h2⟩ (⟨n, h⟩ | h)
    · exact herr (hF n e h) e d b h1 h2
    · simp [h2] at h

theorem rest_hoare (hF : ∀ n e, C.F n = some e → W) {mo : Option Meta} (herr : W → ∀ e d b, OnlyAt q d0 d → d.at_ q = some (.file b mo) → R e d) :
    ∀ (rs : List (Except PyErr Bytes)) (b : Bytes), (goodChunks rs = none → W) →
    Hoare (fun d => OnlyAt q d0 d ∧ d.at_ q = some (.file b mo))
      (Prog.each (fun r => match r with | .ok b => C.append q b | .error e => .throw e) rs)
      (fun _ d => OnlyAt q d0 d ∧ ∃ x, goodChunks rs = some x ∧ d.at_ q = some (.file (b ++ x) mo)) R
  | [], b, _ => .pure_ fun d h => ⟨h.1, [], rfl, by simpa using h.2⟩
  | .error e :: rs, b, hg => .bind_ (Q := fun _ _ => False) (.throw_ fun d h => herr (hg rfl) e d b h.1 h.2) fun _ => fun s hs => hs.elim
  | .ok c :: rs, b, hg => by
    refine .bind_ (append_hoare C hF b c herr) fun _ =>
      (rest_hoare hF herr rs (b ++ c) fun hn => hg (by simp [goodChunks, hn])).mono (fun _ h => h) ?_ (fun _ _ h => h)
    rintro _ d ⟨h1, x, hx, h2⟩
    exact ⟨h1, c ++ x, by simp [goodChunks, hx], by rw [h2, List.append_assoc]⟩

/-- Writing data to a file: the metadata stays. -/
theorem setData_file (hF : ∀ n e, C.F n = some e → W) {b : Bytes} {mo : Option Meta} (hg : goodChunks C.chunks = none → W)
    (hc0 : C.chunks = [] → W) (hmo : (∀ m, mo = some m → metaBool m = false) → W)
    (herr : W → ∀ e d b, OnlyAt q d0 d → d.at_ q = some (.file b mo) → R e d) :
    Hoare (fun d => OnlyAt q d0 d ∧ d.at_ q = some (.file b mo)) (C.setData q)
      (fun _ d => OnlyAt q d0 d ∧ ∃ x m, goodChunks C.chunks = some x ∧ C.chunks ≠ [] ∧ mo = some m ∧ metaBool m = true ∧
        d.at_ q = some (.file x mo)) R := by
  unfold PEnv.setData
  refine .bind_ (Q := fun _ d => OnlyAt q d0 d ∧ d.at_ q = some (.file b mo)) (.look_err (fun _ _ h _ => h) ?_) fun _ => ?_
  · rintro e d ⟨h1, h2⟩ (⟨n, h⟩ | h)
    · exact herr (hF n e h) e d b h1 h2
    · rw [h2] at h
      cases mo <;> simp at h
  refine .bind_ (Q := fun _ d => OnlyAt q d0 d ∧ ∃ x, goodChunks C.chunks = some x ∧ C.chunks ≠ [] ∧ d.at_ q = some (.file x mo)) ?_ fun _ => ?_
  · unfold PEnv.writeChunks
    split
    · rename_i hc
      exact .throw_ fun d h => herr (hc0 hc) _ d b h.1 h.2
    · rename_i hc
      exact .throw_ fun d h => herr (hg (by rw [hc]; rfl)) _ d b h.1 h.2
    · rename_i c rs hc
      refine .bind_ (Q := fun _ d => OnlyAt q d0 d ∧ d.at_ q = some (.file [] mo)) (.act_err ?_ ?_) fun _ => ?_
      · rintro d d' ⟨h1, h2⟩ h
        rw [h2] at h
        simp only [Except.ok.injEq] at h
        subst h
        exact ⟨h1.put _, at_put_self _ _ _⟩
      · rintro e d ⟨h1, h2⟩ (⟨n, h⟩ | h)
        · exact herr (hF n e h) e d b h1 h2
        · simp [h2] at h
      refine .bind_ (append_hoare C hF [] c herr) fun _ =>
        (rest_hoare C hF herr rs _ fun hn => hg (by rw [hc]; simp [goodChunks, hn])).mono (fun _ h => h) ?_ (fun _ _ h => h)
      rintro _ d ⟨h1, x, hx, h2⟩
      exact ⟨h1, c ++ x, by rw [hc]; simp [goodChunks, hx], by rw [hc]; simp, by simpa using h2⟩
  · refine .bind_ (Q := fun now d => OnlyAt q d0 d ∧ (∃ x, goodChunks C.chunks = some x ∧ C.chunks ≠ [] ∧ d.at_ q = some (.file x mo)) ∧
      (∀ n, now = some n → mo = some n ∧ metaBool n = true) ∧ (now = none → ∀ m, mo = some m → metaBool m = false))
      (getMeta_hoare C ?_ ?_ ?_ ?_ ?_) fun now => ?_
    · rintro d b' m ⟨h1, x, hx, hc, h2⟩ h
      rw [h2] at h
      simp only [Option.some.injEq, CObj.file.injEq] at h
      obtain ⟨rfl, rfl⟩ := h
      refine ⟨h1, ⟨x, hx, hc, h2⟩, fun n hn => ?_, fun hn => ?_⟩
      · split at hn
        · simp only [Option.some.injEq] at hn
          subst hn
          exact ⟨rfl, ‹_›⟩
        · simp at hn
      · rintro m' ⟨⟩
        split at hn
        · simp at hn
        · rename_i hb; exact Bool.eq_false_iff.2 hb
    · rintro d m ⟨h1, x, hx, hc, h2⟩ h
      rw [h2] at h; simp at h
    · rintro d m ⟨h1, x, hx, hc, h2⟩ h
      rw [h2] at h; simp at h
    · rintro d ⟨h1, x, hx, hc, h2⟩ h
      refine ⟨h1, ⟨x, hx, hc, h2⟩, by simp, fun _ m hm => ?_⟩
      rw [h2, hm] at h
      simp at h
    · rintro e d ⟨h1, x, hx, hc, h2⟩ (⟨n, h⟩ | h)
      · exact herr (hF n e h) e d x h1 h2
      · rw [h2] at h; simp at h
    · cases now with
      | none =>
        simp only [Option.isNone_none, if_true]
        exact .throw_ fun d ⟨h1, ⟨x, _, _, h2⟩, _, h3⟩ => herr (hmo (h3 (by trivial))) _ d x h1 h2
      | some n =>
        rw [if_neg (by simp)]
        refine .pure_ ?_
        rintro d ⟨h1, ⟨x, hx, hc, h2⟩, h3, -⟩
        exact ⟨h1, x, n, hx, hc, (h3 n rfl).1, (h3 n rfl).2, h2⟩

theorem metaBool_mark (m : Meta) (l : List Str) : metaBool (mark m l) = true := by
  unfold metaBool
  rw [List.any_eq_true]
  exact ⟨.errors, mem_all _, by simp [mark, Verif.setField, PyVal.truthy]⟩

theorem mark_ne (m : Meta) (l : List Str) {f : Field} (h : f ≠ .errors) : mark m l f = m f := by
  simp [mark, Verif.setField, h]

/-- The metadata that may be there while the file is being checked. -/
def Checked (m : Meta) (m' : Meta) : Option Meta → Prop := fun o =>
  o = some m' ∨ ∃ l, m .errors = .strs l ∧ Mixed (some m') (mark m l) o

/-- What a check that returns normally leaves. -/
def Verified (C : PEnv) (m m' : Meta) (x : Bytes) (o : Option Meta) : Prop :=
  o = some m' ∧ (marked m = true ∨ m .checksum = .none ∨ ∃ h, C.cypher (m' .checksum_cypher) = .ok h ∧ m .checksum = .bytes (h x)) ∨
  ∃ l h c, m .errors = .strs l ∧ o = laid (some m') (mark m l) ∧ C.cypher (m' .checksum_cypher) = .ok h ∧ m .checksum = .bytes c ∧ h x ≠ c ∧
    marked m = false

/-- A reason for which checking a file may fail. -/
def Uncheckable (C : PEnv) (m m' : Meta) : Prop :=
  (∃ e, C.cypher (m' .checksum_cypher) = .error e) ∨ (∀ l, m .errors ≠ .strs l) ∨ (m .checksum ≠ .none ∧ ∀ c, m .checksum ≠ .bytes c)

theorem checkSum_file (hF : ∀ n e, C.F n = some e → W) {x : Bytes} {m' : Meta} (m : Meta) (hm' : metaBool m' = true)
    (hU : Uncheckable C m m' → W)
    (herr : W → ∀ e d o, OnlyAt q d0 d → Checked m m' o → d.at_ q = some (.file x o) → R e d) :
    Hoare (fun d => OnlyAt q d0 d ∧ d.at_ q = some (.file x (some m'))) (C.checkSum q m)
      (fun _ d => OnlyAt q d0 d ∧ ∃ o, d.at_ q = some (.file x o) ∧ Verified C m m' x o) R := by
  have herr0 : W → ∀ e d, OnlyAt q d0 d ∧ d.at_ q = some (.file x (some m')) → R e d := fun w e d h => herr w e d _ h.1 (.inl rfl) h.2
  unfold PEnv.checkSum
  refine .ite_ (fun h => .pure_ fun d hd => ⟨hd.1, _, hd.2, .inl ⟨rfl, .inl h⟩⟩) fun hmk => ?_
  refine .bind_ (Q := fun now d => now = some m' ∧ OnlyAt q d0 d ∧ d.at_ q = some (.file x (some m')))
    (getMeta_hoare C ?_ ?_ ?_ ?_ ?_) fun now => .of_pre fun hnow => ?_
  · rintro d b m ⟨h1, h2⟩ h
    rw [h2] at h
    simp only [Option.some.injEq, CObj.file.injEq] at h
    obtain ⟨-, rfl⟩ := h
    rw [if_pos hm']
    exact ⟨rfl, h1, h2⟩
  · rintro d m ⟨h1, h2⟩ h; rw [h2] at h; simp at h
  · rintro d m ⟨h1, h2⟩ h; rw [h2] at h; simp at h
  · rintro d ⟨h1, h2⟩ h; rw [h2] at h; simp at h
  · rintro e d h (⟨n, h'⟩ | h')
    · exact herr0 (hF n e h') e d h
    · rw [h.2] at h'; simp at h'
  subst hnow
  dsimp only
  cases hc : C.cypher (m' .checksum_cypher) with
  | error e => exact .throw_ fun d h => herr0 (hU (.inl ⟨e, hc⟩)) _ d h
  | ok h =>
    dsimp only
    refine .bind_ (Q := fun b d => b = x ∧ OnlyAt q d0 d ∧ d.at_ q = some (.file x (some m'))) (.look_err ?_ ?_) fun b => .of_pre fun hb => ?_
    · rintro d a ⟨h1, h2⟩ h
      simp only [dataAt, h2, Except.ok.injEq] at h
      exact ⟨h.symm, h1, h2⟩
    · rintro e d h (⟨n, h'⟩ | h')
      · exact herr0 (hF n e h') e d h
      · simp [dataAt, h.2] at h'
    subst hb
    split
    · rename_i hn
      exact .pure_ fun d hd => ⟨hd.1, _, hd.2, .inl ⟨rfl, .inr (.inl hn)⟩⟩
    · rename_i c hck
      refine .ite_ (fun hne => ?_) (fun heq => ?_)
      · split
        · rename_i l hl
          refine (setMeta_file C hF (mark m l) (R := R) ?_).mono (fun _ h => h) ?_ (fun _ _ h => h)
          · exact fun w e d mo' h1 h2 h3 => herr w e d mo' h1 (.inr ⟨l, hl, h2⟩) h3
          · rintro _ d ⟨h1, h2⟩
            rw [if_pos (metaBool_mark m l)] at h2
            exact ⟨h1, _, h2, .inr ⟨l, h, c, hl, rfl, hc, hck, hne, by simpa using hmk⟩⟩
        · rename_i hl
          exact .throw_ fun d h => herr0 (hU (.inr (.inl hl))) _ d h
      · refine .pure_ fun d hd => ⟨hd.1, _, hd.2, .inl ⟨rfl, .inr (.inr ⟨h, hc, ?_⟩)⟩⟩
        rw [hck, Decidable.not_not.1 heq]
    · rename_i h1 h2
      exact .throw_ fun d h => herr0 (hU (.inr (.inr ⟨h1, h2⟩))) _ d h

/-- What a fetch that returns normally leaves on a file that had the metadata `m'` on it. -/
def Fetched (C : PEnv) (q : Path) (m m' : Meta) (d : Disk CObj) : Prop :=
  ∃ x o, goodChunks C.chunks = some x ∧ C.chunks ≠ [] ∧ m .size = .int x.length ∧ d.at_ q = some (.file x o) ∧ Verified C m m' x o

/-- The file and its metadata while data is being fetched. -/
def Fetching (q : Path) (m : Meta) (mo : Option Meta) (d : Disk CObj) : Prop :=
  ∃ y o, d.at_ q = some (.file y o) ∧ (o = mo ∨ ∃ m', mo = some m' ∧ Checked m m' o)

/-- A reason for which a fetch may fail, for a file with the metadata `mo`. -/
def Unfetchable (C : PEnv) (m : Meta) (mo : Option Meta) : Prop :=
  (∃ n e, C.F n = some e) ∨ C.cacheKey ≠ none ∨ C.chunks = [] ∨ goodChunks C.chunks = none ∨
  (∃ x, goodChunks C.chunks = some x ∧ m .size ≠ .int x.length) ∨ (∀ m', mo = some m' → metaBool m' = false) ∨
  ∃ m', mo = some m' ∧ Uncheckable C m m'

theorem download_hoare (b : Bytes) (mo : Option Meta) (m : Meta)
    (herr : Unfetchable C m mo → ∀ e d, OnlyAt q d0 d → Fetching q m mo d → R e d) :
    Hoare (fun d => OnlyAt q d0 d ∧ d.at_ q = some (.file b mo)) (C.download q m)
      (fun _ d => OnlyAt q d0 d ∧ C.cacheKey = none ∧ ∃ m', mo = some m' ∧ metaBool m' = true ∧ Fetched C q m m' d) R := by
  have herr0 : Unfetchable C m mo → ∀ e d y, OnlyAt q d0 d → d.at_ q = some (.file y mo) → R e d :=
    fun w e d y h1 h2 => herr w e d h1 ⟨y, _, h2, .inl rfl⟩
  have hF : ∀ n e, C.F n = some e → Unfetchable C m mo := fun n e h => .inl ⟨n, e, h⟩
  unfold PEnv.download
  split
  · rename_i hk
    exact .throw_ fun d h => herr0 (.inr (.inl (by simp [hk]))) _ d _ h.1 h.2
  · rename_i hck
    refine .bind_ (setData_file C hF (fun h => .inr (.inr (.inr (.inl h)))) (fun h => .inr (.inr (.inl h)))
      (fun h => .inr (.inr (.inr (.inr (.inr (.inl h)))))) herr0) fun _ => ?_
    refine .bind_ (Q := fun n d => ∃ x m', (n = (x.length : Int) ∧ goodChunks C.chunks = some x ∧ C.chunks ≠ [] ∧ mo = some m' ∧ metaBool m' = true) ∧
        OnlyAt q d0 d ∧ d.at_ q = some (.file x (some m'))) (.look_err ?_ ?_) fun n => ?_
    · rintro d a ⟨h1, x, m', hx, hc, rfl, hb, h2⟩ h
      simp only [sizeAt, h2, Except.ok.injEq] at h
      exact ⟨x, m', ⟨h.symm, hx, hc, rfl, hb⟩, h1, h2⟩
    · rintro e d ⟨h1, x, m', hx, hc, rfl, hb, h2⟩ (⟨n, h⟩ | h)
      · exact herr0 (hF n e h) e d x h1 h2
      · simp [sizeAt, h2] at h
    · rintro s ⟨x, m', hs, hs'⟩
      revert s
      suffices h : Hoare (fun d => (n = (x.length : Int) ∧ goodChunks C.chunks = some x ∧ C.chunks ≠ [] ∧ mo = some m' ∧ metaBool m' = true) ∧
          OnlyAt q d0 d ∧ d.at_ q = some (.file x (some m')))
          (if m .size = .int n then C.checkSum q m else .throw .valueError)
          (fun _ d => OnlyAt q d0 d ∧ C.cacheKey = none ∧ ∃ m', mo = some m' ∧ metaBool m' = true ∧ Fetched C q m m' d) R from
        fun s hs' => h s ⟨hs, hs'⟩
      refine .of_pre fun ⟨hn, hx, hc, hmo, hb⟩ => ?_
      subst hn hmo
      refine .ite_ (fun hsz => ?_) (fun hsz => .throw_ fun d h => herr0 (.inr (.inr (.inr (.inr (.inl ⟨x, hx, hsz⟩))))) _ d x h.1 h.2)
      refine (checkSum_file C hF m hb (R := R) (fun h => .inr (.inr (.inr (.inr (.inr (.inr ⟨m', rfl, h⟩)))))) ?_).mono (fun _ h => h) ?_ (fun _ _ h => h)
      · exact fun w e d o h1 h2 h3 => herr w e d h1 ⟨x, o, h3, .inr ⟨m', rfl, h2⟩⟩
      · rintro _ d ⟨h1, o, h2, h3⟩
        exact ⟨h1, hck, m', rfl, hb, x, o, hx, hc, hsz, h2, h3⟩

theorem fetchData_file (b : Bytes) (mo : Option Meta) (m : Meta)
    (herr : Unfetchable C m mo → ∀ e d, OnlyAt q d0 d → Fetching q m mo d → R e d) :
    Hoare (fun d => OnlyAt q d0 d ∧ d.at_ q = some (.file b mo)) (C.fetchData q m)
      (fun _ d => OnlyAt q d0 d ∧ C.cacheKey = none ∧ ∃ m', mo = some m' ∧ metaBool m' = true ∧ Fetched C q m m' d) R := by
  unfold PEnv.fetchData
  refine .bind_ (Q := fun br d => br = false ∧ OnlyAt q d0 d ∧ d.at_ q = some (.file b mo)) (.look_err ?_ ?_) fun br => .of_pre fun hbr => ?_
  · rintro d a ⟨h1, h2⟩ h
    simp only [isBroken, h2, Except.ok.injEq] at h
    exact ⟨h.symm, h1, h2⟩
  · rintro e d h (⟨n, h'⟩ | h')
    · exact herr (.inl ⟨n, e, h'⟩) e d h.1 ⟨b, _, h.2, .inl rfl⟩
    · simp at h'
  subst hbr
  exact .bind_ (.pure_ fun _ h => h) fun _ => download_hoare C b mo m herr

theorem fetchData_link (m : Meta) (hm : metaBool m = true) (hp : ∀ d, OnlyAt q d0 d → isDirAt d q.dropLast = true)
    (herr : Unfetchable C m (laid none m) → ∀ e d, OnlyAt q d0 d →
      (d.at_ q = some (.link (some m)) ∨ d.at_ q = none ∨ (∃ o, Mixed none m o ∧ d.at_ q = some (.file [] o)) ∨ Fetching q m (laid none m) d) → R e d) :
    Hoare (fun d => OnlyAt q d0 d ∧ d.at_ q = some (.link (some m))) (C.fetchData q m)
      (fun _ d => OnlyAt q d0 d ∧ C.cacheKey = none ∧ ∃ m', laid none m = some m' ∧ metaBool m' = true ∧ Fetched C q m m' d) R := by
  have hF : ∀ n e, C.F n = some e → Unfetchable C m (laid none m) := fun n e h => .inl ⟨n, e, h⟩
  unfold PEnv.fetchData
  refine .bind_ (Q := fun br d => br = true ∧ OnlyAt q d0 d ∧ d.at_ q = some (.link (some m))) (.look_err ?_ ?_) fun br => .of_pre fun hbr => ?_
  · rintro d a ⟨h1, h2⟩ h
    simp only [isBroken, h2, Except.ok.injEq] at h
    exact ⟨h.symm, h1, h2⟩
  · rintro e d h (⟨n, h'⟩ | h')
    · exact herr (hF n e h') e d h.1 (.inl h.2)
    · simp at h'
  subst hbr
  rw [if_pos rfl]
  refine .bind_ (Q := fun _ d => OnlyAt q d0 d ∧ d.at_ q = some (.file [] (laid none m))) ?_ fun _ => ?_
  · refine .bind_ (Q := fun _ d => OnlyAt q d0 d ∧ d.at_ q = none) (.act_err ?_ ?_) fun _ => ?_
    · rintro d d' ⟨h1, h2⟩ h
      simp only [Disk.unlink, h2, Kinded.isDir, Bool.false_eq_true, if_false, Except.ok.injEq] at h
      subst h
      exact ⟨h1.erase, by rw [Disk.at_erase, if_pos rfl]⟩
    · rintro e d h (⟨n, h'⟩ | h')
      · exact herr (hF n e h') e d h.1 (.inl h.2)
      · simp [Disk.unlink, h.2, Kinded.isDir] at h'
    refine .bind_ (Q := fun _ d => OnlyAt q d0 d ∧ d.at_ q = some (.file [] none)) (.act_err ?_ ?_) fun _ => ?_
    · rintro d d' ⟨h1, h2⟩ h
      obtain ⟨-, rfl⟩ := create_ok h
      exact ⟨h1.put _, at_put_self _ _ _⟩
    · rintro e d h (⟨n, h'⟩ | h')
      · exact herr (hF n e h') e d h.1 (.inr (.inl h.2))
      · have := hp d h.1
        unfold isDirAt at this
        split at this
        · rename_i hd
          simp [Disk.create, h.2, hd, Kinded.isDir] at h'
        · simp at this
    refine (setMeta_file C hF m (R := R) ?_).mono (fun _ h => h) ?_ (fun _ _ h => h)
    · exact fun w e d mo' h1 h2 h3 => herr w e d h1 (.inr (.inr (.inl ⟨_, h2, h3⟩)))
    · rintro _ d ⟨h1, h2⟩
      rw [if_pos hm] at h2
      exact ⟨h1, h2⟩
  · exact download_hoare C [] _ m fun w e d h1 h2 => herr w e d h1 (.inr (.inr (.inr h2)))

end
end Verif.Cache
