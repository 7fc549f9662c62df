import Verif.Lemmas.Primary
import Verif.Lemmas.Decide
import Verif.Spec.Merge

/-!
# C34, C35: Fetching
-/

namespace Verif.Cache
open Verif.FS
open Verif.Spec (Carries)

/-- The metadata of a path: stored on a file, or in a symlink that stands for the file. -/
def Recorded (d : Disk CObj) (q : Path) (m : Meta) : Prop :=
  (∃ b, d.at_ q = some (.file b (some m))) ∨ d.at_ q = some (.link (some m))

/-- What a disk has at a path, as a plain value. -/
def shown (d : Disk CObj) (q : Path) : Option (Bytes × List PyVal) :=
  match d.at_ q with | some (.file b (some m)) => some (b, Field.all.map m) | _ => none

/-- The path is in a directory. -/
def InDir (d : Disk CObj) (q : Path) : Prop := q ≠ [] ∧ ∃ m, d.at_ q.dropLast = some (.dir m)

/-- The limit does not forbid fetching. -/
def Allowed (limit : Option Int) (m : Meta) : Prop := ∀ l, limit = some l → ∃ n, m .size = .int n ∧ n < l

/-- Two metadata are the same apart from `errors`; an empty value may have become unset. -/
def SameRecord (m m' : Meta) : Prop := ∀ f, f ≠ .errors → m' f = m f ∨ (m f).emptyIterable = true ∧ m' f = .none

/-- What a fetch of the data `x` does to the errors: they are as before, or the mark for a wrong checksum was added to errors without it,
because the checksum of the data is not the recorded one. -/
def Noted (C : PEnv) (x : Bytes) (m m' : Meta) : Prop :=
  m' .errors = m .errors ∨ ¬ Carries (m .errors) ∧ m' .errors = .strs [] ∨
  ∃ l h c, m .errors = .strs l ∧ lit "checksum-mismatch" ∉ l ∧ C.cypher (m' .checksum_cypher) = .ok h ∧ m .checksum = .bytes c ∧ h x ≠ c ∧
    m' .errors = .strs (l ++ [lit "checksum-mismatch"])

/-- The metadata that a fetch of the data `x` leaves, from metadata `m`. -/
def SameButMark (C : PEnv) (x : Bytes) (m m' : Meta) : Prop := SameRecord m m' ∧ Noted C x m m'

/-- The data matches the metadata: the size is right, and the checksum is right, unset, or marked as wrong. -/
def Matches (C : PEnv) (m : Meta) (x : Bytes) : Prop :=
  m .size = .int x.length ∧
  (m .checksum = .none ∨ (∃ l, m .errors = .strs l ∧ lit "checksum-mismatch" ∈ l) ∨
    ∃ h, C.cypher (m .checksum_cypher) = .ok h ∧ m .checksum = .bytes (h x))

theorem dropLast_ne {q : Path} (h : q ≠ []) : q.dropLast ≠ q := fun hc => by
  have := congrArg List.length hc
  rw [List.length_dropLast] at this
  have := List.length_pos_iff.2 h
  omega

theorem InDir.only {d d0 : Disk CObj} {q : Path} (h : InDir d0 q) (ho : OnlyAt q d0 d) : isDirAt d q.dropLast = true := by
  obtain ⟨hq, m, hm⟩ := h
  rw [isDirAt, ho _ (dropLast_ne hq), hm]

theorem goodChunks_map : ∀ {l : List (Except PyErr Bytes)} {x : Bytes}, goodChunks l = some x →
    ∃ cs : List Bytes, l = cs.map .ok ∧ x = cs.flatten
  | [], x, h => ⟨[], rfl, by simpa [goodChunks] using h.symm⟩
  | .error e :: r, x, h => by simp [goodChunks] at h
  | .ok b :: r, x, h => by
    simp only [goodChunks, Option.map_eq_some_iff] at h
    obtain ⟨y, hy, rfl⟩ := h
    obtain ⟨cs, rfl, rfl⟩ := goodChunks_map hy
    exact ⟨b :: cs, rfl, rfl⟩

theorem goodChunks_of_map : ∀ cs : List Bytes, goodChunks (cs.map .ok) = some cs.flatten
  | [] => rfl
  | b :: cs => by simp [goodChunks, goodChunks_of_map cs]

theorem mismatch_eq : mismatch = lit "checksum-mismatch" := by rw [mismatch]

theorem marked_iff (m : Meta) : marked m = true ↔ ∃ l, m .errors = .strs l ∧ lit "checksum-mismatch" ∈ l := by
  rw [← mismatch_eq]
  unfold marked
  split
  · rename_i l hl
    simp [hl]
  · rename_i hl
    simp only [Bool.false_eq_true, false_iff]
    rintro ⟨l, h, -⟩
    exact hl l h

theorem laid_cases {mo : Option Meta} {m m' : Meta} (h : laid mo m = some m') (f : Field) :
    (m' f = m f ∧ m f ≠ .none ∧ (m f).emptyIterable = false) ∨
    ((m f = .none ∨ (m f).emptyIterable = true) ∧ m' f = (mo.getD blank) f) := by
  have := laid_get mo m f
  rw [h, Option.getD_some] at this
  rw [this]
  split
  · exact .inl ⟨rfl, ‹_›⟩
  · rename_i hn
    refine .inr ⟨?_, rfl⟩
    by_cases h0 : m f = .none
    · exact .inl h0
    · cases h1 : (m f).emptyIterable
      · exact absurd ⟨h0, h1⟩ hn
      · exact .inr rfl

theorem sameRecord_laid {m m' : Meta} (h : laid none m = some m') : SameRecord m m' := by
  intro f hf
  rcases laid_cases h f with ⟨h1, -⟩ | ⟨h1, h2⟩
  · exact .inl h1
  · have : m' f = .none := by simpa [blank, hf] using h2
    rcases h1 with h1 | h1
    · exact .inl (by rw [this, h1])
    · exact .inr ⟨h1, this⟩

theorem noted_laid {C : PEnv} {x : Bytes} {m m' : Meta} (h : laid none m = some m') : Noted C x m m' := by
  rcases laid_cases h .errors with ⟨h1, -⟩ | ⟨h1, h2⟩
  · exact .inl h1
  · refine .inr (.inl ⟨?_, by simpa [blank] using h2⟩)
    cases hm : m .errors <;> simp [hm, Carries, PyVal.emptyIterable] at h1 ⊢ <;> exact h1

/-- From what a check leaves to the claim. -/
theorem matches_of_verified {C : PEnv} {m m' : Meta} {x : Bytes} {o : Option Meta} (hs : SameRecord m m')
    (he : marked m = true → m' .errors = m .errors) (hn : Noted C x m m') (hsz : m .size = .int x.length) (hv : Verified C m m' x o) :
    ∃ m'', o = some m'' ∧ Matches C m'' x ∧ SameButMark C x m m'' := by
  have hsz' : ∀ m'' : Meta, SameRecord m m'' → m'' .size = .int x.length := by
    intro m'' h
    rcases h .size (by decide) with h | ⟨h, -⟩
    · rw [h, hsz]
    · rw [hsz] at h; simp [PyVal.emptyIterable] at h
  rcases hv with ⟨rfl, h⟩ | ⟨l, h, c, hl, rfl, hc, hck, hne, hmk⟩
  · refine ⟨m', rfl, ⟨hsz' m' hs, ?_⟩, hs, hn⟩
    rcases h with h | h | ⟨h, hc, hck⟩
    · right; left
      rw [he h]
      exact (marked_iff m).1 h
    · left
      rcases hs .checksum (by decide) with h' | ⟨-, h'⟩
      · rw [h', h]
      · exact h'
    · rcases hs .checksum (by decide) with h' | ⟨-, h'⟩
      · exact .inr (.inr ⟨h, hc, by rw [h', hck]⟩)
      · exact .inl h'
  · have hsome := laid_some (some m') (mark m l) (.inl rfl)
    obtain ⟨m'', hm''⟩ := Option.isSome_iff_exists.1 hsome
    have hs'' : SameRecord m m'' := by
      intro f hf
      rcases laid_cases hm'' f with ⟨h1, -⟩ | ⟨h1, h2⟩
      · exact .inl (by rw [h1, mark_ne m l hf])
      · rw [Option.getD_some] at h2
        rw [h2]
        exact hs f hf
    refine ⟨m'', hm'', ⟨hsz' m'' hs'', .inr (.inl ?_)⟩, hs'', .inr (.inr ⟨l, h, c, hl, ?_, ?_, hck, hne, ?_⟩)⟩
    rotate_left
    · intro hin
      rw [(marked_iff m).2 ⟨l, hl, hin⟩] at hmk
      simp at hmk
    · rcases laid_cases hm'' .checksum_cypher with ⟨h1, h2, h3⟩ | ⟨-, h2⟩
      · rw [mark_ne m l (by decide)] at h1 h3
        rcases hs .checksum_cypher (by decide) with h4 | ⟨h4, -⟩
        · rw [h1, ← h4]; exact hc
        · rw [h4] at h3; simp at h3
      · rw [h2]; exact hc
    · rcases laid_cases hm'' .errors with ⟨h1, -⟩ | ⟨h1, -⟩
      · simpa [mark, Verif.setField, mismatch_eq] using h1
      · simp [mark, Verif.setField, PyVal.emptyIterable] at h1
    rcases laid_cases hm'' .errors with ⟨h1, -⟩ | ⟨h1, -⟩
    · exact ⟨l ++ [mismatch], by simpa [mark, Verif.setField] using h1, by simp [mismatch_eq]⟩
    · simp [mark, Verif.setField, PyVal.emptyIterable] at h1

/-- Every run of a fetch that the limit allows. -/
theorem fetch_hoare (C : PEnv) {q : Path} {limit : Option Int} {m : Meta} {d0 : Disk CObj} (hrec : Recorded d0 q m)
    (hm : metaBool m = true) (hdir : InDir d0 q) (hid : m .file_id ≠ .none) (hall : Allowed limit m) :
    Hoare (fun d => d = d0) (C.fetch q limit)
      (fun _ d => ∃ cs m', C.chunks = cs.map .ok ∧ cs ≠ [] ∧ d.at_ q = some (.file cs.flatten (some m')) ∧
        Matches C m' cs.flatten ∧ SameButMark C cs.flatten m m' ∧ ∀ r, r ≠ q → d.at_ r = d0.at_ r)
      (fun _ d => (∀ r, r ≠ q → d.at_ r = d0.at_ r) ∧
        ((∃ b, d0.at_ q = some (.file b (some m))) ∧ Fetching q m (some m) d ∧ Unfetchable C m (some m) ∨
          d0.at_ q = some (.link (some m)) ∧ (∀ m, d.at_ q ≠ some (.dir m)) ∧ Unfetchable C m (laid none m))) := by
  have hstep : ∀ (o : CObj), d0.at_ q = some o → o = .link (some m) ∨ (∃ b, o = .file b (some m)) →
      ∀ (Q : Unit → Disk CObj → Prop) (R : PyErr → Disk CObj → Prop), (∀ e, (∃ n, C.F n = some e) → R e d0) →
      Hoare (fun d => OnlyAt q d0 d ∧ d.at_ q = some o) (C.fetchData q m) Q R →
      Hoare (fun d => d = d0) (C.fetch q limit) Q R := by
    intro o ho hcase Q R hR hf
    unfold PEnv.fetch
    refine .bind_ (Q := fun mm d => mm = some m ∧ d = d0) (getMeta_hoare C ?_ ?_ ?_ ?_ ?_) fun mm => .of_pre fun hmm => ?_
    · rintro d b m' rfl h
      rw [ho] at h
      rcases hcase with rfl | ⟨b', rfl⟩
      · simp at h
      · simp only [Option.some.injEq, CObj.file.injEq] at h
        rw [← h.2, if_pos hm]
        exact ⟨rfl, rfl⟩
    · rintro d m' rfl h
      rw [ho] at h
      rcases hcase with rfl | ⟨b', rfl⟩
      · simp only [Option.some.injEq, CObj.link.injEq] at h
        rw [← h]
        exact ⟨rfl, rfl⟩
      · simp at h
    · rintro d m' rfl h
      rw [ho] at h
      rcases hcase with rfl | ⟨b', rfl⟩ <;> simp at h
    · rintro d rfl h
      rw [ho] at h
      rcases hcase with rfl | ⟨b', rfl⟩ <;> simp at h
    · rintro e d rfl (h | h)
      · exact hR e h
      · rw [ho] at h
        rcases hcase with rfl | ⟨b', rfl⟩ <;> simp at h
    subst hmm
    refine .bind_ (Q := fun b d => b = false ∧ d = d0) (.look_err ?_ ?_) fun b => .of_pre fun hb => ?_
    · rintro d a rfl h
      simp only [Except.ok.injEq] at h
      refine ⟨?_, rfl⟩
      rw [← h, isDirAt, ho]
      rcases hcase with rfl | ⟨b', rfl⟩ <;> rfl
    · rintro e d rfl (h | h)
      · exact hR e h
      · simp at h
    subst hb
    simp only [Bool.false_eq_true, if_false]
    rw [if_neg hid]
    have hf' : Hoare (fun d => d = d0) (C.fetchData q m) Q R := hf.pre fun d h => by subst h; exact ⟨.refl _ _, ho⟩
    cases limit with
    | none => exact hf'
    | some l =>
      obtain ⟨n, hn, hlt⟩ := hall l rfl
      simp only [hn, if_pos hlt]
      exact hf'
  rcases hrec with ⟨b, hb⟩ | hl
  · refine hstep _ hb (.inr ⟨b, rfl⟩) _ _ ?_ ?_
    · rintro e ⟨n, hn⟩
      exact ⟨fun _ _ => rfl, .inl ⟨⟨b, hb⟩, ⟨b, some m, hb, .inl rfl⟩, .inl ⟨n, e, hn⟩⟩⟩
    · refine (fetchData_file C b (some m) m (R := fun _ d => (∀ r, r ≠ q → d.at_ r = d0.at_ r) ∧
        ((∃ b, d0.at_ q = some (.file b (some m))) ∧ Fetching q m (some m) d ∧ Unfetchable C m (some m) ∨
          d0.at_ q = some (.link (some m)) ∧ (∀ m, d.at_ q ≠ some (.dir m)) ∧ Unfetchable C m (laid none m))) ?_).mono (fun _ h => h) ?_ (fun _ _ h => h)
      · exact fun w e d h1 h2 => ⟨h1, .inl ⟨⟨b, hb⟩, h2, w⟩⟩
      · rintro _ d ⟨h1, -, m', hm', -, x, o, hx, hc, hsz, h2, hv⟩
        simp only [Option.some.injEq] at hm'
        subst hm'
        obtain ⟨cs, hcs, rfl⟩ := goodChunks_map hx
        obtain ⟨m'', rfl, h3, h4⟩ := matches_of_verified (m' := m) (fun f _ => .inl rfl) (fun _ => rfl) (.inl rfl) hsz hv
        exact ⟨cs, m'', hcs, by rintro rfl; exact hc hcs, h2, h3, h4, h1⟩
  · refine hstep _ hl (.inl rfl) _ _ ?_ ?_
    · rintro e ⟨n, hn⟩
      exact ⟨fun _ _ => rfl, .inr ⟨hl, by simp [hl], .inl ⟨n, e, hn⟩⟩⟩
    · refine (fetchData_link C m hm (fun d h => hdir.only h) (R := fun _ d => (∀ r, r ≠ q → d.at_ r = d0.at_ r) ∧
        ((∃ b, d0.at_ q = some (.file b (some m))) ∧ Fetching q m (some m) d ∧ Unfetchable C m (some m) ∨
          d0.at_ q = some (.link (some m)) ∧ (∀ m, d.at_ q ≠ some (.dir m)) ∧ Unfetchable C m (laid none m))) ?_).mono (fun _ h => h) ?_ (fun _ _ h => h)
      · rintro w e d h1 (h | h | ⟨o, -, h⟩ | ⟨y, o, h, -⟩)
        all_goals exact ⟨h1, .inr ⟨hl, by simp [h], w⟩⟩
      · rintro _ d ⟨h1, -, m', hm', -, x, o, hx, hc, hsz, h2, hv⟩
        obtain ⟨cs, hcs, rfl⟩ := goodChunks_map hx
        have hmk : marked m = true → m' .errors = m .errors := by
          intro hmk
          obtain ⟨l, hl1, hl2⟩ := (marked_iff m).1 hmk
          rcases laid_cases hm' .errors with ⟨h1, -⟩ | ⟨h1, -⟩
          · exact h1
          · rw [hl1] at h1
            rcases h1 with h1 | h1
            · simp at h1
            · simp only [PyVal.emptyIterable, decide_eq_true_eq] at h1
              rw [h1] at hl2; simp at hl2
        obtain ⟨m'', rfl, h3, h4⟩ := matches_of_verified (sameRecord_laid hm') hmk (noted_laid hm') hsz hv
        exact ⟨cs, m'', hcs, by rintro rfl; exact hc hcs, h2, h3, h4, h1⟩

/-- **C34**: a fetch that the limit allows and that returns normally wrote all the data of the remote, and the data
matches the metadata: the size is the recorded one, and the checksum is the recorded one, or not recorded, or the
mismatch is recorded.  The rest of the metadata and of the disk is as before. -/
theorem C34_verified (C : PEnv) {q : Path} {limit : Option Int} {m : Meta} {s s' : Machine CObj} (hrec : Recorded s.disk q m)
    (hm : metaBool m = true) (hdir : InDir s.disk q) (hid : m .file_id ≠ .none) (hall : Allowed limit m)
    (hrun : C.fetch q limit s = (.ok (), s')) :
    ∃ cs m', C.chunks = cs.map .ok ∧ cs ≠ [] ∧ s'.disk.at_ q = some (.file cs.flatten (some m')) ∧ Matches C m' cs.flatten ∧
      SameButMark C cs.flatten m m' ∧ ∀ r, r ≠ q → s'.disk.at_ r = s.disk.at_ r := by
  have := fetch_hoare C hrec hm hdir hid hall s rfl
  rw [hrun] at this
  exact this

/-- **C34**: it does return normally if no call fails, the remote sends data, the recorded size is that of the data,
and the recorded checksum is bytes or unset with a known cypher. -/
theorem C34_fetched (C : PEnv) {q : Path} {limit : Option Int} {m : Meta} {s : Machine CObj} {cs : List Bytes} {l : List Str}
    (hrec : Recorded s.disk q m) (hdir : InDir s.disk q) (hid : m .file_id ≠ .none) (hall : Allowed limit m)
    (hF : ∀ n, C.F n = none) (hkey : C.cacheKey = none) (hcs : C.chunks = cs.map .ok) (hne : cs ≠ [])
    (hsz : m .size = .int cs.flatten.length) (herrs : m .errors = .strs l)
    (hck : m .checksum = .none ∨ ∃ c, m .checksum = .bytes c) (hcy : ∀ v, ∃ h, C.cypher v = .ok h) :
    (C.fetch q limit s).1 = .ok () := by
  have hb : ∀ m' : Meta, m' .size = .int cs.flatten.length → metaBool m' = true := by
    intro m' h
    unfold metaBool
    rw [List.any_eq_true]
    exact ⟨.size, mem_all _, by simp [h]⟩
  have hun : ∀ mo : Option Meta, (∃ m', mo = some m' ∧ m' .size = .int cs.flatten.length) → ¬ Unfetchable C m mo := by
    rintro mo ⟨m', rfl, hsz'⟩ (⟨n, e, h⟩ | h | h | h | ⟨x, hx, h⟩ | h | ⟨m'', h1, h2⟩)
    · rw [hF n] at h; simp at h
    · exact h hkey
    · rw [hcs] at h; simp [hne] at h
    · rw [hcs, goodChunks_of_map] at h; simp at h
    · rw [hcs, goodChunks_of_map] at hx
      simp only [Option.some.injEq] at hx
      exact h (hx ▸ hsz)
    · have := h m' rfl
      rw [hb m' hsz'] at this
      simp at this
    · rcases h2 with ⟨e, h2⟩ | h2 | ⟨h2, h3⟩
      · obtain ⟨h, hh⟩ := hcy (m'' .checksum_cypher)
        rw [hh] at h2; simp at h2
      · exact h2 l herrs
      · rcases hck with h | ⟨c, h⟩
        · exact h2 h
        · exact h3 c h
  have := fetch_hoare C hrec (hb m hsz) hdir hid hall s rfl
  generalize C.fetch q limit s = r at this ⊢
  obtain ⟨r, s'⟩ := r
  cases r with
  | ok a => rfl
  | error e =>
    exfalso
    obtain ⟨-, ⟨-, -, hu⟩ | ⟨-, -, hu⟩⟩ := this
    · exact hun _ ⟨m, rfl, hsz⟩ hu
    · have hst : storedFields m ≠ [] := by
        intro hc
        have : Field.size ∈ storedFields m := by simp [storedFields, mem_all, hsz, PyVal.emptyIterable]
        rw [hc] at this; simp at this
      obtain ⟨m', hm'⟩ := Option.isSome_iff_exists.1 (laid_some none m (.inr hst))
      refine hun _ ⟨m', hm', ?_⟩ hu
      rcases sameRecord_laid hm' .size (by decide) with h | ⟨h, -⟩
      · rw [h, hsz]
      · rw [hsz] at h; simp [PyVal.emptyIterable] at h

/-- **C34**: a fetch that the limit does not allow changes nothing, and returns normally unless a call fails. -/
theorem C34_not_fetched (C : PEnv) {q : Path} {limit : Option Int} {m : Meta} {s : Machine CObj} (hrec : Recorded s.disk q m)
    (hm : metaBool m = true) (hid : m .file_id ≠ .none) (hall : ¬ Allowed limit m) :
    (C.fetch q limit s).2.disk = s.disk ∧ ((C.fetch q limit s).1 = .ok () ∨ ∃ n e, C.F n = some e) := by
  have hh : Hoare (fun d => d = s.disk) (C.fetch q limit) (fun _ d => d = s.disk) (fun e d => d = s.disk ∧ ∃ n, C.F n = some e) := by
    unfold PEnv.fetch
    refine .bind_ (Q := fun mm d => mm = some m ∧ d = s.disk) (.look_err ?_ ?_) fun mm => .of_pre fun hmm => ?_
    · rintro d a rfl h
      rcases hrec with ⟨b, hb⟩ | hl
      · rw [hb] at h
        simp only [hm, if_true, Except.ok.injEq] at h
        exact ⟨h.symm, rfl⟩
      · rw [hl] at h
        simp only [Except.ok.injEq] at h
        exact ⟨h.symm, rfl⟩
    · rintro e d rfl (h | h)
      · exact ⟨rfl, h⟩
      · rcases hrec with ⟨b, hb⟩ | hl
        · rw [hb] at h; simp at h
        · rw [hl] at h; simp at h
    subst hmm
    refine .bind_ (Q := fun b d => b = false ∧ d = s.disk) (.look_err ?_ ?_) fun b => .of_pre fun hb => ?_
    · rintro d a rfl h
      simp only [Except.ok.injEq] at h
      refine ⟨?_, rfl⟩
      rcases hrec with ⟨b, hb⟩ | hl
      · rw [← h, isDirAt, hb]
      · rw [← h, isDirAt, hl]
    · rintro e d rfl (h | h)
      · exact ⟨rfl, h⟩
      · simp at h
    subst hb
    simp only [Bool.false_eq_true, if_false]
    rw [if_neg hid]
    cases limit with
    | none => exact absurd (fun l hl => by simp at hl) hall
    | some l =>
      dsimp only
      split
      · rename_i n hn
        rw [if_neg]
        · exact .pure_ fun _ h => h
        · intro hlt
          refine hall fun l' hl' => ⟨n, hn, ?_⟩
          simp only [Option.some.injEq] at hl'
          exact hl' ▸ hlt
      · exact .pure_ fun _ h => h
  have := hh s rfl
  generalize C.fetch q limit s = r at this ⊢
  obtain ⟨r, s'⟩ := r
  cases r with
  | ok a => exact ⟨this, .inl rfl⟩
  | error e =>
    obtain ⟨h, n, hn⟩ := this
    exact ⟨h, .inr ⟨n, e, hn⟩⟩

/-- **C35** (partial): for a file that exists, at every moment of a fetch, and so after a crash at any call or after any
failure, the metadata is on the file; at most the errors are longer by the mark for a wrong checksum.  What is missing
from the full claim: a path whose metadata is in a symlink, for which it is false (`C35_crash_counterexample`). -/
theorem C35_existing_partial (C : PEnv) {q : Path} {limit : Option Int} {m : Meta} {b : Bytes} {s : Machine CObj}
    (hrec : s.disk.at_ q = some (.file b (some m))) (hm : metaBool m = true) (hid : m .file_id ≠ .none) :
    ∃ b' m', (C.fetch q limit s).2.disk.at_ q = some (.file b' (some m')) ∧ (∀ f, f ≠ .errors → m' f = m f) ∧
      (m' .errors = m .errors ∨ ∃ l, m .errors = .strs l ∧ m' .errors = .strs (l ++ [lit "checksum-mismatch"])) := by
  rw [← mismatch_eq]
  by_cases hall : Allowed limit m
  rotate_left
  · rw [(C34_not_fetched C (.inl ⟨b, hrec⟩) hm hid hall).1]
    exact ⟨b, m, hrec, fun _ _ => rfl, .inl rfl⟩
  have hmix : ∀ l o, m .errors = .strs l → Mixed (some m) (mark m l) o → ∃ m', o = some m' ∧ (∀ f, f ≠ .errors → m' f = m f) ∧
      (m' .errors = m .errors ∨ ∃ l, m .errors = .strs l ∧ m' .errors = .strs (l ++ [mismatch])) := by
    rintro l o hl ⟨h1, h2⟩
    obtain ⟨m', rfl⟩ := Option.isSome_iff_exists.1 (h1 rfl)
    refine ⟨m', rfl, fun f hf => ?_, ?_⟩
    · rcases h2 f with h | h
      · simpa using h
      · simpa [mark_ne m l hf] using h
    · rcases h2 .errors with h | h
      · exact .inl (by simpa using h)
      · exact .inr ⟨l, hl, by simpa [mark, Verif.setField] using h⟩
  have hfin : ∀ d, Fetching q m (some m) d → ∃ b' m', d.at_ q = some (.file b' (some m')) ∧ (∀ f, f ≠ .errors → m' f = m f) ∧
      (m' .errors = m .errors ∨ ∃ l, m .errors = .strs l ∧ m' .errors = .strs (l ++ [mismatch])) := by
    rintro d ⟨y, o, h, h'⟩
    have ho : o = some m ∨ ∃ l, m .errors = .strs l ∧ Mixed (some m) (mark m l) o := by
      rcases h' with h' | ⟨m', h1, h2⟩
      · exact .inl h'
      · simp only [Option.some.injEq] at h1
        subst h1
        exact h2
    rcases ho with rfl | ⟨l, hl, hx⟩
    · exact ⟨y, m, h, fun _ _ => rfl, .inl rfl⟩
    · obtain ⟨m', rfl, h1, h2⟩ := hmix l o hl hx
      exact ⟨y, m', h, h1, h2⟩
  have hh : Hoare (fun d => d = s.disk) (C.fetch q limit) (fun _ d => Fetching q m (some m) d) (fun _ d => Fetching q m (some m) d) := by
    unfold PEnv.fetch
    have h0 : Fetching q m (some m) s.disk := ⟨b, _, hrec, .inl rfl⟩
    refine .bind_ (Q := fun mm d => mm = some m ∧ d = s.disk) (.look_ ?_ fun e d h => h ▸ h0) fun mm => .of_pre fun hmm => ?_
    · rintro d a rfl h
      rw [hrec] at h
      simp only [hm, if_true, Except.ok.injEq] at h
      exact ⟨h.symm, rfl⟩
    subst hmm
    refine .bind_ (Q := fun b d => b = false ∧ d = s.disk) (.look_ ?_ fun e d h => h ▸ h0) fun b => .of_pre fun hb => ?_
    · rintro d a rfl h
      simp only [Except.ok.injEq] at h
      exact ⟨by rw [← h, isDirAt, hrec], rfl⟩
    subst hb
    simp only [Bool.false_eq_true, if_false]
    rw [if_neg hid]
    have hfd : Hoare (fun d => d = s.disk) (C.fetchData q m) (fun _ d => Fetching q m (some m) d) (fun _ d => Fetching q m (some m) d) := by
      refine (fetchData_file C (d0 := s.disk) b (some m) m (R := fun _ d => Fetching q m (some m) d) fun _ e d _ h => h).mono
        (fun d h => ?_) ?_ (fun _ _ h => h)
      · subst h; exact ⟨.refl _ _, hrec⟩
      · rintro _ d ⟨-, -, m', hm', -, x, o, -, -, -, h2, hv⟩
        simp only [Option.some.injEq] at hm'
        subst hm'
        rcases hv with ⟨rfl, -⟩ | ⟨l, h, c, hl, rfl, -⟩
        · exact ⟨x, _, h2, .inl rfl⟩
        · refine ⟨x, _, h2, .inr ⟨m, rfl, .inr ⟨l, hl, fun _ => laid_some _ _ (.inl rfl), fun f => ?_⟩⟩⟩
          rw [laid_get]
          split
          · exact .inr rfl
          · exact .inl rfl
    cases limit with
    | none => exact hfd
    | some l =>
      obtain ⟨n, hn, hlt⟩ := hall l rfl
      simp only [hn, if_pos hlt]
      exact hfd
  have := hh s rfl
  generalize C.fetch q limit s = r at this ⊢
  obtain ⟨r, s'⟩ := r
  cases r with
  | ok a => exact hfin _ this
  | error e => exact hfin _ this

/-! ## Where the claims fail, and examples -/

/-- Metadata of a file of three bytes, with the checksum `c`. -/
def threeBytes (c : Bytes) : Meta := fun f => match f with
  | .id => .str ['i'] | .file_id => .int 7 | .size => .int 3 | .checksum => .bytes c | .errors => .strs [] | _ => .none

/-- A disk with a symlink that holds this metadata. -/
def withLink : Disk CObj := [([], .dir none), ([['t']], .dir none), ([['a']], .link (some (threeBytes [1])))]

/-- A disk with a file that has this metadata. -/
def withFile (b : Bytes) : Disk CObj := [([], .dir none), ([['t']], .dir none), ([['a']], .file b (some (threeBytes [1])))]

/-- An environment in which nothing fails, the checksum is the first byte and the remote sends two chunks. -/
def simple : PEnv where
  F := fun _ => none
  long := fun _ => false
  loc := [['t']]
  replace := fun _ _ => .ok true
  hash := fun b => b.take 1
  cypher := fun _ => .ok fun b => b.take 1
  remoteSum := .ok []
  remoteIsDir := false
  chunks := [.ok [1], .ok [2, 3]]
  cacheKey := none
  refresh := .pure ()

/-- A file whose size is exactly the limit is not fetched, although the size is at most the limit. -/
theorem C34_boundary_counterexample :
    (simple.fetch [['a']] (some 3) ⟨withFile [], 0⟩).1 = .ok () ∧
      (simple.fetch [['a']] (some 3) ⟨withFile [], 0⟩).2.disk.at_ [['a']] = some (.file [] (some (threeBytes [1]))) ∧
      threeBytes [1] .size = .int 3 :=
  ⟨by decide +kernel, by decide +kernel, rfl⟩

/-- An empty remote file is never fetched: with a stream that sends nothing a `StopIteration` is raised and the local
file keeps its content. -/
theorem C34_empty_counterexample :
    ({ simple with chunks := [] }.fetch [['a']] none ⟨withFile [9], 0⟩).1 = .error .stopIteration ∧
      ({ simple with chunks := [] }.fetch [['a']] none ⟨withFile [9], 0⟩).2.disk.at_ [['a']] = some (.file [9] (some (threeBytes [1]))) :=
  ⟨by decide +kernel, by decide +kernel⟩

/-- When the metadata is in a symlink and the process dies after the link was removed, or after the empty file was
made, the metadata is nowhere on the disk. -/
theorem C35_crash_counterexample : ∀ n, n = 4 ∨ n = 5 →
    ∀ p m, let s := ({ simple with F := fun k => if n ≤ k then some .foreign else none }.fetch [['a']] none ⟨withLink, 0⟩).2
      s.disk.at_ p ≠ some (.link (some m)) ∧ s.disk.at_ p ≠ some (.dir (some m)) ∧ ∀ b, s.disk.at_ p ≠ some (.file b (some m)) := by
  have key : ∀ (d : Disk CObj), (∀ e ∈ d, e.2 = .dir none ∨ e.2 = .file [] none) → ∀ p m,
      d.at_ p ≠ some (.link (some m)) ∧ d.at_ p ≠ some (.dir (some m)) ∧ ∀ b, d.at_ p ≠ some (.file b (some m)) := by
    intro d hd p m
    have : ∀ o, d.at_ p = some o → o = .dir none ∨ o = .file [] none := fun o ho => hd _ (Disk.mem_of_at ho)
    refine ⟨fun h => ?_, fun h => ?_, fun b h => ?_⟩ <;> simpa using this _ h
  rintro n (rfl | rfl) p m
  · exact key _ (by decide +kernel) p m
  · exact key _ (by decide +kernel) p m

example : Recorded withLink [['a']] (threeBytes [1]) ∧ metaBool (threeBytes [1]) = true ∧ InDir withLink [['a']] ∧
    threeBytes [1] .file_id ≠ .none ∧ Allowed none (threeBytes [1]) ∧
    (simple.fetch [['a']] none ⟨withLink, 0⟩).1 = .ok () ∧
    shown (simple.fetch [['a']] none ⟨withLink, 0⟩).2.disk [['a']] = some ([1, 2, 3], Field.all.map (threeBytes [1])) :=
  ⟨.inr (by decide), by decide, ⟨by simp, none, by decide⟩, by decide, by simp [Allowed], by decide +kernel, by decide +kernel⟩

/-- A wrong checksum is recorded. -/
example : (simple.fetch [['a']] none ⟨[([], .dir none), ([['a']], .link (some (threeBytes [2])))], 0⟩).1 = .ok () ∧
    shown (simple.fetch [['a']] none ⟨[([], .dir none), ([['a']], .link (some (threeBytes [2])))], 0⟩).2.disk [['a']] =
      some ([1, 2, 3], Field.all.map (setField (threeBytes [2]) .errors (.strs [mismatch]))) :=
  ⟨by decide +kernel, by decide +kernel⟩

/-- **C35** (partial): for a path whose metadata is in a symlink, at every moment of a fetch, and so after a crash at any call or after
any failure, there is the link, or nothing, or an empty file with a part of the record, or a file with the whole record.  So there
are never data without the whole record, but there are moments at which the record is not there. -/
theorem C35_link_partial (C : PEnv) {q : Path} {limit : Option Int} {m : Meta} {s : Machine CObj}
    (hrec : s.disk.at_ q = some (.link (some m))) (hm : metaBool m = true) (hid : m .file_id ≠ .none)
    (hid' : (m .file_id).emptyIterable = false) (hdir : InDir s.disk q) :
    (C.fetch q limit s).2.disk.at_ q = some (.link (some m)) ∨ (C.fetch q limit s).2.disk.at_ q = none ∨
    (∃ o, (C.fetch q limit s).2.disk.at_ q = some (.file [] o) ∧
      ∀ m' f, o = some m' → m' f = m f ∨ m' f = .none ∨ f = .errors ∧ m' f = .strs []) ∨
    ∃ b m', (C.fetch q limit s).2.disk.at_ q = some (.file b (some m')) ∧ SameRecord m m' := by
  let Z : Disk CObj → Prop := fun d =>
    d.at_ q = some (.link (some m)) ∨ d.at_ q = none ∨
    (∃ o, d.at_ q = some (.file [] o) ∧ ∀ m' f, o = some m' → m' f = m f ∨ m' f = .none ∨ f = .errors ∧ m' f = .strs []) ∨
    ∃ b m', d.at_ q = some (.file b (some m')) ∧ SameRecord m m'
  have h0 : Z s.disk := .inl hrec
  have hlaid : ∃ m', laid none m = some m' := by
    refine Option.isSome_iff_exists.1 (laid_some none m (.inr ?_))
    intro hnil
    have : Field.file_id ∈ storedFields m := by
      rw [storedFields, List.mem_filter]
      exact ⟨mem_all _, by simp [hid, hid']⟩
    rw [hnil] at this
    exact nomatch this
  obtain ⟨m1, hm1⟩ := hlaid
  have hfetching : ∀ d, Fetching q m (laid none m) d → Z d := by
    rintro d ⟨y, o, h1, h2⟩
    rw [hm1] at h2
    right; right; right
    have hs1 : SameRecord m m1 := sameRecord_laid hm1
    have hmix : ∀ l, Mixed (some m1) (mark m l) o → ∃ m', o = some m' ∧ SameRecord m m' := by
      rintro l ⟨h3, h4⟩
      obtain ⟨m', rfl⟩ := Option.isSome_iff_exists.1 (h3 rfl)
      refine ⟨m', rfl, fun f hf => ?_⟩
      rcases h4 f with h | h
      · simp only [Option.getD_some] at h
        rw [h]; exact hs1 f hf
      · left; simpa [mark_ne m l hf] using h
    rcases h2 with rfl | ⟨m', h3, rfl | ⟨l, -, hx⟩⟩
    · exact ⟨y, m1, h1, hs1⟩
    · cases h3; exact ⟨y, m1, h1, hs1⟩
    · cases h3
      obtain ⟨m', rfl, hs⟩ := hmix l hx
      exact ⟨y, m', h1, hs⟩
  have hh : Hoare (fun d => d = s.disk) (C.fetch q limit) (fun _ d => Z d) (fun _ d => Z d) := by
    unfold PEnv.fetch
    refine .bind_ (Q := fun mm d => mm = some m ∧ d = s.disk) (.look_ ?_ fun e d h => h ▸ h0) fun mm => .of_pre fun hmm => ?_
    · rintro d a rfl h
      rw [hrec] at h
      simp only [Except.ok.injEq] at h
      exact ⟨h.symm, rfl⟩
    subst hmm
    refine .bind_ (Q := fun b d => b = false ∧ d = s.disk) (.look_ ?_ fun e d h => h ▸ h0) fun b => .of_pre fun hb => ?_
    · rintro d a rfl h
      simp only [Except.ok.injEq] at h
      exact ⟨by rw [← h, isDirAt, hrec], rfl⟩
    subst hb
    simp only [Bool.false_eq_true, if_false]
    rw [if_neg hid]
    have hfd : Hoare (fun d => d = s.disk) (C.fetchData q m) (fun _ d => Z d) (fun _ d => Z d) := by
      refine (fetchData_link C (d0 := s.disk) m hm (fun d h => hdir.only h) (R := fun _ d => Z d) ?_).mono
        (fun d h => ?_) ?_ (fun _ _ h => h)
      · rintro - e d - (h | h | ⟨o, h1, h2⟩ | h)
        · exact .inl h
        · exact .inr (.inl h)
        · refine .inr (.inr (.inl ⟨o, h2, ?_⟩))
          rintro m' f rfl
          rcases h1.2 f with h | h
          · simp only [Option.getD_some, Option.getD_none, blank] at h
            by_cases hf : f = .errors
            · rw [if_pos hf] at h; exact .inr (.inr ⟨hf, h⟩)
            · rw [if_neg hf] at h; exact .inr (.inl h)
          · exact .inl (by simpa using h)
        · exact hfetching d h
      · subst h; exact ⟨.refl _ _, hrec⟩
      · rintro _ d ⟨-, -, m', hm', -, x, o, -, -, -, h2, hv⟩
        refine hfetching d ⟨x, o, h2, ?_⟩
        rcases hv with ⟨rfl, -⟩ | ⟨l, h, c, hl, rfl, -⟩
        · exact .inl hm'.symm
        · refine .inr ⟨m', hm', .inr ⟨l, hl, fun _ => laid_some _ _ (.inl rfl), fun f => ?_⟩⟩
          rw [laid_get]
          split
          · exact .inr rfl
          · exact .inl rfl
    cases limit with
    | none => exact hfd
    | some l =>
      dsimp only
      split
      · split
        · exact hfd
        · exact .pure_ fun d h => h ▸ h0
      · exact .pure_ fun d h => h ▸ h0
  have := hh s rfl
  generalize C.fetch q limit s = r at this ⊢
  obtain ⟨r, s'⟩ := r
  cases r with
  | ok a => exact this
  | error e => exact this

end Verif.Cache
