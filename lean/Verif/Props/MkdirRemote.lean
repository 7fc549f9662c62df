import Verif.Model.MkdirRemote
import Verif.Lemmas.Primary
import Verif.Lemmas.Decide

/-!
# C93: making a directory on the remote
-/

namespace Verif.Cache
open Verif.FS

/-! ## Programs on both sides -/

/-- From every world with `P`, the program ends with `Q` or raises with `E`; the conditions are about the local disk and the remote
directories. -/
def Triple {α : Type} (P : Disk CObj → List RDir → Prop) (p : Both α) (Q : α → Disk CObj → List RDir → Prop)
    (E : PyErr → Disk CObj → List RDir → Prop) : Prop :=
  ∀ w, P w.local_.disk w.dirs → match p w with
    | (.ok a, w') => Q a w'.local_.disk w'.dirs
    | (.error e, w') => E e w'.local_.disk w'.dirs

namespace Triple
variable {α β : Type} {P : Disk CObj → List RDir → Prop} {Q : α → Disk CObj → List RDir → Prop}
  {E : PyErr → Disk CObj → List RDir → Prop}

theorem pure_ {a : α} (h : ∀ d ds, P d ds → Q a d ds) : Triple P (.pure a) Q E := fun _ hw => h _ _ hw

theorem throw_ {e : PyErr} (h : ∀ d ds, P d ds → E e d ds) : Triple P (.throw e : Both α) Q E := fun _ hw => h _ _ hw

theorem bind_ {p : Both α} {f : α → Both β} {Q' : β → Disk CObj → List RDir → Prop} (hp : Triple P p Q E)
    (hf : ∀ a, Triple (Q a) (f a) Q' E) : Triple P (.bind p f) Q' E := by
  intro w hw
  have := hp w hw
  unfold Both.bind
  generalize p w = r at this ⊢
  obtain ⟨r, w'⟩ := r
  cases r with
  | ok a => exact hf a w' this
  | error e => exact this

theorem here_ {p : Prog CObj α} (h : ∀ ds, Hoare (fun d => P d ds) p (fun a d => Q a d ds) (fun e d => E e d ds)) :
    Triple P (.here p) Q E := by
  intro w hw
  have := h w.dirs w.local_ hw
  unfold Both.here
  generalize p w.local_ = r at this ⊢
  obtain ⟨r, m⟩ := r
  cases r with
  | ok a => exact this
  | error e => exact this

theorem here_on {p : Prog CObj α}
    (h : ∀ d ds, P d ds → Hoare (fun d' => d' = d) p (fun a d => Q a d ds) (fun e d => E e d ds)) : Triple P (.here p) Q E := by
  intro w hw
  have := h _ _ hw w.local_ rfl
  unfold Both.here
  generalize p w.local_ = r at this ⊢
  obtain ⟨r, m⟩ := r
  cases r with
  | ok a => exact this
  | error e => exact this

theorem ask_ {C : PEnv} {R : RemoteSide} {f : List RDir → Except PyErr (α × List RDir)}
    (hok : ∀ d ds a ds', P d ds → f ds = .ok (a, ds') → Q a d ds')
    (hdone : ∀ e d ds a ds', P d ds → f ds = .ok (a, ds') → (∃ n, C.F n = some e) → E e d ds')
    (herr : ∀ e d ds, P d ds → (∃ n, C.F n = some e) ∨ f ds = .error e → E e d ds) : Triple P (.ask C R f) Q E := by
  intro w hw
  unfold Both.ask
  dsimp only
  cases hF : C.F w.local_.tick with
  | some e => cases hf : f w.dirs with
    | ok r =>
      obtain ⟨a, ds⟩ := r
      dsimp only
      split
      · exact hdone e _ _ _ _ hw hf ⟨_, hF⟩
      · exact herr e _ _ hw (.inl ⟨_, hF⟩)
    | error e' => exact herr e _ _ hw (.inl ⟨_, hF⟩)
  | none => cases hf : f w.dirs with
    | ok r =>
      obtain ⟨a, ds⟩ := r
      exact hok _ _ _ _ hw hf
    | error e' => exact herr e' _ _ hw (.inr hf)

theorem mono {P' : Disk CObj → List RDir → Prop} {Q' : α → Disk CObj → List RDir → Prop} {E' : PyErr → Disk CObj → List RDir → Prop}
    {p : Both α} (h : Triple P p Q E) (hP : ∀ d ds, P' d ds → P d ds) (hQ : ∀ a d ds, Q a d ds → Q' a d ds)
    (hE : ∀ e d ds, E e d ds → E' e d ds) : Triple P' p Q' E' := by
  intro w hw
  have := h w (hP _ _ hw)
  generalize p w = r at this ⊢
  obtain ⟨r, w'⟩ := r
  cases r with
  | ok a => exact hQ _ _ _ this
  | error e => exact hE _ _ _ this

theorem of_pre {c : Prop} {p : Both α} (h : c → Triple P p Q E) : Triple (fun d ds => c ∧ P d ds) p Q E :=
  fun w hw => h hw.1 w hw.2

theorem ite_ {c : Prop} [Decidable c] {p p' : Both α} (h : c → Triple P p Q E) (h' : ¬ c → Triple P p' Q E) :
    Triple P (if c then p else p') Q E := by
  split
  · exact h ‹_›
  · exact h' ‹_›

end Triple

/-! ## What is claimed -/

/-- The stored metadata of something on disk. -/
def stored : CObj → Option Meta
  | .dir m | .file _ m | .link m => m

/-- The id that is stored at a path. -/
def idAt (d : Disk CObj) (p : Path) : Option Str := ((d.at_ p).bind stored).bind idIn

/-- A directory without metadata, or nothing. -/
def Bare (d : Disk CObj) (p : Path) : Prop :=
  d.at_ p = none ∨ ∃ mo, d.at_ p = some (.dir mo) ∧ ∀ m, mo = some m → metaBool m = false

/-- A path with a cache. -/
def Cached (d : Disk CObj) (p : Path) : Prop :=
  ∃ m, (d.at_ p).bind stored = some m ∧ (metaBool m = true ∨ isBroken d p = true)

/-- Directories have been made, and metadata has been stored on directories that had none, on these paths only. -/
def Made (on : Path → Prop) (d0 d : Disk CObj) : Prop :=
  ∀ r, d.at_ r = d0.at_ r ∨ on r ∧ Bare d0 r ∧ isDirAt d r = true

/-- The paths from `a` down along the names, without `a`. -/
def Along (a : Path) (ns : List Name) (r : Path) : Prop := ∃ k, k < ns.length ∧ r = a ++ ns.take (k + 1)

/-- A directory with this metadata; what is empty is not stored. -/
def Stores (d : Disk CObj) (p : Path) (m : Meta) : Prop :=
  ∃ m', d.at_ p = some (.dir (some m')) ∧ ∀ f, m' f = m f ∨ ((m f = .none ∨ (m f).emptyIterable = true) ∧ m' f = blank f) ∨
    f = .errors ∧ (m f = .none ∨ (m f).emptyIterable = true) ∧ (m' f).truthy = false

/-- The names below the directory `a` with the id `i` on the remote, one in the other, and the same directories with the metadata
of the remote on the local side. -/
inductive Mirrored (R : RemoteSide) (d : Disk CObj) : Path → Str → List Name → List RDir → Prop
  | nil (a : Path) (i : Str) : Mirrored R d a i [] []
  | cons {a : Path} {i j : Str} {n : Name} {ns : List Name} {rs : List RDir} : Stores d (a ++ [n]) (R.info j) →
      Mirrored R d (a ++ [n]) j ns rs → Mirrored R d a i (n :: ns) (⟨j, i, n⟩ :: rs)

/-- As far as a run got: the same, for the first names, and perhaps one more directory on the remote. -/
inductive Halfway (R : RemoteSide) (d : Disk CObj) : Path → Str → List Name → List RDir → Prop
  | stop (a : Path) (i : Str) (ns : List Name) : Halfway R d a i ns []
  | orphan (a : Path) (i j : Str) (n : Name) (ns : List Name) : Halfway R d a i (n :: ns) [⟨j, i, n⟩]
  | cons {a : Path} {i j : Str} {n : Name} {ns : List Name} {rs : List RDir} : Stores d (a ++ [n]) (R.info j) →
      Halfway R d (a ++ [n]) j ns rs → Halfway R d a i (n :: ns) (⟨j, i, n⟩ :: rs)

/-- The ids that the remote gives are in its metadata. -/
def Proper (R : RemoteSide) : Prop := ∀ ds i n j, R.make ds i n = .ok j → R.info j .id = .str j ∧ j ≠ []

/-! ## Steps -/

theorem getMeta_read (C : PEnv) (q : Path) (d0 : Disk CObj) :
    Hoare (fun d => d = d0) (C.getMeta q)
      (fun m d => ((∀ m', m = some m' → (d0.at_ q).bind stored = some m' ∧ (metaBool m' = true ∨ isBroken d0 q = true)) ∧
        (m = none → Bare d0 q ∨ ∃ b mo, d0.at_ q = some (.file b mo) ∧ ∀ m, mo = some m → metaBool m = false)) ∧ d = d0)
      (fun e d => ((∃ n, C.F n = some e) ∨ d0.at_ q = some (.link none)) ∧ d = d0) := by
  refine getMeta_hoare C ?_ ?_ ?_ ?_ ?_
  · rintro d b m rfl h
    refine ⟨⟨fun m' hm => ?_, fun hm => .inr ⟨b, some m, h, fun m' hm' => ?_⟩⟩, rfl⟩
    · split at hm
      · cases hm; exact ⟨by simp [h, stored], .inl ‹_›⟩
      · simp at hm
    · cases hm'
      split at hm
      · simp at hm
      · rename_i hb; simpa using hb
  · rintro d m rfl h
    exact ⟨⟨fun m' hm => by cases hm; exact ⟨by simp [h, stored], .inr (by simp [isBroken, h])⟩, fun hm => by simp at hm⟩, rfl⟩
  · rintro d m rfl h
    refine ⟨⟨fun m' hm => ?_, fun hm => .inl (.inr ⟨some m, h, fun m' hm' => ?_⟩)⟩, rfl⟩
    · split at hm
      · cases hm; exact ⟨by simp [h, stored], .inl ‹_›⟩
      · simp at hm
    · cases hm'
      split at hm
      · simp at hm
      · rename_i hb; simpa using hb
  · rintro d rfl h
    refine ⟨⟨fun m' hm => by simp at hm, fun _ => ?_⟩, rfl⟩
    rcases h with h | h | ⟨b, h⟩
    · exact .inl (.inl h)
    · exact .inl (.inr ⟨none, h, by simp⟩)
    · exact .inr ⟨b, none, h, by simp⟩
  · rintro e d rfl h
    exact ⟨h, rfl⟩

theorem mkdirOk_triple (C : PEnv) (q : Path) (d0 : Disk CObj) :
    Hoare (fun d => d = d0) (C.mkdirOk q)
      (fun _ d => (d = d0 ∧ isDirAt d0 q = true) ∨ (d = d0.put q (.dir none) ∧ d0.at_ q = none))
      (fun e d => ((∃ n, C.F n = some e) ∨ isDirAt d0 q.dropLast = false ∨ ((d0.at_ q).isSome = true ∧ isDirAt d0 q = false)) ∧ d = d0) := by
  unfold PEnv.mkdirOk
  refine .try_ (R := fun e d => ((∃ n, C.F n = some e) ∨ isDirAt d0 q.dropLast = false ∨ (e = .fileExistsError ∧ (d0.at_ q).isSome = true)) ∧ d = d0) (.act_err ?_ ?_) fun e => ?_
  · rintro d d' rfl h
    unfold Disk.create at h
    split at h
    · simp at h
    · rename_i hq
      split at h
      · simp at h
      · split at h
        · cases h; exact .inr ⟨rfl, hq⟩
        · simp at h
  · rintro e d rfl (h | h)
    · exact ⟨.inl h, rfl⟩
    · refine ⟨.inr ?_, rfl⟩
      unfold Disk.create at h
      split at h
      · rename_i hq; cases h; exact .inr ⟨rfl, by simp [hq]⟩
      · left
        unfold isDirAt
        split at h
        · rename_i hp; simp [hp]
        · rename_i p hp
          rw [hp]
          split at h
          · simp at h
          · cases p <;> simp_all [Kinded.isDir]
  · refine .ite_ (fun he => .throw_ ?_) fun _ => ?_
    · rintro d ⟨h, rfl⟩
      refine ⟨?_, rfl⟩
      rcases h with h | h | h
      · exact .inl h
      · exact .inr (.inl h)
      · simp [he] at h
    · refine .bind_ (Q := fun b d => (b = isDirAt d0 q ∧ ((∃ n, C.F n = some e) ∨ isDirAt d0 q.dropLast = false ∨ (e = .fileExistsError ∧ (d0.at_ q).isSome = true))) ∧ d = d0)
        (.look_err ?_ ?_) fun b => ?_
      · rintro d b ⟨h, rfl⟩ hb
        cases hb
        exact ⟨⟨rfl, h⟩, rfl⟩
      · rintro e' d ⟨h, rfl⟩ (h' | h')
        · exact ⟨.inl h', rfl⟩
        · simp at h'
      · refine .of_pre fun ⟨hb, h⟩ => .ite_ (fun hb' => .pure_ ?_) fun hb' => .throw_ ?_
        · rintro d rfl
          exact .inl ⟨rfl, hb ▸ hb'⟩
        · rintro d rfl
          refine ⟨?_, rfl⟩
          rcases h with h | h | h
          · exact .inl h
          · exact .inr (.inl h)
          · exact .inr (.inr ⟨h.2, by rw [← hb]; simpa using hb'⟩)

theorem setXattrs_dir (C : PEnv) {q : Path} {d0 : Disk CObj} {mo : Option Meta} (m : Meta) :
    Hoare (fun d => OnlyAt q d0 d ∧ d.at_ q = some (.dir mo)) (C.setXattrs q m)
      (fun _ d => OnlyAt q d0 d ∧ d.at_ q = some (.dir (laid mo m)))
      (fun e d => OnlyAt q d0 d ∧ (∃ mo', d.at_ q = some (.dir mo') ∧ Mixed mo m mo') ∧ ∃ n, C.F n = some e) := by
  have := Hoare.each_fold (R := fun e d => OnlyAt q d0 d ∧ (∃ mo', d.at_ q = some (.dir mo') ∧ Mixed mo m mo') ∧ ∃ n, C.F n = some e)
    (f := fun f => C.setField q f (m f))
    (I := fun o d => Mixed mo m o ∧ OnlyAt q d0 d ∧ d.at_ q = some (.dir o))
    (g := fun o f => some (Verif.setField (o.getD blank) f (m f))) (storedFields m) mo fun f _ o => .act_err ?_ ?_
  · exact this.mono (fun d h => ⟨.refl _ _, h⟩) (fun _ d h => h.2) (fun _ _ h => h)
  · rintro d d' ⟨h0, h1, h2⟩ h
    rw [h2] at h
    simp only [Except.ok.injEq] at h
    subst h
    exact ⟨h0.set f, h1.put _, at_put_self _ _ _⟩
  · rintro e d ⟨h0, h1, h2⟩ h
    rcases h with h | h
    · exact ⟨h1, ⟨_, h2, h0⟩, h⟩
    · simp [h2] at h

theorem cacheInit_triple (C : PEnv) {q : Path} {d0 : Disk CObj} (m : Meta) {mo : Option Meta} (hq : d0.at_ q = some (.dir mo)) :
    Hoare (fun d => d = d0) (C.cacheInit q m)
      (fun _ d => Bare d0 q ∧ OnlyAt q d0 d ∧ d.at_ q = some (.dir (laid mo m)) ∧ metaBool m = true)
      (fun e d => (d = d0 ∨ Bare d0 q ∧ OnlyAt q d0 d ∧ ∃ mo', d.at_ q = some (.dir mo') ∧ Mixed mo m mo') ∧
        ((∃ n, C.F n = some e) ∨ ¬ Bare d0 q ∨ metaBool m = false)) := by
  unfold PEnv.cacheInit
  refine .bind_ ((getMeta_read C q d0).mono (fun _ h => h) (fun _ _ h => h) ?_) fun o => .of_pre fun ⟨h1, h2⟩ => ?_
  · rintro e d ⟨h, rfl⟩
    refine ⟨.inl rfl, ?_⟩
    rcases h with h | h
    · exact .inl h
    · simp [hq] at h
  refine .ite_ (fun ho => .throw_ ?_) fun ho => ?_
  · rintro d rfl
    refine ⟨.inl rfl, .inr (.inl ?_)⟩
    obtain ⟨m', rfl⟩ := Option.isSome_iff_exists.1 ho
    obtain ⟨g1, g2 | g2⟩ := h1 m' rfl
    · rintro (h | ⟨mo', h, h'⟩)
      · simp [hq] at h
      · rw [hq] at h; cases h
        simp [hq, stored] at g1
        simp [h' _ g1] at g2
    · simp [isBroken, hq] at g2
  have hbare : Bare d0 q := by
    rcases h2 (by simpa using ho) with h | ⟨b, mo, h, -⟩
    · exact h
    · simp [hq] at h
  refine .bind_ (Q := fun ex d => ex = true ∧ d = d0) (.look_err ?_ ?_) fun ex => .of_pre fun hex => ?_
  · rintro d a rfl h
    simp only [Except.ok.injEq, there, hq] at h
    exact ⟨h.symm, rfl⟩
  · rintro e d rfl (h | h)
    · exact ⟨.inl rfl, .inl h⟩
    · simp at h
  subst hex
  refine .ite_ (fun h => by simp at h) fun _ => .ite_ (fun hm => ?_) fun hm => ?_
  · refine .bind_ (Q := fun _ d => d = d0) ((getMeta_read C q d0).mono (fun _ h => h) (fun _ _ h => h.2) ?_) fun _ => .throw_ ?_
    · rintro e d ⟨h, rfl⟩
      refine ⟨.inl rfl, .inr (.inr (by simpa using hm))⟩
    · rintro d rfl
      refine ⟨.inl rfl, .inr (.inr (by simpa using hm))⟩
  · refine .bind_ (Q := fun _ d => Bare d0 q ∧ OnlyAt q d0 d ∧ d.at_ q = some (.dir (laid mo m)) ∧ metaBool m = true) ?_ fun _ => .pure_ fun _ h => h
    have hm : metaBool m = true := by simpa using hm
    unfold PEnv.metaUpdater
    refine .bind_ (Q := fun mm d => mm = none ∧ d = d0) ((getMeta_read C q d0).mono (fun _ h => h) ?_ ?_) fun mm => .of_pre fun hmm => ?_
    · rintro mm d ⟨⟨g1, -⟩, rfl⟩
      refine ⟨?_, rfl⟩
      cases mm with
      | none => rfl
      | some m' =>
        obtain ⟨g1, g2 | g2⟩ := g1 m' rfl
        · rcases hbare with h | ⟨mo', h, h'⟩
          · simp [hq] at h
          · rw [hq] at h; cases h
            simp [hq, stored] at g1
            simp [h' _ g1] at g2
        · simp [isBroken, hq] at g2
    · rintro e d ⟨h, rfl⟩
      refine ⟨.inl rfl, ?_⟩
      rcases h with h | h
      · exact .inl h
      · simp [hq] at h
    subst hmm
    simp only [updateMeta]
    refine .bind_ (Q := fun b d => b = false ∧ d = d0) (.ite_ (fun h => by simp at h) fun _ => .pure_ fun _ h => ⟨rfl, h⟩) fun b => .of_pre fun hb => ?_
    subst hb
    simp only [Bool.false_and, Bool.false_eq_true, if_false]
    refine .bind_ (Q := fun _ d => Bare d0 q ∧ OnlyAt q d0 d ∧ d.at_ q = some (.dir (laid mo m)) ∧ metaBool m = true) ?_ fun _ => .pure_ fun _ h => h
    unfold PEnv.setMeta
    simp only [hm, Bool.not_true, Bool.false_eq_true, if_false]
    refine .bind_ (Q := fun ex d => ex = true ∧ d = d0) (.look_err ?_ ?_) fun ex => .of_pre fun hex => ?_
    · rintro d a rfl h
      simp only [Except.ok.injEq, there, hq] at h
      exact ⟨h.symm, rfl⟩
    · rintro e d rfl (h | h)
      · exact ⟨.inl rfl, .inl h⟩
      · simp at h
    subst hex
    simp only [if_true]
    refine (setXattrs_dir C (d0 := d0) (mo := mo) m).mono ?_ ?_ ?_
    · rintro d rfl
      exact ⟨.refl _ _, hq⟩
    · rintro _ d ⟨h1, h2⟩
      exact ⟨hbare, h1, h2, trivial⟩
    · rintro e d ⟨h1, h2, h3⟩
      exact ⟨.inr ⟨hbare, h1, h2⟩, .inl h3⟩

theorem Made.refl (on : Path → Prop) (d : Disk CObj) : Made on d d := fun _ => .inl rfl

theorem Made.trans {on on1 on2 : Path → Prop} {d0 d1 d2 : Disk CObj} (h1 : Made on1 d0 d1) (h2 : Made on2 d1 d2)
    (g1 : ∀ r, on1 r → on r) (g2 : ∀ r, on2 r → on r) : Made on d0 d2 := by
  intro r
  rcases h2 r with e2 | ⟨o2, b2, i2⟩
  · rcases h1 r with e1 | ⟨o1, b1, i1⟩
    · exact .inl (e2.trans e1)
    · exact .inr ⟨g1 _ o1, b1, by simpa [isDirAt, e2] using i1⟩
  · rcases h1 r with e1 | ⟨o1, b1, i1⟩
    · exact .inr ⟨g2 _ o2, by simpa [Bare, e1] using b2, i2⟩
    · exact .inr ⟨g1 _ o1, b1, i2⟩

theorem Made.of_only {q : Path} {d0 d : Disk CObj} {mo : Option Meta} (h : OnlyAt q d0 d) (hb : Bare d0 q)
    (hq : d.at_ q = some (.dir mo)) : Made (· = q) d0 d := by
  intro r
  by_cases hr : r = q
  · subst hr
    exact .inr ⟨rfl, hb, by simp [isDirAt, hq]⟩
  · exact .inl (h r hr)

theorem Stores.of_laid {d : Disk CObj} {q : Path} {mo : Option Meta} {m : Meta} (h : d.at_ q = some (.dir (laid mo m)))
    (hb : ∀ m', mo = some m' → metaBool m' = false) (hs : storedFields m ≠ []) : Stores d q m := by
  obtain ⟨m', hm'⟩ := Option.isSome_iff_exists.1 (laid_some mo m (.inr hs))
  refine ⟨m', by rw [h, hm'], fun f => ?_⟩
  have hf := laid_get mo m f
  rw [hm'] at hf
  simp only [Option.getD_some] at hf
  split at hf
  · exact .inl hf
  · rename_i hc
    have hc' : m f = .none ∨ (m f).emptyIterable = true := by
      rcases Classical.em (m f = .none) with h | h
      · exact .inl h
      · right
        cases hx : (m f).emptyIterable
        · exact absurd ⟨h, hx⟩ hc
        · rfl
    right
    cases mo with
    | none => exact .inl ⟨hc', hf⟩
    | some o =>
      have := hb o rfl
      unfold metaBool at this
      rw [List.any_eq_false] at this
      have := this f (by cases f <;> decide)
      by_cases he : f = .errors
      · right
        simp only [he, if_true] at this
        subst he
        exact ⟨rfl, hc', by rw [hf]; simpa using this⟩
      · left
        simp only [he, if_false] at this
        refine ⟨hc', ?_⟩
        rw [hf]
        simp [blank, he]
        simpa using this

theorem Stores.id {d : Disk CObj} {q : Path} {m : Meta} {j : Str} (h : Stores d q m) (hm : m .id = .str j) (hj : j ≠ []) :
    idAt d q = some j := by
  obtain ⟨m', h1, h2⟩ := h
  rcases h2 .id with h | ⟨h, -⟩ | ⟨h, -⟩
  · simp [idAt, h1, stored, idIn, h, hm]
  · rw [hm] at h
    cases j with
    | nil => exact absurd rfl hj
    | cons _ _ => simp [PyVal.emptyIterable] at h
  · simp at h

theorem Stores.dir {d : Disk CObj} {q : Path} {m : Meta} (h : Stores d q m) : isDirAt d q = true := by
  obtain ⟨m', h1, -⟩ := h
  simp [isDirAt, h1]

theorem Stores.congr {d d' : Disk CObj} {q : Path} {m : Meta} (h : Stores d q m) (he : d'.at_ q = d.at_ q) : Stores d' q m := by
  obtain ⟨m', h1, h2⟩ := h
  exact ⟨m', he.trans h1, h2⟩

theorem metaBool_of_id {m : Meta} {j : Str} (h : m .id = .str j) : metaBool m = true := by
  unfold metaBool
  rw [List.any_eq_true]
  exact ⟨.id, by decide, by simp [h]⟩

theorem storedFields_of_id {m : Meta} {j : Str} (h : m .id = .str j) (hj : j ≠ []) : storedFields m ≠ [] := by
  intro hn
  have : Field.id ∈ storedFields m := by
    unfold storedFields
    rw [List.mem_filter]
    refine ⟨by decide, ?_⟩
    cases j with
    | nil => exact absurd rfl hj
    | cons _ _ => simp [h, PyVal.emptyIterable]
  rw [hn] at this
  simp at this

theorem getMeta_id (C : PEnv) (q : Path) (d0 : Disk CObj) :
    Hoare (fun d => d = d0) (C.getMeta q)
      (fun m d => (m.bind idIn = idAt d0 q ∧ (m.isSome = true ↔ Cached d0 q)) ∧ d = d0)
      (fun e d => ((∃ n, C.F n = some e) ∨ d0.at_ q = some (.link none)) ∧ d = d0) := by
  refine (getMeta_read C q d0).mono (fun _ h => h) ?_ fun _ _ h => h
  rintro m d ⟨⟨h1, h2⟩, rfl⟩
  have hnone : ∀ m : Meta, metaBool m = false → idIn m = none := by
    intro m hm
    unfold idIn
    cases hx : m .id <;> try rfl
    rw [metaBool_of_id hx] at hm
    simp at hm
  cases m with
  | some m => exact ⟨⟨by simp [idAt, (h1 m rfl).1], by simpa using ⟨m, h1 m rfl⟩⟩, rfl⟩
  | none =>
    refine ⟨⟨?_, ?_⟩, rfl⟩
    · rcases h2 rfl with (h | ⟨mo, h, hm⟩) | ⟨b, mo, h, hm⟩
      · simp [idAt, h]
      · cases mo with
        | none => simp [idAt, h, stored]
        | some m => simp [idAt, h, stored, hnone m (hm m rfl)]
      · cases mo with
        | none => simp [idAt, h, stored]
        | some m => simp [idAt, h, stored, hnone m (hm m rfl)]
    · simp only [Option.isSome_none, Bool.false_eq_true, false_iff]
      rintro ⟨m', g1, g2⟩
      rcases h2 rfl with (h | ⟨mo, h, hm⟩) | ⟨b, mo, h, hm⟩
      · simp [h] at g1
      · simp [h, stored] at g1
        simp [hm m' g1, isBroken, h] at g2
      · simp [h, stored] at g1
        simp [hm m' g1, isBroken, h] at g2

theorem Bare.not_cached {d : Disk CObj} {p : Path} (h : Bare d p) : ¬ Cached d p := by
  rintro ⟨m, g1, g2⟩
  rcases h with h | ⟨mo, h, hm⟩
  · simp [h] at g1
  · simp [h, stored] at g1
    simp [hm m g1, isBroken, h] at g2

theorem Bare.no_id {d : Disk CObj} {p : Path} (h : Bare d p) : idAt d p = none := by
  rcases h with h | ⟨mo, h, hm⟩
  · simp [idAt, h]
  · cases mo with
    | none => simp [idAt, h, stored]
    | some m =>
      simp only [idAt, h, stored, Option.bind_some]
      unfold idIn
      cases hx : m .id <;> try rfl
      have := hm m rfl
      rw [metaBool_of_id hx] at this
      simp at this

/-- What can keep a step from being done. -/
def Hindered (C : PEnv) (R : RemoteSide) (d0 : Disk CObj) (a : Path) (n : Name) (e : PyErr) : Prop :=
  (∃ k, C.F k = some e) ∨ idAt d0 a = none ∨ isDirAt d0 a = false ∨ ¬ Bare d0 (a ++ [n]) ∨ ∃ ds i, R.make ds i n = .error e

theorem mkdirBoth_triple (C : PEnv) {R : RemoteSide} (hR : Proper R) (a : Path) (n : Name) (d0 : Disk CObj) (ds0 : List RDir) :
    Triple (fun d ds => d = d0 ∧ ds = ds0) (C.mkdirBoth R a n)
      (fun j d ds => (∃ i, idAt d0 a = some i ∧ ds = ds0 ++ [⟨j, i, n⟩]) ∧ R.info j .id = .str j ∧ j ≠ [] ∧
        Stores d (a ++ [n]) (R.info j) ∧ Bare d0 (a ++ [n]) ∧ Made (· = a ++ [n]) d0 d)
      (fun e d ds => Made (· = a ++ [n]) d0 d ∧ (ds = ds0 ∨ ∃ i j, idAt d0 a = some i ∧ ds = ds0 ++ [⟨j, i, n⟩]) ∧ Hindered C R d0 a n e) := by
  unfold PEnv.mkdirBoth
  refine .bind_ (Q := fun m d ds => m.bind idIn = idAt d0 a ∧ d = d0 ∧ ds = ds0)
    (.here_on fun d ds hw => ?_) fun m => .of_pre fun hm => ?_
  · obtain ⟨rfl, rfl⟩ := hw
    refine (getMeta_id C a d).mono (fun _ h => h) ?_ ?_
    · rintro m d ⟨⟨h1, -⟩, rfl⟩
      exact ⟨h1, rfl, rfl⟩
    · rintro e d ⟨h, rfl⟩
      refine ⟨.refl _ _, .inl rfl, ?_⟩
      rcases h with h | h
      · exact .inl h
      · exact .inr (.inr (.inl (by simp [isDirAt, h])))
  rw [hm]
  cases hi : idAt d0 a with
  | none =>
    refine .throw_ ?_
    rintro d ds ⟨rfl, rfl⟩
    exact ⟨.refl _ _, .inl rfl, .inr (.inl hi)⟩
  | some i =>
    dsimp only
    refine .bind_ (Q := fun j d ds => (R.info j .id = .str j ∧ j ≠ []) ∧ d = d0 ∧ ds = ds0 ++ [⟨j, i, n⟩]) ?_ fun j => .of_pre fun ⟨hj, hj'⟩ => ?_
    · unfold PEnv.mkChild
      refine .ask_ ?_ ?_ ?_
      · rintro d ds j ds' ⟨rfl, rfl⟩ h
        split at h
        · rename_i hmk
          cases h
          exact ⟨hR _ _ _ _ hmk, rfl, rfl⟩
        · simp at h
      · rintro e d ds j ds' ⟨rfl, rfl⟩ h hF
        split at h
        · cases h
          exact ⟨.refl _ _, .inr ⟨i, _, rfl, rfl⟩, .inl hF⟩
        · simp at h
      · rintro e d ds ⟨rfl, rfl⟩ (h | h)
        · exact ⟨.refl _ _, .inl rfl, .inl h⟩
        · split at h
          · simp at h
          · rename_i hmk
            cases h
            exact ⟨.refl _ _, .inl rfl, .inr (.inr (.inr (.inr ⟨_, _, hmk⟩)))⟩
    refine .bind_ (Q := fun _ d ds => (∃ mo, d.at_ (a ++ [n]) = some (.dir mo) ∧ (Bare d (a ++ [n]) ↔ Bare d0 (a ++ [n])) ∧ OnlyAt (a ++ [n]) d0 d ∧
        Made (· = a ++ [n]) d0 d) ∧ ds = ds0 ++ [⟨j, i, n⟩]) (.here_on fun d1 ds hw => ?_) fun _ => ?_
    · have hd := hw.1
      subst hd
      refine (mkdirOk_triple C (a ++ [n]) d1).mono (fun _ h => h) ?_ ?_
      · rintro _ d (⟨rfl, h⟩ | ⟨rfl, h⟩)
        · refine ⟨?_, hw.2⟩
          unfold isDirAt at h
          split at h
          · rename_i mo hmo
            exact ⟨mo, hmo, .rfl, .refl _ _, .refl _ _⟩
          · simp at h
        · have hb : Bare d1 (a ++ [n]) := .inl h
          refine ⟨⟨none, at_put_self _ _ _, ⟨fun _ => hb, fun _ => .inr ⟨none, at_put_self _ _ _, by simp⟩⟩, (OnlyAt.refl _ _).put _,
            .of_only ((OnlyAt.refl _ _).put _) hb (at_put_self _ _ _)⟩, hw.2⟩
      · rintro e d ⟨h, rfl⟩
        refine ⟨.refl _ _, .inr ⟨i, j, rfl, hw.2⟩, ?_⟩
        rcases h with h | h | ⟨h, h'⟩
        · exact .inl h
        · exact .inr (.inr (.inl (by simpa using h)))
        · refine .inr (.inr (.inr (.inl ?_)))
          rintro (hb | ⟨mo, hb, -⟩)
          · simp [hb] at h
          · simp [isDirAt, hb] at h'
    refine .bind_ (Q := fun _ d ds => (Stores d (a ++ [n]) (R.info j) ∧ Bare d0 (a ++ [n]) ∧ Made (· = a ++ [n]) d0 d) ∧ ds = ds0 ++ [⟨j, i, n⟩])
      (.here_on fun d1 ds hw => ?_) fun _ => .pure_ ?_
    · obtain ⟨⟨mo, h1, h2, h3, h4⟩, hds⟩ := hw
      refine (cacheInit_triple C (R.info j) h1).mono (fun _ h => h) ?_ ?_
      · rintro _ d ⟨g1, g2, g3, g4⟩
        refine ⟨⟨.of_laid g3 ?_ (storedFields_of_id hj hj'), h2.1 g1, h4.trans (.of_only g2 g1 g3) (fun _ h => h) (fun _ h => h)⟩, hds⟩
        rcases g1 with g1 | ⟨mo', g1, g5⟩
        · simp [h1] at g1
        · rw [h1] at g1; cases g1
          exact g5
      · rintro e d ⟨g1, g2⟩
        refine ⟨?_, .inr ⟨i, j, rfl, hds⟩, ?_⟩
        · rcases g1 with rfl | ⟨g1, g3, mo', g4, -⟩
          · exact h4
          · exact h4.trans (.of_only g3 g1 g4) (fun _ h => h) (fun _ h => h)
        · rcases g2 with g2 | g2 | g2
          · exact .inl g2
          · exact .inr (.inr (.inr (.inl fun hb => g2 (h2.2 hb))))
          · rw [metaBool_of_id hj] at g2
            simp at g2
    · rintro d ds ⟨⟨h1, h2, h3⟩, h4⟩
      exact ⟨⟨i, rfl, h4⟩, hj, hj', h1, h2, h3⟩

/-- The conditions hold along a path. -/
theorem mkdirChain_triple (C : PEnv) {R : RemoteSide} (hR : Proper R) : ∀ (ns : List Name) (a : Path) (n : Name) (d0 : Disk CObj)
    (ds0 : List RDir),
    Triple (fun d ds => d = d0 ∧ ds = ds0) (C.mkdirChain R a n ns)
      (fun j d ds => (∃ i rs, idAt d0 a = some i ∧ ds = ds0 ++ rs ∧ Mirrored R d a i (n :: ns) rs ∧ rs.getLast?.map (·.id) = some j) ∧
        (∀ r, Along a (n :: ns) r → Bare d0 r) ∧ Made (Along a (n :: ns)) d0 d)
      (fun e d ds => Made (Along a (n :: ns)) d0 d ∧ (∃ i rs, (rs = [] ∨ idAt d0 a = some i) ∧ ds = ds0 ++ rs ∧ Halfway R d a i (n :: ns) rs) ∧
        ((∃ k, C.F k = some e) ∨ idAt d0 a = none ∨ isDirAt d0 a = false ∨ (∃ r, Along a (n :: ns) r ∧ ¬ Bare d0 r) ∨
          ∃ ds i n, R.make ds i n = .error e))
  | [], a, n, d0, ds0 => by
    unfold PEnv.mkdirChain
    have hal : ∀ r, Along a [n] r ↔ r = a ++ [n] := by
      intro r
      constructor
      · rintro ⟨k, hk, rfl⟩
        simp at hk; subst hk; simp
      · rintro rfl
        exact ⟨0, by simp, by simp⟩
    have hon : (· = a ++ [n]) = Along a [n] := by funext r; exact propext (hal r).symm
    refine (mkdirBoth_triple C hR a n d0 ds0).mono (fun _ _ h => h) ?_ ?_
    · rintro j d ds ⟨⟨i, h1, h2⟩, h3, h4, h5, h6, h7⟩
      rw [hon] at h7
      refine ⟨⟨i, [⟨j, i, n⟩], h1, h2, .cons h5 (.nil _ _), by simp⟩, fun r hr => ?_, h7⟩
      rw [(hal r).1 hr]
      exact h6
    · rintro e d ds ⟨h1, h2, h3⟩
      rw [hon] at h1
      refine ⟨h1, ?_, ?_⟩
      · rcases h2 with h2 | ⟨i, j, h2, h4⟩
        · exact ⟨[], [], .inl rfl, by simp [h2], .stop _ _ _⟩
        · exact ⟨i, _, .inr h2, h4, .orphan _ _ _ _ _⟩
      · rcases h3 with h | h | h | h | ⟨x, i, h⟩
        · exact .inl h
        · exact .inr (.inl h)
        · exact .inr (.inr (.inl h))
        · exact .inr (.inr (.inr (.inl ⟨_, (hal _).2 rfl, h⟩)))
        · exact .inr (.inr (.inr (.inr ⟨x, i, n, h⟩)))
  | n' :: ns, a, n, d0, ds0 => by
    unfold PEnv.mkdirChain
    have hal1 : ∀ r, r = a ++ [n] → Along a (n :: n' :: ns) r := by
      rintro r rfl
      exact ⟨0, by simp, by simp⟩
    have hal2 : ∀ r, Along (a ++ [n]) (n' :: ns) r → Along a (n :: n' :: ns) r := by
      rintro r ⟨k, hk, rfl⟩
      exact ⟨k + 1, by simp at hk ⊢; omega, by simp⟩
    have hal3 : ∀ r, Along a (n :: n' :: ns) r → r = a ++ [n] ∨ Along (a ++ [n]) (n' :: ns) r := by
      rintro r ⟨k, hk, rfl⟩
      cases k with
      | zero => left; simp
      | succ k => exact .inr ⟨k, by simp at hk ⊢; omega, by simp⟩
    have hne : ¬ Along (a ++ [n]) (n' :: ns) (a ++ [n]) := by
      rintro ⟨k, hk, h⟩
      simp at h
    intro w hw
    have h1 := mkdirBoth_triple C hR a n d0 ds0 w hw
    unfold Both.bind
    generalize C.mkdirBoth R a n w = x at h1 ⊢
    obtain ⟨x, w1⟩ := x
    cases x with
    | error e =>
      obtain ⟨h1, h2, h3⟩ := h1
      refine ⟨h1.trans (Made.refl _ _) hal1 (fun _ h => h), ?_, ?_⟩
      · rcases h2 with h2 | ⟨i, j, h2, h4⟩
        · exact ⟨[], [], .inl rfl, by simp [h2], .stop _ _ _⟩
        · exact ⟨i, _, .inr h2, h4, .orphan _ _ _ _ _⟩
      · rcases h3 with h | h | h | h | ⟨x, i, h⟩
        · exact .inl h
        · exact .inr (.inl h)
        · exact .inr (.inr (.inl h))
        · exact .inr (.inr (.inr (.inl ⟨_, hal1 _ rfl, h⟩)))
        · exact .inr (.inr (.inr (.inr ⟨x, i, n, h⟩)))
    | ok j =>
      obtain ⟨⟨i, g1, g2⟩, g3, g4, g5, g6, g7⟩ := h1
      have h2 := mkdirChain_triple C hR ns (a ++ [n]) n' w1.local_.disk w1.dirs w1 ⟨rfl, rfl⟩
      have hid := g5.id g3 g4
      have hbare : ∀ r, Along (a ++ [n]) (n' :: ns) r → (Bare w1.local_.disk r ↔ Bare d0 r) := by
        intro r hr
        have : w1.local_.disk.at_ r = d0.at_ r := by
          rcases g7 r with h | ⟨h, -⟩
          · exact h
          · exact absurd (h ▸ hr) hne
        simp [Bare, this]
      dsimp only
      generalize C.mkdirChain R (a ++ [n]) n' ns w1 = x at h2 ⊢
      obtain ⟨x, w2⟩ := x
      cases x with
      | ok j' =>
        obtain ⟨⟨i', rs, k1, k2, k3, k4⟩, k5, k6⟩ := h2
        have hii : j = i' := by rw [hid] at k1; exact Option.some.inj k1
        subst hii
        refine ⟨⟨i, ⟨j, i, n⟩ :: rs, g1, by rw [k2, g2]; simp, .cons (g5.congr ?_) k3, ?_⟩, fun r hr => ?_, g7.trans k6 hal1 hal2⟩
        · rcases k6 (a ++ [n]) with h | ⟨h, -⟩
          · exact h
          · exact absurd h hne
        · cases rs with
          | nil => simp at k4
          | cons _ _ => simpa using k4
        · rcases hal3 r hr with rfl | hr
          · exact g6
          · exact (hbare r hr).1 (k5 r hr)
      | error e =>
        obtain ⟨k1, ⟨i', rs, k2, k3, k4⟩, k5⟩ := h2
        refine ⟨g7.trans k1 hal1 hal2, ⟨i, ⟨j, i, n⟩ :: rs, .inr g1, by rw [k3, g2]; simp, .cons (g5.congr ?_) ?_⟩, ?_⟩
        · rcases k1 (a ++ [n]) with h | ⟨h, -⟩
          · exact h
          · exact absurd h hne
        · rcases k2 with rfl | k2
          · exact .stop _ _ _
          · have hii : j = i' := by rw [hid] at k2; exact Option.some.inj k2
            subst hii
            exact k4
        · rcases k5 with h | h | h | ⟨r, hr, h⟩ | h
          · exact .inl h
          · rw [hid] at h; simp at h
          · rw [g5.dir] at h; simp at h
          · exact .inr (.inr (.inr (.inl ⟨r, hal2 r hr, fun hb => h ((hbare r hr).2 hb)⟩)))
          · exact .inr (.inr (.inr (.inr h)))

theorem nearestCached_hoare (C : PEnv) (a : Path) (ns : List Name) (d0 : Disk CObj) :
    Hoare (fun d => d = d0) (C.nearestCached a ns)
      (fun o d => (match o with
        | some (b, ms) => (∃ x, b ++ x = a ∧ ms = x ++ ns) ∧ Cached d0 b ∧ ∀ r, r <+: a → b.length < r.length → ¬ Cached d0 r
        | none => ∀ b, b <+: a → ¬ Cached d0 b) ∧ d = d0)
      (fun e d => ((∃ n, C.F n = some e) ∨ ∃ b, b <+: a ∧ d0.at_ b = some (.link none) ∧ ∀ r, r <+: a → b.length < r.length → ¬ Cached d0 r) ∧
        d = d0) := by
  induction a, ns using PEnv.nearestCached.induct with
  | case1 a ns ih =>
    unfold PEnv.nearestCached
    refine .bind_ ((getMeta_id C a d0).mono (fun _ h => h) (fun _ _ h => h) ?_) fun m => .of_pre fun hm => ?_
    · rintro e d ⟨h, rfl⟩
      refine ⟨?_, rfl⟩
      rcases h with h | h
      · exact .inl h
      · exact .inr ⟨a, List.prefix_refl _, h, fun r hr hl => absurd hr.length_le (by omega)⟩
    replace hm := hm.2
    refine .ite_ (fun h => .pure_ ?_) fun h => ?_
    · rintro d rfl
      exact ⟨⟨⟨[], by simp, rfl⟩, hm.1 h, fun r hr hl => absurd hr.length_le (by omega)⟩, rfl⟩
    have hna : ¬ Cached d0 a := fun hc => h (hm.2 hc)
    split
    · rename_i ha
      refine .pure_ ?_
      rintro d rfl
      refine ⟨fun b hb => ?_, rfl⟩
      subst ha
      rw [List.prefix_nil.1 hb]
      exact hna
    · rename_i ha
      have hpre : ∀ r, r <+: a → r = a ∨ r <+: a.dropLast := by
        intro r hr
        have heq := List.dropLast_concat_getLast ha
        rw [← heq, List.prefix_concat_iff] at hr
        rcases hr with hr | hr
        · left; rw [hr]; exact heq
        · exact .inr hr
      refine (ih ha).mono (fun _ h => h) ?_ ?_
      · rintro o d ⟨ho, rfl⟩
        refine ⟨?_, rfl⟩
        match o, ho with
        | none, ho =>
          intro b hb
          rcases hpre b hb with rfl | hb
          · exact hna
          · exact ho b hb
        | some (b, ms), ⟨⟨x, h1, h2⟩, h3, h4⟩ =>
          refine ⟨⟨x ++ [a.getLast ha], ?_, by simp [h2]⟩, h3, fun r hr hl => ?_⟩
          · rw [← List.append_assoc, h1, List.dropLast_concat_getLast]
          · rcases hpre r hr with rfl | hr
            · exact hna
            · exact h4 r hr hl
      · rintro e d ⟨h, rfl⟩
        refine ⟨?_, rfl⟩
        rcases h with h | ⟨b, hb, h, h'⟩
        · exact .inl h
        · refine .inr ⟨b, hb.trans (List.dropLast_prefix _), h, fun r hr hl => ?_⟩
          rcases hpre r hr with rfl | hr
          · exact hna
          · exact h' r hr hl

/-- Why a call can fail before anything is done. -/
def NothingDone (C : PEnv) (d0 : Disk CObj) (ds0 : List RDir) (q : Path) (n : Name) (parents : Bool) (e : PyErr) : Prop :=
  (∃ k, C.F k = some e) ∨
  (∃ b, b <+: q ++ [n] ∧ d0.at_ b = some (.link none) ∧ ∀ r, r <+: q → b.length < r.length → ¬ Cached d0 r) ∨
  (e = .remotePathExistsError ∧ ∃ r ∈ ds0, idAt d0 (q ++ [n]) = some r.id) ∨
  e = .fileNotFoundError ∧ parents = false ∧ ¬ Cached d0 q

theorem mkdirRemote_triple (C : PEnv) {R : RemoteSide} (hR : Proper R) (q : Path) (n : Name) (parents : Bool) (d0 : Disk CObj)
    (ds0 : List RDir) :
    Triple (fun d ds => d = d0 ∧ ds = ds0) (C.mkdirRemote R q n parents)
      (fun o d ds => match o with
        | some j => ∃ a ns i rs, a ++ ns = q ++ [n] ∧ ns ≠ [] ∧ (parents = false → ns = [n]) ∧ idAt d0 a = some i ∧ ds = ds0 ++ rs ∧
            Mirrored R d a i ns rs ∧ rs.getLast?.map (·.id) = some j ∧ (∀ r, Along a ns r → Bare d0 r) ∧ Made (Along a ns) d0 d
        | none => parents = true ∧ (∀ b, b <+: q → ¬ Cached d0 b) ∧ d = d0 ∧ ds = ds0)
      (fun e d ds => (d = d0 ∧ ds = ds0 ∧ NothingDone C d0 ds0 q n parents e) ∨
        ∃ a ns, a ++ ns = q ++ [n] ∧ ns ≠ [] ∧ (parents = false → ns = [n]) ∧ Cached d0 a ∧
          (∀ r, r <+: q → a.length < r.length → ¬ Cached d0 r) ∧ Made (Along a ns) d0 d ∧
          (∃ i rs, (rs = [] ∨ idAt d0 a = some i) ∧ ds = ds0 ++ rs ∧ Halfway R d a i ns rs) ∧
          ((∃ k, C.F k = some e) ∨ idAt d0 a = none ∨ isDirAt d0 a = false ∨ (∃ r, Along a ns r ∧ ¬ Bare d0 r) ∨
            ∃ ds i n, R.make ds i n = .error e)) := by
  unfold PEnv.mkdirRemote
  refine .bind_ (Q := fun m d ds => m.bind idIn = idAt d0 (q ++ [n]) ∧ d = d0 ∧ ds = ds0)
    (.here_on fun d ds hw => ?_) fun m => .of_pre fun hm => ?_
  · obtain ⟨rfl, rfl⟩ := hw
    refine (getMeta_id C (q ++ [n]) d).mono (fun _ h => h) ?_ ?_
    · rintro m d ⟨⟨h1, -⟩, rfl⟩
      exact ⟨h1, rfl, rfl⟩
    · rintro e d ⟨h, rfl⟩
      refine .inl ⟨rfl, rfl, ?_⟩
      rcases h with h | h
      · exact .inl h
      · exact .inr (.inl ⟨_, List.prefix_refl _, h, fun r hr hl => absurd hr.length_le (by simp at hl; omega)⟩)
  rw [hm]
  refine .bind_ (Q := fun ex d ds => (ex = true → ∃ r ∈ ds0, idAt d0 (q ++ [n]) = some r.id) ∧ d = d0 ∧ ds = ds0) ?_ fun ex => .of_pre fun hex => ?_
  · cases hid : idAt d0 (q ++ [n]) with
    | none => exact .pure_ fun d ds h => ⟨by simp, h⟩
    | some i =>
      dsimp only
      unfold PEnv.remoteThere
      refine .ask_ ?_ ?_ ?_
      · rintro d ds b ds' ⟨rfl, rfl⟩ h
        simp only [Except.ok.injEq, Prod.mk.injEq] at h
        obtain ⟨rfl, rfl⟩ := h
        refine ⟨fun h => ?_, rfl, rfl⟩
        rw [List.any_eq_true] at h
        obtain ⟨r, hr, h⟩ := h
        exact ⟨r, hr, by simpa using (of_decide_eq_true h).symm⟩
      · rintro e d ds b ds' ⟨rfl, rfl⟩ h hF
        simp only [Except.ok.injEq, Prod.mk.injEq] at h
        exact .inl ⟨rfl, h.2.symm, .inl hF⟩
      · rintro e d ds ⟨rfl, rfl⟩ (h | h)
        · exact .inl ⟨rfl, rfl, .inl h⟩
        · simp at h
  refine .ite_ (fun he => .throw_ ?_) fun _ => ?_
  · rintro d ds ⟨rfl, rfl⟩
    exact .inl ⟨rfl, rfl, .inr (.inr (.inl ⟨rfl, hex he⟩))⟩
  refine .bind_ (Q := fun m d ds => (m.isSome = true ↔ Cached d0 q) ∧ d = d0 ∧ ds = ds0)
    (.here_on fun d ds hw => ?_) fun m => .of_pre fun hm => ?_
  · obtain ⟨rfl, rfl⟩ := hw
    refine (getMeta_id C q d).mono (fun _ h => h) ?_ ?_
    · rintro m d ⟨⟨-, h1⟩, rfl⟩
      exact ⟨h1, rfl, rfl⟩
    · rintro e d ⟨h, rfl⟩
      refine .inl ⟨rfl, rfl, ?_⟩
      rcases h with h | h
      · exact .inl h
      · exact .inr (.inl ⟨q, List.prefix_append _ _, h, fun r hr hl => absurd hr.length_le (by omega)⟩)
  refine .ite_ (fun h => ?_) fun h => .ite_ (fun hp => ?_) fun hp => .throw_ ?_
  · have hc := hm.1 h
    refine .bind_ ((mkdirChain_triple C hR [] q n d0 ds0).mono (fun _ _ h => h) (fun _ _ _ h => h) ?_) fun j => .pure_ ?_
    · rintro e d ds ⟨h1, h2, h3⟩
      exact .inr ⟨q, [n], rfl, by simp, fun _ => rfl, hc, fun r hr hl => absurd hr.length_le (by omega), h1, h2, h3⟩
    · rintro d ds ⟨⟨i, rs, h1, h2, h3, h4⟩, h5, h6⟩
      exact ⟨q, [n], i, rs, rfl, by simp, fun _ => rfl, h1, h2, h3, h4, h5, h6⟩
  · refine .bind_ (Q := fun o d ds => (match o with
        | some (b, ms) => (∃ x, b ++ x = q ∧ ms = x ++ [n]) ∧ Cached d0 b ∧ ∀ r, r <+: q → b.length < r.length → ¬ Cached d0 r
        | none => ∀ b, b <+: q → ¬ Cached d0 b) ∧ d = d0 ∧ ds = ds0) (.here_on fun d ds hw => ?_) fun o => .of_pre fun ho => ?_
    · obtain ⟨rfl, rfl⟩ := hw
      refine (nearestCached_hoare C q [n] d).mono (fun _ h => h) ?_ ?_
      · rintro o d ⟨h1, rfl⟩
        exact ⟨h1, rfl, rfl⟩
      · rintro e d ⟨h, rfl⟩
        refine .inl ⟨rfl, rfl, ?_⟩
        rcases h with h | ⟨b, hb, h, h'⟩
        · exact .inl h
        · exact .inr (.inl ⟨b, hb.trans (List.prefix_append _ _), h, h'⟩)
    · match o, ho with
      | none, ho =>
        refine .pure_ ?_
        rintro d ds ⟨rfl, rfl⟩
        exact ⟨hp, ho, rfl, rfl⟩
      | some (b, []), ⟨⟨x, h1, h2⟩, _⟩ => simp at h2
      | some (b, y :: ys), ⟨⟨x, h1, h2⟩, hb, hr⟩ =>
        have heq : b ++ (y :: ys) = q ++ [n] := by rw [h2, ← List.append_assoc, h1]
        have hpar : parents = false → y :: ys = [n] := by simp [hp]
        refine .bind_ ((mkdirChain_triple C hR ys b y d0 ds0).mono (fun _ _ h => h) (fun _ _ _ h => h) ?_) fun j => .pure_ ?_
        · rintro e d ds ⟨h1, h2, h3⟩
          exact .inr ⟨b, y :: ys, heq, by simp, hpar, hb, hr, h1, h2, h3⟩
        · rintro d ds ⟨⟨i, rs, h1, h2, h3, h4⟩, h5, h6⟩
          exact ⟨b, y :: ys, i, rs, heq, by simp, hpar, h1, h2, h3, h4, h5, h6⟩
  · rintro d ds ⟨rfl, rfl⟩
    exact .inl ⟨rfl, rfl, .inr (.inr (.inr ⟨rfl, by simpa using hp, fun hc => h (hm.2 hc)⟩))⟩

/-! ## C93 -/

/-- **C93** When `mkdir_remote` succeeds, new directories are on the remote, one in the other, from the nearest ancestor that has a cache
down to the path; each of them is there on the local side with the metadata that the remote has for it, and the last one is
returned.  Nothing else changes on either side, and what got metadata had none before. -/
theorem C93_mirrored (C : PEnv) {R : RemoteSide} (hR : Proper R) (q : Path) (n : Name) (parents : Bool) {w w' : World} {j : Str}
    (h : C.mkdirRemote R q n parents w = (.ok (some j), w')) :
    ∃ a ns i rs, a ++ ns = q ++ [n] ∧ ns ≠ [] ∧ (parents = false → ns = [n]) ∧ idAt w.local_.disk a = some i ∧ w'.dirs = w.dirs ++ rs ∧
      Mirrored R w'.local_.disk a i ns rs ∧ rs.getLast?.map (·.id) = some j ∧ (∀ r, Along a ns r → Bare w.local_.disk r) ∧
      Made (Along a ns) w.local_.disk w'.local_.disk := by
  have := mkdirRemote_triple C hR q n parents _ _ w ⟨rfl, rfl⟩
  rw [h] at this
  exact this

/-- **C93** However `mkdir_remote` ends, no directory of the remote goes away, and on the local side only directories on the way to the
path are made or, if they had none, given metadata. -/
theorem C93_only (C : PEnv) {R : RemoteSide} (hR : Proper R) (q : Path) (n : Name) (parents : Bool) (w : World) :
    w.dirs <+: (C.mkdirRemote R q n parents w).2.dirs ∧
    Made (· <+: q ++ [n]) w.local_.disk (C.mkdirRemote R q n parents w).2.local_.disk := by
  have hal : ∀ {a : Path} {ns : List Name}, a ++ ns = q ++ [n] → ∀ r, Along a ns r → r <+: q ++ [n] := by
    rintro a ns h r ⟨k, hk, rfl⟩
    rw [← h, List.prefix_append_right_inj]
    exact List.take_prefix _ _
  have := mkdirRemote_triple C hR q n parents _ _ w ⟨rfl, rfl⟩
  generalize C.mkdirRemote R q n parents w = x at this ⊢
  obtain ⟨x, w'⟩ := x
  match x, this with
  | .ok none, ⟨_, _, h1, h2⟩ => exact ⟨by simp [h2], by simp only [h1]; exact .refl _ _⟩
  | .ok (some j), ⟨a, ns, i, rs, h1, _, _, _, h2, _, _, _, h3⟩ =>
    exact ⟨by simp [h2], h3.trans (.refl _ _) (hal h1) (fun _ h => h)⟩
  | .error e, .inl ⟨h1, h2, _⟩ => exact ⟨by simp [h2], by simp only [h1]; exact .refl _ _⟩
  | .error e, .inr ⟨a, ns, h1, _, _, _, _, h2, ⟨i, rs, _, h3, _⟩, _⟩ =>
    exact ⟨by simp [h3], h2.trans (.refl _ _) (hal h1) (fun _ h => h)⟩

/-- **C93** When `mkdir_remote` fails, at whichever call, either nothing changed, or the directories of a first part of the way are done
on both sides and at most one directory is on the remote only. -/
theorem C93_failed (C : PEnv) {R : RemoteSide} (hR : Proper R) (q : Path) (n : Name) (parents : Bool) {w w' : World} {e : PyErr}
    (h : C.mkdirRemote R q n parents w = (.error e, w')) :
    (w'.local_.disk = w.local_.disk ∧ w'.dirs = w.dirs) ∨
    ∃ a ns i rs, a ++ ns = q ++ [n] ∧ (parents = false → ns = [n]) ∧ (rs = [] ∨ idAt w.local_.disk a = some i) ∧ w'.dirs = w.dirs ++ rs ∧
      Halfway R w'.local_.disk a i ns rs ∧ Made (Along a ns) w.local_.disk w'.local_.disk := by
  have := mkdirRemote_triple C hR q n parents _ _ w ⟨rfl, rfl⟩
  rw [h] at this
  rcases this with ⟨h1, h2, -⟩ | ⟨a, ns, h1, h2, h3, -, -, h4, ⟨i, rs, h5, h6, h7⟩, -⟩
  · exact .inl ⟨h1, h2⟩
  · exact .inr ⟨a, ns, i, rs, h1, h3, h5, h6, h7, h4⟩

/-- **C93** A path whose remote exists is refused, and nothing changes. -/
theorem C93_refused (C : PEnv) (hF : ∀ k, C.F k = none) (R : RemoteSide) (q : Path) (n : Name) (parents : Bool) (w : World)
    {r : RDir} (hr : r ∈ w.dirs) (hid : idAt w.local_.disk (q ++ [n]) = some r.id) :
    ∃ w', C.mkdirRemote R q n parents w = (.error .remotePathExistsError, w') ∧ w'.local_.disk = w.local_.disk ∧ w'.dirs = w.dirs := by
  have hF' : ∀ e, ¬ ∃ k, C.F k = some e := by rintro e ⟨k, h⟩; simp [hF] at h
  have : Triple (fun d ds => d = w.local_.disk ∧ ds = w.dirs) (C.mkdirRemote R q n parents) (fun _ _ _ => False)
      (fun e d ds => e = .remotePathExistsError ∧ d = w.local_.disk ∧ ds = w.dirs) := by
    unfold PEnv.mkdirRemote
    refine .bind_ (Q := fun m d ds => m.bind idIn = some r.id ∧ d = w.local_.disk ∧ ds = w.dirs)
      (.here_on fun d ds hw => ?_) fun m => .of_pre fun hm => ?_
    · obtain ⟨rfl, rfl⟩ := hw
      refine (getMeta_id C (q ++ [n]) _).mono (fun _ h => h) ?_ ?_
      · rintro m d ⟨⟨h1, -⟩, rfl⟩
        exact ⟨h1.trans hid, rfl, rfl⟩
      · rintro e d ⟨h | h, rfl⟩
        · exact absurd h (hF' e)
        · simp [idAt, h, stored] at hid
    rw [hm]
    refine .bind_ (Q := fun ex d ds => ex = true ∧ d = w.local_.disk ∧ ds = w.dirs) ?_ fun ex => .of_pre fun hex => ?_
    · unfold PEnv.remoteThere
      refine .ask_ ?_ ?_ ?_
      · rintro d ds b ds' ⟨rfl, rfl⟩ h
        simp only [Except.ok.injEq, Prod.mk.injEq] at h
        obtain ⟨rfl, rfl⟩ := h
        refine ⟨?_, rfl, rfl⟩
        rw [List.any_eq_true]
        exact ⟨r, hr, by simp⟩
      · rintro e d ds b ds' - - h
        exact absurd h (hF' e)
      · rintro e d ds - (h | h)
        · exact absurd h (hF' e)
        · simp at h
    exact .ite_ (fun _ => .throw_ fun d ds h => ⟨rfl, h⟩) fun h => absurd hex h
  have := this w ⟨rfl, rfl⟩
  generalize C.mkdirRemote R q n parents w = x at this ⊢
  obtain ⟨x, w'⟩ := x
  cases x with
  | ok o => exact this.elim
  | error e => obtain ⟨rfl, h⟩ := this; exact ⟨w', rfl, h⟩

/-- **C93** When no call fails and the nearest ancestor with a cache is a directory with an id, and below it there are only directories
without metadata or nothing, `mkdir_remote` succeeds. -/
theorem C93_works (C : PEnv) (hF : ∀ k, C.F k = none) {R : RemoteSide} (hR : Proper R) (hmake : ∀ ds i n, ∃ j, R.make ds i n = .ok j)
    (q : Path) (n : Name) (parents : Bool) (w : World) {a : Path} {ns : List Name} (heq : a ++ ns = q ++ [n]) (hns : ns ≠ [])
    (hpar : parents = true ∨ ns = [n]) (hdir : isDirAt w.local_.disk a = true) (hid : (idAt w.local_.disk a).isSome = true)
    (hbare : ∀ r, Along a ns r → Bare w.local_.disk r) :
    ∃ j w', C.mkdirRemote R q n parents w = (.ok (some j), w') := by
  have hF' : ∀ e, ¬ ∃ k, C.F k = some e := by rintro e ⟨k, h⟩; simp [hF] at h
  have hca : Cached w.local_.disk a := by
    unfold isDirAt at hdir
    split at hdir
    · rename_i mo hmo
      cases mo with
      | none => simp [idAt, hmo, stored] at hid
      | some m =>
        refine ⟨m, by simp [hmo, stored], .inl ?_⟩
        simp only [idAt, hmo, stored, Option.bind_some] at hid
        unfold idIn at hid
        split at hid
        · rename_i hx; exact metaBool_of_id hx
        · simp at hid
    · simp at hdir
  have haq : a <+: q := by
    rcases List.eq_nil_or_concat ns with h | ⟨l, x, h⟩
    · exact absurd h hns
    · refine ⟨l, ?_⟩
      rw [h, List.concat_eq_append, ← List.append_assoc] at heq
      exact (List.append_inj' heq rfl).1
  -- what is longer than `a` on the way is on the part that is free
  have hlong : ∀ b, b <+: q ++ [n] → a.length < b.length → Along a ns b := by
    intro b hb hl
    rw [← heq] at hb
    obtain ⟨t, rfl⟩ := List.prefix_of_prefix_length_le (List.prefix_append a ns) hb (by omega)
    rw [List.prefix_append_right_inj] at hb
    simp at hl
    refine ⟨t.length - 1, ?_, ?_⟩
    · have := hb.length_le; omega
    · congr 1
      rw [show t.length - 1 + 1 = t.length by omega]
      exact List.prefix_iff_eq_take.1 hb
  have := mkdirRemote_triple C hR q n parents _ _ w ⟨rfl, rfl⟩
  generalize C.mkdirRemote R q n parents w = x at this ⊢
  obtain ⟨x, w'⟩ := x
  match x, this with
  | .ok (some j), _ => exact ⟨j, w', rfl⟩
  | .ok none, ⟨_, h, _⟩ => exact absurd hca (h a haq)
  | .error e, .inl ⟨_, _, h⟩ =>
    rcases h with h | ⟨b, h1, h2, h3⟩ | ⟨-, r, -, h⟩ | ⟨-, hp, hc⟩
    · exact absurd h (hF' e)
    · rcases Nat.lt_trichotomy b.length a.length with hl | hl | hl
      · exact absurd hca (h3 a haq hl)
      · have : b = a := by
          have := (List.prefix_of_prefix_length_le h1 (heq ▸ List.prefix_append a ns) (by omega))
          exact this.eq_of_length hl
        rw [this] at h2
        simp [isDirAt, h2] at hdir
      · rcases hbare b (hlong b h1 hl) with h | ⟨mo, h, -⟩ <;> simp [h] at h2
    · have : Bare w.local_.disk (q ++ [n]) := hbare _ (hlong _ (List.prefix_refl _) (by
        have := haq.length_le; simp; omega))
      simp [this.no_id] at h
    · rcases hpar with h | h
      · simp [h] at hp
      · rw [h] at heq
        rw [← (List.append_inj' heq rfl).1] at hc
        exact absurd hca hc
  | .error e, .inr ⟨b, ms, h1, h2, h3, h4, h5, _, _, h⟩ =>
    have hbq : b <+: q ++ [n] := h1 ▸ List.prefix_append b ms
    have hab : b = a := by
      rcases Nat.lt_trichotomy b.length a.length with hl | hl | hl
      · exact absurd hca (h5 a haq hl)
      · have := (List.prefix_of_prefix_length_le hbq (heq ▸ List.prefix_append a ns) (by omega))
        exact this.eq_of_length hl
      · exact absurd h4 (hbare b (hlong b hbq hl)).not_cached
    subst hab
    have hms : ms = ns := List.append_cancel_left (h1.trans heq.symm)
    subst hms
    rcases h with h | h | h | ⟨r, hr, h⟩ | ⟨ds, i, x, h⟩
    · exact absurd h (hF' e)
    · simp [h] at hid
    · simp [h] at hdir
    · exact absurd (hbare r hr) h
    · obtain ⟨j, hj⟩ := hmake ds i x
      simp [hj] at h

/-! ## Where more cannot be claimed, and examples -/

/-- A remote that gives the ids `x`, `xx`, ... -/
def counting : RemoteSide where
  make ds _ _ := .ok (List.replicate (ds.length + 1) 'x')
  info j f := if f = .id then .str j else .none
  done _ := true

theorem counting_proper : Proper counting := by
  intro ds i n j h
  simp only [counting, Except.ok.injEq] at h
  subst h
  exact ⟨by simp [counting], by simp [List.replicate_succ]⟩

/-- Only the id is known. -/
def onlyId (j : Str) : Meta := fun f => if f = .id then .str j else .none

/-- A world with a directory `d` that has a cache, and a directory `e` that has none. -/
def oneCache (more : Disk CObj) (ds : List RDir) : World :=
  ⟨⟨[([], .dir none), ([['e']], .dir none), ([['d']], .dir (some (onlyId ['i'])))] ++ more, 0⟩, ds⟩

/-- A world that calls never fail in. -/
def calm : PEnv where
  F _ := none
  long _ := false
  loc := [['t']]
  replace _ _ := .ok true
  hash b := b
  cypher _ := .ok id
  remoteSum := .ok []
  remoteIsDir := true
  chunks := []
  cacheKey := none
  refresh := .pure ()

/-- The hypotheses of `C93_works` are met two levels below a cached directory. -/
example : (∀ k, calm.F k = none) ∧ Proper counting ∧ (∀ ds i n, ∃ j, counting.make ds i n = .ok j) ∧
    ([['d']] : Path) ++ [['a'], ['b']] = [['d'], ['a']] ++ [['b']] ∧ isDirAt (oneCache [] []).local_.disk [['d']] = true ∧
    (idAt (oneCache [] []).local_.disk [['d']]).isSome = true ∧
    ∀ r, Along [['d']] [['a'], ['b']] r → Bare (oneCache [] []).local_.disk r := by
  refine ⟨fun _ => rfl, counting_proper, fun ds i n => ⟨_, rfl⟩, rfl, by decide, by decide, ?_⟩
  rintro r ⟨k, hk, rfl⟩
  match k with
  | 0 => exact .inl rfl
  | 1 => exact .inl rfl
  | k + 2 => simp at hk; omega

/-- The directories that are made there. -/
example :
    let r := calm.mkdirRemote counting [['d'], ['a']] ['b'] true (oneCache [] [])
    r.1 = .ok (some ['x', 'x']) ∧ r.2.dirs = [⟨['x'], ['i'], ['a']⟩, ⟨['x', 'x'], ['x'], ['b']⟩] ∧
      idAt r.2.local_.disk [['d'], ['a']] = some ['x'] ∧ idAt r.2.local_.disk [['d'], ['a'], ['b']] = some ['x', 'x'] := by
  decide +kernel

/-- Without `parents` that is refused. -/
example : (calm.mkdirRemote counting [['d'], ['a']] ['b'] false (oneCache [] [])).1 = .error .fileNotFoundError := by decide +kernel

/-- A path whose remote is there, as in `C93_refused`. -/
example : (⟨['i'], ['r'], ['d']⟩ : RDir) ∈ (oneCache [] [⟨['i'], ['r'], ['d']⟩]).dirs ∧
    idAt (oneCache [] [⟨['i'], ['r'], ['d']⟩]).local_.disk ([] ++ [['d']]) = some ['i'] := by decide

/-- Success does not mean that there is a directory on the remote: with `parents`, when no ancestor has a cache, nothing is done and nothing
is said. -/
theorem C93_silent_counterexample :
    let w := oneCache [] []
    let r := calm.mkdirRemote counting [['e']] ['a'] true w
    r.1 = .ok none ∧ r.2.dirs = w.dirs ∧ r.2.local_.disk = w.local_.disk := by
  decide +kernel

/-- A failure is not all or nothing: a file that is in the way is noticed after the directory has been made on the remote, and again each
time. -/
theorem C93_orphan_counterexample :
    let w := oneCache [([['d'], ['a']], .file [1] none)] []
    let r := calm.mkdirRemote counting [['d']] ['a'] false w
    let r' := calm.mkdirRemote counting [['d']] ['a'] false r.2
    r.1 = .error .fileExistsError ∧ r.2.dirs = [⟨['x'], ['i'], ['a']⟩] ∧ r.2.local_.disk = w.local_.disk ∧
    r'.1 = .error .fileExistsError ∧ r'.2.dirs = [⟨['x'], ['i'], ['a']⟩, ⟨['x', 'x'], ['i'], ['a']⟩] := by
  decide +kernel

/-- A directory with a cache whose remote is gone is made again on the remote, under another id, before it is refused. -/
theorem C93_stale_counterexample :
    let w := oneCache [([['d'], ['a']], .dir (some (onlyId ['j'])))] []
    let r := calm.mkdirRemote counting [['d']] ['a'] false w
    r.1 = .error .cacheExistsError ∧ r.2.dirs = [⟨['x'], ['i'], ['a']⟩] ∧ idAt r.2.local_.disk [['d'], ['a']] = some ['j'] := by
  decide +kernel

/-- **C93**: where there is nothing no cache is made, whatever is given: `cache_init` raises (a `ValueError` when no call fails) and
changes nothing. -/
theorem C93_init_absent (C : PEnv) {q : Path} (m : Meta) {s : Machine CObj} (h : s.disk.at_ q = none) :
    (C.cacheInit q m s).2.disk = s.disk ∧ ∃ e, (C.cacheInit q m s).1 = .error e ∧ ((∀ n, C.F n = none) → e = .valueError) := by
  cases h1 : C.F s.tick with
  | some e =>
    refine ⟨?_, e, ?_, fun h => by simp [h] at h1⟩ <;>
      simp [PEnv.cacheInit, PEnv.getMeta, Prog.bind, Prog.look, Prog.sys, h1]
  | none =>
    cases h2 : C.F (s.tick + 1) with
    | some e =>
      refine ⟨?_, e, ?_, fun h => by simp [h] at h2⟩ <;>
      simp [PEnv.cacheInit, PEnv.getMeta, Prog.bind, Prog.look, Prog.sys, h1, h2, h]
    | none =>
      simp [PEnv.cacheInit, PEnv.getMeta, Prog.bind, Prog.look, Prog.sys, h1, h2, h, there, Prog.throw]

/-- **C93**: where a file or a directory has metadata already, nothing is changed, and it is a `CacheExistsError`. -/
theorem C93_init_again (C : PEnv) {q : Path} (m : Meta) {s : Machine CObj} {m' : Meta} (hb : metaBool m' = true)
    (h : s.disk.at_ q = some (.dir (some m')) ∨ ∃ b, s.disk.at_ q = some (.file b (some m'))) :
    (C.cacheInit q m s).2.disk = s.disk ∧ ∃ e, (C.cacheInit q m s).1 = .error e ∧ ((∀ n, C.F n = none) → e = .cacheExistsError) := by
  cases h1 : C.F s.tick with
  | some e =>
    refine ⟨?_, e, ?_, fun h => by simp [h] at h1⟩ <;>
      simp [PEnv.cacheInit, PEnv.getMeta, Prog.bind, Prog.look, Prog.sys, h1]
  | none =>
    rcases h with h | ⟨b, h⟩ <;>
    simp [PEnv.cacheInit, PEnv.getMeta, Prog.bind, Prog.look, Prog.sys, h, h1, hb, Prog.throw]

/-- **C93**: with metadata that says nothing it is a `NoCachedMetadataError`, and nothing is changed. -/
theorem C93_init_empty (C : PEnv) {q : Path} {m : Meta} (hm : metaBool m = false) {s : Machine CObj}
    (h : s.disk.at_ q = some (.dir none) ∨ ∃ b, s.disk.at_ q = some (.file b none)) :
    (C.cacheInit q m s).2.disk = s.disk ∧ ∃ e, (C.cacheInit q m s).1 = .error e ∧ ((∀ n, C.F n = none) → e = .noCachedMetadataError) := by
  cases h1 : C.F s.tick with
  | some e =>
    refine ⟨?_, e, ?_, fun h => by simp [h] at h1⟩ <;>
      simp [PEnv.cacheInit, PEnv.getMeta, Prog.bind, Prog.look, Prog.sys, h1]
  | none =>
    cases h2 : C.F (s.tick + 1) with
    | some e =>
      refine ⟨?_, e, ?_, fun h => by simp [h] at h2⟩ <;>
      rcases h with h | ⟨b, h⟩ <;>
      simp [PEnv.cacheInit, PEnv.getMeta, Prog.bind, Prog.look, Prog.sys, h1, h2, h]
    | none =>
      cases h3 : C.F (s.tick + 1 + 1) with
      | some e =>
        refine ⟨?_, e, ?_, fun h => by simp [h] at h3⟩ <;>
        rcases h with h | ⟨b, h⟩ <;>
        simp [PEnv.cacheInit, PEnv.getMeta, Prog.bind, Prog.look, Prog.sys, h1, h2, h3, h, there, hm]
      | none =>
        rcases h with h | ⟨b, h⟩ <;>
        simp [PEnv.cacheInit, PEnv.getMeta, Prog.bind, Prog.look, Prog.sys, h1, h2, h3, h, there, hm, Prog.throw]

end Verif.Cache
