import Verif.Model.ZipMemo
import Verif.Lemmas.Decide

/-!
# C107: what paths through archives remember
-/

namespace Verif.Zip
open Verif.Symlink

/-! ## Archives are opened once -/

/-- The archives that are open stay as they are, and what is new was read from the disk. -/
structure Grows (d : Disk) (o o' : Opened) : Prop where
  keeps : ∀ z names, o.lookup z = some names → o'.lookup z = some names
  reads : ∀ z names, o'.lookup z = some names → o.lookup z = some names ∨ (o.lookup z = none ∧ d z = .zip names)

theorem Grows.refl (d : Disk) (o : Opened) : Grows d o o := ⟨fun _ _ h => h, fun _ _ h => .inl h⟩

theorem Grows.trans {d : Disk} {o o' o'' : Opened} (h : Grows d o o') (h' : Grows d o' o'') : Grows d o o'' := by
  refine ⟨fun z n hz => h'.keeps z n (h.keeps z n hz), fun z n hz => ?_⟩
  rcases h'.reads z n hz with h1 | ⟨h1, h2⟩
  · exact h.reads z n h1
  · refine .inr ⟨?_, h2⟩
    cases hx : o.lookup z with
    | none => rfl
    | some n' => rw [h.keeps z n' hx] at h1; simp at h1

theorem open_grows (d : Disk) (o : Opened) (z : List Str) : Grows d o (open_ d o z).2 := by
  unfold open_
  cases ho : o.lookup z with
  | some n => exact .refl d o
  | none =>
    cases hd : d z with
    | zip names =>
      refine ⟨fun z' n hz => ?_, fun z' n hz => ?_⟩
      · show List.lookup z' ((z, names) :: o) = some n
        rw [List.lookup_cons]
        by_cases he : z' = z
        · subst he; rw [ho] at hz; simp at hz
        · have hb : (z' == z) = false := by simpa using he
          rw [hb]; exact hz
      · have hz : List.lookup z' ((z, names) :: o) = some n := hz
        rw [List.lookup_cons] at hz
        by_cases he : z' = z
        · subst he
          simp at hz
          subst hz
          exact .inr ⟨ho, hd⟩
        · have hb : (z' == z) = false := by simpa using he
          rw [hb] at hz; exact .inl hz
    | _ => exact .refl d o

theorem open_ok {d : Disk} {o : Opened} {z : List Str} {names : List Str} (h : (open_ d o z).1 = .ok names) :
    (open_ d o z).2.lookup z = some names := by
  unfold open_ at h ⊢
  cases ho : o.lookup z with
  | some n => rw [ho] at h; simp only [Except.ok.injEq] at h; subst h; simpa using ho
  | none =>
    rw [ho] at h
    cases hd : d z with
    | zip n => rw [hd] at h; simp only [Except.ok.injEq] at h; subst h; simp
    | _ => rw [hd] at h; simp at h

/-- What happens to an object and the archives when it is asked for its archive. -/
theorem zipPathM_spec (d : Disk) : ∀ (p : List Str) (o : Opened) (m : Memo),
    Grows d o (zipPathM d o m p).2.2 ∧ (zipPathM d o m p).2.1.rel = m.rel ∧
    (∀ v, m.zipPath = some v → zipPathM d o m p = (.ok v, m, o)) ∧
    (∀ v, (zipPathM d o m p).1 = .ok v → (zipPathM d o m p).2.1.zipPath = some v)
  | [], o, m => by
    rw [zipPathM]
    cases hm : m.zipPath with
    | some v => refine ⟨.refl d o, rfl, fun w hw => by simp_all, fun w hw => by simp_all⟩
    | none => exact ⟨.refl d o, rfl, fun w hw => by simp at hw, fun w hw => by simp_all⟩
  | n :: up, o, m => by
    rw [zipPathM]
    cases hm : m.zipPath with
    | some v => refine ⟨.refl d o, rfl, fun w hw => by simp_all, fun w hw => by simp_all⟩
    | none =>
      obtain ⟨g, -, -, -⟩ := zipPathM_spec d up o Memo.fresh
      generalize zipPathM d o Memo.fresh up = x at g
      obtain ⟨x, m', o'⟩ := x
      cases x with
      | error e => exact ⟨g, rfl, fun w hw => by simp at hw, fun w hw => by simp at hw⟩
      | ok pzp =>
        dsimp only at g ⊢
        split
        · have g' := open_grows d o' (n :: up)
          generalize open_ d o' (n :: up) = y at g'
          obtain ⟨y, o''⟩ := y
          cases y with
          | error e => exact ⟨g.trans g', rfl, fun w hw => by simp at hw, fun w hw => by simp at hw⟩
          | ok ns => exact ⟨g.trans g', rfl, fun w hw => by simp at hw, fun w hw => by simp_all⟩
        · exact ⟨g, rfl, fun w hw => by simp at hw, fun w hw => by simp_all⟩

/-- An object that remembers something inside of an archive remembers which archive, and the archive is open. -/
def Memo.Ok (m : Memo) (p : List Str) (o : Opened) : Prop :=
  ∀ names q, m.rel = some (some (names, q)) →
    ∃ z, m.zipPath = some (some z) ∧ o.lookup z = some names ∧ q = ⟨[], (p.take (p.length - z.length)).reverse⟩

theorem Memo.Ok.grows {m : Memo} {p : List Str} {d : Disk} {o o' : Opened} (h : m.Ok p o) (g : Grows d o o') : m.Ok p o' := by
  intro names q hr
  obtain ⟨z, h1, h2, h3⟩ := h names q hr
  exact ⟨z, h1, g.keeps _ _ h2, h3⟩

/-- Nothing that is remembered is forgotten. -/
structure Keeps (m m' : Memo) : Prop where
  zipPath : ∀ v, m.zipPath = some v → m'.zipPath = some v
  rel : ∀ r, m.rel = some r → m'.rel = some r

theorem Keeps.refl (m : Memo) : Keeps m m := ⟨fun _ h => h, fun _ h => h⟩

theorem Keeps.trans {a b c : Memo} (h : Keeps a b) (h' : Keeps b c) : Keeps a c :=
  ⟨fun v hv => h'.zipPath v (h.zipPath v hv), fun r hr => h'.rel r (h.rel r hr)⟩

theorem zipPathM_keeps (d : Disk) (o : Opened) (m : Memo) (p : List Str) : Keeps m (zipPathM d o m p).2.1 := by
  obtain ⟨-, h1, h2, -⟩ := zipPathM_spec d p o m
  refine ⟨fun v hv => ?_, fun r hr => by rw [h1, hr]⟩
  rw [h2 v hv]
  exact hv

theorem zipPathM_memoOk {d : Disk} {o : Opened} {m : Memo} {p q : List Str} (h : m.Ok q o) : (zipPathM d o m p).2.1.Ok q (zipPathM d o m p).2.2 := by
  obtain ⟨g, h1, -, -⟩ := zipPathM_spec d p o m
  intro names r hr
  rw [h1] at hr
  obtain ⟨z, a, b, c⟩ := h names r hr
  exact ⟨z, (zipPathM_keeps d o m p).zipPath _ a, g.keeps _ _ b, c⟩

theorem relM_spec (d : Disk) (o : Opened) (m : Memo) (p : List Str) (hm : m.Ok p o) :
    Grows d o (relM d o m p).2.2 ∧ Keeps m (relM d o m p).2.1 ∧ (relM d o m p).2.1.Ok p (relM d o m p).2.2 ∧
    (∀ r, m.rel = some r → relM d o m p = (.ok r, m, o)) ∧
    (∀ r, (relM d o m p).1 = .ok r → (relM d o m p).2.1.rel = some r) := by
  unfold relM
  cases hr : m.rel with
  | some r => exact ⟨.refl d o, .refl m, hm, fun r' h => by simp_all, fun r' h => by simp_all⟩
  | none =>
    have hk : Keeps m { m with rel := some none } := ⟨fun _ h => h, fun r h => by rw [hr] at h; simp at h⟩
    have ho : ({ m with rel := some none } : Memo).Ok p o := by intro names q h; simp at h
    have hx := zipPathM_spec d p o { m with rel := some none }
    have hy := zipPathM_keeps d o { m with rel := some none } p
    generalize hX : zipPathM d o { m with rel := some none } p = x at hx hy
    obtain ⟨x, m', o'⟩ := x
    obtain ⟨g, h1, -, h3⟩ := hx
    dsimp only at g h1 h3 hy
    have ok' : m'.Ok p o' := by intro names q h; rw [h1] at h; simp at h
    cases x with
    | error e => exact ⟨g, hk.trans hy, ok', fun r h => by simp at h, fun r h => by simp at h⟩
    | ok v =>
      cases v with
      | none => exact ⟨g, hk.trans hy, ok', fun r h => by simp at h, fun r h => by simp_all⟩
      | some z =>
        dsimp only
        have g' := open_grows d o' z
        have hok := @open_ok d o' z
        generalize open_ d o' z = y at g' hok
        obtain ⟨y, o''⟩ := y
        cases y with
        | error e => exact ⟨g.trans g', hk.trans hy, ok'.grows g', fun r h => by simp at h, fun r h => by simp at h⟩
        | ok names =>
          refine ⟨g.trans g', ?_, ?_, fun r h => by simp at h, fun r h => by simpa using h⟩
          · exact ⟨fun v hv => hy.zipPath v hv, fun r h => by rw [hr] at h; simp at h⟩
          · intro names' q h
            simp only [Option.some.injEq, Prod.mk.injEq] at h
            obtain ⟨rfl, rfl⟩ := h
            exact ⟨z, h3 _ rfl, hok rfl, rfl⟩

theorem existsM_spec (d : Disk) (o : Opened) (m : Memo) (p : List Str) (hm : m.Ok p o) :
    Grows d o (existsM d o m p).2.2 ∧ Keeps m (existsM d o m p).2.1 ∧ (existsM d o m p).2.1.Ok p (existsM d o m p).2.2 ∧
    (∀ b, (existsM d o m p).1 = .ok b → ((existsM d o m p).2.1.zipPath = some none ∧ d p ≠ .missing ∧ b = true) ∨
      ∃ z names, (existsM d o m p).2.1.zipPath = some (some z) ∧ (existsM d o m p).2.2.lookup z = some names ∧
        b = existsIn names ⟨[], (p.take (p.length - z.length)).reverse⟩ ∧
        (existsM d o m p).2.1.rel = some (some (names, ⟨[], (p.take (p.length - z.length)).reverse⟩))) := by
  unfold existsM
  obtain ⟨g, h1, h2, h3⟩ := zipPathM_spec d p o m
  have hk := zipPathM_keeps d o m p
  have hok := zipPathM_memoOk (d := d) (p := p) hm
  generalize zipPathM d o m p = x at *
  obtain ⟨x, m', o'⟩ := x
  dsimp only at g h1 h2 h3 hk hok
  cases x with
  | error e => exact ⟨g, hk, hok, fun b h => by simp at h⟩
  | ok zp =>
    dsimp only
    split
    · next hc =>
      refine ⟨g, hk, hok, fun b h => .inl ⟨by rw [← hc.1]; exact h3 zp rfl, hc.2, by simpa using h.symm⟩⟩
    · obtain ⟨g', hk', hok', -, h5⟩ := relM_spec d o' m' p hok
      generalize relM d o' m' p = y at *
      obtain ⟨y, m'', o''⟩ := y
      dsimp only at g' hk' hok' h5
      cases y with
      | error e => exact ⟨g.trans g', hk.trans hk', hok', fun b h => by simp at h⟩
      | ok r =>
        cases r with
        | none => exact ⟨g.trans g', hk.trans hk', hok', fun b h => by simp at h⟩
        | some r =>
          obtain ⟨names, q⟩ := r
          refine ⟨g.trans g', hk.trans hk', hok', fun b h => .inr ?_⟩
          have hr := h5 _ rfl
          obtain ⟨z, a, b', c⟩ := hok' names q hr
          subst c
          exact ⟨z, names, a, b', by simpa using h.symm, hr⟩

/-! ## Histories -/

/-- What every history keeps. -/
def Objs.Good (s : Objs) : Prop := ∀ i, (s.memo i).Ok (s.path i) s.opened

theorem Objs.start_good (path : Nat → List Str) : (Objs.start path).Good := by
  intro i names q h
  simp [Objs.start, Memo.fresh] at h

theorem Objs.ask_spec {s : Objs} (h : s.Good) (d : Disk) (i : Nat) :
    (s.ask d i).2.Good ∧ (s.ask d i).2.path = s.path ∧ Grows d s.opened (s.ask d i).2.opened ∧
    (∀ j, Keeps (s.memo j) ((s.ask d i).2.memo j)) := by
  obtain ⟨g, hk, hok, -⟩ := existsM_spec d s.opened (s.memo i) (s.path i) (h i)
  unfold Objs.ask
  generalize existsM d s.opened (s.memo i) (s.path i) = x at *
  obtain ⟨r, m, o⟩ := x
  dsimp only at g hk hok ⊢
  refine ⟨fun j => ?_, rfl, g, fun j => ?_⟩
  · dsimp only
    split
    · next hj => subst hj; exact hok
    · exact (h j).grows g
  · split
    · next hj => subst hj; exact hk
    · exact .refl _

theorem Objs.asks_good : ∀ (qs : List (Disk × Nat)) {s : Objs}, s.Good → (s.asks qs).Good ∧ (s.asks qs).path = s.path ∧
    (∀ z names, s.opened.lookup z = some names → (s.asks qs).opened.lookup z = some names) ∧ ∀ j, Keeps (s.memo j) ((s.asks qs).memo j)
  | [], _, h => ⟨h, rfl, fun _ _ h => h, fun _ => .refl _⟩
  | (d, i) :: qs, s, h => by
    obtain ⟨h1, h2, h3, h4⟩ := s.ask_spec h d i
    obtain ⟨a, b, c, e⟩ := Objs.asks_good qs h1
    exact ⟨a, b.trans h2, fun z n hz => c z n (h3.keeps z n hz), fun j => (h4 j).trans (e j)⟩

/-- **C107**: whatever happened before, and however the disk changes from question to question, an answer is about the archive as it was
when it was opened, or it is `True` for something on disk outside of archives. -/
theorem C107_answer (path : Nat → List Str) (qs : List (Disk × Nat)) (d : Disk) (i : Nat) {b : Bool}
    (h : (((Objs.start path).asks qs).ask d i).1 = .ok b) :
    (((((Objs.start path).asks qs).ask d i).2.memo i).zipPath = some none ∧ d (path i) ≠ .missing ∧ b = true) ∨
    ∃ z names, ((((Objs.start path).asks qs).ask d i).2.memo i).zipPath = some (some z) ∧
      (((Objs.start path).asks qs).ask d i).2.opened.lookup z = some names ∧
      b = existsIn names ⟨[], ((path i).take ((path i).length - z.length)).reverse⟩ := by
  obtain ⟨hg, hp, -, -⟩ := Objs.asks_good qs (Objs.start_good path)
  generalize (Objs.start path).asks qs = s at *
  have hp' : s.path i = path i := congrFun hp i
  obtain ⟨-, -, -, h4⟩ := existsM_spec d s.opened (s.memo i) (s.path i) (hg i)
  unfold Objs.ask at h ⊢
  rw [hp'] at h h4 ⊢
  generalize existsM d s.opened (s.memo i) (path i) = x at *
  obtain ⟨r, m, o⟩ := x
  dsimp only at h h4 ⊢
  rw [if_pos rfl]
  rcases h4 b h with h' | ⟨z, names, h1, h2, h3, -⟩
  · exact .inl h'
  · exact .inr ⟨z, names, h1, h2, h3⟩

/-- **C107**: what an open archive is taken to hold is what it held on the disk of the question by which it was opened, the first that
met it. -/
theorem C107_opened_once (path : Nat → List Str) (qs : List (Disk × Nat)) {z ns : List Str}
    (h : ((Objs.start path).asks qs).opened.lookup z = some ns) :
    ∃ qs1 d i qs2, qs = qs1 ++ (d, i) :: qs2 ∧ d z = .zip ns ∧ ((Objs.start path).asks qs1).opened.lookup z = none ∧
      (((Objs.start path).asks qs1).ask d i).2.opened.lookup z = some ns := by
  have key : ∀ (qs : List (Disk × Nat)) (s : Objs), s.Good → s.opened.lookup z = none → (s.asks qs).opened.lookup z = some ns →
      ∃ qs1 d i qs2, qs = qs1 ++ (d, i) :: qs2 ∧ d z = .zip ns ∧ (s.asks qs1).opened.lookup z = none ∧
        ((s.asks qs1).ask d i).2.opened.lookup z = some ns := by
    intro qs
    induction qs with
    | nil => intro s _ h0 h1; rw [Objs.asks, h0] at h1; simp at h1
    | cons q qs ih =>
      obtain ⟨d, i⟩ := q
      intro s hs h0 h1
      obtain ⟨a, -, g, -⟩ := s.ask_spec hs d i
      rw [Objs.asks] at h1
      cases hx : (s.ask d i).2.opened.lookup z with
      | none =>
        obtain ⟨qs1, d', i', qs2, e1, e2, e3, e4⟩ := ih _ a hx h1
        exact ⟨(d, i) :: qs1, d', i', qs2, by rw [e1]; rfl, e2, e3, e4⟩
      | some n =>
        have := (Objs.asks_good qs a).2.2.1 z n hx
        rw [h1] at this
        simp only [Option.some.injEq] at this
        subst this
        refine ⟨[], d, i, qs, rfl, ?_, h0, hx⟩
        rcases g.reads z _ hx with h' | ⟨-, h'⟩
        · rw [h0] at h'; simp at h'
        · exact h'
  exact key qs _ (Objs.start_good path) rfl h

theorem existsM_remembered (d : Disk) (o : Opened) (m : Memo) (p : List Str) {z names : List Str} {q : Pure}
    (h1 : m.zipPath = some (some z)) (h2 : m.rel = some (some (names, q))) : existsM d o m p = (.ok (existsIn names q), m, o) := by
  unfold existsM
  rw [(zipPathM_spec d p o m).2.2.1 _ h1]
  dsimp only
  rw [if_neg (by simp)]
  unfold relM
  rw [h2]

/-- **C107**: once an object answered about something in an archive, it gives this answer for ever, whatever happens to the disk and
whatever is asked of other objects. -/
theorem C107_frozen (path : Nat → List Str) (qs : List (Disk × Nat)) (d : Disk) (i : Nat) {b : Bool}
    (h : (((Objs.start path).asks qs).ask d i).1 = .ok b) (hz : ((((Objs.start path).asks qs).ask d i).2.memo i).zipPath ≠ some none)
    (qs' : List (Disk × Nat)) (d' : Disk) : (((((Objs.start path).asks qs).ask d i).2.asks qs').ask d' i).1 = .ok b := by
  obtain ⟨hg, -, -, -⟩ := Objs.asks_good qs (Objs.start_good path)
  generalize (Objs.start path).asks qs = s at *
  obtain ⟨hg', -, -, -⟩ := s.ask_spec hg d i
  have hmem : ∃ z names q, ((s.ask d i).2.memo i).zipPath = some (some z) ∧ ((s.ask d i).2.memo i).rel = some (some (names, q)) ∧ b = existsIn names q := by
    obtain ⟨-, -, -, h4⟩ := existsM_spec d s.opened (s.memo i) (s.path i) (hg i)
    unfold Objs.ask at h hz ⊢
    generalize existsM d s.opened (s.memo i) (s.path i) = x at *
    obtain ⟨r, m, o⟩ := x
    dsimp only at h h4 hz ⊢
    rw [if_pos rfl] at hz ⊢
    rcases h4 b h with h' | ⟨z, names, h1, -, h3, h5⟩
    · exact absurd h'.1 hz
    · exact ⟨z, names, _, h1, h5, h3⟩
  obtain ⟨z, names, q, h1, h2, rfl⟩ := hmem
  obtain ⟨-, -, -, hk⟩ := Objs.asks_good qs' hg'
  have k1 := (hk i).zipPath _ h1
  have k2 := (hk i).rel _ h2
  generalize (s.ask d i).2.asks qs' = t at k1 k2
  unfold Objs.ask
  rw [existsM_remembered _ _ _ _ k1 k2]

/-! ## A disk that stays as it is -/

/-- The open archives are as on disk. -/
def Agrees (d : Disk) (o : Opened) : Prop := ∀ z names, o.lookup z = some names → d z = .zip names

theorem Agrees.grows {d : Disk} {o o' : Opened} (h : Agrees d o) (g : Grows d o o') : Agrees d o' := by
  intro z n hz
  rcases g.reads z n hz with h' | ⟨-, h'⟩
  · exact h z n h'
  · exact h'

theorem open_agrees {d : Disk} {o : Opened} (h : Agrees d o) (z : List Str) : (open_ d o z).1 = match d z with
    | .zip names => .ok names
    | .missing => .error .fileNotFoundError
    | .dir => .error .isADirectoryError
    | .file => .error .foreign := by
  unfold open_
  cases ho : o.lookup z with
  | some n => rw [h z n ho]
  | none => cases hd : d z <;> rfl

theorem zipPathM_agrees {d : Disk} : ∀ (p : List Str) {o : Opened} {m : Memo}, Agrees d o → m.zipPath = none → (zipPathM d o m p).1 = zipPath d p
  | [], o, m, _, hm => by rw [zipPathM, hm, zipPath]
  | n :: up, o, m, h, hm => by
    rw [zipPathM, hm, zipPath]
    dsimp only
    have h1 := zipPathM_agrees up (m := Memo.fresh) h rfl
    have h2 := h.grows (zipPathM_spec d up o Memo.fresh).1
    generalize zipPathM d o Memo.fresh up = x at h1 h2
    obtain ⟨x, m', o'⟩ := x
    dsimp only at h1 h2
    rw [← h1]
    cases x with
    | error e => rfl
    | ok pzp =>
      dsimp only
      split
      · have h3 := open_agrees h2 (n :: up)
        generalize open_ d o' (n :: up) = y at h3
        obtain ⟨y, o''⟩ := y
        dsimp only at h3
        subst h3
        cases d (n :: up) <;> rfl
      · rfl

theorem existsM_agrees {d : Disk} {o : Opened} (h : Agrees d o) (p : List Str) : (existsM d o Memo.fresh p).1 = zipExists d p := by
  unfold existsM zipExists
  have h1 := zipPathM_agrees p (m := Memo.fresh) h rfl
  obtain ⟨g, hr, -, h3⟩ := zipPathM_spec d p o Memo.fresh
  generalize zipPathM d o Memo.fresh p = x at *
  obtain ⟨x, m', o'⟩ := x
  dsimp only at h1 g hr h3
  rw [← h1]
  cases x with
  | error e => rfl
  | ok zp =>
    have hz := h3 zp rfl
    have hr : m'.rel = none := hr
    dsimp only
    cases zp with
    | none =>
      by_cases hd : d p ≠ .missing
      · rw [if_pos ⟨rfl, hd⟩, if_pos hd]
      · rw [if_neg (fun hc => hd hc.2), if_neg hd]
        unfold relM
        rw [hr]
        dsimp only
        rw [(zipPathM_spec d p o' { m' with rel := some none }).2.2.1 none hz]
    | some z =>
      rw [if_neg (by simp)]
      unfold relM
      rw [hr]
      dsimp only
      rw [(zipPathM_spec d p o' { m' with rel := some none }).2.2.1 (some z) hz]
      dsimp only
      have ho := open_agrees (h.grows g) z
      generalize open_ d o' z = y at ho
      obtain ⟨y, o''⟩ := y
      dsimp only at ho
      have hzip : ∃ names, d z = .zip names := by
        have : ∀ p, zipPath d p = .ok (some z) → ∃ names, d z = .zip names := by
          intro p
          induction p with
          | nil => intro hp; simp [zipPath] at hp
          | cons n up ih =>
            intro hp
            rw [zipPath] at hp
            cases hu : zipPath d up with
            | error e => rw [hu] at hp; simp at hp
            | ok pzp =>
              rw [hu] at hp
              dsimp only at hp
              split at hp
              · cases hd : d (n :: up) with
                | zip names => rw [hd] at hp; simp only [Except.ok.injEq, Option.some.injEq] at hp; exact ⟨names, hp ▸ hd⟩
                | _ => rw [hd] at hp; simp at hp
              · simp only [Except.ok.injEq] at hp
                exact ih (by rw [hu, hp])
        exact this p h1.symm
      obtain ⟨names, hn⟩ := hzip
      rw [hn] at ho ⊢
      subst ho
      rfl

/-- **C107** (part): while the disk stays as it is, the first answer of each object is what `C66` says about the disk, whatever was asked
of other objects.  (Full claim: every answer tells what is on disk now.) -/
theorem C107_fresh_partial (path : Nat → List Str) (d : Disk) (is : List Nat) (i : Nat) (hi : i ∉ is) :
    (((Objs.start path).asks (is.map fun j => (d, j))).ask d i).1 = zipExists d (path i) := by
  have key : ∀ (is : List Nat) (s : Objs), s.Good → Agrees d s.opened → s.memo i = .fresh → i ∉ is →
      ((s.asks (is.map fun j => (d, j))).ask d i).1 = zipExists d (s.path i) := by
    intro is
    induction is with
    | nil =>
      intro s _ ha hm _
      have := existsM_agrees ha (s.path i)
      rw [List.map_nil, Objs.asks]
      unfold Objs.ask
      rw [hm]
      exact this
    | cons j is ih =>
      intro s hs ha hm hni
      obtain ⟨h1, h2, h3, -⟩ := s.ask_spec hs d j
      rw [List.map_cons, Objs.asks, ih _ h1 (ha.grows h3) ?_ (fun h => hni (List.mem_cons_of_mem _ h)), h2]
      have hne : i ≠ j := fun h => hni (h ▸ List.mem_cons_self)
      unfold Objs.ask
      dsimp only
      rw [if_neg hne, hm]
  exact key is _ (Objs.start_good path) (by intro z n h; simp [Objs.start] at h) rfl hi

/-- **C107**: the same object answers the same again, if it answered at all and the disk stays as it is. -/
theorem C107_again (path : Nat → List Str) (qs : List (Disk × Nat)) (d : Disk) (i : Nat) {b : Bool}
    (h : (((Objs.start path).asks qs).ask d i).1 = .ok b) : ((((Objs.start path).asks qs).ask d i).2.ask d i).1 = .ok b := by
  by_cases hz : ((((Objs.start path).asks qs).ask d i).2.memo i).zipPath = some none
  · obtain ⟨hg, hp, -, -⟩ := Objs.asks_good qs (Objs.start_good path)
    rcases C107_answer path qs d i h with ⟨-, hd, rfl⟩ | ⟨z, names, hz', -⟩
    · generalize (Objs.start path).asks qs = s at *
      obtain ⟨-, hp', -, -⟩ := s.ask_spec hg d i
      generalize (s.ask d i).2 = t at *
      have hpi : t.path i = path i := by rw [hp', hp]; rfl
      unfold Objs.ask existsM
      rw [(zipPathM_spec d (t.path i) t.opened (t.memo i)).2.2.1 none hz]
      dsimp only
      rw [if_pos ⟨rfl, hpi ▸ hd⟩]
    · rw [hz] at hz'; simp at hz'
  · exact C107_frozen path qs d i h hz [] d

/-! ## Cases -/

/-- One object for the path `/a.zip/x`, and another. -/
def inArchive : Nat → List Str := fun _ => [lit "x", lit "a.zip"]

/-- A disk with one thing at `/a.zip`. -/
def withArchive (k : Kind) : Disk := fun p => if p = [] then .dir else if p = [lit "a.zip"] then k else .missing

/-- **C107, disproved after a change**: an archive is written again with another file in it, or removed; a new object for a path in it
still answers from the old content. -/
theorem C107_stale_counterexample :
    ((((Objs.start inArchive).asks [(withArchive (.zip [lit "x"]), 0)]).ask (withArchive (.zip [lit "y"])) 1).1 = .ok true ∧
      zipExists (withArchive (.zip [lit "y"])) (inArchive 1) = .ok false) ∧
    (((Objs.start inArchive).asks [(withArchive (.zip [lit "x"]), 0)]).ask (withArchive .missing) 1).1 = .ok true ∧
    zipExists (withArchive .missing) (inArchive 1) = .error .fileNotFoundError := by
  decide +kernel

/-- **C107, disproved after an exception**: a file that is called like an archive and is none: the second time it is the same exception,
and then, and for ever after, it is an `AttributeError`, even if it is an archive by then. -/
theorem C107_exception_counterexample :
    let p : Nat → List Str := fun _ => [lit "a.zip"]
    let s := Objs.start p
    (s.ask (withArchive .file) 0).1 = .error .foreign ∧
    ((s.asks [(withArchive .file, 0)]).ask (withArchive .file) 0).1 = .error .foreign ∧
    ((s.asks [(withArchive .file, 0), (withArchive .file, 0)]).ask (withArchive (.zip [lit "x"])) 0).1 = .error .attributeError := by
  decide +kernel

/-- Not vacuous. -/
example : (((Objs.start inArchive).asks [(withArchive (.zip [lit "x"]), 0)]).ask (withArchive .missing) 0).1 = .ok true ∧
    (((Objs.start inArchive).asks [(withArchive (.zip [lit "x"]), 0)]).memo 0).zipPath = some (some [lit "a.zip"]) := by decide +kernel

end Verif.Zip
