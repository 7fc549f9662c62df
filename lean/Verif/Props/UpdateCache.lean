import Verif.Model.UpdateCache
import Verif.Props.MoveCache
import Verif.Props.Updater
import Verif.Props.PrimaryMeta

/-!
# C92: Updating a cache from its remote
-/

namespace Verif.Cache
open Verif.FS

/-! ## Moving a file never loses it -/

/-- The file is at the one place or at the other. -/
def OneOf (q t : Path) (x : CObj) (d : Disk CObj) : Prop := d.at_ q = some x ∨ d.at_ t = some x

theorem rename_keeps {d d' : Disk CObj} {a c p : Path} (h : d.rename a c = .ok d') (h1 : ¬ a <+: p) (h2 : ¬ c <+: p) :
    d'.at_ p = d.at_ p := by
  obtain ⟨-, ⟨-, rfl⟩ | ⟨-, hmv⟩⟩ := rename_ok h
  · rfl
  · rw [hmv, mv, if_neg h2, if_neg h1]

/-- What the renames of a move leave alone, whatever fails. -/
theorem renames_keeps (C : PEnv) {q t : Path} {b : Bytes} {m : Option Meta} (hap : Apart q t) (hs : Apart q (safeUnlink t)) (ht : t ≠ [])
    {d0 : Disk CObj} (h0 : d0.at_ q = some (.file b m)) :
    Hoare (fun d => d = d0) (C.renames q t)
      (fun _ d => OneOf q t (.file b m) d ∧ ∀ r, ¬ q <+: r → ¬ t <+: r → ¬ safeUnlink t <+: r → d.at_ r = d0.at_ r)
      (fun _ d => OneOf q t (.file b m) d ∧ ∀ r, ¬ q <+: r → ¬ t <+: r → ¬ safeUnlink t <+: r → d.at_ r = d0.at_ r) := by
  have hts := safeUnlink_apart ht
  generalize hsafe : safeUnlink t = safe at hs hts ⊢
  let O : Disk CObj → Prop := fun d => ∀ r, ¬ q <+: r → ¬ t <+: r → ¬ safe <+: r → d.at_ r = d0.at_ r
  let A : Disk CObj → Prop := fun d => d.at_ q = some (.file b m) ∧ O d
  let B : Disk CObj → Prop := fun d => OneOf q t (.file b m) d ∧ O d
  have hAB : ∀ d, A d → B d := fun d h => ⟨.inl h.1, h.2⟩
  have hren : ∀ d d' (x y : Path), (x = t ∧ y = safe ∨ x = safe ∧ y = t) → A d → d.rename x y = .ok d' → A d' := by
    rintro d d' x y hxy ⟨h1, h2⟩ h
    have hx : ¬ x <+: q ∧ ¬ y <+: q := by
      rcases hxy with ⟨rfl, rfl⟩ | ⟨rfl, rfl⟩
      · exact ⟨hap.2, hs.2⟩
      · exact ⟨hs.2, hap.2⟩
    refine ⟨by rw [rename_keeps h hx.1 hx.2]; exact h1, fun r hr1 hr2 hr3 => ?_⟩
    have : ¬ x <+: r ∧ ¬ y <+: r := by
      rcases hxy with ⟨rfl, rfl⟩ | ⟨rfl, rfl⟩
      · exact ⟨hr2, hr3⟩
      · exact ⟨hr3, hr2⟩
    rw [rename_keeps h this.1 this.2]
    exact h2 r hr1 hr2 hr3
  have hclean : Hoare B (.bind (.look C.F fun d => .ok (isBroken d safe)) fun b =>
      if b then .act C.F fun d => d.unlink safe else .pure ()) (fun _ => B) (fun _ => B) := by
    refine .bind_ (Q := fun x d => (x = true → isBroken d safe = true) ∧ B d) (.look_ ?_ fun _ _ h => h) fun x => ?_
    · intro d a h ha
      simp only [Except.ok.injEq] at ha
      exact ⟨fun h => by rw [ha, h], h⟩
    · refine .ite_ (fun hx => .act_ ?_ fun _ _ h => h.2) fun _ => .pure_ fun _ h => h.2
      rintro d d' ⟨hb, h1, h2⟩ h
      have hb := hb hx
      have hd' : d' = d.erase safe := by
        unfold Disk.unlink at h
        split at h
        · cases h
        · split at h
          · cases h
          · cases h; rfl
      subst hd'
      refine ⟨?_, fun r hr1 hr2 hr3 => ?_⟩
      · rcases h1 with h1 | h1
        · refine .inl ?_
          rw [Disk.at_erase, if_neg]
          · exact h1
          · rintro rfl; exact hs.1 (List.prefix_refl _)
        · refine .inr ?_
          rw [Disk.at_erase, if_neg]
          · exact h1
          · rintro rfl; exact hts.1 (List.prefix_refl _)
      · rw [Disk.at_erase, if_neg]
        · exact h2 r hr1 hr2 hr3
        · rintro rfl; exact hr3 (List.prefix_refl _)
  unfold PEnv.renames
  rw [hsafe]
  dsimp only
  refine .bind_ (Q := fun _ => B) ?_ fun _ => hclean
  refine .try_ (R := fun _ => B) ?_ fun e => .bind_ (Q := fun _ => B) hclean fun _ => .throw_ fun _ h => h
  refine .try_ (R := fun _ => A) ?_ fun e => ?_
  · refine .bind_ (Q := fun _ => A) (.look_ ?_ ?_) fun x => ?_
    · rintro d a rfl -
      exact ⟨h0, fun _ _ _ _ => rfl⟩
    · rintro e d rfl
      exact ⟨h0, fun _ _ _ _ => rfl⟩
    refine .bind_ (Q := fun _ => A) ?_ fun _ => ?_
    · exact .ite_ (fun _ => .act_ (fun d d' hd h => hren d d' t safe (.inl ⟨rfl, rfl⟩) hd h) fun _ _ h => h) fun _ => .pure_ fun _ h => h
    · refine .act_ ?_ fun _ _ h => h
      rintro d d' ⟨h1, h2⟩ h
      obtain ⟨-, ⟨he, -⟩ | ⟨-, hmv⟩⟩ := rename_ok h
      · exact absurd (he ▸ List.prefix_refl _) hap.1
      refine ⟨.inr ?_, fun r hr1 hr2 hr3 => ?_⟩
      · rw [hmv, mv, if_pos (List.prefix_refl _), List.drop_length, List.append_nil, h1]
      · rw [hmv, mv, if_neg hr2, if_neg hr1]
        exact h2 r hr1 hr2 hr3
  · refine .bind_ (Q := fun _ => A) (.look_ (fun _ _ h _ => h) fun _ _ h => hAB _ h) fun x => ?_
    refine .ite_ (fun _ => .act_ (fun d d' hd h => hAB _ (hren d d' safe t (.inr ⟨rfl, rfl⟩) hd h)) fun _ _ h => hAB _ h) fun _ =>
      .pure_ fun _ h => hAB _ h

theorem conflict_keeps (C : PEnv) {q t : Path} {b : Bytes} {m : Option Meta} {remote : Bool} {d0 : Disk CObj}
    (h0 : d0.at_ q = some (.file b m)) :
    Hoare (fun d => d = d0) (C.conflict q t remote false) (fun _ d => d = d0) (fun _ d => d = d0) := by
  unfold PEnv.conflict PEnv.getMeta
  refine .bind_ (Q := fun _ d => d = d0) (.look_ (fun _ _ h _ => h) fun _ _ h => h) fun mt => ?_
  refine .bind_ (Q := fun _ d => d = d0) (.look_ (fun _ _ h _ => h) fun _ _ h => h) fun mq => ?_
  refine .ite_ (fun _ => ?_) fun _ => ?_
  · refine .bind_ (Q := fun x d => x = false ∧ d = d0) (.look_ ?_ fun _ _ h => h) fun x => .of_pre fun hx => ?_
    · rintro d a rfl h
      simp only [Except.ok.injEq, isBroken, h0] at h
      exact ⟨h.symm, rfl⟩
    · subst hx
      exact .pure_ fun _ h => h
  · refine .bind_ (Q := fun _ d => d = d0) (.look_ (fun _ _ h _ => h) fun _ _ h => h) fun x => ?_
    exact .ite_ (fun _ => .ite_ (fun _ => .throw_ fun _ h => h) fun _ => .throw_ fun _ h => h) fun _ => .throw_ fun _ h => h

theorem move_keeps (C : PEnv) (parents : Prog CObj Unit) {q t : Path} {b : Bytes} {m : Option Meta} {given : Option Meta} {remote : Bool}
    (hap : t ≠ q → Apart q t ∧ Apart q (safeUnlink t) ∧ t ≠ []) {d0 : Disk CObj} (h0 : d0.at_ q = some (.file b m))
    (hp : there d0 t.dropLast = true) :
    Hoare (fun d => d = d0) (C.move parents q t given remote false)
      (fun _ d => OneOf q t (.file b m) d ∧ ∀ r, ¬ q <+: r → ¬ t <+: r → ¬ safeUnlink t <+: r → d.at_ r = d0.at_ r)
      (fun _ d => OneOf q t (.file b m) d ∧ ∀ r, ¬ q <+: r → ¬ t <+: r → ¬ safeUnlink t <+: r → d.at_ r = d0.at_ r) := by
  have hsame : ∀ d, d = d0 → OneOf q t (.file b m) d ∧ ∀ r, ¬ q <+: r → ¬ t <+: r → ¬ safeUnlink t <+: r → d.at_ r = d0.at_ r := by
    rintro d rfl
    exact ⟨.inl h0, fun _ _ _ _ => rfl⟩
  unfold PEnv.move
  refine .ite_ (fun _ => .pure_ hsame) fun hne => ?_
  obtain ⟨hap, hs, ht⟩ := hap hne
  refine .bind_ (Q := fun x d => x = true ∧ d = d0) (.look_ ?_ fun _ d h => hsame d h) fun x => .of_pre fun hx => ?_
  · rintro d a rfl h
    simp only [Except.ok.injEq, hp] at h
    exact ⟨h.symm, rfl⟩
  subst hx
  refine .bind_ (Q := fun _ d => d = d0) (.pure_ fun _ h => h) fun _ => ?_
  refine .bind_ (Q := fun _ d => d = d0) (.pure_ fun _ h => h) fun _ => ?_
  refine .bind_ (Q := fun _ d => d = d0) (.look_ (fun _ _ h _ => h) fun _ d h => hsame d h) fun x => ?_
  refine .bind_ (Q := fun _ d => d = d0) ?_ fun _ => ?_
  · exact .ite_ (fun _ => (conflict_keeps C h0).mono (fun _ h => h) (fun _ _ h => h) fun _ d h => hsame d h) fun _ => .pure_ fun _ h => h
  refine .bind_ (Q := fun x d => x = true ∧ d = d0) (.look_ ?_ fun _ d h => hsame d h) fun x => .of_pre fun hx => ?_
  · rintro d a rfl h
    simp only [Except.ok.injEq, there, h0] at h
    exact ⟨h.symm, rfl⟩
  subst hx
  exact .bind_ (renames_keeps C hap hs ht h0) fun _ => .pure_ fun _ h => h

/-- **C37**: whatever calls fail, and however many, moving a file never loses it: with its bytes and attributes it is where it was or
where it should go, and what is neither there nor at the name for the temporary link is as before. -/
theorem C37_never_lost (C : PEnv) (parents : Prog CObj Unit) {q t : Path} {b : Bytes} {m : Option Meta} {given : Option Meta} {remote : Bool}
    {s : Machine CObj} (hap : t ≠ q → Apart q t ∧ Apart q (safeUnlink t) ∧ t ≠ []) (h0 : s.disk.at_ q = some (.file b m))
    (hp : there s.disk t.dropLast = true) :
    ((C.move parents q t given remote false s).2.disk.at_ q = some (.file b m) ∨
      (C.move parents q t given remote false s).2.disk.at_ t = some (.file b m)) ∧
    ∀ r, ¬ q <+: r → ¬ t <+: r → ¬ safeUnlink t <+: r → (C.move parents q t given remote false s).2.disk.at_ r = s.disk.at_ r := by
  have := move_keeps C parents (given := given) (remote := remote) hap h0 hp s rfl
  generalize C.move parents q t given remote false s = r at this ⊢
  obtain ⟨r, s'⟩ := r
  cases r <;> exact this

/-! ## Updating -/

/-- A file with this content is there. -/
def Has (d : Disk CObj) (p : Path) (b : Bytes) : Prop := ∃ m, d.at_ p = some (.file b m)

theorem updater_keeps (C : PEnv) {q : Path} {new m : Meta} {b : Bytes} {i : Str} {fetch : Bool} {d0 : Disk CObj}
    (h : Replacing C q b m i d0)
    (hid : ∀ x u, updateMeta (some m) (some new) = .ok (x, u) → ∃ u', u = some u' ∧ u' .file_id ≠ .none) :
    Hoare (fun d => d = d0) (C.metaUpdater q new fetch)
      (fun _ d => (∀ r, ¬ q <+: r → ¬ C.loc ++ [fsSafeId i] <+: r → d.at_ r = d0.at_ r) ∧ (∃ b', Has d q b') ∧
        (Has d q b ∨ Has d (C.loc ++ [fsSafeId i]) b))
      (fun _ d => (∀ r, ¬ q <+: r → ¬ C.loc ++ [fsSafeId i] <+: r → d.at_ r = d0.at_ r) ∧
        (Has d q b ∨ Has d (C.loc ++ [fsSafeId i]) b)) := by
  have hsame : ∀ d, d = d0 → (∀ r, ¬ q <+: r → ¬ C.loc ++ [fsSafeId i] <+: r → d.at_ r = d0.at_ r) ∧
        (Has d q b ∨ Has d (C.loc ++ [fsSafeId i]) b) := by
    rintro d rfl
    exact ⟨fun _ _ _ => rfl, .inl ⟨_, h.file⟩⟩
  cases hu : updateMeta (some m) (some new) with
  | error e =>
    unfold PEnv.metaUpdater
    refine .bind_ (Q := fun mm d => mm = some m ∧ d = d0) (.look_ ?_ fun _ d hd => hsame d hd) fun mm => .of_pre fun hmm => ?_
    · rintro d a rfl ha
      rw [h.file] at ha
      simp only [h.some_meta, if_true, Except.ok.injEq] at ha
      exact ⟨ha.symm, rfl⟩
    subst hmm
    rw [hu]
    exact .throw_ hsame
  | ok xu =>
    obtain ⟨x, u⟩ := xu
    obtain ⟨u, rfl, hfid⟩ := hid x u hu
    by_cases hx : x = true ∧ fetch = true
    · obtain ⟨rfl, rfl⟩ := hx
      intro s hs
      have := metaUpdater_hoare C h hu s hs
      generalize C.metaUpdater q new true s = r at this ⊢
      obtain ⟨r, s'⟩ := r
      cases r with
      | ok a =>
        obtain ⟨-, h1, h2, h3⟩ := this
        obtain ⟨cs, m', -, -, h4, -⟩ := h3 u rfl hfid
        exact ⟨h2, ⟨_, _, h4⟩, .inr ⟨_, h1⟩⟩
      | error e =>
        obtain ⟨h1, h2⟩ := this
        exact ⟨h1, h2.imp (fun h => ⟨_, h⟩) fun h => ⟨_, h.1⟩⟩
    · have hout : ∀ d, OnlyAt q d0 d → ∀ r, ¬ q <+: r → ¬ C.loc ++ [fsSafeId i] <+: r → d.at_ r = d0.at_ r := by
        intro d hd r hr _
        exact hd r (by rintro rfl; exact hr (List.prefix_refl _))
      unfold PEnv.metaUpdater
      refine .bind_ (Q := fun mm d => mm = some m ∧ d = d0) (.look_ ?_ fun _ d hd => hsame d hd) fun mm => .of_pre fun hmm => ?_
      · rintro d a rfl ha
        rw [h.file] at ha
        simp only [h.some_meta, if_true, Except.ok.injEq] at ha
        exact ⟨ha.symm, rfl⟩
      subst hmm
      rw [hu]
      dsimp only
      refine .bind_ (Q := fun isf d => (isf && fetch) = false ∧ d = d0) ?_ fun isf => .of_pre fun hisf => ?_
      · cases x with
        | false => exact .pure_ fun d hd => ⟨by simp, hd⟩
        | true =>
          have hf : fetch = false := by
            cases fetch
            · rfl
            · exact absurd ⟨rfl, rfl⟩ hx
          subst hf
          rw [if_pos rfl]
          exact .look_ (fun d a hd _ => ⟨by simp, hd⟩) fun _ d hd => hsame d hd
      · rw [hisf]
        simp only [Bool.false_eq_true, if_false]
        refine .bind_ ((setMeta_file C (q := q) (d0 := d0) (W := True) (R := fun _ d => OnlyAt q d0 d ∧ Has d q b)
          (fun _ _ _ => trivial) (b := b) (mo := some m) u (fun _ e d mo' h1 _ h2 => ⟨h1, _, h2⟩)).mono ?_ (fun _ _ h => h) ?_)
          fun _ => .pure_ ?_
        · rintro d rfl
          exact ⟨.refl _ _, h.file⟩
        · rintro _ d ⟨h1, h2⟩
          exact ⟨hout d h1, .inl h2⟩
        · rintro d ⟨h1, h2⟩
          exact ⟨hout d h1, ⟨b, _, h2⟩, .inl ⟨_, h2⟩⟩

/-- **C92**: a cache given for a remote that has one already is refused. -/
theorem C92_two_caches (C : PEnv) (parents : Prog CObj Unit) {R : RemoteView} {q p : Path} {fetch : Bool} {s : Machine CObj} :
    C.updateCache parents R (some p) (some q) fetch s = (.error .typeError, s) := rfl

/-- **C92**: a cache whose name is not that of the remote, or whose parent has another id, is refused when it is given from outside:
whatever calls fail, the update raises and nothing changes.  When no call fails it is a `ValueError`. -/
theorem C92_refused (C : PEnv) (parents : Prog CObj Unit) {R : RemoteView} {q : Path} {fetch : Bool} {md : Meta} {s : Machine CObj}
    (hdir : s.disk.at_ q.dropLast = some (.dir (some md))) (hmd : metaBool md = true)
    (h : q.getLast? ≠ some R.name ∨ pyEq R.parentId (md .id) = false) :
    (∃ e, (C.updateCache parents R none (some q) fetch s).1 = .error e ∧ ((∀ n, C.F n = none) → e = .valueError)) ∧
    (C.updateCache parents R none (some q) fetch s).2.disk = s.disk := by
  have H : Hoare (fun d => d = s.disk) (C.updateCache parents R none (some q) fetch) (fun _ _ => False)
      (fun e d => ((∀ n, C.F n = none) → e = .valueError) ∧ d = s.disk) := by
    unfold PEnv.updateCache
    refine .ite_ (fun h => by simp at h) fun _ => ?_
    show Hoare _ (Prog.bind (C.parentId q) _) _ _
    refine .bind_ (Q := fun i d => i = md .id ∧ d = s.disk) ?_ fun i => .of_pre fun hi => ?_
    · unfold PEnv.parentId PEnv.getMeta
      refine .bind_ (Q := fun m d => m = some md ∧ d = s.disk) (.look_err ?_ ?_) fun m => .of_pre fun hm => .pure_ fun d hd => ⟨by rw [hm], hd⟩
      · rintro d a rfl h
        rw [hdir] at h
        simp only [hmd, if_true, Except.ok.injEq] at h
        exact ⟨h.symm, rfl⟩
      · rintro e d rfl (⟨n, h⟩ | h)
        · exact ⟨fun hF => by simp [hF n] at h, rfl⟩
        · simp [hdir] at h
    · subst hi
      refine .ite_ (fun _ => .throw_ fun d hd => ⟨fun _ => rfl, hd⟩) fun h1 => .ite_ (fun _ => .throw_ fun d hd => ⟨fun _ => rfl, hd⟩) fun h2 => ?_
      exfalso
      rcases h with h | h <;> simp_all
  have := H s rfl
  generalize C.updateCache parents R none (some q) fetch s = r at this ⊢
  obtain ⟨r, s'⟩ := r
  cases r with
  | ok a => exact this.elim
  | error e => exact ⟨⟨e, rfl, this.1⟩, this.2⟩

theorem updater_runs (C : PEnv) {q : Path} {new m u : Meta} {b : Bytes} {fetch different : Bool} {d0 : Disk CObj} (hF : ∀ n, C.F n = none)
    (hrec : d0.at_ q = some (.file b (some m))) (hm : metaBool m = true) (hu : metaBool u = true)
    (hdiff : updateMeta (some m) (some new) = .ok (different, some u)) (hno : different = false ∨ fetch = false) :
    Hoare (fun d => d = d0) (C.metaUpdater q new fetch)
      (fun x d => x = different ∧ OnlyAt q d0 d ∧ d.at_ q = some (.file b (laid (some m) u))) (fun _ _ => False) := by
  have hF' : ∀ n e, C.F n = some e → False := fun n e h => by simp [hF n] at h
  unfold PEnv.metaUpdater PEnv.getMeta
  refine .bind_ (Q := fun mm d => mm = some m ∧ d = d0) (.look_err ?_ ?_) fun mm => .of_pre fun hmm => ?_
  · rintro d a rfl h
    rw [hrec] at h
    simp only [hm, if_true, Except.ok.injEq] at h
    exact ⟨h.symm, rfl⟩
  · rintro e d rfl (⟨n, h⟩ | h)
    · exact hF' n e h
    · simp [hrec] at h
  subst hmm
  rw [hdiff]
  dsimp only
  refine .bind_ (Q := fun isf d => (isf && fetch) = false ∧ d = d0) ?_ fun isf => .of_pre fun hisf => ?_
  · rcases hno with h | h
    · subst h
      exact .pure_ fun d hd => ⟨by simp, hd⟩
    · subst h
      split
      · refine .look_err (fun d a hd _ => ⟨by simp, hd⟩) ?_
        rintro e d rfl (⟨n, h⟩ | h)
        · exact hF' n e h
        · simp at h
      · exact .pure_ fun d hd => ⟨by simp, hd⟩
  · rw [hisf]
    simp only [Bool.false_eq_true, if_false]
    have := setMeta_file C (q := q) (d0 := d0) (W := False) (R := fun _ _ => False) hF' (b := b) (mo := some m) u
      (fun h => h.elim)
    rw [hu, if_pos rfl] at this
    refine .bind_ (this.mono (fun d hd => ?_) (fun _ _ h => h) (fun _ _ h => h)) fun _ => .pure_ fun d hd => ⟨rfl, hd⟩
    subst hd
    exact ⟨.refl _ _, hrec⟩

/-- The cache belongs where it is: its name and the id of its parent are those of the remote. -/
def Belongs (R : RemoteView) (q : Path) (d : Disk CObj) : Prop :=
  q.getLast? = some R.name ∧ ∃ md, d.at_ q.dropLast = some (.dir (some md)) ∧ metaBool md = true ∧ pyEq R.parentId (md .id) = true

theorem parentId_runs (C : PEnv) {q : Path} {md : Meta} {d0 : Disk CObj} (hF : ∀ n, C.F n = none)
    (hdir : d0.at_ q.dropLast = some (.dir (some md))) (hmd : metaBool md = true) :
    Hoare (fun d => d = d0) (C.parentId q) (fun i d => i = md .id ∧ d = d0) (fun _ _ => False) := by
  unfold PEnv.parentId PEnv.getMeta
  refine .bind_ (Q := fun m d => m = some md ∧ d = d0) (.look_err ?_ ?_) fun m => .of_pre fun hm => .pure_ fun d hd => ⟨by rw [hm], hd⟩
  · rintro d a rfl h
    rw [hdir] at h
    simp only [hmd, if_true, Except.ok.injEq] at h
    exact ⟨h.symm, rfl⟩
  · rintro e d rfl (⟨n, h⟩ | h)
    · simp [hF n] at h
    · simp [hdir] at h

/-- **C92**: a cache that belongs where it is stays there: when no call fails and nothing is fetched, the update returns whether the
remote differs, the content is as before with the fields of the update, and nothing else changes. -/
theorem C92_stays (C : PEnv) (parents : Prog CObj Unit) {R : RemoteView} {own given : Option Path} {fetch different : Bool} {q : Path}
    {m u : Meta} {b : Bytes} {s : Machine CObj} (hF : ∀ n, C.F n = none) (hone : own = none ∨ given = none) (hq : given.or own = some q)
    (hrec : s.disk.at_ q = some (.file b (some m))) (hm : metaBool m = true) (hu : metaBool u = true)
    (hdiff : updateMeta (some m) (some R.info) = .ok (different, some u)) (hno : different = false ∨ fetch = false)
    (hb : Belongs R q s.disk) :
    (C.updateCache parents R own given fetch s).1 = .ok different ∧
    (∀ r, r ≠ q → (C.updateCache parents R own given fetch s).2.disk.at_ r = s.disk.at_ r) ∧
    ∃ m', (C.updateCache parents R own given fetch s).2.disk.at_ q = some (.file b (some m')) ∧
      ∀ f, m' f = if u f ≠ .none ∧ (u f).emptyIterable = false then u f else m f := by
  obtain ⟨hn, md, hdir, hmd, hpid⟩ := hb
  have H : Hoare (fun d => d = s.disk) (C.updateCache parents R own given fetch)
      (fun x d => x = different ∧ OnlyAt q s.disk d ∧ d.at_ q = some (.file b (laid (some m) u))) (fun _ _ => False) := by
    unfold PEnv.updateCache
    refine .ite_ (fun h => ?_) fun _ => ?_
    · rcases hone with rfl | rfl <;> simp at h
    rw [hq]
    dsimp only
    refine .bind_ (parentId_runs C hF hdir hmd) fun i => .of_pre fun hi => ?_
    subst hi
    refine .ite_ (fun h => by simp [hn] at h) fun _ => .ite_ (fun h => by simp [hpid] at h) fun _ => ?_
    refine .bind_ (updater_runs C hF hrec hm hu hdiff hno) fun x => ?_
    refine .bind_ (Q := fun _ d => x = different ∧ OnlyAt q s.disk d ∧ d.at_ q = some (.file b (laid (some m) u)))
      (.ite_ (fun h => by simp [hn, hpid] at h) fun _ => .pure_ fun _ h => h) fun _ => .pure_ fun _ h => h
  have := H s rfl
  generalize C.updateCache parents R own given fetch s = r at this ⊢
  obtain ⟨r, s'⟩ := r
  cases r with
  | error e => exact this.elim
  | ok a =>
    obtain ⟨h1, h2, h3⟩ := this
    refine ⟨by rw [h1], h2, ?_⟩
    obtain ⟨m', hm'⟩ := Option.isSome_iff_exists.mp (laid_some (some m) u (.inl rfl))
    refine ⟨m', by rw [h3, hm'], fun f => ?_⟩
    have := laid_get (some m) u f
    rw [hm'] at this
    exact this

/-! ## What a move says, and what becomes of a link -/

/-- **C36**: which exception says that something else is at the target, when no call fails: a link there is a bug of the
caller, and without a remote the exception about it is itself a bug. -/
theorem C36_which (C : PEnv) (parents : Prog CObj Unit) {q t : Path} {x y : CObj} {given : Option Meta} {remote : Bool}
    {s : Machine CObj} (hF : ∀ n, C.F n = none) (hq : s.disk.at_ q = some x) (ht : s.disk.at_ t = some y) (hid : cacheId x ≠ cacheId y)
    (hp : there s.disk t.dropLast = true) (hx : x ≠ .link none) (hy : y ≠ .link none) :
    (∀ m, y = .link m → (C.move parents q t given remote false s).1 =
      .error (if remote then .whyDidntThisGetMovedBeforeError else .attributeError)) ∧
    ((∀ m, y ≠ .link m) → (C.move parents q t given remote false s).1 = .error .pathExistsError) := by
  have hne : t ≠ q := by
    rintro rfl
    rw [hq, Option.some.injEq] at ht
    exact hid (ht ▸ rfl)
  let R : PyErr → Disk CObj → Prop := fun e _ => e = if isBroken s.disk t then (if remote then .whyDidntThisGetMovedBeforeError else .attributeError)
    else .pathExistsError
  have hlook : ∀ {α : Type} (f : Disk CObj → α), Hoare (fun d => d = s.disk) (.look C.F fun d => .ok (f d)) (fun a d => a = f s.disk ∧ d = s.disk) R := by
    intro α f
    refine .look_err ?_ ?_
    · rintro d a rfl h
      injection h with h
      exact ⟨h.symm, rfl⟩
    · rintro e d hd (⟨n, h⟩ | h)
      · simp [hF] at h
      · simp at h
  have hmeta : ∀ {p : Path} {z : CObj}, s.disk.at_ p = some z → z ≠ .link none →
      Hoare (fun d => d = s.disk) (C.getMeta p) (fun m d => idVal m = cacheId z ∧ d = s.disk) R := by
    intro p z hz hl
    refine (getMeta_cacheId C hz).mono (fun _ h => h) (fun _ _ h => h) fun e d h => ?_
    rcases h.2 with ⟨n, h⟩ | h
    · simp [hF] at h
    · exact absurd h hl
  have hh : Hoare (fun d => d = s.disk) (C.move parents q t given remote false) (fun _ _ => False) R := by
    unfold PEnv.move
    rw [if_neg hne]
    refine .bind_ (hlook _) fun b => .of_pre fun hb => ?_
    rw [hb, hp, if_pos rfl]
    refine .bind_ (Q := fun _ d => d = s.disk) (.pure_ fun _ h => h) fun _ => ?_
    simp only [Bool.false_eq_true, if_false]
    refine .bind_ (Q := fun _ d => d = s.disk) (.pure_ fun _ h => h) fun _ => ?_
    refine .bind_ (hlook _) fun b => .of_pre fun hb => ?_
    rw [hb, ht, Option.isSome_some, if_pos rfl]
    refine .bind_ (Q := fun _ _ => False) ?_ fun _ => fun s hs => hs.elim
    unfold PEnv.conflict
    refine .bind_ (hmeta ht hy) fun mt => .of_pre fun hmt => .bind_ (hmeta hq hx) fun mq => .of_pre fun hmq => ?_
    rw [if_neg (by rw [hmt, hmq]; exact fun he => hid he.symm)]
    refine .bind_ (hlook _) fun b => .of_pre fun hb => ?_
    refine .ite_ (fun h => .ite_ (fun h' => .throw_ fun _ _ => ?_) (fun h' => .throw_ fun _ _ => ?_)) (fun h => .throw_ fun _ _ => ?_)
    · simp only [R]; rw [if_pos (hb ▸ h), if_pos h']
    · simp only [R]; rw [if_pos (hb ▸ h), if_neg h']
    · simp only [R]; rw [if_neg (hb ▸ h)]
  have := hh s rfl
  generalize C.move parents q t given remote false s = r at this ⊢
  obtain ⟨r, s'⟩ := r
  cases r with
  | ok a => exact this.elim
  | error e =>
    simp only [R, isBroken, ht] at this
    refine ⟨fun m hm => ?_, fun hl => ?_⟩
    · subst hm
      simp only [if_true] at this
      rw [this]
    · cases y with
      | link m => exact absurd rfl (hl m)
      | dir m => exact congrArg _ this
      | file b m => exact congrArg _ this

/-- **C37**: a link that is moved onto a file or directory with the same id, whatever call fails: its metadata are merged into
those of the target before it is removed, and the content of the target and everything else is as before. -/
theorem C37_link_merged (C : PEnv) (parents : Prog CObj Unit) {q t : Path} {m mt u : Meta} {k : Holder} {diff : Bool}
    {given : Option Meta} {remote : Bool} {s : Machine CObj} (hne : t ≠ q) (hq : s.disk.at_ q = some (.link (some m)))
    (ht : s.disk.at_ t = some (k.obj (some mt))) (hmt : metaBool mt = true) (hid : mt .id = m .id)
    (hu : updateMeta (some mt) (some m) = .ok (diff, some u)) (hmu : metaBool u = true) (hsame : diff = false ∨ k = .dir)
    (hp : there s.disk t.dropLast = true) :
    (∀ r, r ≠ q → r ≠ t → (C.move parents q t given remote false s).2.disk.at_ r = s.disk.at_ r) ∧
    match (C.move parents q t given remote false s).1 with
    | .ok p => p = t ∧ (C.move parents q t given remote false s).2.disk.at_ q = none ∧
      ∃ o, (C.move parents q t given remote false s).2.disk.at_ t = some (k.obj o) ∧ Overlaid (some mt) u o
    | .error e => (∃ n, C.F n = some e) ∧ (C.move parents q t given remote false s).2.disk.at_ q = some (.link (some m)) ∧
      ∃ o, (C.move parents q t given remote false s).2.disk.at_ t = some (k.obj o) ∧ PartlyLaid (some mt) u o := by
  let R : PyErr → Disk CObj → Prop := fun e d => (∃ n, C.F n = some e) ∧ OnlyAt t s.disk d ∧ ∃ o, PartlyLaid (some mt) u o ∧ d.at_ t = some (k.obj o)
  have hstart : ∀ e d, (∃ n, C.F n = some e) → d = s.disk → R e d := by
    rintro e d h rfl
    exact ⟨h, .refl _ _, _, fun _ => .inl rfl, ht⟩
  have hlook : ∀ {α : Type} (f : Disk CObj → α), Hoare (fun d => d = s.disk) (.look C.F fun d => .ok (f d)) (fun a d => a = f s.disk ∧ d = s.disk) R := by
    intro α f
    refine .look_err ?_ ?_
    · rintro d a rfl h
      injection h with h
      exact ⟨h.symm, rfl⟩
    · rintro e d hd (h | h)
      · exact hstart e d h hd
      · simp at h
  have hmeta : ∀ p o, s.disk.at_ p = some o → ∀ mo, (o = .link (some mo) ∨ o = k.obj (some mo) ∧ metaBool mo = true) →
      Hoare (fun d => d = s.disk) (C.getMeta p) (fun a d => a = some mo ∧ d = s.disk) R := by
    intro p o ho mo hmo
    have key : (match s.disk.at_ p with
        | some (.dir (some m)) | some (.file _ (some m)) => (.ok (if metaBool m then some m else none) : Except PyErr (Option Meta))
        | some (.link (some m)) => .ok (some m)
        | some (.link none) => .error .valueError
        | _ => .ok none) = .ok (some mo) := by
      rw [ho]
      rcases hmo with rfl | ⟨rfl, h⟩
      · rfl
      · cases k <;> simp only [Holder.obj, h, if_true]
    refine .look_err ?_ ?_
    · rintro d a rfl h
      have h := key.symm.trans h
      injection h with h
      exact ⟨h.symm, rfl⟩
    · rintro e d hd (h | h)
      · exact hstart e d h hd
      · subst hd
        have h := key.symm.trans h
        simp at h
  have hh : Hoare (fun d => d = s.disk) (C.move parents q t given remote false)
      (fun p d => p = t ∧ d.at_ q = none ∧ d.at_ t = some (k.obj (laid (some mt) u)) ∧ ∀ r, r ≠ q → r ≠ t → d.at_ r = s.disk.at_ r) R := by
    unfold PEnv.move
    rw [if_neg hne]
    refine .bind_ (hlook _) fun b => .of_pre fun hb => ?_
    rw [hb, hp, if_pos rfl]
    refine .bind_ (Q := fun _ d => d = s.disk) (.pure_ fun _ h => h) fun _ => ?_
    simp only [Bool.false_eq_true, if_false]
    refine .bind_ (Q := fun _ d => d = s.disk) (.pure_ fun _ h => h) fun _ => ?_
    refine .bind_ (hlook _) fun b => .of_pre fun hb => ?_
    rw [hb, ht, Option.isSome_some, if_pos rfl]
    have hthen : Hoare (fun d => OnlyAt t s.disk d ∧ d.at_ t = some (k.obj (laid (some mt) u))) (.bind (.look C.F fun d => .ok (there d q)) fun ex =>
        .bind (if ex then C.renames q t
          else
            .bind (.look C.F fun d => .ok (isBroken d q)) fun b =>
              if b then .act C.F fun d => d.unlink q else .pure ()) fun _ =>
        .pure t)
        (fun p d => p = t ∧ d.at_ q = none ∧ d.at_ t = some (k.obj (laid (some mt) u)) ∧ ∀ r, r ≠ q → r ≠ t → d.at_ r = s.disk.at_ r) R := by
      have hfull : PartlyLaid (some mt) u (laid (some mt) u) := by
        intro f
        have := overlaid_laid (some mt) u f
        rw [this]
        by_cases h : Storable (u f)
        · exact .inr ⟨h, by rw [if_pos h]⟩
        · exact .inl (by rw [if_neg h])
      have hlink : ∀ d, OnlyAt t s.disk d → d.at_ q = some (.link (some m)) := fun d h => by rw [h q (Ne.symm hne), hq]
      refine .bind_ (Q := fun ex d => ex = false ∧ OnlyAt t s.disk d ∧ d.at_ t = some (k.obj (laid (some mt) u))) (.look_err ?_ ?_) fun ex => .of_pre fun hex => ?_
      · rintro d a ⟨h1, h2⟩ h
        injection h with h
        refine ⟨?_, h1, h2⟩
        rw [← h]
        simp only [there, hlink d h1]
      · rintro e d ⟨h1, h2⟩ (h | h)
        · exact ⟨h, h1, _, hfull, h2⟩
        · simp at h
      subst hex
      simp only [Bool.false_eq_true, if_false]
      refine .bind_ (Q := fun _ d => d.at_ q = none ∧ d.at_ t = some (k.obj (laid (some mt) u)) ∧ ∀ r, r ≠ q → r ≠ t → d.at_ r = s.disk.at_ r)
        ?_ fun _ => .pure_ fun d h => ⟨rfl, h⟩
      refine .bind_ (Q := fun b d => b = true ∧ OnlyAt t s.disk d ∧ d.at_ t = some (k.obj (laid (some mt) u))) (.look_err ?_ ?_) fun b => .of_pre fun hb => ?_
      · rintro d a ⟨h1, h2⟩ h
        injection h with h
        refine ⟨?_, h1, h2⟩
        rw [← h]
        simp only [isBroken, hlink d h1]
      · rintro e d ⟨h1, h2⟩ (h | h)
        · exact ⟨h, h1, _, hfull, h2⟩
        · simp at h
      subst hb
      rw [if_pos rfl]
      have hun : ∀ d, OnlyAt t s.disk d → d.unlink q = .ok (d.erase q) := by
        intro d h
        unfold Disk.unlink
        rw [hlink d h]
        rfl
      refine .act_err ?_ ?_
      · rintro d d' ⟨h1, h2⟩ h
        rw [hun d h1] at h
        injection h with h
        subst h
        refine ⟨by rw [Disk.at_erase, if_pos rfl], by rw [Disk.at_erase, if_neg hne]; exact h2, fun r hr hr' => ?_⟩
        rw [Disk.at_erase, if_neg hr]
        exact h1 r hr'
      · rintro e d ⟨h1, h2⟩ (h | h)
        · exact ⟨h, h1, _, hfull, h2⟩
        · rw [hun d h1] at h
          simp at h
    refine .bind_ (Q := fun _ d => OnlyAt t s.disk d ∧ d.at_ t = some (k.obj (laid (some mt) u))) ?_ fun _ => hthen
    unfold PEnv.conflict
    refine .bind_ (hmeta t _ ht mt (.inr ⟨rfl, hmt⟩)) fun a => .of_pre fun ha => .bind_ (hmeta q _ hq m (.inl rfl)) fun a' => .of_pre fun ha' => ?_
    subst ha ha'
    rw [if_pos (by exact hid)]
    refine .bind_ (hlook _) fun b => .of_pre fun hb => ?_
    rw [if_pos (by rw [hb]; simp [isBroken, hq])]
    dsimp only
    refine .bind_ (Q := fun _ d => OnlyAt t s.disk d ∧ d.at_ t = some (k.obj (laid (some mt) u))) ?_ fun _ => .pure_ fun _ h => h
    unfold PEnv.metaUpdater
    refine .bind_ (hmeta t _ ht mt (.inr ⟨rfl, hmt⟩)) fun a => .of_pre fun ha => ?_
    subst ha
    rw [hu]
    dsimp only
    refine .bind_ (Q := fun isf d => isf = false ∧ d = s.disk) ?_ fun isf => .of_pre fun hisf => ?_
    · refine .ite_ (fun hd => ?_) (fun _ => .pure_ fun _ h => ⟨rfl, h⟩)
      refine (hlook _).mono (fun _ h => h) (fun a d h => ⟨?_, h.2⟩) (fun _ _ h => h)
      rcases hsame with hsame | hsame
      · rw [hsame] at hd; simp at hd
      · rw [h.1]
        simp only [isFile, ht, hsame, Holder.obj]
    subst hisf
    simp only [Bool.false_and, Bool.false_eq_true, if_false]
    refine .bind_ (Q := fun _ d => OnlyAt t s.disk d ∧ d.at_ t = some (k.obj (laid (some mt) u))) ?_ fun _ => .pure_ fun _ h => h
    refine (setMeta_holder C k u hmu).mono ?_ (fun _ _ h => h) (fun _ _ h => h)
    rintro d rfl
    exact ⟨.refl _ _, ht⟩
  have := hh s rfl
  generalize C.move parents q t given remote false s = r at this ⊢
  obtain ⟨r, s'⟩ := r
  cases r with
  | ok p =>
    obtain ⟨h1, h2, h3, h4⟩ := this
    exact ⟨h4, h1, h2, _, h3, overlaid_laid _ _⟩
  | error e =>
    obtain ⟨h1, h2, o, h3, h4⟩ := this
    exact ⟨fun r _ hr => h2 r hr, h1, by rw [← hq]; exact h2 q (Ne.symm hne), o, h4, h3⟩

/-- A link is moved onto a file with the same id: the file is kept, and it has a field of the link now. -/
example : (simple.move (.pure ()) [['b']] [['a']] none true false
      ⟨[([], .dir none), ([['a']], .file [1] (some (justId ['i']))), ([['b']], .link (some (Verif.setField (justId ['i']) .user_id (.str ['u']))))], 0⟩).1 =
        .ok [['a']] ∧
    (match updateMeta (some (justId ['i'])) (some (Verif.setField (justId ['i']) .user_id (.str ['u']))) with
      | .ok (d, some u) => !d && metaBool u && decide (u .user_id = .str ['u'])
      | _ => false) = true := by
  refine ⟨by decide +kernel, by decide +kernel⟩

end Verif.Cache
