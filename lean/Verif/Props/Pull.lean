import Verif.Props.Kept
import Verif.Lemmas.Decide

/-!
# C92: what an update of a cache keeps when the cache is moved
-/

namespace Verif.Cache
open Verif.FS Verif.Spec Verif.Yields Verif.Sweep

/-! ## The update at the place where the remote belongs -/

/-- What has to be known about the place where the remote belongs, for a cache at `q` whose id is `i`. -/
structure Destined (C : PEnv) (R : RemoteView) (q : Path) (i : Str) (d : Disk CObj) : Prop where
  apart : Apart q R.dest
  aside : Apart q (safeUnlink R.dest)
  trash : Apart R.dest C.loc
  asideTrash : Apart (C.loc ++ [fsSafeId i]) (safeUnlink R.dest)
  parent : InDir d R.dest
  recorded : ∀ m, d.at_ R.dest = some (.link (some m)) ∨ (∃ b, d.at_ R.dest = some (.file b (some m))) →
    ∃ j, m .id = .str j ∧ Usable C.trash j ∧ fsSafeId j ≠ fsSafeId i
  above : ∀ r, r <+: C.loc → d.at_ r ≠ none
  refresh : Harmless R.dest C.refresh

/-- The only child that there is, for an environment that says what its remote is. -/
def asSent (C : PEnv) : Sent := ⟨fun _ => C.chunks, fun _ => C.remoteSum, fun _ => C.cacheKey, fun _ => C.refresh⟩

def asChild (C : PEnv) (q : Path) (info : Meta) : Child := ⟨q, [], if C.remoteIsDir then .dir else .file, true, info, none⟩

theorem of_asChild (C : PEnv) (q : Path) (info : Meta) : C.of (asSent C) (asChild C q info) = C := by
  unfold PEnv.of asSent asChild Child.dir
  cases C with | mk => cases ‹Bool› <;> rfl

/-- What making a cache may change, whatever is at its path. -/
theorem makeChild_safe {C : PEnv} {q : Path} {info : Meta} {d0 : Disk CObj}
    (hrec : ∀ m, d0.at_ q = some (.link (some m)) ∨ (∃ b, d0.at_ q = some (.file b (some m))) → ∃ i, m .id = .str i ∧ Usable C.trash i)
    (hcalls : ∀ n, C.F n ≠ some .nameTooLongError) (htrash : ∃ m, d0.at_ C.loc = some (.dir m)) (hap : Apart q C.loc)
    (hpar : d0.at_ q ≠ none → isDirAt d0 q = true ∨ InDir d0 q) (hrf : Harmless q C.refresh) :
    Hoare (fun d => d = d0) (C.makeChild q info) (fun p d => p = q ∧ ∃ k, Step C k q d0 d) (fun _ d => ∃ k, Step C k q d0 d) := by
  have h := childInit_safe (C := C) (S := asSent C) (a := []) (c := asChild C q info) (d0 := d0)
    ⟨hrec, hcalls, htrash, hap, hpar, hrf⟩ (by unfold asChild; dsimp only; split <;> simp)
  unfold PEnv.childInit at h
  rw [of_asChild] at h
  replace h : Hoare (fun d => d = d0) (C.makeChild q info) (fun _ d => Step C (asChild C q info).shape q d0 d)
    (fun _ d => Step C (asChild C q info).shape q d0 d) := h
  have hr : Hoare (fun _ => True) (C.makeChild q info) (fun p _ => p = q) (fun _ _ => True) :=
    (makeChild_hoare C (P := fun _ => True) (Q := fun _ => True) (R := fun _ _ => True)
      (fun s _ => by
        generalize C.metaUpdater q info true s = r
        obtain ⟨r, s'⟩ := r
        cases r <;> trivial)).mono (fun _ h => h) (fun _ _ h => h.1) (fun _ _ _ => trivial)
  intro s hs
  have h1 := h s hs
  have h2 := hr s trivial
  generalize C.makeChild q info s = r at h1 h2 ⊢
  obtain ⟨r, s'⟩ := r
  cases r with
  | ok p => exact ⟨h2, _, h1⟩
  | error e => exact ⟨_, h1⟩

theorem apart_under {a b : Path} (h : Apart a b) (x : Name) : ¬ b ++ [x] <+: a ∧ ¬ a <+: b ++ [x] :=
  ⟨fun hc => h.2 ((List.prefix_append _ _).trans hc), (apart_append' h.symm [x]).2⟩

/-- **C92**: whatever calls fail and whatever the remote sends, after an update the local content is still at its path, at the path
that the remote asks for, or in the trash, and what is at other paths is as before.  What is at the path that the remote asks for may
go to the trash as well, to the place that is named after its id. -/
theorem C92_kept_partial (C : PEnv) (parents : Prog CObj Unit) {R : RemoteView} {own given : Option Path} {fetch : Bool} {q : Path} {m : Meta}
    {b : Bytes} {i : Str} {s : Machine CObj} (hq : given.or own = some q) (h : Replacing C q b m i s.disk)
    (hid : ∀ x u, updateMeta (some m) (some R.info) = .ok (x, u) → ∃ u', u = some u' ∧ u' .file_id ≠ .none)
    (hd : Destined C R q i s.disk) :
    (∃ p, (p = q ∨ p = R.dest ∨ p = C.loc ++ [fsSafeId i]) ∧ ∃ m', (C.updateCache parents R own given fetch s).2.disk.at_ p = some (.file b m')) ∧
    ∀ r, ¬ q <+: r → ¬ R.dest <+: r → ¬ safeUnlink R.dest <+: r → ¬ C.loc ++ [fsSafeId i] <+: r →
      (∀ p, Binned C s.disk R.dest p → ¬ p <+: r) →
      (C.updateCache parents R own given fetch s).2.disk.at_ r = s.disk.at_ r := by
  let Fin : Disk CObj → Prop := fun d => (∃ p, (p = q ∨ p = R.dest ∨ p = C.loc ++ [fsSafeId i]) ∧ Has d p b) ∧
    ∀ r, ¬ q <+: r → ¬ R.dest <+: r → ¬ safeUnlink R.dest <+: r → ¬ C.loc ++ [fsSafeId i] <+: r →
      (∀ p, Binned C s.disk R.dest p → ¬ p <+: r) → d.at_ r = s.disk.at_ r
  have hsame : ∀ d, d = s.disk → Fin d := by
    rintro d rfl
    exact ⟨⟨q, .inl rfl, _, h.file⟩, fun _ _ _ _ _ _ => rfl⟩
  have hmid : ∀ d, (∀ r, ¬ q <+: r → ¬ C.loc ++ [fsSafeId i] <+: r → d.at_ r = s.disk.at_ r) ∧
        (Has d q b ∨ Has d (C.loc ++ [fsSafeId i]) b) → Fin d := by
    rintro d ⟨h1, h2⟩
    refine ⟨?_, fun r hr1 _ _ hr4 _ => h1 r hr1 hr4⟩
    rcases h2 with h2 | h2
    · exact ⟨_, .inl rfl, h2⟩
    · exact ⟨_, .inr (.inr rfl), h2⟩
  have hne : R.dest ≠ [] := fun he => hd.apart.2 (he ▸ List.nil_prefix)
  have H : Hoare (fun d => d = s.disk) (C.updateCache parents R own given fetch) (fun _ => Fin) (fun _ => Fin) := by
    unfold PEnv.updateCache
    refine .ite_ (fun _ => .throw_ hsame) fun _ => ?_
    rw [hq]
    dsimp only
    refine .bind_ (Q := fun _ d => d = s.disk) ?_ fun pid => ?_
    · unfold PEnv.parentId PEnv.getMeta
      exact .bind_ (Q := fun _ d => d = s.disk) (.look_ (fun _ _ h _ => h) fun _ d h => hsame d h) fun _ => .pure_ fun _ h => h
    refine .ite_ (fun _ => .throw_ hsame) fun _ => .ite_ (fun _ => .throw_ hsame) fun _ => ?_
    refine .bind_ ((updater_keeps C (fetch := fetch) h hid).mono (fun _ h => h) (fun _ _ h => h) fun _ d hd => hmid d hd) fun different => ?_
    refine .bind_ (Q := fun _ => Fin) ?_ fun _ => .pure_ fun _ h => h
    refine .ite_ (fun _ => ?_) fun _ => .pure_ fun d hd => hmid d ⟨hd.1, hd.2.2⟩
    refine .bind_ (Q := fun _ => Fin) ?_ fun _ => .pure_ fun _ h => h
    refine .of_each fun d1 ⟨h1, ⟨b', m', h2⟩, h3⟩ => ?_
    -- the update at the target
    have hat : d1.at_ R.dest = s.disk.at_ R.dest :=
      h1 _ hd.apart.1 fun hc => hd.trash.2 ((List.prefix_append _ _).trans hc)
    have hup : d1.at_ R.dest.dropLast = s.disk.at_ R.dest.dropLast :=
      h1 _ (fun hc => hd.apart.1 (hc.trans (List.dropLast_prefix _)))
        fun hc => hd.trash.2 (((List.prefix_append _ _).trans hc).trans (List.dropLast_prefix _))
    have habove : ∀ r, r <+: C.loc → d1.at_ r ≠ none := by
      intro r hr
      rw [h1 r (fun hc => h.apart.1 (hc.trans hr)) fun hc => by
        have := (hc.trans hr).length_le
        rw [List.length_append, List.length_singleton] at this
        omega]
      exact hd.above r hr
    have hbin : ∀ p, Binned C d1 R.dest p ↔ Binned C s.disk R.dest p := by
      intro p
      unfold Binned
      rw [hat]
    have hother : ∀ p, Binned C s.disk R.dest p → ¬ p <+: C.loc ++ [fsSafeId i] := by
      rintro p ⟨w, j, hw, hj, rfl⟩ hc
      obtain ⟨j', hj', -, hne⟩ := hd.recorded w hw
      rw [hj] at hj'
      injection hj' with hj'
      subst hj'
      have := hc.eq_of_length (by simp)
      simp only [List.append_cancel_left_eq, List.cons.injEq, and_true] at this
      exact hne this
    have hsafe := makeChild_safe (C := C) (q := R.dest) (info := R.info) (d0 := d1)
      (fun w hw => by rw [hat] at hw; obtain ⟨j, hj, hu, -⟩ := hd.recorded w hw; exact ⟨j, hj, hu⟩) h.calls
      (by
        obtain ⟨w, hw⟩ := h.trash
        refine ⟨w, ?_⟩
        rw [h1 _ h.apart.1 fun hc => by
          have := hc.length_le
          rw [List.length_append, List.length_singleton] at this
          omega]
        exact hw)
      hd.trash (fun _ => .inr ⟨hne, by rw [hup]; exact hd.parent.2⟩) hd.refresh
    have hstep : ∀ k d, Step C k R.dest d1 d → (∀ r, ¬ q <+: r → ¬ R.dest <+: r → ¬ C.loc ++ [fsSafeId i] <+: r →
        (∀ p, Binned C s.disk R.dest p → ¬ p <+: r) → d.at_ r = s.disk.at_ r) ∧ d.at_ q = some (.file b' m') ∧
        (Has d q b ∨ Has d (C.loc ++ [fsSafeId i]) b) := by
      intro k d hk
      have hout : ∀ r, ¬ R.dest <+: r → (∀ p, Binned C s.disk R.dest p → ¬ p <+: r) → d.at_ r = d1.at_ r := by
        intro r hr hp
        rcases hk.outside r hr (fun p hb => hp p ((hbin p).1 hb)) with he | ⟨rfl | hl, hn, -⟩
        · exact he
        · obtain ⟨-, w, hw⟩ := hd.parent
          rw [hup, hw] at hn
          simp at hn
        · exact absurd hn (habove r hl)
      have hqq : d.at_ q = d1.at_ q := hout q hd.apart.2 fun p hb hc => by
        obtain ⟨hl, -⟩ := binned_loc hb
        exact h.apart.2 (hl.trans hc)
      refine ⟨fun r g1 g2 g3 g4 => by rw [hout r g2 g4, h1 r g1 g3], by rw [hqq, h2], ?_⟩
      rcases h3 with ⟨w, h3⟩ | ⟨w, h3⟩
      · exact .inl ⟨w, by rw [hqq, h3]⟩
      · exact .inr ⟨w, by rw [hout _ (apart_under hd.trash _).2 hother, h3]⟩
    have hmid2 : ∀ k d, Step C k R.dest d1 d → Fin d := by
      intro k d hk
      obtain ⟨g1, -, g3⟩ := hstep k d hk
      refine ⟨?_, fun r a1 a2 _ a4 a5 => g1 r a1 a2 a4 a5⟩
      rcases g3 with g3 | g3
      · exact ⟨_, .inl rfl, g3⟩
      · exact ⟨_, .inr (.inr rfl), g3⟩
    unfold PEnv.moveHome PEnv.home
    refine .bind_ (hsafe.mono (fun _ h => h) (fun _ _ h => h) fun _ d ⟨k, hk⟩ => hmid2 k d hk) fun t => .of_pre fun ht => ?_
    subst ht
    -- the move
    rintro s2 ⟨k, hk⟩
    obtain ⟨g1, g2, g3⟩ := hstep k _ hk
    have hp2 : there s2.disk R.dest.dropLast = true := by
      have : s2.disk.at_ R.dest.dropLast = s.disk.at_ R.dest.dropLast :=
        g1 _ (fun hc => hd.apart.1 (hc.trans (List.dropLast_prefix _)))
          (fun hc => by
            have := hc.length_le
            have := List.length_pos_iff.2 hne
            simp at *
            omega)
          (fun hc => hd.trash.2 (((List.prefix_append _ _).trans hc).trans (List.dropLast_prefix _)))
          fun p hb hc => hd.trash.2 (((binned_loc hb).1.trans hc).trans (List.dropLast_prefix _))
      obtain ⟨-, w, hw⟩ := hd.parent
      simp [there, this, hw]
    have hmv := move_keeps C parents (given := none) (remote := true) (fun _ => ⟨hd.apart, hd.aside, hne⟩) g2 hp2 s2 rfl
    have hfin : ∀ d, OneOf q R.dest (.file b' m') d ∧ (∀ r, ¬ q <+: r → ¬ R.dest <+: r → ¬ safeUnlink R.dest <+: r → d.at_ r = s2.disk.at_ r) →
        Fin d := by
      rintro d ⟨a1, a2⟩
      refine ⟨?_, fun r hr1 hr2 hr3 hr4 hr5 => by rw [a2 r hr1 hr2 hr3, g1 r hr1 hr2 hr4 hr5]⟩
      rcases g3 with ⟨m2, g3⟩ | ⟨m2, g3⟩
      · rw [g2] at g3
        cases g3
        rcases a1 with a1 | a1
        · exact ⟨_, .inl rfl, _, a1⟩
        · exact ⟨_, .inr (.inl rfl), _, a1⟩
      · refine ⟨_, .inr (.inr rfl), m2, ?_⟩
        rw [a2 _ (apart_under h.apart _).2 (apart_under hd.trash _).2 hd.asideTrash.2]
        exact g3
    generalize C.move parents q R.dest none true false s2 = r at hmv ⊢
    obtain ⟨r, s'⟩ := r
    cases r <;> exact hfin _ hmv
  have := H s rfl
  generalize C.updateCache parents R own given fetch s = r at this ⊢
  obtain ⟨r, s'⟩ := r
  cases r <;> exact this

/-- Where nothing is, making a cache makes a symlink that holds the metadata of the remote. -/
theorem makeChild_free (C : PEnv) {q : Path} {info : Meta} {d0 : Disk CObj} (hF : ∀ n, C.F n = none) (hm : metaBool info = true)
    (hr : C.remoteIsDir = false) (hq : d0.at_ q = none) (hp : InDir d0 q) :
    Hoare (fun d => d = d0) (C.makeChild q info) (fun p d => p = q ∧ OnlyAt q d0 d ∧ d.at_ q = some (.link (some info))) (fun _ _ => False) := by
  obtain ⟨hne, mp, hmp⟩ := hp
  refine (makeChild_hoare C (Q := fun d => OnlyAt q d0 d ∧ d.at_ q = some (.link (some info))) (R := fun _ _ => False) ?_).mono
    (fun _ h => h) (fun _ _ h => h) (fun _ _ ⟨_, h, _⟩ => h)
  unfold PEnv.metaUpdater PEnv.getMeta
  refine .bind_ (Q := fun mo d => mo = none ∧ d = d0) (.look_err ?_ ?_) fun mo => .of_pre fun hmo => ?_
  · rintro d x rfl hx
    rw [hq] at hx
    simp only [Except.ok.injEq] at hx
    exact ⟨hx.symm, rfl⟩
  · rintro e d rfl (⟨n, hn⟩ | hx)
    · rw [hF] at hn; simp at hn
    · rw [hq] at hx; simp at hx
  subst hmo
  simp only [updateMeta, Bool.false_eq_true, if_false]
  refine .bind_ (Q := fun b d => b = false ∧ d = d0) (.pure_ fun d h => ⟨rfl, h⟩) fun b => .of_pre fun hb => ?_
  subst hb
  simp only [Bool.false_and, Bool.false_eq_true, if_false]
  refine .bind_ (Q := fun _ d => OnlyAt q d0 d ∧ d.at_ q = some (.link (some info))) ?_ fun _ => .pure_ fun _ h => h
  intro s hs
  have h1 := setMeta_nothing C info hm hne hq s hs
  have h2 := C100_returns C hF info s hne (.inr (.inl ⟨by rw [hs, hq], mp, by rw [hs, hmp]⟩))
  generalize C.setMeta q (some info) s = r at h1 h2 ⊢
  obtain ⟨r, s'⟩ := r
  dsimp only at h2
  subst h2
  dsimp only at h1 ⊢
  rw [hr] at h1
  simp only [Bool.false_eq_true, if_false] at h1
  refine ⟨fun r hne' => ?_, h1.2⟩
  rcases h1.1 r hne' with h | ⟨rfl, h, -⟩
  · exact h
  · rw [hmp] at h; simp at h

/-- **C92**: a cache of the remote itself that does not belong where it is goes where the remote says: when no call fails, nothing is
fetched and nothing is at the target, its content is there with the fields of the update, and nothing is at its old path. -/
theorem C92_moved (C : PEnv) (parents : Prog CObj Unit) {R : RemoteView} {fetch different : Bool} {q : Path}
    {m u md : Meta} {b : Bytes} {s : Machine CObj} (hF : ∀ n, C.F n = none) (hrd : C.remoteIsDir = false)
    (hrec : s.disk.at_ q = some (.file b (some m))) (hm : metaBool m = true) (hu : metaBool u = true)
    (hdiff : updateMeta (some m) (some R.info) = .ok (different, some u)) (hno : different = false ∨ fetch = false)
    (hid : Carries (R.info .id)) (huid : u .id = R.info .id) (hrm : metaBool R.info = true)
    (hdir : s.disk.at_ q.dropLast = some (.dir (some md))) (hmd : metaBool md = true)
    (hmove : q.getLast? ≠ some R.name ∨ pyEq R.parentId (md .id) = false)
    (hmv : Moving q R.dest s.disk) (hp : isDirAt s.disk R.dest.dropLast = true) (hfree : s.disk.at_ R.dest = none) :
    (C.updateCache parents R (some q) none fetch s).1 = .ok different ∧
    (C.updateCache parents R (some q) none fetch s).2.disk.at_ q = none ∧
    (∃ m', (C.updateCache parents R (some q) none fetch s).2.disk.at_ R.dest = some (.file b (some m')) ∧
      ∀ f, m' f = if u f ≠ .none ∧ (u f).emptyIterable = false then u f else m f) ∧
    (C.updateCache parents R (some q) none fetch s).2.disk.at_ (safeUnlink R.dest) = none ∧
    ∀ r, ¬ q <+: r → ¬ R.dest <+: r → ¬ safeUnlink R.dest <+: r →
      (C.updateCache parents R (some q) none fetch s).2.disk.at_ r = s.disk.at_ r := by
  have hne : R.dest ≠ q := fun h => hmv.apart.1 (h ▸ List.prefix_refl _)
  obtain ⟨m', hm'⟩ := Option.isSome_iff_exists.mp (laid_some (some m) u (.inl rfl))
  have hget : ∀ f, m' f = if u f ≠ .none ∧ (u f).emptyIterable = false then u f else m f := by
    intro f
    have := laid_get (some m) u f
    rw [hm'] at this
    exact this
  have hidm : m' .id = R.info .id := by
    rw [hget, huid, if_pos]
    cases hc : R.info .id <;> simp [hc, Carries, PyVal.emptyIterable] at hid ⊢ <;> exact hid
  have hmm : metaBool m' = true := by
    unfold metaBool
    rw [List.any_eq_true]
    refine ⟨.id, mem_all _, ?_⟩
    rw [if_neg (by decide), hidm]
    cases hc : R.info .id <;> simp [hc, Carries] at hid ⊢
  have H : Hoare (fun d => d = s.disk) (C.updateCache parents R (some q) none fetch)
      (fun x d => x = different ∧ ∃ d1, (∀ r, r ≠ q → r ≠ R.dest → d1.at_ r = s.disk.at_ r) ∧ d1.at_ q = some (.file b (laid (some m) u)) ∧ MovedTo d1 d q R.dest ∧
        d.at_ (safeUnlink R.dest) = none) (fun _ _ => False) := by
    unfold PEnv.updateCache
    refine .ite_ (fun h => by simp at h) fun _ => ?_
    show Hoare _ (Prog.bind (C.parentId q) _) _ _
    refine .bind_ (parentId_runs C hF hdir hmd) fun i => .of_pre fun hi => ?_
    subst hi
    refine .ite_ (fun h => by simp at h) fun _ => .ite_ (fun h => by simp at h) fun _ => ?_
    refine .bind_ (updater_runs C hF hrec hm hu hdiff hno) fun x => .of_pre fun hx => ?_
    subst hx
    rw [if_pos (by simpa using hmove)]
    refine .bind_ (Q := fun _ d => ∃ d1, (∀ r, r ≠ q → r ≠ R.dest → d1.at_ r = s.disk.at_ r) ∧ d1.at_ q = some (.file b (laid (some m) u)) ∧ MovedTo d1 d q R.dest ∧
        d.at_ (safeUnlink R.dest) = none) (.bind_ (Q := fun _ d => ∃ d1, (∀ r, r ≠ q → r ≠ R.dest → d1.at_ r = s.disk.at_ r) ∧ d1.at_ q = some (.file b (laid (some m) u)) ∧ MovedTo d1 d q R.dest ∧
        d.at_ (safeUnlink R.dest) = none) ?_ fun _ => .pure_ fun _ h => h) fun _ => .pure_ fun _ h => ⟨rfl, h⟩
    refine .of_each fun d1 ⟨h1, h2⟩ => ?_
    have hup : d1.at_ R.dest.dropLast = s.disk.at_ R.dest.dropLast :=
      h1 R.dest.dropLast (by rintro h; exact hmv.apart.1 (h ▸ List.dropLast_prefix _))
    have hup' : R.dest.dropLast ≠ R.dest := by
      intro h
      have := congrArg List.length h
      have := List.length_pos_iff.2 hmv.target
      simp at *
      omega
    unfold PEnv.moveHome PEnv.home
    refine .bind_ (makeChild_free C hF hrm hrd (by rw [h1 _ hne, hfree]) ⟨hmv.target, by rw [hup]; exact isDirAt_iff.1 hp⟩) fun t => .of_pre fun ht => ?_
    subst ht
    rintro s1 ⟨g1, g2⟩
    have h2' : s1.disk.at_ q = some (.file b (some m')) := by rw [g1 _ hne.symm, h2, hm']
    have hmv1 : Moving q R.dest s1.disk := by
      refine ⟨there_file h2', hmv.apart, hmv.target, fun r hr => ?_⟩
      rw [g1 r (by rintro rfl; exact (safeUnlink_apart hmv.target).2 hr), h1 r (by rintro rfl; exact hmv.apart_safe.2 hr)]
      exact hmv.free r hr
    have hp1 : isDirAt s1.disk R.dest.dropLast = true := by
      unfold isDirAt
      rw [g1 _ hup', hup]
      exact hp
    have := C37_moves_partial C parents (given := none) (remote := true) hF hmv1 hp1
      (fun x y hx hy => by
        rw [h2'] at hx
        rw [g2] at hy
        cases hx
        cases hy
        simp [cacheId, hmm, hidm]) (by simp [isFile, h2']) (by simp [isDirAt, g2])
    generalize C.move parents q R.dest none true false s1 = r at this ⊢
    obtain ⟨r, s'⟩ := r
    obtain ⟨k1, k2, k3⟩ := this
    cases r with
    | error e => simp at k1
    | ok a => exact ⟨_, fun r a1 a2 => by rw [g1 r a2, h1 r a1], by rw [h2', hm'], k2, k3⟩
  have := H s rfl
  generalize C.updateCache parents R (some q) none fetch s = r at this ⊢
  obtain ⟨r, s'⟩ := r
  cases r with
  | error e => exact this.elim
  | ok a =>
    obtain ⟨h1, d1, h2, h3, h4, h5⟩ := this
    have hsq := hmv.apart_safe
    refine ⟨by rw [h1], ?_, ⟨m', ?_, hget⟩, h5, fun r hr1 hr2 hr3 => ?_⟩
    · rw [h4 q hsq.2]
      simp [mv, hmv.apart.2]
    · rw [h4]
      · simp [mv, h3, hm']
      · exact (safeUnlink_apart hmv.target).2
    · rw [h4 r hr3]
      simp only [mv, hr1, hr2, if_false]
      exact h2 r (by rintro rfl; exact hr1 (List.prefix_refl _)) (by rintro rfl; exact hr2 (List.prefix_refl _))

/-! ## Where the claim fails, and examples -/

/-- A remote whose name is `n`, with the parent `p`. -/
def remoteNamed (n p : Str) (info : Meta) (dest : Path) : RemoteView := ⟨n, .str p, info, dest⟩

/-- A directory `p` with a file in it. -/
def inDir (more : Disk CObj) : Machine CObj :=
  ⟨[([], .dir none), ([['t']], .dir none), ([['d']], .dir (some (justId ['p']))), ([['d'], ['a']], .file [1] (some (threeBytes [1])))] ++ more, 0⟩

/-- A remote that sends three bytes. -/
def sends : PEnv := { simple with chunks := [.ok [2, 3, 4]] }

/-- Metadata of three bytes with the id `j`. -/
def threeOf (j : Str) (c : Bytes) : Meta := Verif.setField (threeBytes c) .id (.str j)

/-- The update is not all or nothing: what is fetched replaces the file and its metadata before the move is found to be impossible. -/
theorem C92_half_counterexample :
    let r := sends.updateCache (.pure ()) (remoteNamed ['b'] ['p'] (threeBytes [2]) [['d'], ['b']]) (some [['d'], ['a']]) none true
      (inDir [([['d'], ['b']], .file [9] (some (justId ['z'])))])
    r.1 = .error .localChangesError ∧
      contents r.2.disk = [([['d'], ['a']], some [2, 3, 4]), ([], none), ([['t']], none), ([['d']], none), ([['t'], ['i']], some [1]),
        ([['d'], ['b']], some [9])] := by
  refine ⟨by decide +kernel, by decide +kernel⟩

/-- Another file at the target is overwritten, with whatever was changed in it, although its id is another one: it gets the metadata of
the remote before the ids are compared. -/
theorem C92_overwritten_counterexample :
    let r := sends.updateCache (.pure ()) (remoteNamed ['b'] ['p'] (threeBytes [2]) [['d'], ['b']]) (some [['d'], ['a']]) none true
      (inDir [([['d'], ['b']], .file [9] (some (threeOf ['z'] [2])))])
    r.1 = .ok true ∧ contents r.2.disk = [([['d'], ['b']], some [2, 3, 4]), ([], none), ([['t']], none), ([['d']], none), ([['t'], ['i']], some [1])] := by
  refine ⟨by decide +kernel, by decide +kernel⟩

/-- Without the hypothesis about the ids: the symlink at the target has the same id and other metadata, so that it goes to the trash,
over the content that was put there.  The local content is nowhere. -/
theorem C92_trash_counterexample :
    let r := sends.updateCache (.pure ()) (remoteNamed ['b'] ['p'] (threeBytes [2]) [['d'], ['b']]) (some [['d'], ['a']]) none true
      (inDir [([['d'], ['b']], .link (some (threeBytes [1])))])
    r.1 = .ok true ∧ contents r.2.disk = [([['d'], ['b']], some [2, 3, 4]), ([], none), ([['t']], none), ([['d']], none), ([['t'], ['i']], none)] := by
  refine ⟨by decide +kernel, by decide +kernel⟩

/-- A directory at the target gets the metadata of the file, and the update returns normally although nothing was moved. -/
theorem C92_directory_counterexample :
    let r := sends.updateCache (.pure ()) (remoteNamed ['b'] ['p'] (threeBytes [2]) [['d'], ['b']]) (some [['d'], ['a']]) none true
      (inDir [([['d'], ['b']], .dir (some (justId ['z'])))])
    r.1 = .ok true ∧ contents r.2.disk = [([['d'], ['b']], none), ([['d'], ['a']], some [2, 3, 4]), ([], none), ([['t']], none), ([['d']], none),
        ([['t'], ['i']], some [1])] ∧
      (r.2.disk.at_ [['d'], ['b']]).map cacheId = some (.str ['i']) := by
  refine ⟨by decide +kernel, by decide +kernel, by decide +kernel⟩

/-- The check of the ids does not protect what is where a remote belongs: it gets the metadata of the remote before the ids are compared. -/
theorem C36_remote_counterexample :
    let r := simple.moveHome (.pure ()) (remoteNamed ['b'] ['p'] (justId ['i']) [['d'], ['b']]) [['d'], ['a']]
      (inDir [([['d'], ['b']], .file [9] (some (justId ['z'])))])
    r.1 = .ok [['d'], ['b']] ∧ contents r.2.disk = [([], none), ([['t']], none), ([['d']], none), ([['d'], ['b']], some [1])] := by
  refine ⟨by decide +kernel, by decide +kernel⟩

/-- The situation of `C92_kept_partial`, `C92_refused`, `C92_stays` and `C92_moved`. -/
example : Replacing simple [['d'], ['a']] [1] (threeBytes [1]) ['i'] (inDir []).disk ∧ Moving [['d'], ['a']] [['d'], ['b']] (inDir []).disk ∧
    (∃ u, updateMeta (some (threeBytes [1])) (some (threeBytes [2])) = .ok (true, some u) ∧ u .file_id ≠ .none ∧ metaBool u = true ∧
      u .id = threeBytes [2] .id) ∧
    (inDir []).disk.at_ [['d']] = some (.dir (some (justId ['p']))) ∧ metaBool (justId ['p']) = true ∧
    Belongs (remoteNamed ['a'] ['p'] (threeBytes [2]) [['d'], ['a']]) [['d'], ['a']] (inDir []).disk ∧
    pyEq (remoteNamed ['a'] ['z'] (threeBytes [2]) [['d'], ['a']]).parentId (justId ['p'] .id) = false := by
  refine ⟨⟨by decide +kernel, by decide, rfl, by decide, by intro n; simp [simple], ⟨none, by decide +kernel⟩, by unfold Apart; decide,
    ⟨by simp, some (justId ['p']), by rfl⟩, rfl, fun d0 => .pure_ fun _ h => h⟩,
    ⟨by decide, by unfold Apart; decide, by simp, ?_⟩, ⟨_, rfl, by decide, by decide, by decide⟩, by rfl, by decide,
    ⟨by decide, _, rfl, by decide, by decide⟩, by decide⟩
  intro r hr
  simp only [inDir, List.append_nil, Disk.at_cons]
  have h : ∀ p, ¬ safeUnlink [['d'], ['b']] <+: p → p ≠ r := fun p hp he => hp (he ▸ hr)
  rw [if_neg (h _ (by decide)), if_neg (h _ (by decide)), if_neg (h _ (by decide)), if_neg (h _ (by decide))]
  rfl

/-- The situation of `C92_kept_partial`, with another file at the target. -/
example : Destined sends (remoteNamed ['b'] ['p'] (threeBytes [2]) [['d'], ['b']]) [['d'], ['a']] ['i']
    (inDir [([['d'], ['b']], .file [9] (some (threeOf ['z'] [9])))]).disk := by
  refine ⟨by unfold Apart; decide, by unfold Apart; decide, by unfold Apart; decide, by unfold Apart; decide,
    ⟨by simp [remoteNamed], some (justId ['p']), by rfl⟩, ?_, ?_, fun d0 => .pure_ fun _ h => h⟩
  · rintro m (h | ⟨b, h⟩)
    · have h' : (inDir [([['d'], ['b']], .file [9] (some (threeOf ['z'] [9])))]).disk.at_ [['d'], ['b']] = some (.file [9] (some (threeOf ['z'] [9]))) := by rfl
      have h := h.symm.trans h'
      simp at h
    · have h' : (inDir [([['d'], ['b']], .file [9] (some (threeOf ['z'] [9])))]).disk.at_ [['d'], ['b']] = some (.file [9] (some (threeOf ['z'] [9]))) := by rfl
      have h := h.symm.trans h'
      simp only [Option.some.injEq, CObj.file.injEq] at h
      obtain ⟨-, rfl⟩ := h
      exact ⟨['z'], rfl, by decide, by decide⟩
  · intro r hr
    rw [show sends.loc = [['t']] from rfl, List.prefix_cons_iff] at hr
    rcases hr with rfl | ⟨t, rfl, ht⟩
    · decide
    · rw [List.prefix_nil] at ht
      subst ht
      decide

/-- Then what is at the target goes to the trash, too. -/
example :
    let r := sends.updateCache (.pure ()) (remoteNamed ['b'] ['p'] (threeBytes [2]) [['d'], ['b']]) (some [['d'], ['a']]) none true
      (inDir [([['d'], ['b']], .file [9] (some (threeOf ['z'] [9])))])
    r.1 = .ok true ∧ contents r.2.disk = [([['d'], ['b']], some [2, 3, 4]), ([], none), ([['t']], none), ([['d']], none), ([['t'], ['i']], some [1]),
      ([['t'], ['z']], some [9])] := by
  refine ⟨by decide +kernel, by decide +kernel⟩

/-- The file goes to its new name with the new checksum. -/
example :
    let r := simple.updateCache (.pure ()) (remoteNamed ['b'] ['p'] (threeBytes [2]) [['d'], ['b']]) (some [['d'], ['a']]) none false (inDir [])
    r.1 = .ok true ∧ contents r.2.disk = [([['d'], ['b']], some [1]), ([], none), ([['t']], none), ([['d']], none)] := by
  refine ⟨by decide +kernel, by decide +kernel⟩

end Verif.Cache
