import Verif.Props.Updater

/-!
# C36, C37: Moving
-/

namespace Verif.Cache
open Verif.FS

/-! ## Something else is at the target -/

/-- The id of what is at a path. -/
def cacheId : CObj → PyVal
  | .dir (some m) | .file _ (some m) => if metaBool m then m .id else .none
  | .link (some m) => m .id
  | _ => .none

/-- Reading the metadata at a path gives metadata with the id of the object. -/
theorem getMeta_cacheId (C : PEnv) {q : Path} {x : CObj} {d0 : Disk CObj} (hx : d0.at_ q = some x) :
    Hoare (fun d => d = d0) (C.getMeta q) (fun m d => idVal m = cacheId x ∧ d = d0)
      (fun e d => d = d0 ∧ ((∃ n, C.F n = some e) ∨ x = .link none)) := by
  refine .look_err ?_ ?_
  · rintro d a rfl h
    rw [hx] at h
    refine ⟨?_, rfl⟩
    cases x with
    | dir m => cases m <;> simp only [Except.ok.injEq] at h <;> subst h <;> simp only [cacheId] <;> (try split) <;> rfl
    | file b m => cases m <;> simp only [Except.ok.injEq] at h <;> subst h <;> simp only [cacheId] <;> (try split) <;> rfl
    | link m => cases m <;> simp at h; subst h; rfl
  · rintro e d rfl (h | h)
    · exact ⟨rfl, .inl h⟩
    · rw [hx] at h
      refine ⟨rfl, .inr ?_⟩
      cases x with
      | dir m => cases m <;> simp at h
      | file b m => cases m <;> simp at h
      | link m => cases m <;> simp at h ⊢

/-- **C36** (partial): if what is at the target has an id other than that of what is moved, then every run raises and
nothing on the disk has changed, whatever call fails, for a target that is a cache already or for which no metadata is
given.  What is missing from the full claim: a target that is given as a local path together with metadata
(`C36_cast_counterexample`). -/
theorem C36_raises_partial (C : PEnv) (parents : Prog CObj Unit) {q t : Path} {x y : CObj} {given : Option Meta} {remote cast : Bool}
    {s : Machine CObj} (hq : s.disk.at_ q = some x) (ht : s.disk.at_ t = some y) (hid : cacheId x ≠ cacheId y)
    (hp : there s.disk t.dropLast = true) (hcast : cast = false ∨ ∀ m, given = some m → metaBool m = false) :
    (C.move parents q t given remote cast s).2.disk = s.disk ∧ ∃ e, (C.move parents q t given remote cast s).1 = .error e := by
  have hne : t ≠ q := by
    rintro rfl
    rw [hq, Option.some.injEq] at ht
    exact hid (ht ▸ rfl)
  have hh : Hoare (fun d => d = s.disk) (C.move parents q t given remote cast) (fun _ _ => False) (fun _ d => d = s.disk) := by
    unfold PEnv.move
    rw [if_neg hne]
    refine .bind_ (Q := fun b d => b = true ∧ d = s.disk) (.look_ ?_ fun _ _ h => h) fun b => .of_pre fun hb => ?_
    · rintro d a rfl h
      simp only [Except.ok.injEq] at h
      exact ⟨h ▸ hp, rfl⟩
    subst hb
    rw [if_pos rfl]
    refine .bind_ (Q := fun _ d => d = s.disk) (.pure_ fun _ h => h) fun _ => ?_
    have hread : Hoare (fun d => d = s.disk) (.bind (C.getMeta t) fun mt => if mt.isNone then .throw .noCachedMetadataError else .pure ())
        (fun _ d => d = s.disk) (fun _ d => d = s.disk) :=
      .bind_ (Q := fun _ d => d = s.disk) (.look_ (fun _ _ h _ => h) fun _ _ h => h) fun _ =>
        .ite_ (fun _ => .throw_ fun _ h => h) (fun _ => .pure_ fun _ h => h)
    refine .bind_ (Q := fun _ d => d = s.disk) ?_ fun _ => ?_
    · refine .ite_ (fun hc => ?_) (fun _ => .pure_ fun _ h => h)
      rcases hcast with hcast | hcast
      · rw [hcast] at hc; simp at hc
      · cases given with
        | none => exact hread
        | some m =>
          dsimp only
          rw [if_neg (by simp [hcast m rfl])]
          exact hread
    refine .bind_ (Q := fun b d => b = true ∧ d = s.disk) (.look_ ?_ fun _ _ h => h) fun b => .of_pre fun hb => ?_
    · rintro d a rfl h
      simp only [ht, Option.isSome_some, Except.ok.injEq] at h
      exact ⟨h.symm, rfl⟩
    subst hb
    rw [if_pos rfl]
    refine .bind_ (Q := fun _ _ => False) ?_ fun _ => fun s hs => hs.elim
    unfold PEnv.conflict
    refine .bind_ ((getMeta_cacheId C ht).mono (fun _ h => h) (fun _ _ h => h) (fun _ _ h => h.1)) fun mt => .of_pre fun hmt => ?_
    refine .bind_ ((getMeta_cacheId C hq).mono (fun _ h => h) (fun _ _ h => h) (fun _ _ h => h.1)) fun mq => .of_pre fun hmq => ?_
    rw [if_neg (by rw [hmt, hmq]; exact fun he => hid he.symm)]
    refine .bind_ (Q := fun _ d => d = s.disk) (.look_ (fun _ _ h _ => h) fun _ _ h => h) fun b => ?_
    exact .ite_ (fun _ => .ite_ (fun _ => .throw_ fun _ h => h) (fun _ => .throw_ fun _ h => h)) (fun _ => .throw_ fun _ h => h)
  have := hh s rfl
  generalize C.move parents q t given remote cast s = r at this ⊢
  obtain ⟨r, s'⟩ := r
  cases r with
  | ok a => exact this.elim
  | error e => exact ⟨this, e, rfl⟩

/-! ## A rename that fails -/

/-- At most one call fails. -/
def Once (F : Nat → Option PyErr) : Prop := ∀ n m, F n ≠ none → F m ≠ none → n = m

/-- A call has failed already. -/
def Spent (F : Nat → Option PyErr) (n : Nat) : Prop := ∃ k, k < n ∧ F k ≠ none

theorem Spent.now {F : Nat → Option PyErr} (h : Once F) {n : Nat} {e : PyErr} (hs : Spent F n) : F n ≠ some e := by
  rintro hf
  obtain ⟨k, hk, hk'⟩ := hs
  have := h k n hk' (by simp [hf])
  omega

theorem Spent.succ {F : Nat → Option PyErr} {n : Nat} (hs : Spent F n) : Spent F (n + 1) := by
  obtain ⟨k, hk, hk'⟩ := hs
  exact ⟨k, by omega, hk'⟩

theorem safeUnlink_apart {t : Path} (ht : t ≠ []) : Apart t (safeUnlink t) := by
  obtain ⟨p, n, rfl⟩ : ∃ p n, t = p ++ [n] := ⟨t.dropLast, t.getLast ht, (List.dropLast_concat_getLast ht).symm⟩
  have hne : lit ".unlink-" ++ n ≠ n := by
    intro h
    have := congrArg List.length h
    have h8 : (lit ".unlink-").length = 8 := by decide
    rw [List.length_append, h8] at this
    omega
  have he : safeUnlink (p ++ [n]) = p ++ [lit ".unlink-" ++ n] := by simp [safeUnlink]
  rw [he]
  constructor
  · intro h
    have := h.eq_of_length (by simp)
    simp only [List.append_cancel_left_eq, List.cons.injEq, and_true] at this
    exact hne this.symm
  · intro h
    have := h.eq_of_length (by simp)
    simp only [List.append_cancel_left_eq, List.cons.injEq, and_true] at this
    exact hne this

/-- What is at a path and below it. -/
def nothingAt (d : Disk CObj) (p : Path) : Prop := ∀ r, p <+: r → d.at_ r = none

theorem mv_back {ν : Type} (f : Path → Option ν) {t p : Path} (h : ∀ r, p <+: r → f r = none) : mv (mv f t p) p t = f := by
  funext r
  unfold mv
  by_cases h1 : t <+: r
  · obtain ⟨s, rfl⟩ := h1
    rw [if_pos (List.prefix_append _ _), if_pos (List.prefix_append _ _), drop_append_prefix, drop_append_prefix]
  · rw [if_neg h1]
    by_cases h2 : p <+: r
    · rw [if_pos h2, h r h2]
    · rw [if_neg h2, if_neg h2, if_neg h1]

/-- The disk after a move: what was at and below `q` is at and below `t`, except for the temporary link. -/
def MovedTo (d0 d : Disk CObj) (q t : Path) : Prop := ∀ r, ¬ safeUnlink t <+: r → d.at_ r = mv d0.at_ q t r

/-- The situation of a move: `q` is a file or directory and the name for the temporary link is free. -/
structure Moving (q t : Path) (d : Disk CObj) : Prop where
  source : there d q = true
  apart : Apart q t
  target : t ≠ []
  free : nothingAt d (safeUnlink t)

theorem Moving.apart_safe {q t : Path} {d : Disk CObj} (h : Moving q t d) : Apart q (safeUnlink t) := by
  constructor
  · intro hc
    rw [safeUnlink, List.prefix_concat_iff] at hc
    rcases hc with hc | hc
    · have h1 := h.free q (by rw [safeUnlink, ← hc]; exact List.prefix_refl _)
      have := h.source
      simp [there, h1] at this
    · exact h.apart.1 (hc.trans (List.dropLast_prefix _))
  · intro hc
    have h1 := h.free q hc
    have := h.source
    simp [there, h1] at this

theorem Moving.not_link {q t : Path} {d : Disk CObj} (h : Moving q t d) : ∃ x, d.at_ q = some x ∧ ∀ m, x ≠ .link m := by
  have := h.source
  unfold there at this
  split at this
  · rename_i hx; exact ⟨_, hx, by simp⟩
  · rename_i hx; exact ⟨_, hx, by simp⟩
  · simp at this

/-- The way back: the link is where it was. -/
theorem rename_link {d : Disk CObj} {p q : Path} {m : Option Meta} (hp : d.at_ p = some (.link m)) (hap : Apart p q)
    (hd : ∃ m, d.at_ q.dropLast = some (.dir m)) (hq : d.at_ q = none) : d.rename p q = .ok (d.move p q) := by
  obtain ⟨md, hd⟩ := hd
  unfold Disk.rename
  rw [hp, hd]
  simp only [Kinded.isDir, Bool.not_true, Bool.false_eq_true, if_false]
  rw [if_neg (fun he : p = q => hap.1 (he ▸ List.prefix_refl _)), if_neg hap.1, if_neg hap.2, hq]

theorem rename_dir {d d' : Disk CObj} {p q : Path} (h : d.rename p q = .ok d') : ∃ m, d.at_ q.dropLast = some (.dir m) := by
  unfold Disk.rename at h
  split at h
  · simp at h
  · simp at h
  · rename_i x y hx hy
    cases y with
    | dir m => exact ⟨m, hy⟩
    | file b m => simp [Kinded.isDir] at h
    | link m => simp [Kinded.isDir] at h

/-- A rename is refused because of what is on the disk. -/
def Refused (q t : Path) (d : Disk CObj) : Prop :=
  (∃ e, isBroken d t = false ∧ d.rename q t = .error e) ∨ ∃ e, isBroken d t = true ∧ d.rename t (safeUnlink t) = .error e

/-- Every run of the renames in which at most one call fails. -/
theorem renames_hoare (C : PEnv) (hF : Once C.F) {q t : Path} {d0 : Disk CObj} (h : Moving q t d0) :
    HoareT (fun s => s.disk = d0) (C.renames q t)
      (fun _ s => s.disk.at_ (safeUnlink t) = none ∧ (s.disk.at_ = d0.at_ ∧ (Spent C.F s.tick ∨ Refused q t d0) ∨ MovedTo d0 s.disk q t))
      (fun _ s => Spent C.F s.tick ∧ (s.disk.at_ = d0.at_ ∨ MovedTo d0 s.disk q t)) := by
  have hqs := h.apart_safe
  have hts := safeUnlink_apart h.target
  obtain ⟨x, hx, hxl⟩ := h.not_link
  have hfree : d0.at_ (safeUnlink t) = none := h.free _ (List.prefix_refl _)
  -- the link is out of the way
  let Mid : Disk CObj → Prop := fun d => d.at_ = mv d0.at_ t (safeUnlink t) ∧ (∃ m, d0.at_ t = some (.link m)) ∧ ∃ m, d0.at_ t.dropLast = some (.dir m)
  have hmidq : ∀ d, Mid d → d.at_ q = some x := by
    rintro d ⟨h1, -⟩
    rw [h1, mv, if_neg hqs.2, if_neg h.apart.2, hx]
  have hmidt : ∀ d, Mid d → d.at_ t = none := by
    rintro d ⟨h1, -⟩
    rw [h1, mv, if_neg hts.2, if_pos (List.prefix_refl _)]
  have hmids : ∀ d, Mid d → ∃ m, d.at_ (safeUnlink t) = some (.link m) := by
    rintro d ⟨h1, ⟨m, hm⟩, -⟩
    exact ⟨m, by rw [h1, mv, if_pos (List.prefix_refl _), List.drop_length, List.append_nil, hm]⟩
  have hmidd : ∀ d, Mid d → ∃ m, d.at_ t.dropLast = some (.dir m) := by
    rintro d ⟨h1, -, m, hm⟩
    refine ⟨m, ?_⟩
    rw [h1, mv, if_neg, if_neg, hm]
    · intro hc
      have := hc.length_le
      rw [List.length_dropLast] at this
      have := List.length_pos_iff.2 h.target
      omega
    · intro hc
      exact hts.2 (hc.trans (List.dropLast_prefix _))
  have hcongr : ∀ {d : Disk CObj}, d.at_ = d0.at_ → isBroken d (safeUnlink t) = false := by
    intro d hd
    simp [isBroken, hd, hfree]
  -- after the body and its handler
  let Done : Machine CObj → Prop := fun s => s.disk.at_ = d0.at_ ∧ (Spent C.F s.tick ∨ Refused q t d0) ∨ MovedTo d0 s.disk q t
  have hlater : ∀ {n d}, Spent C.F n ∨ Refused q t d → Spent C.F (n + 1) ∨ Refused q t d := fun h => h.imp_left Spent.succ
  unfold PEnv.renames
  dsimp only
  refine .bind_ (Q := fun _ s => Done s ∧ ((∃ m, s.disk.at_ (safeUnlink t) = some (.link m)) ∨ s.disk.at_ (safeUnlink t) = none)) ?_ fun _ => ?_
  · refine .try_ (R := fun _ s => Spent C.F s.tick ∧ s.disk.at_ = d0.at_) ?_ fun e => ?_
    · refine .try_ (R := fun _ s => s.disk = d0 ∧ (Spent C.F s.tick ∨ Refused q t d0) ∨ Mid s.disk ∧ Spent C.F s.tick) ?_ fun _ => ?_
      · -- the body
        refine .bind_ (Q := fun b s => b = isBroken d0 t ∧ s.disk = d0) (.look_ ?_ ?_ ?_) fun b => .of_pre fun hb => ?_
        · rintro d n a hd - ha
          dsimp only at hd
          subst hd
          simp only [Except.ok.injEq] at ha
          exact ⟨ha.symm, rfl⟩
        · rintro d n e hd hf; exact .inl ⟨hd, .inl ⟨n, Nat.lt_succ_self _, by simp [hf]⟩⟩
        · rintro d n e - - ha; simp at ha
        have hfinal : ∀ d n d', Mid d ∨ d = d0 → C.F n = none → d.rename q t = .ok d' →
            Done ⟨d', n + 1⟩ ∧ ((∃ m, d'.at_ (safeUnlink t) = some (.link m)) ∨ d'.at_ (safeUnlink t) = none) := by
          rintro d n d' hd - hr
          obtain ⟨-, ⟨he, -⟩ | ⟨-, hmv⟩⟩ := rename_ok hr
          · exact absurd (he ▸ List.prefix_refl _) h.apart.1
          rcases hd with hd | rfl
          · refine ⟨.inr fun r hr => ?_, .inl ?_⟩
            · rw [hmv, hd.1]
              unfold mv
              by_cases h1 : t <+: r
              · simp only [h1, if_true, hqs.below, h.apart.below, if_false]
              · simp only [h1, hr, if_false]
            · obtain ⟨m, hm⟩ := hmids d hd
              exact ⟨m, by rw [hmv, mv, if_neg hts.1, if_neg hqs.1, hm]⟩
          · refine ⟨.inr fun r _ => by rw [hmv], .inr ?_⟩
            rw [hmv, mv, if_neg hts.1, if_neg hqs.1, hfree]
        cases hbt : isBroken d0 t with
        | false =>
          rw [hbt] at hb; subst hb
          simp only [Bool.false_eq_true, if_false]
          refine .bind_ (Q := fun _ s => s.disk = d0) (.pure_ fun _ hs => hs) fun _ => .act_ ?_ ?_ ?_
          · exact fun d n d' hd hf hr => hfinal d n d' (.inr hd) hf hr
          · rintro d n e hd hf; exact .inl ⟨hd, .inl ⟨n, Nat.lt_succ_self _, by simp [hf]⟩⟩
          · rintro d n e hd - hr
            dsimp only at hd
            exact .inl ⟨hd, .inr (.inl ⟨e, hbt, hd ▸ hr⟩)⟩
        | true =>
          rw [hbt] at hb; subst hb
          rw [if_pos rfl]
          refine .bind_ (Q := fun _ s => Mid s.disk) (.act_ ?_ ?_ ?_) fun _ => .act_ ?_ ?_ ?_
          · rintro d n d' hd - hr
            dsimp only at hd
            subst hd
            obtain ⟨-, ⟨he, -⟩ | ⟨-, hmv⟩⟩ := rename_ok hr
            · exact absurd (he ▸ List.prefix_refl _) hts.1
            refine ⟨hmv, ?_, ?_⟩
            · unfold isBroken at hbt
              split at hbt
              · exact ⟨_, ‹_›⟩
              · simp at hbt
            · have := rename_dir hr
              simpa [safeUnlink] using this
          · rintro d n e hd hf; exact .inl ⟨hd, .inl ⟨n, Nat.lt_succ_self _, by simp [hf]⟩⟩
          · rintro d n e hd - hr
            dsimp only at hd
            exact .inl ⟨hd, .inr (.inr ⟨e, hbt, hd ▸ hr⟩)⟩
          · exact fun d n d' hd hf hr => hfinal d n d' (.inl hd) hf hr
          · rintro d n e hd hf
            exact .inr ⟨hd, n, Nat.lt_succ_self _, by simp [hf]⟩
          · rintro d n e hd - hr
            exfalso
            dsimp only at hd
            obtain ⟨md, hmd⟩ := hmidd d hd
            unfold Disk.rename at hr
            rw [hmidq d hd, hmd] at hr
            simp only [Kinded.isDir, Bool.not_true, Bool.false_eq_true, if_false] at hr
            rw [if_neg (fun he : q = t => h.apart.1 (he ▸ List.prefix_refl _)), if_neg h.apart.1, if_neg h.apart.2, hmidt d hd] at hr
            simp at hr
      · -- the handler
        refine .bind_ (Q := fun b s => (b = false ∧ s.disk.at_ = d0.at_ ∧ (Spent C.F s.tick ∨ Refused q t d0)) ∨ (b = true ∧ Mid s.disk ∧ Spent C.F s.tick)) (.look_ ?_ ?_ ?_) fun b => ?_
        · rintro d n a (⟨hd, hw⟩ | hd) - ha
          · dsimp only at hd
            subst hd
            simp only [Except.ok.injEq] at ha
            exact .inl ⟨by rw [← ha]; exact hcongr rfl, rfl, hlater hw⟩
          · simp only [Except.ok.injEq] at ha
            obtain ⟨m, hm⟩ := hmids d hd.1
            exact .inr ⟨by rw [← ha]; simp [isBroken, hm], hd.1, hd.2.succ⟩
        · rintro d n e (⟨hd, -⟩ | hd) hf
          · exact ⟨⟨n, Nat.lt_succ_self _, by simp [hf]⟩, by dsimp only at hd; rw [hd]⟩
          · exact absurd hf (hd.2.now hF)
        · rintro d n e - - ha
          simp at ha
        · cases b with
          | false =>
            refine .pure_ ?_
            rintro s (⟨-, hs⟩ | ⟨hc, -⟩)
            · exact ⟨.inl hs, .inr (by rw [hs.1, hfree])⟩
            · simp at hc
          | true =>
            rw [if_pos rfl]
            refine .act_ ?_ ?_ ?_
            · rintro d n d' (⟨hc, -⟩ | ⟨-, hd, hsp⟩) - hr
              · simp at hc
              · obtain ⟨-, ⟨he, -⟩ | ⟨-, hmv⟩⟩ := rename_ok hr
                · exact absurd (by rw [he]; exact List.prefix_refl _) hts.2
                have : d'.at_ = d0.at_ := by rw [hmv, hd.1, mv_back _ h.free]
                exact ⟨.inl ⟨this, .inl hsp.succ⟩, .inr (by dsimp only; rw [this, hfree])⟩
            · rintro d n e (⟨hc, -⟩ | ⟨-, hd, hsp⟩) hf
              · simp at hc
              · exact absurd hf (hsp.now hF)
            · rintro d n e (⟨hc, -⟩ | ⟨-, hd, -⟩) - hr
              · simp at hc
              · obtain ⟨m, hm⟩ := hmids d hd
                rw [rename_link hm hts.symm (hmidd d hd) (hmidt d hd)] at hr
                simp at hr
    · refine .bind_ (Q := fun _ s => Spent C.F s.tick ∧ s.disk.at_ = d0.at_) ?_ fun _ => .throw_ fun s hs => ⟨hs.1, .inl hs.2⟩
      -- the calls of the cleanup do not fail any more
      refine .bind_ (Q := fun b s => b = false ∧ Spent C.F s.tick ∧ s.disk.at_ = d0.at_) (.look_ ?_ ?_ ?_) fun b => .of_pre fun hb => ?_
      · rintro d n a ⟨hsp, hd⟩ - ha
        simp only [Except.ok.injEq] at ha
        exact ⟨by rw [← ha]; exact hcongr hd, hsp.succ, hd⟩
      · rintro d n e ⟨hsp, hd⟩ hf
        exact absurd hf (hsp.now hF)
      · rintro d n e - - ha
        simp at ha
      · subst hb
        exact .pure_ fun _ hs => hs
  · -- the cleanup at the end
    refine .bind_ (Q := fun b s => (b = isBroken s.disk (safeUnlink t)) ∧ Done s ∧
        ((∃ m, s.disk.at_ (safeUnlink t) = some (.link m)) ∨ s.disk.at_ (safeUnlink t) = none)) (.look_ ?_ ?_ ?_) fun b => ?_
    · rintro d n a hd - ha
      simp only [Except.ok.injEq] at ha
      exact ⟨ha.symm, hd.1.imp_left fun h => ⟨h.1, hlater h.2⟩, hd.2⟩
    · rintro d n e hd hf
      exact ⟨⟨n, Nat.lt_succ_self _, by simp [hf]⟩, hd.1.imp_left And.left⟩
    · rintro d n e - - ha
      simp at ha
    · cases b with
      | false =>
        refine .pure_ ?_
        rintro s ⟨hb, hd, ⟨m, hm⟩ | hn⟩
        · simp [isBroken, hm] at hb
        · exact ⟨hn, hd⟩
      | true =>
        rw [if_pos rfl]
        refine .act_ ?_ ?_ ?_
        · rintro d n d' ⟨hb, hd, -⟩ - hu
          dsimp only at hb hd
          have hd' : d' = d.erase (safeUnlink t) := by
            unfold Disk.unlink at hu
            split at hu
            · simp at hu
            · split at hu
              · simp at hu
              · simpa using hu.symm
          subst hd'
          dsimp only
          refine ⟨by simp [Disk.at_erase], .inr fun r hr => ?_⟩
          rw [Disk.at_erase, if_neg (fun he : r = _ => hr (he ▸ List.prefix_refl _))]
          rcases hd with hd | hd
          · rw [hcongr hd.1] at hb; simp at hb
          · exact hd r hr
        · rintro d n e ⟨-, hd, -⟩ hf
          exact ⟨⟨n, Nat.lt_succ_self _, by simp [hf]⟩, hd.imp_left And.left⟩
        · rintro d n e ⟨hb, -⟩ - hu
          dsimp only at hb
          unfold isBroken at hb
          split at hb
          · rename_i hl
            simp [Disk.unlink, hl, Kinded.isDir] at hu
          · simp at hb

/-- Every run of a move in which at most one call fails, of a file or directory to a place where nothing is or
something with the same id. -/
theorem move_hoare (C : PEnv) (parents : Prog CObj Unit) {q t : Path} {given : Option Meta} {remote : Bool} {d0 : Disk CObj} (hF : Once C.F)
    (h : Moving q t d0) (hp : there d0 t.dropLast = true)
    (hid : ∀ x y, d0.at_ q = some x → d0.at_ t = some y → cacheId x = cacheId y ∧ y ≠ .link none) :
    HoareT (fun s => s.disk = d0) (C.move parents q t given remote false)
      (fun p s => p = t ∧ s.disk.at_ (safeUnlink t) = none ∧ (s.disk.at_ = d0.at_ ∧ (Spent C.F s.tick ∨ Refused q t d0) ∨ MovedTo d0 s.disk q t))
      (fun _ s => Spent C.F s.tick ∧ (s.disk.at_ = d0.at_ ∨ MovedTo d0 s.disk q t)) := by
  have hlook : ∀ {α β : Type} (f : Disk CObj → α) (g : α → Prog CObj β) (Q : β → Machine CObj → Prop),
      HoareT (fun s => s.disk = d0) (g (f d0)) Q (fun _ s => Spent C.F s.tick ∧ (s.disk.at_ = d0.at_ ∨ MovedTo d0 s.disk q t)) →
      HoareT (fun s => s.disk = d0) (.bind (.look C.F fun d => .ok (f d)) g) Q
        (fun _ s => Spent C.F s.tick ∧ (s.disk.at_ = d0.at_ ∨ MovedTo d0 s.disk q t)) := by
    intro α β f g Q hg
    refine .bind_ (Q := fun a s => a = f d0 ∧ s.disk = d0) (.look_ ?_ ?_ ?_) fun a => .of_pre fun ha => ?_
    · rintro d n a hd - ha
      dsimp only at hd
      subst hd
      simp only [Except.ok.injEq] at ha
      exact ⟨ha.symm, rfl⟩
    · rintro d n e hd hf
      exact ⟨⟨n, Nat.lt_succ_self _, by simp [hf]⟩, .inl (by dsimp only at hd ⊢; rw [hd])⟩
    · rintro d n e - - ha
      simp at ha
    · subst ha; exact hg
  obtain ⟨x, hx, hxl⟩ := h.not_link
  unfold PEnv.move
  rw [if_neg (fun he : t = q => h.apart.1 (he ▸ List.prefix_refl _))]
  refine hlook (fun d => there d t.dropLast) _ _ ?_
  rw [hp, if_pos rfl]
  refine .bind_ (Q := fun _ s => s.disk = d0) (.pure_ fun _ hs => hs) fun _ => ?_
  simp only [Bool.false_eq_true, if_false]
  refine .bind_ (Q := fun _ s => s.disk = d0) (.pure_ fun _ hs => hs) fun _ => ?_
  refine hlook (fun d => (d.at_ t).isSome) _ _ ?_
  refine .bind_ (Q := fun _ s => s.disk = d0) ?_ fun _ => ?_
  · cases ht : d0.at_ t with
    | none => exact .pure_ fun _ hs => hs
    | some y =>
      simp only [Option.isSome_some, if_true]
      unfold PEnv.conflict
      have hmeta : ∀ (p : Path) (z : CObj), d0.at_ p = some z → z ≠ .link none →
          HoareT (fun s => s.disk = d0) (C.getMeta p) (fun m s => idVal m = cacheId z ∧ s.disk = d0)
            (fun _ s => Spent C.F s.tick ∧ (s.disk.at_ = d0.at_ ∨ MovedTo d0 s.disk q t)) := by
        intro p z hz hl s hs
        have h1 := getMeta_cacheId C hz s hs
        have h2 : ∀ e, (C.getMeta p s).1 = .error e → Spent C.F (C.getMeta p s).2.tick := by
          intro e
          simp only [PEnv.getMeta, Prog.look, Prog.sys]
          cases hf : C.F s.tick with
          | some e' => exact fun _ => ⟨s.tick, Nat.lt_succ_self _, by simp [hf]⟩
          | none =>
            rw [hs, hz]
            cases z with
            | dir m => cases m <;> simp
            | file b m => cases m <;> simp
            | link m => cases m <;> simp at hl ⊢
        generalize C.getMeta p s = r at h1 h2 ⊢
        obtain ⟨r, s'⟩ := r
        cases r with
        | ok m => exact h1
        | error e => exact ⟨h2 e rfl, .inl (by rw [h1.1])⟩
      obtain ⟨hxy, hyl⟩ := hid x y hx ht
      refine .bind_ (hmeta t y ht hyl) fun mt => .of_pre fun hmt => ?_
      refine .bind_ (hmeta q x hx (hxl _)) fun mq => .of_pre fun hmq => ?_
      rw [if_pos (by rw [hmt, hmq, hxy])]
      refine hlook (fun d => isBroken d q) _ _ ?_
      have : isBroken d0 q = false := by
        unfold isBroken
        rw [hx]
        cases x with
        | link m => exact absurd rfl (hxl m)
        | dir m => rfl
        | file b m => rfl
      rw [this]
      exact .pure_ fun _ hs => hs
  · refine hlook (fun d => there d q) _ _ ?_
    rw [h.source, if_pos rfl]
    refine .bind_ (renames_hoare C hF h) fun _ => ?_
    exact .pure_ fun s hs => ⟨rfl, hs⟩

/-- **C37** (partial): in every run of a move in which at most one call fails, if the source is still where it was then
nothing on the disk has changed: what was at the target is there again and no temporary link is left; and this also
holds when the rename is refused because of what is at the target.  What is missing from the full claim: a file whose
name is that of the temporary link (`C37_clobber_counterexample`) and a second failure while the link is put back
(`C37_lost_counterexample`). -/
theorem C37_restored_partial (C : PEnv) (parents : Prog CObj Unit) {q t : Path} {given : Option Meta} {remote : Bool} {s : Machine CObj}
    (hF : Once C.F) (h : Moving q t s.disk) (hp : there s.disk t.dropLast = true)
    (hid : ∀ x y, s.disk.at_ q = some x → s.disk.at_ t = some y → cacheId x = cacheId y ∧ y ≠ .link none)
    (hstill : (C.move parents q t given remote false s).2.disk.at_ q ≠ none) :
    (C.move parents q t given remote false s).2.disk.at_ = s.disk.at_ := by
  have hr := move_hoare C parents (given := given) (remote := remote) hF h hp hid s rfl
  have hgone : ∀ d, MovedTo s.disk d q t → d.at_ q = none := by
    intro d hd
    rw [hd q h.apart_safe.2, mv, if_neg h.apart.2, if_pos (List.prefix_refl _)]
  generalize C.move parents q t given remote false s = r at hr hstill ⊢
  obtain ⟨r, s'⟩ := r
  cases r with
  | ok a =>
    obtain ⟨-, -, ⟨hr, -⟩ | hr⟩ := hr
    · exact hr
    · exact absurd (hgone _ hr) hstill
  | error e =>
    obtain ⟨-, hr | hr⟩ := hr
    · exact hr
    · exact absurd (hgone _ hr) hstill

/-- **C37** (partial): and if the source is not where it was then it is at the target with all that was below it, and the
rest of the disk is as before; a temporary link is left only if the run ended with an exception. -/
theorem C37_moved_partial (C : PEnv) (parents : Prog CObj Unit) {q t : Path} {given : Option Meta} {remote : Bool} {s : Machine CObj}
    (hF : Once C.F) (h : Moving q t s.disk) (hp : there s.disk t.dropLast = true)
    (hid : ∀ x y, s.disk.at_ q = some x → s.disk.at_ t = some y → cacheId x = cacheId y ∧ y ≠ .link none)
    (hgone : (C.move parents q t given remote false s).2.disk.at_ q = none) :
    MovedTo s.disk (C.move parents q t given remote false s).2.disk q t ∧
    ((C.move parents q t given remote false s).1 = .ok t ∧ (C.move parents q t given remote false s).2.disk.at_ (safeUnlink t) = none ∨
      ∃ n e, C.F n = some e ∧ ∃ e', (C.move parents q t given remote false s).1 = .error e') := by
  have hr := move_hoare C parents (given := given) (remote := remote) hF h hp hid s rfl
  obtain ⟨x, hx, -⟩ := h.not_link
  generalize C.move parents q t given remote false s = r at hr hgone ⊢
  obtain ⟨r, s'⟩ := r
  cases r with
  | ok a =>
    obtain ⟨rfl, h2, ⟨hr, -⟩ | hr⟩ := hr
    · dsimp only at hgone; rw [hr, hx] at hgone; simp at hgone
    · exact ⟨hr, .inl ⟨rfl, h2⟩⟩
  | error e =>
    obtain ⟨⟨n, -, hn⟩, hr | hr⟩ := hr
    · dsimp only at hgone; rw [hr, hx] at hgone; simp at hgone
    · obtain ⟨e', he'⟩ := Option.ne_none_iff_exists'.1 hn
      exact ⟨hr, .inr ⟨n, e', he', e, rfl⟩⟩

/-- **C37** (partial): when no call fails, a file is moved to a place where a link, a file or nothing is. -/
theorem C37_moves_partial (C : PEnv) (parents : Prog CObj Unit) {q t : Path} {given : Option Meta} {remote : Bool} {s : Machine CObj}
    (hF : ∀ n, C.F n = none) (h : Moving q t s.disk) (hp : isDirAt s.disk t.dropLast = true)
    (hid : ∀ x y, s.disk.at_ q = some x → s.disk.at_ t = some y → cacheId x = cacheId y ∧ y ≠ .link none)
    (hfile : isFile s.disk q = true) (hnd : isDirAt s.disk t = false) :
    (C.move parents q t given remote false s).1 = .ok t ∧ MovedTo s.disk (C.move parents q t given remote false s).2.disk q t ∧
    (C.move parents q t given remote false s).2.disk.at_ (safeUnlink t) = none := by
  have hdir : ∃ m, s.disk.at_ t.dropLast = some (.dir m) := by
    unfold isDirAt at hp
    split at hp
    · exact ⟨_, ‹_›⟩
    · simp at hp
  have hp' : there s.disk t.dropLast = true := by
    obtain ⟨m, hm⟩ := hdir
    simp [there, hm]
  have hspent : ∀ n, ¬ Spent C.F n := by
    rintro n ⟨k, -, hk⟩
    exact hk (hF k)
  have hnr : ¬ Refused q t s.disk := by
    rintro (⟨e, hb, he⟩ | ⟨e, hb, he⟩)
    · unfold isFile at hfile
      split at hfile
      · rename_i b m hx
        rw [rename_file hx h.apart hdir] at he
        · simp at he
        · intro m hm
          simp [isDirAt, hm] at hnd
      · simp at hfile
    · unfold isBroken at hb
      split at hb
      · rename_i m hm
        rw [rename_link hm (safeUnlink_apart h.target) (by simpa [safeUnlink] using hdir) (h.free _ (List.prefix_refl _))] at he
        simp at he
      · simp at hb
  have hr := move_hoare C parents (given := given) (remote := remote) (fun n m hn => absurd (hF n) hn) h hp' hid s rfl
  generalize C.move parents q t given remote false s = r at hr ⊢
  obtain ⟨r, s'⟩ := r
  cases r with
  | ok a =>
    obtain ⟨rfl, h2, ⟨-, hr | hr⟩ | hr⟩ := hr
    · exact absurd hr (hspent _)
    · exact absurd hr hnr
    · exact ⟨rfl, hr, h2⟩
  | error e => exact absurd hr.1 (hspent _)

/-! ## Where the claims fail, and examples -/

/-- Metadata with an id and nothing else that matters. -/
def justId (i : Str) : Meta := fun f => match f with
  | .id => .str i | .size => .int 1 | .errors => .strs [] | _ => .none

/-- A target that is given as a local path: the metadata is written to whatever is there before the ids are compared, so
that the target has the id of the source, and its content, which is nowhere else, is replaced although its id was
another one. -/
theorem C36_cast_counterexample :
    let s : Machine CObj := ⟨[([], .dir none), ([['t']], .dir none), ([['a']], .file [1] (some (justId ['i']))),
      ([['b']], .file [9] (some (justId ['j'])))], 0⟩
    let r := simple.move (.pure ()) [['a']] [['b']] (some (justId ['i'])) true true s
    (s.disk.at_ [['a']]).map cacheId = some (.str ['i']) ∧ (s.disk.at_ [['b']]).map cacheId = some (.str ['j']) ∧
      r.1 = .ok [['b']] ∧ contents r.2.disk = [([], none), ([['t']], none), ([['b']], some [1])] := by
  refine ⟨by decide +kernel, by decide +kernel, by decide +kernel, by decide +kernel⟩

/-- A file without an id, which may have other metadata, takes the place of any file without metadata: neither has an id, and that counts as
the same id. -/
theorem C36_unnamed_counterexample :
    let s : Machine CObj := ⟨[([], .dir none), ([['t']], .dir none), ([['a']], .file [1] (some fun f => match f with | .size => .int 1 | .errors => .strs [] | _ => .none)),
      ([['b']], .file [9] none)], 0⟩
    let r := simple.move (.pure ()) [['a']] [['b']] none true false s
    (s.disk.at_ [['a']]).map cacheId = some .none ∧ (s.disk.at_ [['b']]).map cacheId = some .none ∧
      r.1 = .ok [['b']] ∧ contents r.2.disk = [([], none), ([['t']], none), ([['b']], some [1])] := by
  refine ⟨by decide +kernel, by decide +kernel, by decide +kernel, by decide +kernel⟩

/-- Two caches next to each other with the same id: a file and the link that it is moved to. -/
def besideLink (more : Disk CObj) : Machine CObj :=
  ⟨[([], .dir none), ([['t']], .dir none), ([['a']], .file [1] (some (justId ['i']))), ([['b']], .link (some (justId ['i'])))] ++ more, 0⟩

/-- A link whose name is that of the temporary link is overwritten and then removed by a move that succeeds. -/
theorem C37_clobber_counterexample :
    let r := simple.move (.pure ()) [['a']] [['b']] none true false (besideLink [([lit ".unlink-b"], .file [7] none)])
    r.1 = .ok [['b']] ∧ contents r.2.disk = [([], none), ([['t']], none), ([['b']], some [1])] := by
  refine ⟨by decide +kernel, by decide +kernel⟩

/-- When the rename fails and putting the link back fails as well, the link is removed: what was at the target is lost. -/
theorem C37_lost_counterexample :
    let C : PEnv := { simple with F := fun n => if n = 8 ∨ n = 10 then some .osError else none }
    let r := C.move (.pure ()) [['a']] [['b']] none true false (besideLink [])
    r.1 = .error .osError ∧ contents r.2.disk = [([], none), ([['t']], none), ([['a']], some [1])] := by
  refine ⟨by decide +kernel, by decide +kernel⟩

/-- A rename that fails is not reported: the move returns the target as if it had worked. -/
theorem C37_silent_counterexample :
    let C : PEnv := { simple with F := fun n => if n = 8 then some .osError else none }
    let r := C.move (.pure ()) [['a']] [['b']] none true false (besideLink [])
    r.1 = .ok [['b']] ∧ (r.2.disk.at_ [['a']]).isSome = true ∧ isBroken r.2.disk [['b']] = true := by
  refine ⟨by decide +kernel, by decide +kernel, by decide +kernel⟩

/-- A link that is moved to a place where nothing is is removed, and its metadata is nowhere any more. -/
theorem C37_link_counterexample :
    let r := simple.move (.pure ()) [['b']] [['c']] none true false (besideLink [])
    r.1 = .ok [['c']] ∧ contents r.2.disk = [([], none), ([['t']], none), ([['a']], some [1])] := by
  refine ⟨by decide +kernel, by decide +kernel⟩

example : Moving [['a']] [['b']] (besideLink []).disk ∧ there (besideLink []).disk [] = true ∧
    (∀ x y, (besideLink []).disk.at_ [['a']] = some x → (besideLink []).disk.at_ [['b']] = some y → cacheId x = cacheId y ∧ y ≠ .link none) ∧
    isFile (besideLink []).disk [['a']] = true ∧ isDirAt (besideLink []).disk [['b']] = false := by
  refine ⟨⟨by decide, by unfold Apart; decide, by simp, ?_⟩, by decide, ?_, by decide, by decide⟩
  · intro r hr
    simp only [besideLink, List.append_nil, List.cons_append, List.nil_append, Disk.at_cons]
    have h : ∀ p, ¬ safeUnlink [['b']] <+: p → p ≠ r := fun p hp he => hp (he ▸ hr)
    rw [if_neg (h _ (by decide)), if_neg (h _ (by decide)), if_neg (h _ (by decide)), if_neg (h _ (by decide))]
    rfl
  · intro x y hx hy
    have h1 : (besideLink []).disk.at_ [['a']] = some (.file [1] (some (justId ['i']))) := by decide +kernel
    have h2 : (besideLink []).disk.at_ [['b']] = some (.link (some (justId ['i']))) := by decide +kernel
    rw [h1] at hx; rw [h2] at hy
    simp only [Option.some.injEq] at hx hy
    subst hx hy
    exact ⟨by decide, by simp⟩

/-- The link and the file with different ids: the move raises. -/
example : cacheId (.file [1] (some (justId ['i']))) ≠ cacheId (.link (some (justId ['j']))) ∧
    (simple.move (.pure ()) [['a']] [['b']] none true false
      ⟨[([], .dir none), ([['a']], .file [1] (some (justId ['i']))), ([['b']], .link (some (justId ['j'])))], 0⟩).1 =
        .error .whyDidntThisGetMovedBeforeError := by
  refine ⟨by decide, by decide +kernel⟩

end Verif.Cache
