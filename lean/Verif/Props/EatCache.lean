import Verif.Lemmas.EatCache
import Verif.Lemmas.Samples
import Verif.Lemmas.Decide

/-!
# C31: What a cache backed by extended attributes stores
-/

namespace Verif.Cache
open Verif.FS Verif.Xattrs Verif.Spec

/-- At `q` is `x`, and everywhere else is what was there on `d0`. -/
def Only (d0 : Disk AObj) (q : Path) (x : AObj) (d : Disk AObj) : Prop :=
  d.at_ q = some x ∧ ∀ r, r ≠ q → d.at_ r = d0.at_ r

theorem setxattrs_hoare (C : EatEnv) (q : Path) (b : Bool) (x : Bytes) (d0 : Disk AObj) : ∀ (xs : Attrs) (S : Attrs),
    Hoare (Only d0 q (.node b x S)) (C.setxattrs q xs) (fun _ => Only d0 q (.node b x (setAll S xs)))
      (fun _ d => ∃ ys, ys <+: xs ∧ ys ≠ xs ∧ Only d0 q (.node b x (setAll S ys)) d) := by
  intro xs
  induction xs with
  | nil => exact fun S => .pure_ fun d h => h
  | cons kv xs ih =>
    intro S
    unfold EatEnv.setxattrs Prog.each
    refine .bind_ (Q := fun _ => Only d0 q (.node b x (setAttr kv.1 kv.2 S))) ?_ fun _ => ?_
    · refine .act_ ?_ ?_
      · rintro d d' ⟨h1, h2⟩ h
        simp only [EatEnv.target, h1, Except.ok.injEq] at h
        subst h
        refine ⟨by rw [Disk.at_put, if_pos rfl], fun r hr => ?_⟩
        rw [Disk.at_put, if_neg hr, h2 r hr]
      · exact fun e d h => ⟨[], List.nil_prefix, by simp, h⟩
    · refine (ih (setAttr kv.1 kv.2 S)).mono (fun _ h => h) (fun _ _ h => h) ?_
      rintro e d ⟨ys, h1, h2, h3⟩
      exact ⟨kv :: ys, by simpa using h1, by simpa using h2, h3⟩

theorem metaSetter_hoare (C : EatEnv) (q : Path) (b : Bool) (x : Bytes) (S : Attrs) (d0 : Disk AObj) (m : Meta) (mo : Bool)
    (hq : d0.at_ q = some (.node b x S)) :
    Hoare (fun d => d = d0) (C.metaSetter q m mo)
      (fun r d => r = none ∧ ∃ xs, asXattrs C.env m C.pre = .ok xs ∧ Only d0 q (.node b x (setAll S xs)) d)
      (fun _ d => ∃ ys, (ys = [] ∨ ∃ xs, asXattrs C.env m C.pre = .ok xs ∧ ys <+: xs ∧ ys ≠ xs) ∧ Only d0 q (.node b x (setAll S ys)) d) := by
  have hrefl : Only d0 q (.node b x (setAll S [])) d0 := ⟨hq, fun _ _ => rfl⟩
  unfold EatEnv.metaSetter
  refine .bind_ (Q := fun ex d => d = d0 ∧ ex = true) (.look_ ?_ ?_) fun ex => ?_
  · rintro d a rfl h
    simp only [EatEnv.target, hq, Except.ok.injEq] at h
    exact ⟨rfl, by simpa using h.symm⟩
  · rintro e d rfl; exact ⟨[], .inl rfl, hrefl⟩
  refine Hoare.pre (P := fun d => ex = true ∧ d = d0) (.of_pre fun hb => ?_) (fun d h => ⟨h.2, h.1⟩)
  subst hb
  rw [if_pos rfl]
  refine .bind_ (Q := fun il d => d = d0 ∧ il = false) (.look_ ?_ ?_) fun il => ?_
  · rintro d a rfl h
    simp only [hq, Except.ok.injEq] at h
    exact ⟨rfl, by simpa using h.symm⟩
  · rintro e d rfl; exact ⟨[], .inl rfl, hrefl⟩
  refine Hoare.pre (P := fun d => il = false ∧ d = d0) (.of_pre fun hb => ?_) (fun d h => ⟨h.2, h.1⟩)
  subst hb
  rw [if_neg (by simp)]
  split
  · exact .throw_ fun d h => ⟨[], .inl rfl, h ▸ hrefl⟩
  · rename_i xs hx
    refine .bind_ (Q := fun _ d => Only d0 q (.node b x (setAll S xs)) d) ?_ fun _ => .pure_ fun d h => ⟨rfl, xs, hx, h⟩
    refine (setxattrs_hoare C q b x d0 xs S).mono (fun d h => h ▸ hrefl) (fun _ _ h => h) ?_
    rintro e d ⟨ys, h1, h2, h3⟩
    exact ⟨ys, .inr ⟨xs, hx, h1, h2⟩, h3⟩

/-- A value that is not written: `None`, or an empty text, list or the like. -/
def Unwritten (v : PyVal) : Prop := v = .none ∨ v.emptyIterable

/-- **C31** (partial): metadata `m` is set on a file or directory whose attributes showed `w`.  If the setter returns,
then the content of the file and everything else is as it was, and reading the attributes again shows, for every field,
the value from `m` (as it survives being written as an attribute), or the value from before if `m` has nothing to
write for the field.  Missing from the full claim: the second case (`C31_stale_counterexample`). -/
theorem C31_overlay_partial (C : EatEnv) (hp : ParsesIso C.env) {q : Path} {b : Bool} {x : Bytes} {S : Attrs} {d : Disk AObj}
    (hq : d.at_ q = some (.node b x S)) (hn : (S.map Prod.fst).Nodup) {o : PathMeta} {w m : Meta}
    (hold : fromXattrs C.env S C.pre = .ok o) (hs : o.Shows C.env w) (ht : WellTyped m) (mo : Bool) (k : Nat) {r : Option Meta}
    {s : Machine AObj} (hrun : C.metaSetter q m mo ⟨d, k⟩ = (.ok r, s)) :
    r = none ∧ (∀ r, r ≠ q → s.disk.at_ r = d.at_ r) ∧ ∃ S' o', s.disk.at_ q = some (.node b x S') ∧
      fromXattrs C.env S' C.pre = .ok o' ∧
      ∀ f, (¬ Unwritten (m f) → o'.get C.env f = .ok (xattrReadBack f (m f))) ∧ (Unwritten (m f) → o'.get C.env f = .ok (w f)) := by
  have hh := metaSetter_hoare C q b x S d m mo hq ⟨d, k⟩ rfl
  rw [hrun] at hh
  obtain ⟨h1, xs, h2, h3, h4⟩ := hh
  obtain ⟨o', h5, h6⟩ := overlay hp ht hn hold hs h2
  refine ⟨h1, h4, _, o', h3, h5, fun f => ⟨fun hw => ?_, fun hw => ?_⟩⟩
  · have hc : written (m f) := by unfold Unwritten at hw; unfold written; simpa using hw
    rw [h6 f]
    simp only [if_pos hc]
  · have hc : ¬ written (m f) := by unfold Unwritten at hw; unfold written; intro hc; rcases hw with h | h <;> simp_all
    rw [h6 f]
    simp only [if_neg hc]

/-- **C31** (partial), the exact condition under which what is read back is what was set: every field survives, and
fields without anything to write were not there before either. -/
theorem C31_reads_back_partial (C : EatEnv) (hp : ParsesIso C.env) {q : Path} {b : Bool} {x : Bytes} {S : Attrs} {d : Disk AObj}
    (hq : d.at_ q = some (.node b x S)) (hn : (S.map Prod.fst).Nodup) {o : PathMeta} {w m : Meta}
    (hold : fromXattrs C.env S C.pre = .ok o) (hs : o.Shows C.env w) (ht : WellTyped m) (mo : Bool) (k : Nat) {r : Option Meta}
    {s : Machine AObj} (hrun : C.metaSetter q m mo ⟨d, k⟩ = (.ok r, s)) (hF : ∀ n, C.F n = none) :
    ∃ o', (C.meta q s).1 = .ok (some o') ∧ (o'.Shows C.env m ↔
      ∀ f, (¬ Unwritten (m f) → xattrReadBack f (m f) = m f) ∧ (Unwritten (m f) → w f = m f)) := by
  obtain ⟨-, -, S', o', h1, h2, h3⟩ := C31_overlay_partial C hp hq hn hold hs ht mo k hrun
  refine ⟨o', ?_, ?_⟩
  · simp [EatEnv.meta, Prog.bind, Prog.look, Prog.sys, hF, EatEnv.target, h1, h2]
  · constructor
    · intro h f
      refine ⟨fun hu => ?_, fun hu => ?_⟩
      · have := (h3 f).1 hu; rw [h f] at this; simpa using this.symm
      · have := (h3 f).2 hu; rw [h f] at this; simpa using this.symm
    · intro h f
      by_cases hu : Unwritten (m f)
      · rw [(h3 f).2 hu, (h f).2 hu]
      · rw [(h3 f).1 hu, (h f).1 hu]

/-- **C31** (partial): the setter returns when no call fails. -/
theorem C31_returns_partial (C : EatEnv) {q : Path} {b : Bool} {x : Bytes} {S : Attrs} {d : Disk AObj}
    (hq : d.at_ q = some (.node b x S)) {m : Meta} (ht : WellTyped m) (mo : Bool) (k : Nat) (hF : ∀ n, C.F n = none) :
    ∃ s, C.metaSetter q m mo ⟨d, k⟩ = (.ok none, s) := by
  obtain ⟨xs, hx, -⟩ := kwargs_attrs C.env C.pre m ht Field.all
  have hx' : asXattrs C.env m C.pre = .ok xs := hx
  have hset : ∀ (xs : Attrs) (d : Disk AObj) (S : Attrs) (k : Nat), d.at_ q = some (.node b x S) →
      ∃ s, C.setxattrs q xs ⟨d, k⟩ = (.ok (), s) := by
    intro xs
    induction xs with
    | nil => exact fun d S k _ => ⟨_, rfl⟩
    | cons kv xs ih =>
      intro d S k hd
      obtain ⟨s, hs⟩ := ih (d.put q (.node b x (setAttr kv.1 kv.2 S))) (setAttr kv.1 kv.2 S) (k + 1) (by rw [Disk.at_put, if_pos rfl])
      refine ⟨s, ?_⟩
      rw [← hs]
      simp [EatEnv.setxattrs, Prog.each, Prog.bind, EatEnv.osSet, Prog.act, Prog.sys, hF, EatEnv.target, hd]
  obtain ⟨s, hs⟩ := hset xs d S (k + 1 + 1) hq
  refine ⟨s, ?_⟩
  simp [EatEnv.metaSetter, Prog.bind, Prog.look, Prog.sys, hF, EatEnv.target, hq, hx', hs, Prog.pure]

/-- **C31** (partial): when the setter raises, some of the attributes, from the first one on, may have been written; the
content of the file and everything else is as it was. -/
theorem C31_torn_partial (C : EatEnv) {q : Path} {b : Bool} {x : Bytes} {S : Attrs} {d : Disk AObj}
    (hq : d.at_ q = some (.node b x S)) (m : Meta) (mo : Bool) (k : Nat) {e : PyErr} {s : Machine AObj}
    (hrun : C.metaSetter q m mo ⟨d, k⟩ = (.error e, s)) :
    (∀ r, r ≠ q → s.disk.at_ r = d.at_ r) ∧ ∃ ys, s.disk.at_ q = some (.node b x (setAll S ys)) ∧
      (ys = [] ∨ ∃ xs, asXattrs C.env m C.pre = .ok xs ∧ ys <+: xs) := by
  have hh := metaSetter_hoare C q b x S d m mo hq ⟨d, k⟩ rfl
  rw [hrun] at hh
  obtain ⟨ys, h1, h2, h3⟩ := hh
  exact ⟨h3, ys, h2, h1.imp_right fun ⟨xs, h, h', _⟩ => ⟨xs, h, h'⟩⟩

/-! ## Where the claim fails -/

/-- Metadata with only an id, or with an id and a mode. -/
def idAnd (mode : PyVal) : Meta := fun f =>
  if f = .id then .str ['x'] else if f = .mode then mode else if f = .errors then .strs [] else .none

theorem idAnd_typed (s : Str) : WellTyped (idAnd (.str s)) ∧ WellTyped (idAnd .none) := by
  constructor <;> intro f <;> cases f <;> simp [idAnd, HasType]

/-- **C31 is false**: a file whose attributes say that the mode is `r` keeps saying so after metadata without a mode was
set. -/
theorem C31_stale_counterexample (C : EatEnv) (hp : ParsesIso C.env) (hF : ∀ n, C.F n = none) :
    ∃ (d : Disk AObj) (q : Path) (s : Machine AObj) (o' : PathMeta), C.metaSetter q (idAnd .none) false ⟨d, 0⟩ = (.ok none, s) ∧
      WellTyped (idAnd .none) ∧ (C.meta q s).1 = .ok (some o') ∧ idAnd .none .mode = .none ∧ o'.get C.env .mode = .ok (.str ['r']) := by
  obtain ⟨xs, hx, hk⟩ := kwargs_attrs C.env C.pre (idAnd (.str ['r'])) (idAnd_typed _).1 Field.all
  have hn := attrs_nodup C.env C.pre _ _ _ Field.nodup_all hx
  obtain ⟨o, h1, h2, -⟩ := mkMeta_shows C.env (kwOf (args (idAnd (.str ['r']))) Field.all) (fun f => xattrReadBack f (idAnd (.str ['r']) f))
    (dictGet_self_kwOf _ _) (by
      intro f
      rw [dictGet_kwOf _ _ _ Field.nodup_all, if_pos f.mem_all]
      exact argOK C.env hp f _ ((idAnd_typed _).1 f))
  have hold : fromXattrs C.env xs C.pre = .ok o := by simp [fromXattrs, hk, h1]
  let d : Disk AObj := [([['f']], .node false [] xs)]
  have hq : d.at_ [['f']] = some (.node false [] xs) := rfl
  obtain ⟨s, hs⟩ := C31_returns_partial C hq (idAnd_typed ['r']).2 false 0 hF
  obtain ⟨-, -, S', o', h3, h4, h5⟩ := C31_overlay_partial C hp hq hn hold h2 (idAnd_typed ['r']).2 false 0 hs
  refine ⟨d, _, s, o', hs, (idAnd_typed ['r']).2, ?_, rfl, ?_⟩
  · simp [EatEnv.meta, Prog.bind, Prog.look, Prog.sys, hF, EatEnv.target, h3, h4]
  · have := (h5 .mode).2 (.inl rfl)
    simpa [idAnd, xattrReadBack] using this

/-- Metadata that is set in memory only, for a path that does not exist, cannot be read back at all. -/
theorem C31_memory_counterexample (C : EatEnv) (hF : ∀ n, C.F n = none) (m : Meta) :
    C.metaSetter [['f']] m true ⟨[], 0⟩ = (.ok (some m), ⟨[], 1⟩) ∧ (C.meta [['f']] ⟨[], 1⟩).1 = .ok none := by
  simp [EatEnv.metaSetter, EatEnv.meta, Prog.bind, Prog.look, Prog.sys, hF, EatEnv.target, Disk.at_, Prog.pure]

/-- Symlinks are refused without a change. -/
theorem C31_symlink_refused (C : EatEnv) (hF : ∀ n, C.F n = none) (q : Path) (d : Disk AObj) (hq : d.at_ q = some .link) (m : Meta) (k : Nat) :
    ∃ s, C.metaSetter q m false ⟨d, k⟩ = (.error .typeError, s) ∧ s.disk = d := by
  cases ht : (C.target d q).isSome <;>
    simp [EatEnv.metaSetter, Prog.bind, Prog.look, Prog.sys, hF, ht, hq, Prog.throw]

/-- The hypotheses can be met: a file with attributes that show metadata. -/
example (C : EatEnv) (hp : ParsesIso C.env) : ∃ (S : Attrs) (o : PathMeta) (w : Meta), (S.map Prod.fst).Nodup ∧ S ≠ [] ∧
    fromXattrs C.env S C.pre = .ok o ∧ o.Shows C.env w := by
  obtain ⟨xs, hx, hk⟩ := kwargs_attrs C.env C.pre (idAnd (.str ['r'])) (idAnd_typed _).1 Field.all
  obtain ⟨o, h1, h2, -⟩ := mkMeta_shows C.env (kwOf (args (idAnd (.str ['r']))) Field.all) (fun f => xattrReadBack f (idAnd (.str ['r']) f))
    (dictGet_self_kwOf _ _) (by
      intro f
      rw [dictGet_kwOf _ _ _ Field.nodup_all, if_pos f.mem_all]
      exact argOK C.env hp f _ ((idAnd_typed _).1 f))
  refine ⟨xs, o, _, attrs_nodup C.env C.pre _ _ _ Field.nodup_all hx, ?_, by simp [fromXattrs, hk, h1], h2⟩
  rintro rfl
  simp only [kwargs, Except.ok.injEq] at hk
  have := congrArg (dictGet Field.id.toStr) hk
  rw [dictGet_kwOf _ _ _ Field.nodup_all, if_pos Field.id.mem_all] at this
  simp [args, idAnd, written, PyVal.emptyIterable, dictGet] at this

/-- A symlink to something that exists is refused without a change, also when the metadata would only be kept in memory. -/
theorem C31_symlink_refused_always (C : EatEnv) (hF : ∀ n, C.F n = none) {q q' : Path} {d : Disk AObj} {b : Bool} {x : Bytes} {a : Attrs}
    (hq : d.at_ q = some .link) (hf : C.follow d q = some q') (hq' : d.at_ q' = some (.node b x a)) (m : Meta) (mo : Bool) (k : Nat) :
    ∃ s, C.metaSetter q m mo ⟨d, k⟩ = (.error .typeError, s) ∧ s.disk = d := by
  simp [EatEnv.metaSetter, Prog.bind, Prog.look, Prog.sys, hF, EatEnv.target, hq, hf, hq', Prog.throw]

/-- What is read through a symlink is what is read where it leads. -/
theorem C31_symlink_reads (C : EatEnv) {q q' : Path} {d : Disk AObj} {b : Bool} {x : Bytes} {a : Attrs}
    (hq : d.at_ q = some .link) (hf : C.follow d q = some q') (hq' : d.at_ q' = some (.node b x a)) (k : Nat) :
    C.meta q ⟨d, k⟩ = C.meta q' ⟨d, k⟩ := by
  have h : C.target d q = C.target d q' := by simp [EatEnv.target, hq, hf, hq']
  have h1 : (Prog.look C.F fun d => Except.ok (C.target d q).isSome) ⟨d, k⟩ = (Prog.look C.F fun d => Except.ok (C.target d q').isSome) ⟨d, k⟩ := by
    simp [Prog.look, Prog.sys, h]
  unfold EatEnv.meta Prog.bind
  rw [h1]
  cases hF : C.F k with
  | some e => simp [Prog.look, Prog.sys, hF]
  | none =>
    simp only [Prog.look, Prog.sys, hF]
    simp [EatEnv.target, hq, hf, hq', Prog.look, Prog.sys]

end Verif.Cache
