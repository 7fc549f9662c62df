import Verif.Model.Torn
import Verif.Props.EatCache
import Verif.Lemmas.Decide

/-!
# C127: reading metadata while they are being set
-/

namespace Verif.Torn
open Verif.FS Verif.Xattrs Verif.Cache Verif.Spec

theorem getAttr_eq (k : Bytes) (a : Attrs) : getAttr k a = attrAt k a := by
  induction a with
  | nil => rfl
  | cons x a ih => obtain ⟨k', v⟩ := x; simp only [getAttr, attrAt, ih]

theorem attrAt_mem {k v : Bytes} {a : Attrs} (h : attrAt k a = some v) : (k, v) ∈ a := by
  induction a with
  | nil => cases h
  | cons x a ih =>
    obtain ⟨k', w⟩ := x
    rw [attrAt] at h
    by_cases hk : k' = k
    · rw [if_pos hk] at h; cases h; rw [hk]; exact List.mem_cons_self
    · rw [if_neg hk] at h; exact List.mem_cons_of_mem _ (ih h)

theorem attrAt_of_mem {k v : Bytes} {a : Attrs} (hn : (a.map Prod.fst).Nodup) (h : (k, v) ∈ a) : attrAt k a = some v := by
  induction a with
  | nil => cases h
  | cons x a ih =>
    obtain ⟨k', w⟩ := x
    rw [List.map_cons, List.nodup_cons] at hn
    rw [attrAt]
    rcases List.mem_cons.1 h with h | h
    · cases h; rw [if_pos rfl]
    · rw [if_neg (fun e : k' = k => hn.1 (e ▸ List.mem_map.2 ⟨_, h, rfl⟩))]
      exact ih hn.2 h

theorem attrAt_some_of_key {k : Bytes} {a : Attrs} (h : k ∈ a.map Prod.fst) : ∃ v, attrAt k a = some v := by
  induction a with
  | nil => cases h
  | cons x a ih =>
    obtain ⟨k', w⟩ := x
    rw [attrAt]
    by_cases hk : k' = k
    · exact ⟨w, if_pos hk⟩
    · rw [if_neg hk]
      exact ih ((List.mem_cons.1 h).resolve_left fun e => hk e.symm)

theorem key_setAttr {k k' v : Bytes} {a : Attrs} : k ∈ (setAttr k' v a).map Prod.fst ↔ k = k' ∨ k ∈ a.map Prod.fst := by
  constructor
  · intro h
    obtain ⟨e, he, rfl⟩ := List.mem_map.1 h
    rcases mem_setAttr he with h | h
    · exact .inl (by rw [h])
    · exact .inr (List.mem_map.2 ⟨e, h, rfl⟩)
  · intro h
    have : attrAt k (setAttr k' v a) ≠ none := by
      rw [attrAt_setAttr]
      by_cases hk : k' = k
      · rw [if_pos hk]; exact nofun
      · rw [if_neg hk]
        obtain ⟨v, hv⟩ := attrAt_some_of_key (h.resolve_left fun e => hk e.symm)
        rw [hv]; exact nofun
    by_cases hm : k ∈ (setAttr k' v a).map Prod.fst
    · exact hm
    · exact absurd (attrAt_none hm) this

/-! ## Where what is read comes from -/

/-- The process sets these metadata. -/
def Sets (env : Env) (pre : Option Str) (m : Meta) (p : Proc) : Prop := ∃ xs, asXattrs env m pre = .ok xs ∧ p = .set xs

/-- The attribute was there, or a process sets it. -/
def Source (S : Attrs) (ps : Nat → Proc) (e : Bytes × Bytes) : Prop := e ∈ S ∨ ∃ j xs, ps j = .set xs ∧ e ∈ xs

/-- The attributes at some point -/
def Fine (S : Attrs) (ps : Nat → Proc) (T : Attrs) : Prop :=
  (T.map Prod.fst).Nodup ∧ (∀ e ∈ T, Source S ps e) ∧ ∀ k ∈ S.map Prod.fst, k ∈ T.map Prod.fst

/-- A process at some point -/
def FineProc (S : Attrs) (ps : Nat → Proc) (T : Attrs) (n : Nat) : Proc → Prop
  | .set xs => ∃ ys, ps n = .set (ys ++ xs)
  | .list => True
  | .get ks got => (got.map Prod.fst ++ ks).Nodup ∧ (∀ k ∈ S.map Prod.fst, k ∈ got.map Prod.fst ++ ks) ∧ (∀ k ∈ ks, k ∈ T.map Prod.fst) ∧
      ∀ e ∈ got, Source S ps e

theorem FineProc.mono {S : Attrs} {ps : Nat → Proc} {T T' : Attrs} {n : Nat} {p : Proc} (hT : ∀ k ∈ T.map Prod.fst, k ∈ T'.map Prod.fst)
    (h : FineProc S ps T n p) : FineProc S ps T' n p := by
  cases p with
  | get ks got => exact ⟨h.1, h.2.1, fun k hk => hT k (h.2.2.1 k hk), h.2.2.2⟩
  | _ => exact h

theorem Fine.step {S : Attrs} {ps : Nat → Proc} {T : Attrs} {n : Nat} {p : Proc} (h : Fine S ps T) (hp : FineProc S ps T n p) :
    Fine S ps (p.step T).1 ∧ FineProc S ps (p.step T).1 n (p.step T).2 ∧ ∀ k ∈ T.map Prod.fst, k ∈ (p.step T).1.map Prod.fst := by
  cases p with
  | set xs =>
    cases xs with
    | nil => exact ⟨h, hp, fun _ hk => hk⟩
    | cons x xs =>
      obtain ⟨ys, hys⟩ := hp
      refine ⟨⟨nodup_setAttr h.1, fun e he => ?_, fun k hk => key_setAttr.2 (.inr (h.2.2 k hk))⟩, ⟨ys ++ [x], by simpa using hys⟩,
        fun k hk => key_setAttr.2 (.inr hk)⟩
      rcases mem_setAttr he with rfl | he
      · exact .inr ⟨n, _, hys, by simp⟩
      · exact h.2.1 e he
  | list => exact ⟨h, ⟨by simpa using h.1, by simpa using h.2.2, fun k hk => hk, fun e he => nomatch he⟩, fun _ hk => hk⟩
  | get ks got =>
    cases ks with
    | nil => exact ⟨h, hp, fun _ hk => hk⟩
    | cons k ks =>
      obtain ⟨h1, h2, h3, h4⟩ := hp
      obtain ⟨v, hv⟩ := attrAt_some_of_key (h3 k List.mem_cons_self)
      have e : (Proc.get (k :: ks) got).step T = (T, .get ks (got ++ [(k, v)])) := by simp only [Proc.step, getAttr_eq, hv]
      rw [e]
      refine ⟨h, ⟨by simpa using h1, by simpa using h2, fun k' hk' => h3 k' (List.mem_cons_of_mem _ hk'), fun e he => ?_⟩, fun _ hk => hk⟩
      rcases List.mem_append.1 he with he | he
      · exact h4 e he
      · rw [List.mem_singleton.1 he]
        exact h.2.1 _ (attrAt_mem hv)

theorem fine_calls {S : Attrs} {ps0 : Nat → Proc} : ∀ (ns : List Nat) {T : Attrs} {ps : Nat → Proc}, Fine S ps0 T → (∀ n, FineProc S ps0 T n (ps n)) →
    Fine S ps0 (calls ns T ps).1 ∧ ∀ n, FineProc S ps0 (calls ns T ps).1 n ((calls ns T ps).2 n)
  | [], T, ps, h, hp => ⟨h, hp⟩
  | n :: ns, T, ps, h, hp => by
    obtain ⟨a, b, c⟩ := h.step (hp n)
    refine fine_calls ns (T := (call n T ps).1) (ps := (call n T ps).2) a fun j => ?_
    by_cases hj : j = n
    · simp only [call, if_pos hj]; rw [hj]; exact b
    · simp only [call, if_neg hj]; exact (hp j).mono c

theorem fine_start {S : Attrs} (hn : (S.map Prod.fst).Nodup) {ps : Nat → Proc} (hps : ∀ n, ps n = getter ∨ ∃ xs, ps n = .set xs) :
    Fine S ps S ∧ ∀ n, FineProc S ps S n (ps n) :=
  ⟨⟨hn, fun _ he => .inl he, fun _ hk => hk⟩, fun n => by
    rcases hps n with h | ⟨xs, h⟩
    · rw [h]; exact trivial
    · rw [h]; exact ⟨[], h⟩⟩

/-- What reads of attributes of which each was there, or is set by a process -/
theorem shows_of_sources {env : Env} (hp : ParsesIso env) {pre : Option Str} {S : Attrs} (hn : (S.map Prod.fst).Nodup) {o : PathMeta} {w : Meta}
    (hold : fromXattrs env S pre = .ok o) (hs : o.Shows env w) {ps : Nat → Proc} {got : Attrs} {P : Bytes → Prop} (h1 : (got.map Prod.fst).Nodup)
    (h2 : ∀ k ∈ S.map Prod.fst, k ∈ got.map Prod.fst)
    (hsrc : ∀ e ∈ got, (e ∈ S ∧ P e.1) ∨ ∃ j m xs, WellTyped m ∧ asXattrs env m pre = .ok xs ∧ setter env pre m = .ok (ps j) ∧ e ∈ xs) :
    ∃ o', fromXattrs env got pre = .ok o' ∧ ∀ f, (o'.get env f = .ok (w f) ∧ (P (rawKey pre f.toStr) ∨ rawKey pre f.toStr ∉ got.map Prod.fst)) ∨
      ∃ j m, setter env pre m = .ok (ps j) ∧ written (m f) ∧ o'.get env f = .ok (xattrReadBack f (m f)) := by
  unfold fromXattrs at hold
  cases hk0 : kwargs env pre S with
  | error e => rw [hk0] at hold; cases hold
  | ok kw0 =>
  rw [hk0] at hold
  simp only at hold
  obtain ⟨hself, hargs⟩ := mkMeta_args hold hs (file_id_int hk0 hn)
  have hall : ∀ e ∈ got, Readable env pre e := fun e he => by
    rcases hsrc e he with h | ⟨j, m, xs, a, b, c, h⟩
    · exact (kwargs_ok_iff env pre S).1 ⟨_, hk0⟩ e h.1
    · obtain ⟨xs', hx', hk1⟩ := kwargs_attrs env pre m a Field.all
      obtain rfl : xs' = xs := by rw [asXattrs, hx'] at b; exact Except.ok.inj b
      exact (kwargs_ok_iff env pre xs').1 ⟨_, hk1⟩ e h
  obtain ⟨kw, hk⟩ := (kwargs_ok_iff env pre _).2 hall
  have hget : ∀ k, (dictGet k kw = dictGet k kw0 ∧ (P (rawKey pre k) ∨ rawKey pre k ∉ got.map Prod.fst)) ∨
      ∃ j m, WellTyped m ∧ setter env pre m = .ok (ps j) ∧ dictGet k kw = dictGet k (kwOf (args m) Field.all) ∧ dictGet k kw ≠ none := by
    intro k
    have r1 := kwargs_reads hk h1 k
    have r3 := kwargs_reads hk0 hn k
    have same : ∀ {x y : Option PyVal}, Option.map (Except.ok (ε := PyErr)) x = Option.map Except.ok y → x = y := fun {x y} h => by
      cases x <;> cases y <;> simp_all
    cases ha : attrAt (rawKey pre k) got with
    | none =>
      left
      have hno : rawKey pre k ∉ got.map Prod.fst := fun hm => by
        obtain ⟨v, hv⟩ := attrAt_some_of_key hm
        rw [hv] at ha; cases ha
      have : attrAt (rawKey pre k) S = none := attrAt_none fun hm => hno (h2 _ hm)
      rw [ha] at r1; rw [this] at r3
      exact ⟨same (r1.symm.trans r3), .inr hno⟩
    | some v =>
      rcases hsrc _ (attrAt_mem ha) with ⟨h, hP⟩ | ⟨j, m, xs, a, b, c, h⟩
      · left
        rw [attrAt_of_mem hn h] at r3
        rw [ha] at r1
        exact ⟨same (r1.symm.trans r3), .inl hP⟩
      · right
        obtain ⟨xs', hx', hk1⟩ := kwargs_attrs env pre m a Field.all
        obtain rfl : xs' = xs := by rw [asXattrs, hx'] at b; exact Except.ok.inj b
        have hnx := attrs_nodup env pre m _ _ Field.nodup_all hx'
        have r2 := kwargs_reads hk1 hnx k
        rw [attrAt_of_mem hnx h] at r2
        rw [ha] at r1
        refine ⟨j, m, a, c, same (r1.symm.trans r2), fun h0 => ?_⟩
        rw [h0] at r1; cases r1
  have hval : ∀ f : Field, ∃ v, ArgOK env f ((dictGet f.toStr kw).getD .none) v ∧ ((v = w f ∧ (P (rawKey pre f.toStr) ∨ rawKey pre f.toStr ∉ got.map Prod.fst)) ∨
      ∃ j m, setter env pre m = .ok (ps j) ∧ written (m f) ∧ v = xattrReadBack f (m f)) := fun f => by
    rcases hget f.toStr with ⟨h, hP⟩ | ⟨j, m, a, c, h, h0⟩
    · exact ⟨w f, by rw [h]; exact hargs f, .inl ⟨rfl, hP⟩⟩
    · rw [h, dictGet_kwOf _ _ _ Field.nodup_all, if_pos f.mem_all] at h0
      rw [h, dictGet_kwOf _ _ _ Field.nodup_all, if_pos f.mem_all]
      by_cases hw : written (m f)
      · exact ⟨_, argOK env hp f (m f) (a f), .inr ⟨j, m, c, hw, rfl⟩⟩
      · simp [args, hw] at h0
  obtain ⟨v, hv⟩ := Classical.axiomOfChoice hval
  obtain ⟨o', e, hsh, -⟩ := mkMeta_shows env kw v (by
    rcases hget (lit "self") with h | ⟨j, m, a, c, h, h0⟩
    · rw [h.1, hself]
    · rw [h, dictGet_self_kwOf]) fun f => (hv f).1
  refine ⟨o', by simp [fromXattrs, hk, e], fun f => ?_⟩
  rcases (hv f).2 with h | ⟨j, m, a, b, h⟩
  · exact .inl ⟨h.1 ▸ hsh f, h.2⟩
  · exact .inr ⟨j, m, a, b, h ▸ hsh f⟩

theorem attrs_append {env : Env} {pre : Option Str} {m : Meta} : ∀ {l1 l2 : List Field} {xs : Attrs}, attrs env pre m (l1 ++ l2) = .ok xs →
    ∃ a b, attrs env pre m l1 = .ok a ∧ attrs env pre m l2 = .ok b ∧ xs = a ++ b
  | [], l2, xs, h => ⟨[], xs, rfl, h, rfl⟩
  | f :: l1, l2, xs, h => by
    simp only [List.cons_append, attrs] at h
    cases ha : attr env pre m f with
    | error e => rw [ha] at h; cases h
    | ok a =>
      rw [ha] at h
      simp only at h
      cases hb : attrs env pre m (l1 ++ l2) with
      | error e => rw [hb] at h; cases h
      | ok b =>
        rw [hb] at h
        obtain ⟨x, y, hx, hy, rfl⟩ := attrs_append hb
        exact ⟨a ++ x, y, by simp [attrs, ha, hx], hy, by simpa using (Except.ok.inj h).symm⟩

theorem attrs_congr {env : Env} {pre : Option Str} {m m' : Meta} : ∀ {fs : List Field}, (∀ f ∈ fs, m f = m' f) → attrs env pre m fs = attrs env pre m' fs
  | [], _ => rfl
  | f :: fs, h => by
    rw [attrs, attrs, attrs_congr fun g hg => h g (List.mem_cons_of_mem _ hg)]
    simp only [attr, h f List.mem_cons_self]

theorem attrs_nothing {env : Env} {pre : Option Str} {m : Meta} : ∀ {fs : List Field}, (∀ f ∈ fs, Unwritten (m f)) → attrs env pre m fs = .ok []
  | [], _ => rfl
  | f :: fs, h => by
    have hf : ¬ (m f ≠ .none ∧ ¬ (m f).emptyIterable) := fun hw => (h f List.mem_cons_self).elim hw.1 hw.2
    rw [attrs, attrs_nothing fun g hg => h g (List.mem_cons_of_mem _ hg), attr, if_neg hf]
    rfl

theorem attrs_has {env : Env} {pre : Option Str} {m : Meta} {fs : List Field} {xs : Attrs} (h : attrs env pre m fs = .ok xs) {f : Field} (hf : f ∈ fs)
    (hw : ¬ Unwritten (m f)) : rawKey pre f.toStr ∈ xs.map Prod.fst := by
  obtain ⟨l1, l2, rfl⟩ := List.append_of_mem hf
  obtain ⟨a, b, -, hb, rfl⟩ := attrs_append h
  have hw : m f ≠ .none ∧ ¬ (m f).emptyIterable := ⟨fun h => hw (.inl h), fun h => hw (.inr h)⟩
  rw [attrs, attr, if_pos hw] at hb
  cases he : encode env f (m f) with
  | error e => rw [he] at hb; cases hb
  | ok v =>
    rw [he] at hb
    simp only at hb
    cases hr : attrs env pre m l2 with
    | error e => rw [hr] at hb; cases hb
    | ok r =>
      rw [hr] at hb
      cases hb
      simp [rawKey_field]

/-- Every process reads the metadata or sets some. -/
def Users (env : Env) (pre : Option Str) (ps : Nat → Proc) : Prop :=
  ∀ n, ps n = getter ∨ ∃ m, WellTyped m ∧ setter env pre m = .ok (ps n)

theorem setter_ok {env : Env} {pre : Option Str} {m : Meta} {p : Proc} (h : setter env pre m = .ok p) :
    ∃ xs, asXattrs env m pre = .ok xs ∧ p = .set xs := by
  unfold setter at h
  split at h
  · rename_i xs hx
    exact ⟨xs, hx, (Except.ok.inj h).symm⟩
  · cases h

theorem Users.sets {env : Env} {pre : Option Str} {ps : Nat → Proc} (h : Users env pre ps) (n : Nat) : ps n = getter ∨ ∃ xs, ps n = .set xs :=
  (h n).imp_right fun ⟨_, _, h⟩ => (setter_ok h).imp fun _ h => h.2

theorem Users.source {env : Env} {pre : Option Str} {ps : Nat → Proc} (h : Users env pre ps) {j : Nat} {xs : Attrs} (hj : ps j = .set xs) :
    ∃ m, WellTyped m ∧ asXattrs env m pre = .ok xs ∧ setter env pre m = .ok (ps j) := by
  rcases h j with h' | ⟨m, hm, h'⟩
  · rw [h'] at hj; cases hj
  · obtain ⟨xs', a, b⟩ := setter_ok h'
    rw [b] at hj; cases hj
    exact ⟨m, hm, a, h'⟩

/-- **C127**: what is read while any number of processes set metadata is an object each of whose fields has the value from before, or one that a
process sets. -/
theorem C127_fields (env : Env) (hp : ParsesIso env) (pre : Option Str) (S : Attrs) (hn : (S.map Prod.fst).Nodup) (o : PathMeta) (w : Meta)
    (hold : fromXattrs env S pre = .ok o) (hs : o.Shows env w) (ps : Nat → Proc) (hps : Users env pre ps) (ns : List Nat) (n : Nat)
    (r : Except PyErr PathMeta) (hr : ((calls ns S ps).2 n).answer env pre = some r) :
    ∃ o', r = .ok o' ∧ ∀ f, o'.get env f = .ok (w f) ∨
      ∃ j m, setter env pre m = .ok (ps j) ∧ ¬ Unwritten (m f) ∧ o'.get env f = .ok (xattrReadBack f (m f)) := by
  obtain ⟨-, hf⟩ := (fine_start hn hps.sets).elim fun a b => fine_calls ns a b
  have hfn := hf n
  cases hp' : (calls ns S ps).2 n with
  | set xs => rw [hp'] at hr; cases hr
  | list => rw [hp'] at hr; cases hr
  | get ks got =>
    rw [hp'] at hr hfn
    cases ks with
    | cons k ks => cases hr
    | nil =>
    simp only [Proc.answer, Option.some.injEq] at hr
    obtain ⟨h1, h2, -, h4⟩ := hfn
    rw [List.append_nil] at h1
    simp only [List.append_nil] at h2
    subst hr
    obtain ⟨o', e, h⟩ := shows_of_sources hp hn hold hs (ps := ps) (P := fun _ => True) h1 h2 fun e he => by
      rcases h4 e he with h | ⟨j, xs, hj, h⟩
      · exact .inl ⟨h, trivial⟩
      · obtain ⟨m, a, b, c⟩ := hps.source hj
        exact .inr ⟨j, m, xs, a, b, c, h⟩
    exact ⟨o', e, fun f => (h f).imp (fun h => h.1) fun ⟨j, m, a, b, c⟩ => ⟨j, m, a, fun hu => hu.elim b.1 b.2, c⟩⟩

/-- **C127**: if all the processes that set metadata differ from what is there in one field only, then what is read is what was there, or what
one of them sets. -/
theorem C127_one (env : Env) (hp : ParsesIso env) (pre : Option Str) (S : Attrs) (hn : (S.map Prod.fst).Nodup) (o : PathMeta) (w : Meta)
    (hold : fromXattrs env S pre = .ok o) (hs : o.Shows env w) (ps : Nat → Proc) (hps : Users env pre ps) (f0 : Field)
    (hone : ∀ j m, setter env pre m = .ok (ps j) → ∀ f, f ≠ f0 → ¬ Unwritten (m f) → xattrReadBack f (m f) = w f)
    (ns : List Nat) (n : Nat) (r : Except PyErr PathMeta) (hr : ((calls ns S ps).2 n).answer env pre = some r) :
    ∃ o', r = .ok o' ∧ (o'.Shows env w ∨ ∃ j m, setter env pre m = .ok (ps j) ∧
      ∀ f, (¬ Unwritten (m f) → o'.get env f = .ok (xattrReadBack f (m f))) ∧ (Unwritten (m f) → o'.get env f = .ok (w f))) := by
  obtain ⟨o', e, h⟩ := C127_fields env hp pre S hn o w hold hs ps hps ns n r hr
  have hother : ∀ f, f ≠ f0 → o'.get env f = .ok (w f) := fun f hf => by
    rcases h f with h | ⟨j, m, a, b, c⟩
    · exact h
    · rw [c, hone j m a f hf b]
  refine ⟨o', e, ?_⟩
  rcases h f0 with h0 | ⟨j, m, a, b, c⟩
  · exact .inl fun f => if hf : f = f0 then hf ▸ h0 else hother f hf
  · refine .inr ⟨j, m, a, fun f => ?_⟩
    by_cases hf : f = f0
    · rw [hf]; exact ⟨fun _ => c, fun hu => absurd hu b⟩
    · exact ⟨fun hu => by rw [hother f hf, hone j m a f hf hu], fun _ => hother f hf⟩

/-! ## What is there at the end -/

/-- What a process has set is there, or what another one has set after it. -/
def Set1 (ps : Nat → Proc) (T : Attrs) (n : Nat) : Proc → Prop
  | .set xs => ∃ ys, ps n = .set (ys ++ xs) ∧ ∀ k ∈ ys.map Prod.fst, ∃ v i zs, attrAt k T = some v ∧ ps i = .set zs ∧ (k, v) ∈ zs
  | _ => ps n = getter

theorem set1_calls {ps0 : Nat → Proc} : ∀ (ns : List Nat) {T : Attrs} {ps : Nat → Proc}, (∀ n, Set1 ps0 T n (ps n)) →
    ∀ n, Set1 ps0 (calls ns T ps).1 n ((calls ns T ps).2 n)
  | [], T, ps, h => h
  | n :: ns, T, ps, h => by
    refine set1_calls ns (T := (call n T ps).1) (ps := (call n T ps).2) fun j => ?_
    have hn := h n
    cases hp : ps n with
    | set xs =>
      rw [hp] at hn
      obtain ⟨ys, hys, hd⟩ := hn
      cases xs with
      | nil =>
        have e : call n T ps = (T, ps) := by
          simp only [call, hp, Proc.step]
          congr 1; funext i; split
          · rename_i hi; rw [hi, hp]
          · rfl
        rw [e]; exact h j
      | cons x xs =>
        have hx : x ∈ ys ++ x :: xs := by simp
        have hkeep : ∀ k, (∃ v i zs, attrAt k T = some v ∧ ps0 i = .set zs ∧ (k, v) ∈ zs) →
            ∃ v i zs, attrAt k (setAttr x.1 x.2 T) = some v ∧ ps0 i = .set zs ∧ (k, v) ∈ zs := fun k ⟨v, i, zs, a, b, c⟩ => by
          by_cases hk : x.1 = k
          · exact ⟨x.2, n, _, by rw [attrAt_setAttr, if_pos hk], hys, by rw [← hk]; exact hx⟩
          · exact ⟨v, i, zs, by rw [attrAt_setAttr, if_neg hk, a], b, c⟩
        by_cases hj : j = n
        · simp only [call, hp, Proc.step, if_pos hj]
          subst hj
          refine ⟨ys ++ [x], by simpa using hys, fun k hk => ?_⟩
          rw [List.map_append, List.mem_append] at hk
          rcases hk with hk | hk
          · exact hkeep k (hd k hk)
          · have hk : k = x.1 := by simpa using hk
            exact ⟨x.2, j, _, by rw [attrAt_setAttr, if_pos hk.symm], hys, by rw [hk]; exact hx⟩
        · simp only [call, hp, Proc.step, if_neg hj]
          have hj' := h j
          cases hpj : ps j with
          | set zs =>
            rw [hpj] at hj'
            obtain ⟨zs', a, b⟩ := hj'
            exact ⟨zs', a, fun k hk => hkeep k (b k hk)⟩
          | list => rw [hpj] at hj'; exact hj'
          | get _ _ => rw [hpj] at hj'; exact hj'
    | list =>
      rw [hp] at hn
      by_cases hj : j = n
      · simp only [call, hp, Proc.step, if_pos hj]; subst hj; exact hn
      · simp only [call, hp, Proc.step, if_neg hj]; exact h j
    | get ks got =>
      rw [hp] at hn
      have e : (call n T ps).1 = T ∧ ∃ ks' got', (call n T ps).2 n = .get ks' got' := by
        cases ks with
        | nil => exact ⟨by simp only [call, hp, Proc.step], [], got, by simp only [call, hp, Proc.step, if_pos]⟩
        | cons k ks =>
          cases hg : getAttr k T with
          | none => exact ⟨by simp only [call, hp, Proc.step, hg], ks, got, by simp only [call, hp, Proc.step, hg, if_pos]⟩
          | some v => exact ⟨by simp only [call, hp, Proc.step, hg], ks, _, by simp only [call, hp, Proc.step, hg, if_pos]; rfl⟩
      obtain ⟨e1, ks', got', e2⟩ := e
      rw [e1]
      by_cases hj : j = n
      · rw [hj, e2]; exact hn
      · simp only [call, if_neg hj]; exact h j

/-- **C127**: when all the processes have ended, each field has a value that one of the processes sets, if any of them sets it, and the value from before if
none does. -/
theorem C127_store (env : Env) (hp : ParsesIso env) (pre : Option Str) (S : Attrs) (hn : (S.map Prod.fst).Nodup) (o : PathMeta) (w : Meta)
    (hold : fromXattrs env S pre = .ok o) (hs : o.Shows env w) (ps : Nat → Proc) (hps : Users env pre ps) (ns : List Nat)
    (hend : ∀ n xs, (calls ns S ps).2 n = .set xs → xs = []) :
    ∃ o', fromXattrs env (calls ns S ps).1 pre = .ok o' ∧ ∀ f,
      ((∀ j m, setter env pre m = .ok (ps j) → Unwritten (m f)) → o'.get env f = .ok (w f)) ∧
      ((∃ j m, setter env pre m = .ok (ps j) ∧ ¬ Unwritten (m f)) →
        ∃ j m, setter env pre m = .ok (ps j) ∧ ¬ Unwritten (m f) ∧ o'.get env f = .ok (xattrReadBack f (m f))) := by
  obtain ⟨⟨h1, h4, h2⟩, -⟩ := (fine_start hn hps.sets).elim fun a b => fine_calls ns a b
  have hset := set1_calls (ps0 := ps) ns (T := S) (ps := ps) fun n => by
    rcases hps.sets n with h | ⟨xs, h⟩
    · rw [h]; exact h
    · rw [h]; exact ⟨[], h, fun k hk => nomatch hk⟩
  have hdone : ∀ j xs, ps j = .set xs → ∀ k ∈ xs.map Prod.fst, ∃ v i zs, attrAt k (calls ns S ps).1 = some v ∧ ps i = .set zs ∧ (k, v) ∈ zs := fun j xs hj => by
    have := hset j
    cases hc : (calls ns S ps).2 j with
    | set zs =>
      rw [hc] at this
      obtain ⟨ys, a, b⟩ := this
      rw [hend j zs hc, List.append_nil, hj] at a
      cases a; exact b
    | list => rw [hc] at this; rw [show ps j = getter from this] at hj; cases hj
    | get _ _ => rw [hc] at this; rw [show ps j = getter from this] at hj; cases hj
  obtain ⟨o', e, h⟩ := shows_of_sources hp hn hold hs (ps := ps) (P := fun k => ∀ j xs, ps j = .set xs → k ∉ xs.map Prod.fst) h1 h2 fun e he => by
    by_cases hw : ∃ j xs, ps j = .set xs ∧ e.1 ∈ xs.map Prod.fst
    · obtain ⟨j, xs, hj, hk⟩ := hw
      obtain ⟨v, i, zs, a, b, c⟩ := hdone j xs hj _ hk
      obtain ⟨m, x, y, z⟩ := hps.source b
      refine .inr ⟨i, m, zs, x, y, z, ?_⟩
      have := attrAt_of_mem h1 (k := e.1) (v := e.2) he
      rw [a] at this
      cases this; exact c
    · rcases h4 e he with h | ⟨j, xs, hj, h⟩
      · exact .inl ⟨h, fun j xs hj hk => hw ⟨j, xs, hj, hk⟩⟩
      · exact absurd ⟨j, xs, hj, List.mem_map.2 ⟨e, h, rfl⟩⟩ hw
  refine ⟨o', e, fun f => ⟨fun hno => ?_, fun ⟨j, m, a, b⟩ => ?_⟩⟩
  · rcases h f with h | ⟨j, m, a, b, -⟩
    · exact h.1
    · exact absurd (hno j m a) fun hu => hu.elim b.1 b.2
  · rcases h f with ⟨-, hP⟩ | ⟨j, m, a, b, c⟩
    · exfalso
      obtain ⟨xs, hx, hj⟩ := setter_ok a
      have hk : rawKey pre f.toStr ∈ xs.map Prod.fst := attrs_has hx f.mem_all b
      rcases hP with hP | hP
      · exact hP j xs hj hk
      · obtain ⟨v, i, zs, a, b, c⟩ := hdone j xs hj _ hk
        exact hP (List.mem_map.2 ⟨_, attrAt_mem a, rfl⟩)
    · exact ⟨j, m, a, fun hu => hu.elim b.1 b.2, c⟩

/-! ## Reading after everything has been set -/

theorem get_alone (n : Nat) {T : Attrs} (hn : (T.map Prod.fst).Nodup) : ∀ (ms : List Nat) {ps : Nat → Proc} {as bs : Attrs},
    T = as ++ bs → ps n = .get (bs.map Prod.fst) as → (∀ j xs, ps j = .set xs → xs = []) →
    ∃ as' bs', T = as' ++ bs' ∧ (calls ms T ps).2 n = .get (bs'.map Prod.fst) as'
  | [], ps, as, bs, hT, hp, _ => ⟨as, bs, hT, hp⟩
  | i :: ms, ps, as, bs, hT, hp, hset => by
    have h1 : (call i T ps).1 = T := by
      simp only [call]
      cases hi : ps i with
      | set xs => rw [hset i xs hi]; rfl
      | list => rfl
      | get ks got =>
        cases ks with
        | nil => rfl
        | cons k ks => simp only [Proc.step]; split <;> rfl
    have h2 : ∀ j xs, (call i T ps).2 j = .set xs → xs = [] := fun j xs h => by
      simp only [call] at h
      by_cases hj : j = i
      · rw [if_pos hj] at h
        cases hi : ps i with
        | set ys => rw [hi, hset i ys hi] at h; cases h; rfl
        | list => rw [hi] at h; cases h
        | get ks got =>
          rw [hi] at h
          cases ks with
          | nil => cases h
          | cons k ks => simp only [Proc.step] at h; split at h <;> cases h
      · rw [if_neg hj] at h; exact hset j xs h
    rw [calls, h1]
    by_cases hi : n = i
    · subst hi
      cases bs with
      | nil => exact get_alone n hn ms hT (by simp [call, hp, Proc.step]) h2
      | cons b bs =>
        refine get_alone n hn ms (as := as ++ [b]) (bs := bs) (by simp [hT]) ?_ h2
        have : attrAt b.1 T = some b.2 := attrAt_of_mem hn (by rw [hT]; simp)
        simp [call, hp, Proc.step, getAttr_eq, this]
    · exact get_alone n hn ms hT (by simp only [call, if_neg hi]; exact hp) h2

/-- **C127**: what is read once all the processes that set metadata have ended is what is there. -/
theorem C127_quiet (env : Env) (pre : Option Str) (T : Attrs) (hn : (T.map Prod.fst).Nodup) (ps : Nat → Proc)
    (hend : ∀ n xs, ps n = .set xs → xs = []) (n : Nat) (hnew : ps n = getter) (ms : List Nat)
    (r : Except PyErr PathMeta) (hr : ((calls ms T ps).2 n).answer env pre = some r) : r = fromXattrs env T pre := by
  induction ms generalizing ps with
  | nil => simp only [calls, hnew] at hr; cases hr
  | cons i ms ih =>
    by_cases hi : n = i
    · subst hi
      have hc : call n T ps = (T, fun j => if j = n then .get (T.map Prod.fst) [] else ps j) := by simp only [call, hnew, getter, Proc.step]
      rw [calls, hc] at hr
      obtain ⟨as, bs, hT, h⟩ := get_alone n hn ms (as := []) (bs := T) (ps := fun j => if j = n then .get (T.map Prod.fst) [] else ps j) rfl (by simp) fun j xs h => by
        by_cases hj : j = n
        · simp [hj] at h
        · rw [if_neg hj] at h; exact hend j xs h
      rw [h] at hr
      cases bs with
      | nil => rw [hT, List.append_nil]; exact (Option.some.inj hr).symm
      | cons b bs => cases hr
    · have h1 : (call i T ps).1 = T := by
        simp only [call]
        cases hi : ps i with
        | set xs => rw [hend i xs hi]; rfl
        | list => rfl
        | get ks got =>
          cases ks with
          | nil => rfl
          | cons k ks => simp only [Proc.step]; split <;> rfl
      rw [calls, h1] at hr
      refine ih (call i T ps).2 (fun j xs h => ?_) (by simp only [call, if_neg hi]; exact hnew) hr
      simp only [call] at h
      by_cases hj : j = i
      · rw [if_pos hj] at h
        cases hi : ps i with
        | set ys => rw [hi, hend i ys hi] at h; cases h; rfl
        | list => rw [hi] at h; cases h
        | get ks got =>
          rw [hi] at h
          cases ks with
          | nil => cases h
          | cons k ks => simp only [Proc.step] at h; split at h <;> cases h
      · rw [if_neg hj] at h; exact hend j xs h

/-! ## What can go wrong -/

theorem calls_append : ∀ (ns ms : List Nat) (a : Attrs) (ps : Nat → Proc), calls (ns ++ ms) a ps = calls ms (calls ns a ps).1 (calls ns a ps).2
  | [], _, _, _ => rfl
  | n :: ns, ms, a, ps => by rw [List.cons_append, calls, calls_append ns ms]; rfl

theorem set_alone (n : Nat) : ∀ (ys zs : Attrs) (a : Attrs) (ps : Nat → Proc), ps n = .set (ys ++ zs) →
    calls (List.replicate ys.length n) a ps = (setAll a ys, fun j => if j = n then .set zs else ps j)
  | [], zs, a, ps, h => by
    simp only [List.length_nil, List.replicate, calls, setAll, List.foldl_nil]
    congr 1; funext j; split
    · rename_i hj; rw [hj]; exact h
    · rfl
  | y :: ys, zs, a, ps, h => by
    have hc : call n a ps = (setAttr y.1 y.2 a, fun j => if j = n then .set (ys ++ zs) else ps j) := by simp only [call, h, List.cons_append, Proc.step]
    rw [List.length_cons, List.replicate_succ, calls, hc, set_alone n ys zs _ _ (by simp)]
    simp only [setAll, List.foldl_cons]
    congr 1; funext j; split <;> rfl

theorem read_alone (n : Nat) {T : Attrs} (hn : (T.map Prod.fst).Nodup) (ps : Nat → Proc) (hp : ps n = getter) :
    (calls (List.replicate (T.length + 1) n) T ps).2 n = .get [] T := by
  have hc : call n T ps = (T, fun j => if j = n then .get (T.map Prod.fst) [] else ps j) := by simp only [call, hp, getter, Proc.step]
  rw [List.replicate_succ, calls, hc]
  have : ∀ (bs as : Attrs) (ps : Nat → Proc), T = as ++ bs → ps n = .get (bs.map Prod.fst) as →
      (calls (List.replicate bs.length n) T ps).2 n = .get [] T := by
    intro bs
    induction bs with
    | nil => intro as ps hT hp; rw [List.append_nil] at hT; rw [hT]; exact hp
    | cons b bs ih =>
      intro as ps hT hp
      have hb : attrAt b.1 T = some b.2 := attrAt_of_mem hn (by rw [hT]; simp)
      have hc : call n T ps = (T, fun j => if j = n then .get (bs.map Prod.fst) (as ++ [b]) else ps j) := by
        simp only [call, hp, List.map_cons, Proc.step, getAttr_eq, hb]
      rw [List.length_cons, List.replicate_succ, calls, hc]
      exact ih (as ++ [b]) _ (by simp [hT]) (by simp)
  exact this T [] _ rfl (by simp)

/-- The fields `fs` of `m` only -/
def only (fs : List Field) (m : Meta) : Meta := fun f => if f ∈ fs then m f else if f = .errors then .strs [] else .none

theorem only_in {fs : List Field} {m : Meta} {f : Field} (h : f ∈ fs) : only fs m f = m f := if_pos h

theorem only_out {fs : List Field} {m : Meta} {f : Field} (h : f ∉ fs) : Unwritten (only fs m f) := by
  rw [only, if_neg h]
  split
  · exact .inr rfl
  · exact .inl rfl

theorem not_written {v : PyVal} (h : Unwritten v) : ¬ written v := fun hw => h.elim hw.1 hw.2

theorem only_typed {fs : List Field} {m : Meta} (h : WellTyped m) : WellTyped (only fs m) := fun f => by
  unfold only
  split
  · exact h f
  · cases f <;> exact trivial

theorem asXattrs_split {env : Env} {pre : Option Str} {m : Meta} {xs : Attrs} (h : asXattrs env m pre = .ok xs) {l1 l2 : List Field} (hl : Field.all = l1 ++ l2) :
    ∃ a b, xs = a ++ b ∧ asXattrs env (only l1 m) pre = .ok a ∧ asXattrs env (only l2 m) pre = .ok b := by
  have hnd := Field.nodup_all
  rw [hl, List.nodup_append] at hnd
  rw [asXattrs, hl] at h
  obtain ⟨a, b, ha, hb, rfl⟩ := attrs_append h
  have app : ∀ {m : Meta} {x y : Attrs}, attrs env pre m l1 = .ok x → attrs env pre m l2 = .ok y → asXattrs env m pre = .ok (x ++ y) := by
    intro m x y hx hy
    rw [asXattrs, hl]
    clear ha hb h hnd hl
    induction l1 generalizing x with
    | nil => cases hx; exact hy
    | cons f l1 ih =>
      simp only [List.cons_append, attrs] at hx ⊢
      cases hf : attr env pre m f with
      | error e => rw [hf] at hx; cases hx
      | ok z =>
        rw [hf] at hx
        simp only at hx ⊢
        cases hr : attrs env pre m l1 with
        | error e => rw [hr] at hx; cases hx
        | ok t => rw [hr] at hx; cases hx; rw [ih hr]; simp
  refine ⟨a, b, rfl, ?_, ?_⟩
  · have := app (m := only l1 m) (x := a) (y := []) (by rw [← ha]; exact attrs_congr fun f hf => only_in hf)
      (attrs_nothing fun f hf => only_out fun h1 => hnd.2.2 f h1 f hf rfl)
    simpa using this
  · exact app (m := only l2 m) (x := []) (y := b) (attrs_nothing fun f hf => only_out fun h1 => hnd.2.2 f hf f h1 rfl)
      (by rw [← hb]; exact attrs_congr fun f hf => only_in hf)

/-- One process sets metadata and all the others read. -/
def oneSets (p : Proc) : Nat → Proc := fun n => if n = 0 then p else getter

/-- **C127 is false as a whole**: while one process sets metadata, another one can read an object that has the new value of any field and the old
value of any field that comes after it. -/
theorem C127_torn_counterexample (env : Env) (hp : ParsesIso env) (pre : Option Str) (S : Attrs) (hn : (S.map Prod.fst).Nodup) (o : PathMeta) (w : Meta)
    (hold : fromXattrs env S pre = .ok o) (hs : o.Shows env w) (m : Meta) (ht : WellTyped m) (p : Proc) (hset : setter env pre m = .ok p)
    (l1 l2 l3 : List Field) (f1 f2 : Field) (hl : Field.all = l1 ++ f1 :: l2 ++ f2 :: l3) (h1 : ¬ Unwritten (m f1)) :
    ∃ ns o', ((calls ns S (oneSets p)).2 1).answer env pre = some (.ok o') ∧ o'.get env f1 = .ok (xattrReadBack f1 (m f1)) ∧ o'.get env f2 = .ok (w f2) := by
  obtain ⟨xs, hx, rfl⟩ := setter_ok hset
  obtain ⟨a, b, rfl, ha, -⟩ := asXattrs_split hx hl
  obtain ⟨o', e, h⟩ := overlay hp (only_typed ht) hn hold hs ha
  have hw1 : written (m f1) := ⟨fun h => h1 (.inl h), fun h => h1 (.inr h)⟩
  have hnd := Field.nodup_all
  rw [hl, List.nodup_append] at hnd
  have h2 : f2 ∉ l1 ++ f1 :: l2 := fun h => hnd.2.2 f2 h f2 (by simp) rfl
  refine ⟨List.replicate a.length 0 ++ List.replicate ((setAll S a).length + 1) 1, o', ?_, ?_, ?_⟩
  · rw [calls_append, set_alone 0 a b S _ rfl, read_alone 1 (nodup_setAll hn) _ rfl]
    simp only [Proc.answer, e]
  · rw [h f1]
    simp only [only_in (m := m) (by simp : f1 ∈ l1 ++ f1 :: l2), if_pos hw1]
  · rw [h f2]
    exact congrArg Except.ok (if_neg (not_written (only_out h2)))

/-- Two processes set metadata and all the others read. -/
def twoSet (p q : Proc) : Nat → Proc := fun n => if n = 0 then p else if n = 1 then q else getter

/-- **C127 is false as a whole**: when two processes have set metadata at the same time, any field can have the value that one of them sets and any field that comes after it
the value that the other one sets. -/
theorem C127_mix_counterexample (env : Env) (hp : ParsesIso env) (pre : Option Str) (S : Attrs) (hn : (S.map Prod.fst).Nodup) (o : PathMeta) (w : Meta)
    (hold : fromXattrs env S pre = .ok o) (hs : o.Shows env w) (m m' : Meta) (ht : WellTyped m) (ht' : WellTyped m') (p q : Proc)
    (hset : setter env pre m = .ok p) (hset' : setter env pre m' = .ok q)
    (l1 l2 l3 : List Field) (f1 f2 : Field) (hl : Field.all = l1 ++ f1 :: l2 ++ f2 :: l3) (h1 : ¬ Unwritten (m f1)) (h2 : ¬ Unwritten (m' f2)) :
    ∃ ns o', (∀ n xs, (calls ns S (twoSet p q)).2 n = .set xs → xs = []) ∧ fromXattrs env (calls ns S (twoSet p q)).1 pre = .ok o' ∧
      o'.get env f1 = .ok (xattrReadBack f1 (m f1)) ∧ o'.get env f2 = .ok (xattrReadBack f2 (m' f2)) := by
  obtain ⟨xs, hx, rfl⟩ := setter_ok hset
  obtain ⟨ys, hy, rfl⟩ := setter_ok hset'
  obtain ⟨a, b, rfl, ha, hb⟩ := asXattrs_split hy hl
  obtain ⟨o1, e1, s1⟩ := overlay hp (only_typed ht') hn hold hs ha
  obtain ⟨o2, e2, s2⟩ := overlay hp ht (nodup_setAll hn) e1 s1 hx
  obtain ⟨o3, e3, s3⟩ := overlay hp (only_typed ht') (nodup_setAll (nodup_setAll hn)) e2 s2 hb
  have hw1 : written (m f1) := ⟨fun h => h1 (.inl h), fun h => h1 (.inr h)⟩
  have hw2 : written (m' f2) := ⟨fun h => h2 (.inl h), fun h => h2 (.inr h)⟩
  have hnd := Field.nodup_all
  rw [hl, List.nodup_append] at hnd
  have hf1 : f1 ∉ f2 :: l3 := fun h => hnd.2.2 f1 (by simp) f1 h rfl
  refine ⟨List.replicate a.length 1 ++ (List.replicate xs.length 0 ++ List.replicate b.length 1), o3, ?_, ?_, ?_, ?_⟩
  · rw [calls_append, set_alone 1 a b S _ rfl, calls_append, set_alone 0 xs [] _ _ (by simp [twoSet]), set_alone 1 b [] _ _ (by simp)]
    intro n zs
    simp only [twoSet, getter]
    split
    · intro h; cases h; rfl
    · split
      · intro h; cases h; rfl
      · exact nofun
  · rw [calls_append, set_alone 1 a b S _ rfl, calls_append, set_alone 0 xs [] _ _ (by simp [twoSet]), set_alone 1 b [] _ _ (by simp)]
    exact e3
  · rw [s3 f1]
    exact congrArg Except.ok ((if_neg (not_written (only_out hf1))).trans (if_pos hw1))
  · rw [s3 f2]
    simp only [only_in (m := m') (by simp : f2 ∈ f2 :: l3), if_pos hw2]

/-! ## One process alone -/

/-- **C127**: a process that sets metadata alone leaves what `_meta_setter` of C31 leaves. -/
theorem C127_alone_sets (C : EatEnv) {q : Path} {b : Bool} {x : Bytes} {S : Attrs} {d : Disk AObj} (hq : d.at_ q = some (.node b x S)) {m : Meta}
    (mo : Bool) (k : Nat) {r : Option Meta} {s : Machine AObj} (hrun : C.metaSetter q m mo ⟨d, k⟩ = (.ok r, s)) :
    ∃ p n, setter C.env C.pre m = .ok p ∧ (calls (List.replicate n 0) S (oneSets p)).2 0 = .set [] ∧
      s.disk.at_ q = some (.node b x (calls (List.replicate n 0) S (oneSets p)).1) := by
  have hh := metaSetter_hoare C q b x S d m mo hq ⟨d, k⟩ rfl
  rw [hrun] at hh
  obtain ⟨-, xs, h2, h3, -⟩ := hh
  refine ⟨.set xs, xs.length, by rw [setter, h2], ?_⟩
  rw [set_alone 0 xs [] S _ (by simp [oneSets])]
  exact ⟨rfl, h3⟩

/-- **C127**: a process that reads metadata alone gets what `meta` of C31 gives. -/
theorem C127_alone_reads (C : EatEnv) (hF : ∀ n, C.F n = none) {q : Path} {b : Bool} {x : Bytes} {S : Attrs} {d : Disk AObj}
    (hq : d.at_ q = some (.node b x S)) (hn : (S.map Prod.fst).Nodup) (k : Nat) :
    ∃ n, ((calls (List.replicate n 0) S fun _ => getter).2 0).answer C.env C.pre = some ((C.meta q ⟨d, k⟩).1.bind fun o => match o with
      | some o => .ok o
      | none => .error .fileNotFoundError) := by
  refine ⟨S.length + 1, ?_⟩
  rw [read_alone 0 hn _ rfl]
  simp only [Proc.answer, EatEnv.meta, Prog.bind, Prog.look, Prog.sys, hF, EatEnv.target, hq, Option.isSome_some, if_true]
  cases fromXattrs C.env S C.pre <;> rfl

/-! ## The hypotheses can be met -/

/-- Metadata with a size and a checksum -/
def sized (n : Int) (b : Bytes) : Meta := fun f =>
  if f = .id then .str ['x'] else if f = .size then .int n else if f = .checksum then .bytes b else if f = .errors then .strs [] else .none

theorem sized_typed (n : Int) (b : Bytes) : WellTyped (sized n b) := fun f => by cases f <;> simp [sized, HasType]

/-- What a process that set metadata on a file without attributes leaves -/
theorem sized_there (env : Env) (hp : ParsesIso env) (pre : Option Str) (n : Int) (b : Bytes) : ∃ S o, setter env pre (sized n b) = .ok (.set S) ∧
    (S.map Prod.fst).Nodup ∧ fromXattrs env S pre = .ok o ∧ o.Shows env fun f => xattrReadBack f (sized n b f) := by
  obtain ⟨xs, hx, hk⟩ := kwargs_attrs env pre (sized n b) (sized_typed n b) Field.all
  obtain ⟨o, h1, h2, -⟩ := mkMeta_shows env (kwOf (args (sized n b)) Field.all) (fun f => xattrReadBack f (sized n b f))
    (dictGet_self_kwOf _ _) (by
      intro f
      rw [dictGet_kwOf _ _ _ Field.nodup_all, if_pos f.mem_all]
      exact argOK env hp f _ (sized_typed n b f))
  exact ⟨xs, o, by rw [setter, asXattrs, hx], attrs_nodup env pre _ _ _ Field.nodup_all hx, by simp [fromXattrs, hk, h1], h2⟩

/-- The size of the new file and the checksum of the old one -/
example (env : Env) (hp : ParsesIso env) (pre : Option Str) : ∃ S p ns o', setter env pre (sized 1 [1]) = .ok (.set S) ∧
    setter env pre (sized 2 [2]) = .ok p ∧ Users env pre (oneSets p) ∧
    ((calls ns S (oneSets p)).2 1).answer env pre = some (.ok o') ∧ o'.get env .size = .ok (.int 2) ∧ o'.get env .checksum = .ok (.bytes [1]) := by
  obtain ⟨S, o, h1, h2, h3, h4⟩ := sized_there env hp pre 1 [1]
  obtain ⟨S', -, h1', -⟩ := sized_there env hp pre 2 [2]
  obtain ⟨ns, o', a, b, c⟩ := C127_torn_counterexample env hp pre S h2 o _ h3 h4 (sized 2 [2]) (sized_typed _ _) _ h1'
    [.name] [.created, .updated] [.checksum_cypher, .etag, .chunksize, .multi, .parent_id, .id, .file_id, .old_id, .gid, .user_id, .mode, .errors]
    .size .checksum rfl (by simp [Unwritten, sized, PyVal.emptyIterable])
  refine ⟨S, _, ns, o', h1, h1', fun n => ?_, a, by simpa [sized, xattrReadBack] using b, by simpa [sized, xattrReadBack] using c⟩
  unfold oneSets
  split
  · exact .inr ⟨_, sized_typed _ _, h1'⟩
  · exact .inl rfl

/-- Two processes have set a size and a checksum, and there is the size of one and the checksum of the other. -/
example (env : Env) (hp : ParsesIso env) (pre : Option Str) : ∃ S p q ns o', setter env pre (sized 1 [1]) = .ok (.set S) ∧
    setter env pre (sized 2 [2]) = .ok p ∧ setter env pre (sized 3 [3]) = .ok q ∧ (∀ n xs, (calls ns S (twoSet p q)).2 n = .set xs → xs = []) ∧
    fromXattrs env (calls ns S (twoSet p q)).1 pre = .ok o' ∧ o'.get env .size = .ok (.int 2) ∧ o'.get env .checksum = .ok (.bytes [3]) := by
  obtain ⟨S, o, h1, h2, h3, h4⟩ := sized_there env hp pre 1 [1]
  obtain ⟨S', -, h1', -⟩ := sized_there env hp pre 2 [2]
  obtain ⟨S'', -, h1'', -⟩ := sized_there env hp pre 3 [3]
  obtain ⟨ns, o', a, b, c, d⟩ := C127_mix_counterexample env hp pre S h2 o _ h3 h4 (sized 2 [2]) (sized 3 [3]) (sized_typed _ _) (sized_typed _ _) _ _ h1' h1''
    [.name] [.created, .updated] [.checksum_cypher, .etag, .chunksize, .multi, .parent_id, .id, .file_id, .old_id, .gid, .user_id, .mode, .errors]
    .size .checksum rfl (by simp [Unwritten, sized, PyVal.emptyIterable]) (by simp [Unwritten, sized, PyVal.emptyIterable])
  exact ⟨S, _, _, ns, o', h1, h1', h1'', a, b, by simpa [sized, xattrReadBack] using c, by simpa [sized, xattrReadBack] using d⟩

/-- Any number of processes that set only another size, as `C127_one` asks for -/
example (env : Env) (hp : ParsesIso env) (pre : Option Str) : ∃ S o ps, setter env pre (sized 1 [1]) = .ok (.set S) ∧ (S.map Prod.fst).Nodup ∧
    fromXattrs env S pre = .ok o ∧ o.Shows env (fun f => xattrReadBack f (sized 1 [1] f)) ∧ Users env pre ps ∧
    (∀ n : Nat, setter env pre (sized n [1]) = .ok (ps (n + 1))) ∧ ps 0 = getter ∧
    ∀ n : Nat, ∀ f, f ≠ .size → xattrReadBack f (sized n [1] f) = xattrReadBack f (sized 1 [1] f) := by
  obtain ⟨S, o, h1, h2, h3, h4⟩ := sized_there env hp pre 1 [1]
  have : ∀ n : Nat, ∃ S, setter env pre (sized n [1]) = .ok (.set S) := fun n => by
    obtain ⟨S, -, h, -⟩ := sized_there env hp pre n [1]
    exact ⟨S, h⟩
  obtain ⟨F, hF⟩ := Classical.axiomOfChoice this
  refine ⟨S, o, fun n => match n with | 0 => getter | n + 1 => .set (F n), h1, h2, h3, h4, fun n => ?_, fun n => hF n, rfl, fun n f hf => by
    simp [sized, hf]⟩
  cases n with
  | zero => exact .inl rfl
  | succ n => exact .inr ⟨_, sized_typed _ _, hF n⟩

end Verif.Torn
