import Verif.Model.EatCache
import Verif.Lemmas.Xattrs
import Verif.Lemmas.Hoare
import Verif.Lemmas.Disk

namespace Verif.Cache
open Verif.FS Verif.Xattrs Verif.Spec

/-- The value of an attribute. -/
def attrAt (k : Bytes) : Attrs → Option Bytes
  | [] => none
  | (k', v) :: l => if k' = k then some v else attrAt k l

/-- Setting several attributes. -/
def setAll (S xs : Attrs) : Attrs := xs.foldl (fun s kv => setAttr kv.1 kv.2 s) S

theorem attrAt_setAttr (k v k' : Bytes) (S : Attrs) :
    attrAt k' (setAttr k v S) = if k = k' then some v else attrAt k' S := by
  induction S with
  | nil => simp [setAttr, attrAt]
  | cons e S ih =>
    obtain ⟨a, w⟩ := e
    simp only [setAttr]
    split
    · rename_i h; subst h
      simp only [attrAt]
      split <;> rfl
    · rename_i h
      simp only [attrAt, ih]
      by_cases h1 : a = k'
      · rw [if_pos h1, if_neg (fun h2 : k = k' => h (h1.trans h2.symm)), if_pos h1]
      · rw [if_neg h1, if_neg h1]

theorem mem_setAttr {k v : Bytes} {S : Attrs} {e : Bytes × Bytes} (h : e ∈ setAttr k v S) : e = (k, v) ∨ e ∈ S := by
  induction S with
  | nil => simpa [setAttr] using h
  | cons x S ih =>
    obtain ⟨a, w⟩ := x
    simp only [setAttr] at h
    split at h
    · rcases List.mem_cons.1 h with h | h
      · exact .inl h
      · exact .inr (List.mem_cons_of_mem _ h)
    · rcases List.mem_cons.1 h with h | h
      · exact .inr (h ▸ List.mem_cons_self)
      · exact (ih h).imp_right (List.mem_cons_of_mem _)

theorem nodup_setAttr {k v : Bytes} {S : Attrs} (h : (S.map Prod.fst).Nodup) : ((setAttr k v S).map Prod.fst).Nodup := by
  induction S with
  | nil => simp [setAttr]
  | cons x S ih =>
    obtain ⟨a, w⟩ := x
    simp only [List.map_cons, List.nodup_cons] at h
    simp only [setAttr]
    split
    · rename_i hk; subst hk
      simpa using h
    · rename_i hk
      simp only [List.map_cons, List.nodup_cons]
      refine ⟨?_, ih h.2⟩
      intro hm
      obtain ⟨e, he, hx⟩ := List.mem_map.1 hm
      rcases mem_setAttr he with rfl | he
      · exact hk hx.symm
      · exact h.1 (List.mem_map.2 ⟨e, he, hx⟩)

theorem nodup_setAll {S xs : Attrs} (h : (S.map Prod.fst).Nodup) : ((setAll S xs).map Prod.fst).Nodup := by
  unfold setAll
  induction xs generalizing S with
  | nil => exact h
  | cons x xs ih => exact ih (nodup_setAttr h)

theorem mem_setAll {S xs : Attrs} {e : Bytes × Bytes} (h : e ∈ setAll S xs) : e ∈ xs ∨ e ∈ S := by
  unfold setAll at h
  induction xs generalizing S with
  | nil => exact .inr h
  | cons x xs ih =>
    rcases ih h with h | h
    · exact .inl (List.mem_cons_of_mem _ h)
    · rcases mem_setAttr h with rfl | h
      · exact .inl List.mem_cons_self
      · exact .inr h

theorem attrAt_none {S : Attrs} {k : Bytes} (h : k ∉ S.map Prod.fst) : attrAt k S = none := by
  induction S with
  | nil => rfl
  | cons x S ih =>
    obtain ⟨a, w⟩ := x
    simp only [List.map_cons, List.mem_cons, not_or] at h
    rw [attrAt, if_neg (fun he : a = k => h.1 he.symm), ih h.2]

theorem attrAt_setAll {S xs : Attrs} (h : (xs.map Prod.fst).Nodup) (k : Bytes) :
    attrAt k (setAll S xs) = (attrAt k xs).or (attrAt k S) := by
  unfold setAll
  induction xs generalizing S with
  | nil => simp [attrAt]
  | cons x xs ih =>
    obtain ⟨a, w⟩ := x
    simp only [List.map_cons, List.nodup_cons] at h
    rw [List.foldl_cons, ih h.2, attrAt_setAttr]
    simp only [attrAt]
    by_cases hk : a = k
    · subst hk
      rw [attrAt_none h.1]; simp
    · simp [hk]

theorem utf8_of_utf8? {b : Bytes} {s : Str} (h : utf8? b = some s) : b = utf8 s := by
  simp only [utf8?, Option.map_eq_some_iff] at h
  obtain ⟨a, ha, rfl⟩ := h
  have hs : b.toByteArray.utf8Decode?.isSome := by rw [ha]; rfl
  have := ByteArray.utf8Encode_get_utf8Decode? (b := b.toByteArray) (h := hs)
  simp only [ha, Option.get_some] at this
  have h2 : (utf8 a.toList).toByteArray = b.toByteArray := this
  have := congrArg (fun x : ByteArray => x.data.toList) h2
  simpa using this.symm

/-- The name of the attribute that becomes the keyword argument `k`. -/
def rawKey (pre : Option Str) (k : Str) : Bytes :=
  utf8 (match pre with | none | some [] => k | some p => p ++ '.' :: k)

theorem rawKey_inj {pre : Option Str} {k k' : Str} (h : rawKey pre k = rawKey pre k') : k = k' := by
  have := utf8_injective h
  split at this
  · exact this
  · exact this
  · simpa using this

theorem rawKey_field (pre : Option Str) (f : Field) : rawKey pre f.toStr = utf8 (key pre f) := by
  cases pre with
  | none => rfl
  | some p => cases p <;> rfl

theorem rawKey_iff {pre : Option Str} {raw : Bytes} {s : Str} (ht : text raw = .ok s) (k : Str) :
    deprefix pre s = some k ↔ raw = rawKey pre k := by
  have hr : raw = utf8 s := by
    unfold text at ht
    split at ht
    · rename_i hu
      simp only [Except.ok.injEq] at ht
      exact ht ▸ utf8_of_utf8? hu
    · simp at ht
  have hiff : raw = rawKey pre k ↔ s = (match pre with | none | some [] => k | some p => p ++ '.' :: k) := by
    rw [hr]
    unfold rawKey
    exact ⟨utf8_injective, fun h => h ▸ rfl⟩
  rw [hiff]
  cases pre with
  | none => simp [deprefix]
  | some p =>
    cases p with
    | nil => simp [deprefix]
    | cons c cs =>
      simp only [deprefix]
      constructor
      · intro h
        split at h
        · rename_i hp
          rw [List.isPrefixOf_iff_prefix] at hp
          obtain ⟨t, rfl⟩ := hp
          simp only [Option.some.injEq] at h
          rw [← h]
          simp
        · simp at h
      · rintro rfl
        rw [if_pos]
        · simp
        · rw [List.isPrefixOf_iff_prefix]
          exact ⟨k, by simp⟩

theorem kwargs_reads {env : Env} {pre : Option Str} {S : Attrs} {kw : List (Str × PyVal)} (h : kwargs env pre S = .ok kw)
    (hn : (S.map Prod.fst).Nodup) (k : Str) :
    (attrAt (rawKey pre k) S).map (decodeNamed env k) = (dictGet k kw).map .ok := by
  induction S generalizing kw with
  | nil => simp only [kwargs, Except.ok.injEq] at h; subst h; rfl
  | cons x S ih =>
    obtain ⟨raw, v⟩ := x
    simp only [List.map_cons, List.nodup_cons] at hn
    simp only [kwargs] at h
    split at h
    · simp at h
    · rename_i s ht
      split at h
      · rename_i hd
        have hne : raw ≠ rawKey pre k := fun he => by
          rw [← rawKey_iff ht] at he; rw [hd] at he; simp at he
        rw [attrAt, if_neg hne, ih h hn.2]
      · rename_i k0 hd
        have hraw := (rawKey_iff ht k0).1 hd
        split at h
        · simp at h
        · rename_i d hdec
          split at h
          · simp at h
          · rename_i l hl
            simp only [Except.ok.injEq] at h
            subst h
            by_cases hk : k0 = k
            · subst hk
              have hnone := ih hl hn.2
              rw [attrAt_none (by rw [← hraw]; exact hn.1)] at hnone
              cases hg : dictGet k0 l with
              | some w => rw [hg] at hnone; simp at hnone
              | none => simp [attrAt, hraw, hdec, dictGet, hg]
            · have hne : raw ≠ rawKey pre k := fun he => hk (rawKey_inj (hraw ▸ he))
              rw [attrAt, if_neg hne, ih hl hn.2]
              simp only [dictGet, if_neg hk]
              cases dictGet k l <;> rfl

/-- An attribute that can be read. -/
def Readable (env : Env) (pre : Option Str) (e : Bytes × Bytes) : Prop :=
  ∃ s, text e.1 = .ok s ∧ ∀ k, deprefix pre s = some k → ∃ d, decodeNamed env k e.2 = .ok d

theorem kwargs_ok_iff (env : Env) (pre : Option Str) (S : Attrs) :
    (∃ kw, kwargs env pre S = .ok kw) ↔ ∀ e ∈ S, Readable env pre e := by
  induction S with
  | nil => simp [kwargs]
  | cons x S ih =>
    obtain ⟨raw, v⟩ := x
    rw [List.forall_mem_cons, ← ih]
    simp only [kwargs, Readable]
    cases ht : text raw with
    | error e => simp
    | ok s =>
      simp only [Except.ok.injEq, exists_eq_left']
      cases hd : deprefix pre s with
      | none => simp
      | some k =>
        simp only [Option.some.injEq, forall_eq']
        cases hdec : decodeNamed env k v with
        | error e => simp
        | ok d =>
          simp only [Except.ok.injEq, exists_eq', true_and]
          cases hk : kwargs env pre S with
          | error e => simp
          | ok l => simp

theorem attrs_keys (env : Env) (pre : Option Str) (m : Meta) : ∀ (fs : List Field) (xs : Attrs), attrs env pre m fs = .ok xs →
    ∀ e ∈ xs, ∃ f ∈ fs, e.1 = utf8 (key pre f) := by
  intro fs
  induction fs with
  | nil => intro xs h; simp only [attrs, Except.ok.injEq] at h; subst h; simp
  | cons f fs ih =>
    intro xs h e he
    simp only [attrs] at h
    split at h
    · simp at h
    · rename_i a ha
      split at h
      · simp at h
      · rename_i as has
        simp only [Except.ok.injEq] at h
        subst h
        rcases List.mem_append.1 he with he | he
        · refine ⟨f, List.mem_cons_self, ?_⟩
          unfold attr at ha
          split at ha
          · split at ha
            · simp only [Except.ok.injEq] at ha
              subst ha
              rw [List.mem_singleton.1 he]
            · simp at ha
          · simp only [Except.ok.injEq] at ha
            subst ha
            simp at he
        · obtain ⟨g, hg, h⟩ := ih as has e he
          exact ⟨g, List.mem_cons_of_mem _ hg, h⟩

theorem attrs_nodup (env : Env) (pre : Option Str) (m : Meta) : ∀ (fs : List Field) (xs : Attrs), fs.Nodup →
    attrs env pre m fs = .ok xs → (xs.map Prod.fst).Nodup := by
  intro fs
  induction fs with
  | nil => intro xs _ h; simp only [attrs, Except.ok.injEq] at h; subst h; simp
  | cons f fs ih =>
    intro xs hn h
    rw [List.nodup_cons] at hn
    simp only [attrs] at h
    split at h
    · simp at h
    · rename_i a ha
      split at h
      · simp at h
      · rename_i as has
        simp only [Except.ok.injEq] at h
        subst h
        have hrest := ih as hn.2 has
        unfold attr at ha
        split at ha
        · split at ha
          · simp only [Except.ok.injEq] at ha
            subst ha
            simp only [List.cons_append, List.nil_append, List.map_cons, List.nodup_cons]
            refine ⟨?_, hrest⟩
            intro hm
            obtain ⟨e, he, hx⟩ := List.mem_map.1 hm
            obtain ⟨g, hg, hk⟩ := attrs_keys env pre m fs as has e he
            rw [hk, ← rawKey_field, ← rawKey_field] at hx
            have := Field.toStr_injective (rawKey_inj hx)
            exact hn.1 (this ▸ hg)
          · simp at ha
        · simp only [Except.ok.injEq] at ha
          subst ha
          simpa using hrest

/-- What an object built from attributes shows determines the arguments. -/
theorem mkMeta_args {env : Env} {kw : List (Str × PyVal)} {o : PathMeta} {w : Meta} (h : mkMeta kw = .ok o) (hs : o.Shows env w)
    (hfile : ∀ v, dictGet Field.file_id.toStr kw = some v → ∃ i, v = .int i) :
    dictGet (lit "self") kw = none ∧ ∀ f : Field, ArgOK env f ((dictGet f.toStr kw).getD .none) (w f) := by
  unfold mkMeta at h
  dsimp only at h
  split at h
  · simp at h
  · rename_i hself
    refine ⟨by simpa using hself, ?_⟩
    split at h
    · simp at h
    · have key : ((dictGet Field.id.toStr kw).getD .none = .none ∨ ∃ s, (dictGet Field.id.toStr kw).getD .none = .str s) ∧
          ∃ sz er, mkSize ((dictGet Field.size.toStr kw).getD .none) = .ok sz ∧ mkErrors ((dictGet Field.errors.toStr kw).getD .none) = .ok er ∧
          o = { plain := fun f => if f = .size then sz else if f = .errors then er else (dictGet f.toStr kw).getD .none
                created := mkSlot ((dictGet Field.created.toStr kw).getD .none)
                updated := mkSlot ((dictGet Field.updated.toStr kw).getD .none)
                kwargs := kw.filter fun kv => (Field.ofStr? kv.1).isNone } := by
        split at h
        · rename_i hid
          split at h
          · rename_i sz er h1 h2
            simp only [Except.ok.injEq] at h
            exact ⟨.inl hid, sz, er, h1, h2, h.symm⟩
          · simp at h
          · simp at h
        · rename_i s hid
          split at h
          · rename_i sz er h1 h2
            simp only [Except.ok.injEq] at h
            exact ⟨.inr ⟨s, hid⟩, sz, er, h1, h2, h.symm⟩
          · simp at h
          · simp at h
        · simp at h
      obtain ⟨hid, sz, er, h1, h2, rfl⟩ := key
      intro f
      have hf := hs f
      have hfi : (dictGet Field.file_id.toStr kw).getD .none = .none ∨ ∃ i, (dictGet Field.file_id.toStr kw).getD .none = .int i := by
        cases hg : dictGet Field.file_id.toStr kw with
        | none => exact .inl rfl
        | some v => obtain ⟨i, rfl⟩ := hfile v hg; exact .inr ⟨i, rfl⟩
      cases f <;> simp_all [PathMeta.get, ArgOK]

theorem file_id_int {env : Env} {pre : Option Str} {S : Attrs} {kw : List (Str × PyVal)} (h : kwargs env pre S = .ok kw)
    (hn : (S.map Prod.fst).Nodup) (v : PyVal) (hv : dictGet Field.file_id.toStr kw = some v) : ∃ i, v = .int i := by
  have := kwargs_reads h hn Field.file_id.toStr
  rw [hv] at this
  simp only [Option.map_some, Option.map_eq_some_iff] at this
  obtain ⟨b, -, hb⟩ := this
  simp only [decodeNamed, Field.ofStr?_toStr, decode] at hb
  split at hb
  · simp only [Except.ok.injEq] at hb; exact ⟨_, hb.symm⟩
  · simp at hb

/-- What is read after writing the metadata `m` over attributes that showed `w`. -/
theorem overlay {env : Env} (hp : ParsesIso env) {pre : Option Str} {S xs : Attrs} {o : PathMeta} {m w : Meta} (ht : WellTyped m)
    (hn : (S.map Prod.fst).Nodup) (hold : fromXattrs env S pre = .ok o) (hs : o.Shows env w) (hx : asXattrs env m pre = .ok xs) :
    ∃ o', fromXattrs env (setAll S xs) pre = .ok o' ∧
      o'.Shows env fun f => if written (m f) then xattrReadBack f (m f) else w f := by
  unfold fromXattrs at hold
  cases hk0 : kwargs env pre S with
  | error e => rw [hk0] at hold; simp at hold
  | ok kw0 =>
    rw [hk0] at hold
    simp only at hold
    obtain ⟨hself, hargs⟩ := mkMeta_args hold hs (file_id_int hk0 hn)
    obtain ⟨xs', hx', hk1⟩ := kwargs_attrs env pre m ht Field.all
    have : xs' = xs := by
      unfold asXattrs at hx
      rw [hx'] at hx
      simpa using hx
    subst this
    have hnx := attrs_nodup env pre m _ _ Field.nodup_all hx'
    have hall : ∀ e ∈ setAll S xs', Readable env pre e := by
      intro e he
      rcases mem_setAll he with he | he
      · exact (kwargs_ok_iff env pre xs').1 ⟨_, hk1⟩ e he
      · exact (kwargs_ok_iff env pre S).1 ⟨_, hk0⟩ e he
    obtain ⟨kw, hk⟩ := (kwargs_ok_iff env pre _).2 hall
    have hget : ∀ k, dictGet k kw = (dictGet k (kwOf (args m) Field.all)).or (dictGet k kw0) := by
      intro k
      have h1 := kwargs_reads hk (nodup_setAll hn) k
      rw [attrAt_setAll hnx] at h1
      have h2 := kwargs_reads hk1 hnx k
      have h3 := kwargs_reads hk0 hn k
      cases ha : attrAt (rawKey pre k) xs' with
      | some b =>
        rw [ha] at h1 h2
        simp only [Option.some_or] at h1
        rw [h2] at h1
        cases hg : dictGet k (kwOf (args m) Field.all) with
        | none => rw [hg] at h2; simp at h2
        | some v =>
          rw [hg] at h1
          cases hg' : dictGet k kw with
          | none => rw [hg'] at h1; simp at h1
          | some v' => rw [hg'] at h1; simp at h1; simp [h1]
      | none =>
        rw [ha] at h1 h2
        simp only [Option.none_or] at h1
        cases hg : dictGet k (kwOf (args m) Field.all) with
        | some v => rw [hg] at h2; simp at h2
        | none =>
          rw [h3] at h1
          simp only [Option.none_or]
          cases hg' : dictGet k kw <;> cases hg'' : dictGet k kw0 <;> simp_all
    obtain ⟨o', h1, h2, -⟩ := mkMeta_shows env kw (fun f => if written (m f) then xattrReadBack f (m f) else w f)
      (by rw [hget, dictGet_self_kwOf, hself]; rfl) (by
        intro f
        rw [hget, dictGet_kwOf _ _ _ Field.nodup_all, if_pos f.mem_all]
        by_cases hw : written (m f)
        · have := argOK env hp f (m f) (ht f)
          simpa [args, hw] using this
        · simpa [args, hw] using hargs f)
    exact ⟨o', by simp [fromXattrs, hk, h1], h2⟩

end Verif.Cache
