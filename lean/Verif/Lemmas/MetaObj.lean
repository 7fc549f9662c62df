import Verif.Lemmas.Meta
import Verif.Model.MetaObj

namespace Verif
open Verif.Spec

/-- A slot as it can occur: made by the constructor, possibly parsed since. -/
def Slot.Reachable (env : Env) (s : Slot) : Prop := ∃ v, s = mkSlot v ∨ s = (mkSlot v).force env

/-- An object as it can occur (the constructor makes `errors` a tuple). -/
structure PathMeta.Reachable (env : Env) (o : PathMeta) : Prop where
  created : o.created.Reachable env
  updated : o.updated.Reachable env

/-- An object built from parsed timestamps (or none), without unexpected keyword arguments. -/
structure PathMeta.Parsed (o : PathMeta) : Prop where
  created : ∃ v, o.created.ok = some v
  updated : ∃ v, o.updated.ok = some v
  createdRaw : o.created.raw = .none
  updatedRaw : o.updated.raw = .none
  kwargs : o.kwargs = []

theorem pyEq_refl (v : PyVal) : pyEq v v = true := by
  cases v <;> simp [pyEq]
  rename_i d
  cases d.offset <;> simp

theorem pyEq_comm (v w : PyVal) : pyEq v w = pyEq w v := by
  cases v <;> cases w <;> simp [pyEq, eq_comm]
  rename_i d e
  cases d.offset <;> cases e.offset <;> simp [eq_comm]

theorem pyEq_trans {u v w : PyVal} (h : pyEq u v = true) (h' : pyEq v w = true) : pyEq u w = true := by
  cases u <;> cases v <;> simp [pyEq] at h <;> cases w <;> simp [pyEq] at h' ⊢ <;> try simp_all
  rename_i a b c
  cases ha : a.offset <;> cases hb : b.offset <;> cases hc : c.offset <;> simp_all

theorem dictGet_mem {α β : Type} [DecidableEq α] {l : List (α × β)} {kv : α × β} (h : kv ∈ l) :
    (dictGet kv.1 l).isSome := by
  induction l with
  | nil => simp at h
  | cons x l ih =>
    obtain ⟨k, v⟩ := x
    simp only [dictGet]
    rcases List.mem_cons.1 h with rfl | h
    · cases dictGet k l <;> simp
    · have := ih h
      cases hd : dictGet kv.1 l with
      | none => rw [hd] at this; cases this
      | some w => simp

theorem dictEq_refl (l : List (Str × PyVal)) : dictEq l l = true := by
  simp only [dictEq, Bool.and_eq_true, List.all_eq_true]
  constructor
  · intro kv h
    obtain ⟨v, hv⟩ := Option.isSome_iff_exists.1 (dictGet_mem h)
    simp [hv, pyEq_refl]
  · intro kv h
    exact dictGet_mem h

theorem attrEq_refl (v : AttrVal) : v.eq v = true := by
  cases v <;> simp [AttrVal.eq, pyEq_refl, dictEq_refl]

theorem keys_attr (o : PathMeta) (k : Key) (h : k ∈ o.keys) : (o.attr k).isSome := by
  cases k with
  | createdOk =>
    have : o.created.ok.isSome := by
      simp [PathMeta.keys, plainFields] at h
      rcases h with h | h
      · exact h.1
      · exact h.1
    simpa [PathMeta.attr] using this
  | updatedOk =>
    have : o.updated.ok.isSome := by
      simp [PathMeta.keys, plainFields] at h
      rcases h with h | h
      · exact h.1
      · exact h.1
    simpa [PathMeta.attr] using this
  | createdRaw => rfl
  | updatedRaw => rfl
  | plain f => rfl
  | kwargs =>
    have : o.kwargs ≠ [] := by
      simpa [PathMeta.keys, plainFields] using h
    simp [PathMeta.attr, this]

theorem eqLoop_true (a b : PathMeta) (ks : List Key) :
    eqLoop a b ks = .ok true ↔
      ∀ k ∈ ks, ∃ v w, a.attr k = some v ∧ b.attr k = some w ∧ v.eq w = true := by
  induction ks with
  | nil => simp [eqLoop]
  | cons k ks ih =>
    simp only [eqLoop]
    cases hb : b.attr k with
    | none => simp [hb]
    | some w =>
      cases ha : a.attr k with
      | none => simp [ha]
      | some v =>
        by_cases he : v.eq w = true
        · simp [he, ih, ha, hb]
        · simp [he, ha, hb]

theorem eq_refl (a : PathMeta) : a.eq a = .ok true := by
  rw [PathMeta.eq, eqLoop_true]
  intro k hk
  obtain ⟨v, hv⟩ := Option.isSome_iff_exists.1 (keys_attr a k hk)
  exact ⟨v, v, hv, hv, attrEq_refl v⟩

theorem mem_plainFields (f : Field) (h1 : f ≠ .created) (h2 : f ≠ .updated) : f ∈ plainFields := by
  cases f <;> first | decide | exact absurd rfl h1 | exact absurd rfl h2

theorem plain_mem_keys (o : PathMeta) (f : Field) (h1 : f ≠ .created) (h2 : f ≠ .updated) :
    .plain f ∈ o.keys := by
  have : Key.plain f ∈ [Key.plain .name, .plain .size, .createdRaw, .updatedRaw] ++ (plainFields.drop 2).map .plain := by
    cases f <;> first | decide | exact absurd rfl h1 | exact absurd rfl h2
  simp only [PathMeta.keys, List.mem_append] at this ⊢
  rcases this with h | h
  · exact .inl (.inl (.inl (.inl (.inr h))))
  · exact .inl (.inl (.inl (.inr h)))

theorem raw_mem_keys (o : PathMeta) : .createdRaw ∈ o.keys ∧ .updatedRaw ∈ o.keys := by
  simp [PathMeta.keys]

theorem ok_mem_keys (o : PathMeta) :
    (o.created.ok.isSome → .createdOk ∈ o.keys) ∧ (o.updated.ok.isSome → .updatedOk ∈ o.keys) := by
  constructor
  · intro h
    by_cases hr : o.created.raw = .none <;> simp [PathMeta.keys, h, hr]
  · intro h
    by_cases hr : o.updated.raw = .none <;> simp [PathMeta.keys, h, hr]

theorem val_eq {v w : PyVal} (h : (AttrVal.val v).eq (.val w) = true) : pyEq v w = true := h

theorem pyEq_str {s : Str} {v : PyVal} (h : pyEq (.str s) v = true) : v = .str s := by
  cases v <;> simp [pyEq] at h
  rw [h]

theorem pyEq_none {v : PyVal} (h : pyEq .none v = true) : v = .none := by
  cases v <;> simp [pyEq] at h
  rfl

theorem pyEq_of_not_dt {v w : PyVal} (hv : ∀ d, v ≠ .dt d) (h : pyEq v w = true) : v = w := by
  cases v <;> cases w <;> simp [pyEq] at h <;> first | exact absurd rfl (hv _) | simp_all

/-- If a reachable slot agrees with another one as far as `__eq__` compares them, reading gives the
same. -/
theorem slot_get (env : Env) (s t : Slot) (hs : s.Reachable env) (ht : t.Reachable env)
    (hraw : pyEq s.raw t.raw = true)
    (hok : s.ok.isSome → ∃ v w, s.ok = some v ∧ t.ok = some w ∧ pyEq v w = true) :
    (∃ v w, s.get env = .ok v ∧ t.get env = .ok w ∧ pyEq v w = true) ∨
      (∃ e, s.get env = .error e ∧ t.get env = .error e) := by
  cases hso : s.ok with
  | some v =>
    obtain ⟨v', w, h1, h2, h3⟩ := hok (by simp [hso])
    exact .inl ⟨v', w, by simp [Slot.get, h1], by simp [Slot.get, h2], h3⟩
  | none =>
    -- the raw value was given to the constructor and is not parsed
    have hrawne : ∀ d, s.raw ≠ .dt d := by
      obtain ⟨v, hv | hv⟩ := hs
      · intro d hd
        rw [hv] at hd hso
        cases v <;> simp [mkSlot] at hd hso
      · intro d hd
        rw [hv] at hd hso
        cases v <;> simp [mkSlot, Slot.force, Slot.get] at hd hso <;> split at hd <;> simp at hd
    have hr : t.raw = s.raw := (pyEq_of_not_dt hrawne hraw).symm
    -- reading the second slot gives what parsing its raw value gives
    have hnone : s.raw ≠ .none := by
      obtain ⟨v, hv | hv⟩ := hs
      · rw [hv] at hso ⊢
        cases v <;> simp [mkSlot] at hso ⊢
      · rw [hv] at hso ⊢
        cases v <;> simp [mkSlot, Slot.force, Slot.get] at hso ⊢ <;> split <;> simp
    have hget : t.get env = s.get env := by
      obtain ⟨v, hv | hv⟩ := ht
      · have : t.ok = none := by
          rw [hv] at hr ⊢
          cases v <;> simp [mkSlot] at hr ⊢ <;> exact absurd hr.symm hnone
        simp [Slot.get, this, hso, hr]
      · by_cases hto : t.ok = none
        · simp [Slot.get, hto, hso, hr]
        · cases v with
          | none => rw [hv] at hr; simp [mkSlot, Slot.force] at hr; exact absurd hr.symm hnone
          | int i => rw [hv] at hr; simp [mkSlot, Slot.force] at hr; exact absurd hr.symm hnone
          | dt d => rw [hv] at hr; simp [mkSlot, Slot.force] at hr; exact absurd hr.symm hnone
          | str u =>
            rw [hv] at hr hto ⊢
            cases hpz : env.dateparse u with
            | error e => simp [mkSlot, Slot.force, Slot.get, hpz] at hto
            | ok x =>
              simp [mkSlot, Slot.force, Slot.get, hpz] at hr ⊢
              simp [hso, ← hr, hpz]
          | bytes u =>
            rw [hv] at hr hto ⊢
            cases hu : utf8? u with
            | none => simp [mkSlot, Slot.force, Slot.get, hu] at hto
            | some w =>
              cases hpz : env.dateparse w with
              | error e => simp [mkSlot, Slot.force, Slot.get, hu, hpz] at hto
              | ok x =>
                simp [mkSlot, Slot.force, Slot.get, hu, hpz] at hr ⊢
                simp [hso, ← hr, hu, hpz]
          | etag u i => rw [hv] at hto; simp [mkSlot, Slot.force, Slot.get] at hto
          | strs u => rw [hv] at hto; simp [mkSlot, Slot.force, Slot.get] at hto
    cases hg : s.get env with
    | error e => exact .inr ⟨e, rfl, by rw [hget, hg]⟩
    | ok v => exact .inl ⟨v, v, rfl, by rw [hget, hg], pyEq_refl v⟩

theorem equal_fields (env : Env) (a b : PathMeta) (ha : a.Reachable env) (hb : b.Reachable env)
    (h : a.eq b = .ok true) (f : Field) :
    (∃ v w, a.get env f = .ok v ∧ b.get env f = .ok w ∧ pyEq v w) ∨
      (∃ e, a.get env f = .error e ∧ b.get env f = .error e) := by
  rw [PathMeta.eq, eqLoop_true] at h
  have hplain : ∀ g, g ≠ .created → g ≠ .updated → pyEq (a.plain g) (b.plain g) = true := by
    intro g h1 h2
    obtain ⟨v, w, e1, e2, e3⟩ := h _ (plain_mem_keys a g h1 h2)
    simp [PathMeta.attr] at e1 e2
    subst e1; subst e2
    exact val_eq e3
  have hraw1 : pyEq a.created.raw b.created.raw = true := by
    obtain ⟨v, w, e1, e2, e3⟩ := h _ (raw_mem_keys a).1
    simp [PathMeta.attr] at e1 e2
    subst e1; subst e2
    exact val_eq e3
  have hraw2 : pyEq a.updated.raw b.updated.raw = true := by
    obtain ⟨v, w, e1, e2, e3⟩ := h _ (raw_mem_keys a).2
    simp [PathMeta.attr] at e1 e2
    subst e1; subst e2
    exact val_eq e3
  have hok1 : a.created.ok.isSome → ∃ v w, a.created.ok = some v ∧ b.created.ok = some w ∧ pyEq v w = true := by
    intro hs
    obtain ⟨v, w, e1, e2, e3⟩ := h _ ((ok_mem_keys a).1 hs)
    simp only [PathMeta.attr, Option.map_eq_some_iff] at e1 e2
    obtain ⟨v', h1, rfl⟩ := e1
    obtain ⟨w', h2, rfl⟩ := e2
    exact ⟨v', w', h1, h2, val_eq e3⟩
  have hok2 : a.updated.ok.isSome → ∃ v w, a.updated.ok = some v ∧ b.updated.ok = some w ∧ pyEq v w = true := by
    intro hs
    obtain ⟨v, w, e1, e2, e3⟩ := h _ ((ok_mem_keys a).2 hs)
    simp only [PathMeta.attr, Option.map_eq_some_iff] at e1 e2
    obtain ⟨v', h1, rfl⟩ := e1
    obtain ⟨w', h2, rfl⟩ := e2
    exact ⟨v', w', h1, h2, val_eq e3⟩
  by_cases h1 : f = .created
  · subst h1; exact slot_get env _ _ ha.created hb.created hraw1 hok1
  · by_cases h2 : f = .updated
    · subst h2; exact slot_get env _ _ ha.updated hb.updated hraw2 hok2
    · left
      refine ⟨a.plain f, b.plain f, ?_, ?_, hplain f h1 h2⟩ <;>
      · cases f <;> first | rfl | exact absurd rfl h1 | exact absurd rfl h2

theorem eqLoop_total (a b : PathMeta) (ks : List Key)
    (h : ∀ k ∈ ks, (a.attr k).isSome ∧ (b.attr k).isSome) : ∃ r, eqLoop a b ks = .ok r := by
  induction ks with
  | nil => exact ⟨true, rfl⟩
  | cons k ks ih =>
    obtain ⟨h1, h2⟩ := h k (by simp)
    obtain ⟨v, hv⟩ := Option.isSome_iff_exists.1 h1
    obtain ⟨w, hw⟩ := Option.isSome_iff_exists.1 h2
    simp only [eqLoop, hv, hw]
    split
    · exact ih fun k hk => h k (by simp [hk])
    · exact ⟨false, rfl⟩

theorem parsed_eq (env : Env) (a b : PathMeta) (ha : a.Parsed) (hb : b.Parsed) :
    ∃ r, a.eq b = .ok r ∧
      (r = true ↔ ∀ f, ∃ v w, a.get env f = .ok v ∧ b.get env f = .ok w ∧ pyEq v w) := by
  obtain ⟨ac, hac⟩ := ha.created
  obtain ⟨au, hau⟩ := ha.updated
  obtain ⟨bc, hbc⟩ := hb.created
  obtain ⟨bu, hbu⟩ := hb.updated
  have hkeys : a.keys = .createdOk :: .updatedOk :: ([Key.plain .name, .plain .size, .createdRaw, .updatedRaw] ++
      (plainFields.drop 2).map .plain) := by
    simp [PathMeta.keys, hac, hau, ha.createdRaw, ha.updatedRaw, ha.kwargs]
  obtain ⟨r, hr⟩ := eqLoop_total a b a.keys (by
    intro k hk
    refine ⟨keys_attr a k hk, ?_⟩
    cases k <;> simp [PathMeta.attr, hbc, hbu]
    rw [hkeys] at hk
    simp [plainFields] at hk)
  refine ⟨r, hr, ?_⟩
  have htrue : r = true ↔ eqLoop a b a.keys = .ok true := by rw [hr]; simp
  rw [htrue, eqLoop_true]
  constructor
  · intro h f
    by_cases h1 : f = .created
    · subst h1
      obtain ⟨v, w, e1, e2, e3⟩ := h .createdOk (by simp [hkeys])
      simp [PathMeta.attr, hac, hbc] at e1 e2
      subst e1; subst e2
      exact ⟨ac, bc, by simp [PathMeta.get, Slot.get, hac], by simp [PathMeta.get, Slot.get, hbc], val_eq e3⟩
    · by_cases h2 : f = .updated
      · subst h2
        obtain ⟨v, w, e1, e2, e3⟩ := h .updatedOk (by simp [hkeys])
        simp [PathMeta.attr, hau, hbu] at e1 e2
        subst e1; subst e2
        exact ⟨au, bu, by simp [PathMeta.get, Slot.get, hau], by simp [PathMeta.get, Slot.get, hbu], val_eq e3⟩
      · obtain ⟨v, w, e1, e2, e3⟩ := h _ (plain_mem_keys a f h1 h2)
        simp [PathMeta.attr] at e1 e2
        subst e1; subst e2
        refine ⟨a.plain f, b.plain f, ?_, ?_, val_eq e3⟩ <;>
        · cases f <;> first | rfl | exact absurd rfl h1 | exact absurd rfl h2
  · intro h k hk
    have hf : ∀ f, f ≠ .created → f ≠ .updated → pyEq (a.plain f) (b.plain f) = true := by
      intro f h1 h2
      obtain ⟨v, w, e1, e2, e3⟩ := h f
      have g1 : a.get env f = .ok (a.plain f) := by
        cases f <;> first | rfl | exact absurd rfl h1 | exact absurd rfl h2
      have g2 : b.get env f = .ok (b.plain f) := by
        cases f <;> first | rfl | exact absurd rfl h1 | exact absurd rfl h2
      rw [g1] at e1; rw [g2] at e2
      cases e1; cases e2
      exact e3
    cases k with
    | createdOk =>
      obtain ⟨v, w, e1, e2, e3⟩ := h .created
      simp [PathMeta.get, Slot.get, hac, hbc] at e1 e2
      subst e1; subst e2
      exact ⟨.val ac, .val bc, by simp [PathMeta.attr, hac], by simp [PathMeta.attr, hbc], e3⟩
    | updatedOk =>
      obtain ⟨v, w, e1, e2, e3⟩ := h .updated
      simp [PathMeta.get, Slot.get, hau, hbu] at e1 e2
      subst e1; subst e2
      exact ⟨.val au, .val bu, by simp [PathMeta.attr, hau], by simp [PathMeta.attr, hbu], e3⟩
    | createdRaw => exact ⟨_, _, rfl, rfl, by rw [ha.createdRaw, hb.createdRaw]; rfl⟩
    | updatedRaw => exact ⟨_, _, rfl, rfl, by rw [ha.updatedRaw, hb.updatedRaw]; rfl⟩
    | plain f =>
      have hf' : f ≠ .created ∧ f ≠ .updated := by
        rw [hkeys] at hk
        constructor <;> rintro rfl <;> simp [plainFields] at hk
      exact ⟨_, _, rfl, rfl, hf f hf'.1 hf'.2⟩
    | kwargs => rw [hkeys] at hk; simp [plainFields] at hk

theorem mkMeta_inv (kw : List (Str × PyVal)) (o : PathMeta) (h : mkMeta kw = .ok o) :
    ∃ size errors, mkSize ((dictGet Field.size.toStr kw).getD .none) = .ok size ∧
      mkErrors ((dictGet Field.errors.toStr kw).getD .none) = .ok errors ∧
      o.plain = (fun f => if f = .size then size else if f = .errors then errors
        else (dictGet f.toStr kw).getD .none) ∧
      o.created = mkSlot ((dictGet Field.created.toStr kw).getD .none) ∧
      o.updated = mkSlot ((dictGet Field.updated.toStr kw).getD .none) ∧
      o.kwargs = kw.filter fun kv => (Field.ofStr? kv.1).isNone := by
  unfold mkMeta at h
  dsimp only at h
  split at h
  · cases h
  · split at h
    · cases h
    · split at h
      · split at h
        · rename_i size errors hs he
          cases h
          exact ⟨size, errors, hs, he, rfl, rfl, rfl, rfl⟩
        · cases h
        · cases h
      · split at h
        · rename_i size errors hs he
          cases h
          exact ⟨size, errors, hs, he, rfl, rfl, rfl, rfl⟩
        · cases h
        · cases h
      · cases h

theorem mkSize_none {v s : PyVal} (h : mkSize v = .ok s) : s = .none ↔ v = .none := by
  cases v <;> simp [mkSize] at h
  · simp [← h]
  · split at h <;> cases h; simp
  · simp [← h]
  · split at h <;> cases h; simp

theorem mkErrors_falsy {v e : PyVal} (h : mkErrors v = .ok e) : ∃ l, e = .strs l ∧ (l = [] ↔ v.truthy = false) := by
  cases v <;> simp [mkErrors, PyVal.truthy] at h ⊢
  · exact h.symm
  · exact ⟨_, h.symm, by simp⟩
  · split at h <;> cases h; exact ⟨[], rfl, by simp_all⟩
  · split at h <;> cases h; exact ⟨[], rfl, by simp_all⟩
  · exact ⟨_, h.symm, by simp⟩

theorem mkSlot_unset (v : PyVal) : ((mkSlot v).raw = .none ∧ (mkSlot v).ok.getD .none = .none) ↔ v = .none := by
  cases v <;> simp [mkSlot]

theorem bool_iff (kw : List (Str × PyVal)) (o : PathMeta) (h : mkMeta kw = .ok o) :
    o.bool = false ↔
      (∀ f : Field, f ≠ .errors → (dictGet f.toStr kw).getD .none = .none) ∧
      ((dictGet Field.errors.toStr kw).getD .none).truthy = false ∧
      (∀ kv ∈ kw, (Field.ofStr? kv.1).isSome) := by
  obtain ⟨size, errors, hs, he, hplain, hcr, hup, hkw⟩ := mkMeta_inv kw o h
  obtain ⟨l, rfl, hl⟩ := mkErrors_falsy he
  have hsz := mkSize_none hs
  have hkwargs : o.kwargs = [] ↔ ∀ kv ∈ kw, (Field.ofStr? kv.1).isSome := by
    rw [hkw, List.filter_eq_nil_iff]
    constructor
    · intro h kv hkv
      have := h kv hkv
      cases hf : Field.ofStr? kv.1 <;> simp_all
    · intro h kv hkv
      have := h kv hkv
      cases hf : Field.ofStr? kv.1 <;> simp_all
  rw [← hkwargs]
  have hbool : o.bool = false ↔ ∀ k ∈ o.keys, ∃ v, o.attr k = some (.val v) ∧
      (v = .none ∨ (k = .plain .errors ∧ v.truthy = false)) := by
    simp only [PathMeta.bool, List.any_eq_false]
    constructor
    · intro h k hk
      have := h k hk
      obtain ⟨v, hv⟩ := Option.isSome_iff_exists.1 (keys_attr o k hk)
      rw [hv] at this ⊢
      cases v with
      | dict d => simp at this
      | val v =>
        refine ⟨v, rfl, ?_⟩
        by_cases h1 : v = .none
        · exact .inl h1
        · right
          by_cases h2 : k = .plain .errors ∧ (!v.truthy) = true
          · exact ⟨h2.1, by simpa using h2.2⟩
          · exfalso; apply this; simp only [h1, h2, if_false]
    · intro h k hk
      obtain ⟨v, hv, hc⟩ := h k hk
      rw [hv]
      rcases hc with hc | hc
      · simp [hc]
      · simp [hc]
  rw [hbool]
  constructor
  · intro h
    refine ⟨?_, ?_, ?_⟩
    · intro f hf
      by_cases h1 : f = .created
      · subst h1
        rw [← mkSlot_unset, ← hcr]
        constructor
        · obtain ⟨v, e1, e2⟩ := h _ (raw_mem_keys o).1
          simp [PathMeta.attr] at e1
          subst e1
          rcases e2 with e2 | e2
          · exact e2
          · simp at e2
        · cases hok : o.created.ok with
          | none => rfl
          | some v =>
            obtain ⟨w, e1, e2⟩ := h _ ((ok_mem_keys o).1 (by simp [hok]))
            simp [PathMeta.attr, hok] at e1
            subst e1
            rcases e2 with e2 | e2
            · simpa using e2
            · simp at e2
      · by_cases h2 : f = .updated
        · subst h2
          rw [← mkSlot_unset, ← hup]
          constructor
          · obtain ⟨v, e1, e2⟩ := h _ (raw_mem_keys o).2
            simp [PathMeta.attr] at e1
            subst e1
            rcases e2 with e2 | e2
            · exact e2
            · simp at e2
          · cases hok : o.updated.ok with
            | none => rfl
            | some v =>
              obtain ⟨w, e1, e2⟩ := h _ ((ok_mem_keys o).2 (by simp [hok]))
              simp [PathMeta.attr, hok] at e1
              subst e1
              rcases e2 with e2 | e2
              · simpa using e2
              · simp at e2
        · obtain ⟨v, e1, e2⟩ := h _ (plain_mem_keys o f h1 h2)
          simp [PathMeta.attr] at e1
          have e2 : v = .none := by
            rcases e2 with e2 | e2
            · exact e2
            · simp only [Key.plain.injEq] at e2; exact absurd e2.1 hf
          rw [e2, hplain] at e1
          by_cases hfs : f = .size
          · subst hfs
            simp only [if_true] at e1
            exact hsz.1 e1
          · simpa [hfs, hf] using e1
    · obtain ⟨v, e1, e2⟩ := h _ (plain_mem_keys o .errors (by decide) (by decide))
      simp [PathMeta.attr, hplain] at e1
      subst e1
      rcases e2 with e2 | e2
      · cases e2
      · rw [← hl]
        simpa [PyVal.truthy] using e2.2
    · by_cases hn : o.kwargs = []
      · exact hn
      · obtain ⟨v, e1, _⟩ := h .kwargs (by simp [PathMeta.keys, hn])
        simp [PathMeta.attr, hn] at e1
  · rintro ⟨h1, h2, h3⟩ k hk
    have hc := (mkSlot_unset _).2 (h1 .created (by decide))
    rw [← hcr] at hc
    have hu := (mkSlot_unset _).2 (h1 .updated (by decide))
    rw [← hup] at hu
    cases k with
    | createdOk =>
      obtain ⟨v, hv⟩ := Option.isSome_iff_exists.1 (keys_attr o _ hk)
      simp only [PathMeta.attr, Option.map_eq_some_iff] at hv
      obtain ⟨w, hw, rfl⟩ := hv
      refine ⟨w, by simp [PathMeta.attr, hw], .inl ?_⟩
      have := hc.2
      simpa [hw] using this
    | updatedOk =>
      obtain ⟨v, hv⟩ := Option.isSome_iff_exists.1 (keys_attr o _ hk)
      simp only [PathMeta.attr, Option.map_eq_some_iff] at hv
      obtain ⟨w, hw, rfl⟩ := hv
      refine ⟨w, by simp [PathMeta.attr, hw], .inl ?_⟩
      have := hu.2
      simpa [hw] using this
    | createdRaw => exact ⟨_, rfl, .inl hc.1⟩
    | updatedRaw => exact ⟨_, rfl, .inl hu.1⟩
    | kwargs => simp [PathMeta.keys, h3, plainFields] at hk
    | plain f =>
      refine ⟨_, rfl, ?_⟩
      by_cases hf : f = .errors
      · subst hf
        right
        refine ⟨rfl, ?_⟩
        rw [hplain]
        simp [PyVal.truthy, hl.2 h2]
      · left
        rw [hplain]
        by_cases hfs : f = .size
        · subst hfs
          simpa using hsz.2 (h1 .size (by decide))
        · simp [hfs, hf, h1 f hf]

/-- The object with nothing but a creation time. -/
def onlyCreated (s : Slot) : PathMeta :=
  ⟨fun f => if f = .errors then .strs [] else .none, s, ⟨some .none, .none⟩, []⟩

theorem mkMeta_onlyCreated_dt (d : DateTime) :
    mkMeta [(lit "created", .dt d)] = .ok
      { onlyCreated ⟨some (.dt d), .none⟩ with
        plain := fun f => if f = .errors then .strs [] else if f = .created then .dt d else .none } := by
  have : ∀ f : Field, (dictGet f.toStr [(lit "created", PyVal.dt d)]).getD .none =
      if f = .created then .dt d else .none := by intro f; cases f <;> rfl
  simp only [mkMeta, this]
  simp [mkSize, mkErrors, PyVal.truthy, mkSlot, onlyCreated, dictGet, lit, Field.ofStr?]
  refine ⟨?_, by decide⟩
  funext f
  cases f <;> rfl

theorem mkMeta_onlyCreated_str (t : Str) :
    mkMeta [(lit "created", .str t)] = .ok
      { onlyCreated ⟨none, .str t⟩ with
        plain := fun f => if f = .errors then .strs [] else if f = .created then .str t else .none } := by
  have : ∀ f : Field, (dictGet f.toStr [(lit "created", PyVal.str t)]).getD .none =
      if f = .created then .str t else .none := by intro f; cases f <;> rfl
  simp only [mkMeta, this]
  simp [mkSize, mkErrors, PyVal.truthy, mkSlot, onlyCreated, dictGet, lit, Field.ofStr?]
  refine ⟨?_, by decide⟩
  funext f
  cases f <;> rfl

end Verif
