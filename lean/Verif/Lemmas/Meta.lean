import Verif.Lemmas.Time
import Verif.Spec.Meta

namespace Verif
open Verif.Spec

theorem Field.ofStr?_toStr (f : Field) : Field.ofStr? f.toStr = some f := by
  cases f <;> decide

theorem Field.toStr_injective {f g : Field} (h : f.toStr = g.toStr) : f = g := by
  have := congrArg Field.ofStr? h
  simpa [Field.ofStr?_toStr] using this

theorem Field.toStr_inj {f g : Field} : f.toStr = g.toStr ↔ f = g :=
  ⟨Field.toStr_injective, fun h => h ▸ rfl⟩

theorem Field.mem_all (f : Field) : f ∈ Field.all := by cases f <;> decide

theorem Field.nodup_all : Field.all.Nodup := by decide

theorem Field.toStr_ne_self (f : Field) : f.toStr ≠ lit "self" := by cases f <;> decide

theorem dictGet_none_of {α β : Type} [DecidableEq α] {k : α} {l : List (α × β)}
    (h : ∀ kv ∈ l, kv.1 ≠ k) : dictGet k l = none := by
  induction l with
  | nil => rfl
  | cons kv l ih =>
    obtain ⟨k', v⟩ := kv
    simp only [dictGet]
    rw [ih fun kv hkv => h kv (by simp [hkv])]
    have := h (k', v) (by simp)
    simp at this
    simp [this]

theorem dictGet_append {α β : Type} [DecidableEq α] (k : α) (l l' : List (α × β)) :
    dictGet k (l ++ l') = (dictGet k l').or (dictGet k l) := by
  induction l with
  | nil => simp [dictGet]
  | cons kv l ih =>
    obtain ⟨k', v⟩ := kv
    simp only [List.cons_append, dictGet, ih]
    cases dictGet k l' <;> simp

/-- The keyword arguments made from a partial assignment of fields. -/
def kwOf (D : Field → Option PyVal) (fs : List Field) : List (Str × PyVal) :=
  fs.filterMap fun f => (D f).map fun v => (f.toStr, v)

theorem kwOf_keys (D : Field → Option PyVal) (fs : List Field) :
    ∀ kv ∈ kwOf D fs, ∃ f ∈ fs, kv.1 = f.toStr := by
  intro kv h
  simp only [kwOf, List.mem_filterMap, Option.map_eq_some_iff] at h
  obtain ⟨f, hf, v, _, rfl⟩ := h
  exact ⟨f, hf, rfl⟩

theorem kwOf_cons (D : Field → Option PyVal) (f : Field) (fs : List Field) :
    kwOf D (f :: fs) = match D f with
      | some v => (f.toStr, v) :: kwOf D fs
      | none => kwOf D fs := by
  simp only [kwOf, List.filterMap_cons]
  cases D f <;> rfl

theorem kwOf_congr {D D' : Field → Option PyVal} {fs : List Field} (h : ∀ f ∈ fs, D f = D' f) :
    kwOf D fs = kwOf D' fs := by
  induction fs with
  | nil => rfl
  | cons g fs ih =>
    rw [kwOf_cons, kwOf_cons, ih fun f hf => h f (by simp [hf]), h g (by simp)]

theorem dictGet_kwOf (D : Field → Option PyVal) (f : Field) : ∀ (fs : List Field), fs.Nodup →
    dictGet f.toStr (kwOf D fs) = if f ∈ fs then D f else none := by
  intro fs
  induction fs with
  | nil => intro _; simp [kwOf, dictGet]
  | cons g fs ih =>
    intro hn
    rw [List.nodup_cons] at hn
    have ih := ih hn.2
    rw [kwOf_cons]
    by_cases hfg : f = g
    · subst hfg
      rw [if_neg hn.1] at ih
      cases hD : D f with
      | none => simp [ih]
      | some v => simp [dictGet, ih]
    · have hne : g.toStr ≠ f.toStr := fun h => hfg (Field.toStr_injective h).symm
      cases hD : D g with
      | none => simp [ih, hfg]
      | some v =>
        simp only [dictGet, ih, hne, if_false, List.mem_cons, hfg, false_or]
        split <;> simp_all

theorem dictGet_self_kwOf (D : Field → Option PyVal) (fs : List Field) :
    dictGet (lit "self") (kwOf D fs) = none := by
  apply dictGet_none_of
  intro kv hkv
  obtain ⟨f, _, h⟩ := kwOf_keys D fs kv hkv
  rw [h]; exact f.toStr_ne_self

/-- The constructor argument `a` for field `f` makes the object show `v`. -/
def ArgOK (env : Env) (f : Field) (a v : PyVal) : Prop :=
  match f with
  | .created | .updated => (mkSlot a).get env = .ok v
  | .errors => mkErrors a = .ok v
  | .size => mkSize a = .ok v
  | .id => a = v ∧ (a = .none ∨ ∃ s, a = .str s)
  | .file_id => a = v ∧ (a = .none ∨ ∃ i, a = .int i)
  | _ => a = v

theorem mkMeta_shows (env : Env) (kw : List (Str × PyVal)) (v : Meta)
    (hself : dictGet (lit "self") kw = none)
    (h : ∀ f : Field, ArgOK env f ((dictGet f.toStr kw).getD .none) (v f)) :
    ∃ o, mkMeta kw = .ok o ∧ o.Shows env v ∧
      o.kwargs = kw.filter fun kv => (Field.ofStr? kv.1).isNone := by
  have hfile := h .file_id
  have hid := h .id
  have hsize := h .size
  have herr := h .errors
  simp only [ArgOK] at hfile hid hsize herr
  have hf : ¬(!((dictGet Field.file_id.toStr kw).getD .none).truthy ∧
      (dictGet Field.file_id.toStr kw).getD .none ≠ .none ∧
      (dictGet Field.file_id.toStr kw).getD .none ≠ .int 0) := by
    rcases hfile.2 with e | ⟨i, e⟩
    · rw [e]; simp
    · rw [e]; simp [PyVal.truthy]
  unfold mkMeta
  simp only [hself, Option.isSome_none, Bool.false_eq_true, if_false, hf, hsize, herr]
  have hshow : ∀ o : PathMeta,
      o.plain = (fun f => if f = .size then v .size else if f = .errors then v .errors
        else (dictGet f.toStr kw).getD .none) →
      o.created = mkSlot ((dictGet Field.created.toStr kw).getD .none) →
      o.updated = mkSlot ((dictGet Field.updated.toStr kw).getD .none) → o.Shows env v := by
    intro o h1 h2 h3 f
    have hf := h f
    cases f <;> simp_all [PathMeta.get, ArgOK]
  rcases hid.2 with e | ⟨s, e⟩
  · rw [e]; exact ⟨_, rfl, hshow _ rfl rfl rfl, rfl⟩
  · rw [e]; exact ⟨_, rfl, hshow _ rfl rfl rfl, rfl⟩

theorem pieces_joinC (l : List Str) : pieces (joinC ';' l) = l.flatMap pieces := by
  have key : ∀ a b : Str, splitC ';' (a ++ ';' :: b) = splitC ';' a ++ splitC ';' b := by
    intro a b
    induction a with
    | nil => simp [splitC]
    | cons c cs ih =>
      simp only [List.cons_append, splitC]
      split
      · simp [ih]
      · rw [ih]
        cases h : splitC ';' cs with
        | nil => exact absurd h (splitC_ne_nil _ _)
        | cons w ws => simp
  induction l with
  | nil => simp [joinC, pieces, splitC]
  | cons w ws ih =>
    cases ws with
    | nil => simp [joinC]
    | cons w' ws' =>
      rw [List.flatMap_cons, ← ih]
      simp [joinC, pieces, key]

theorem pieces_self {s : Str} (h : s ≠ []) (h' : ';' ∉ s) : pieces s = [s] := by
  simp [pieces, splitC_of_not_mem h', h]

theorem flatMap_pieces_eq (l : List Str) :
    l.flatMap pieces = l ↔ ∀ e ∈ l, e ≠ [] ∧ ';' ∉ e := by
  constructor
  · intro h e he
    have h1 : e ∈ l.flatMap pieces := by rw [h]; exact he
    obtain ⟨x, _, hx⟩ := List.mem_flatMap.1 h1
    simp only [pieces, List.mem_filter, ne_eq, decide_eq_true_eq] at hx
    exact ⟨hx.2, splitC_not_mem _ _ _ hx.1⟩
  · intro h
    induction l with
    | nil => rfl
    | cons e es ih =>
      have he := h e (by simp)
      rw [List.flatMap_cons, pieces_self he.1 he.2, ih fun x hx => h x (by simp [hx])]
      rfl

theorem utf8_length (s : Str) : s.length ≤ (utf8 s).length := by
  induction s with
  | nil => simp
  | cons c cs ih =>
    have : utf8 (c :: cs) = utf8 [c] ++ utf8 cs := by simp [utf8]
    rw [this]
    have h1 : utf8 [c] ≠ [] := by rw [ne_eq, utf8_eq_nil]; simp
    have := List.length_pos_iff.2 h1
    simp; omega

theorem pyIntBytes_utf8 (s : Str) : pyIntBytes (utf8 s) = pyInt s := by
  simp [pyIntBytes, utf8?_utf8]

end Verif
