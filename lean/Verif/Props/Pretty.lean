import Verif.Model.Pretty
import Verif.Spec.Pretty
import Verif.Lemmas.Samples
import Verif.Lemmas.Xattrs
import Mathlib.Data.List.Sort

/-!
# C69, C70: metadata as a table, and the comparison of two metadata objects
-/

namespace Verif.Pretty
open Verif.Spec

/-! ## Sorting -/

theorem order_nodup : order.Nodup := by decide

theorem mem_order (f : Field) : f ∈ order := by cases f <;> decide

theorem idx_inj {f g : Field} (h : order.idxOf f = order.idxOf g) : f = g := by
  revert h; cases f <;> cases g <;> decide

theorem order_sorted : order.Pairwise (fun a b => order.idxOf a < order.idxOf b) := by decide

theorem sorted_unique {l l' : List Row} (hp : l.Perm l') (hn : (l.map (·.1)).Nodup)
    (hl : l.Pairwise fun a b => rowLe a b) (hl' : l'.Pairwise fun a b => rowLe a b) : l = l' := by
  refine hp.eq_of_pairwise ?_ hl hl'
  intro a b ha hb hab hba
  have : a.1 = b.1 := by
    apply idx_inj
    simp only [rowLe, decide_eq_true_eq] at hab hba
    omega
  have hb' : b ∈ l := hp.mem_iff.2 hb
  exact (List.inj_on_of_nodup_map hn) ha hb' this

theorem mergeSort_rows {l l' : List Row} (hp : l.Perm l') (hn : (l'.map (·.1)).Nodup)
    (hl' : l'.Pairwise fun a b => rowLe a b) : l.mergeSort rowLe = l' := by
  refine (sorted_unique ((List.mergeSort_perm l rowLe).trans hp).symm hn hl' ?_).symm
  apply List.pairwise_mergeSort
  · intro a b c h1 h2; simp only [rowLe, decide_eq_true_eq] at *; omega
  · intro a b; simp only [rowLe, Bool.or_eq_true, decide_eq_true_eq]; omega

/-! ## The rows -/

theorem cells_ok {env : Env} {human : Bool} : ∀ {l : List (Field × PyVal)} {rs : List Row},
    cells env human l = .ok rs →
      rs.map (·.1) = (l.filter fun x => kept x.2).map (·.1) ∧
      ∀ r ∈ rs, ∃ v, (r.1, v) ∈ l ∧ kept v ∧ cell env human r.1 v = .ok r.2 := by
  intro l
  induction l with
  | nil => intro rs h; simp only [cells] at h; cases h; simp
  | cons x l ih =>
    intro rs h
    obtain ⟨f, v⟩ := x
    simp only [cells] at h
    by_cases hk : kept v = true
    · rw [if_pos hk] at h
      split at h
      · cases h
      · rename_i c hc
        split at h
        · cases h
        · rename_i rs' hrs
          cases h
          obtain ⟨h1, h2⟩ := ih hrs
          refine ⟨by simp [hk, h1], ?_⟩
          intro r hr
          rcases List.mem_cons.1 hr with rfl | hr
          · exact ⟨v, by simp, hk, hc⟩
          · obtain ⟨w, hw, hw'⟩ := h2 r hr
            exact ⟨w, List.mem_cons_of_mem _ hw, hw'⟩
    · rw [if_neg hk] at h
      obtain ⟨h1, h2⟩ := ih h
      refine ⟨by simp [hk, h1], ?_⟩
      intro r hr
      obtain ⟨w, hw, hw'⟩ := h2 r hr
      exact ⟨w, List.mem_cons_of_mem _ hw, hw'⟩

theorem cells_total {env : Env} {human : Bool} (g : Field → PyVal → PyVal) :
    ∀ (l : List (Field × PyVal)), (∀ x ∈ l, kept x.2 → cell env human x.1 x.2 = .ok (g x.1 x.2)) →
      cells env human l = .ok ((l.filter fun x => kept x.2).map fun x => (x.1, g x.1 x.2)) := by
  intro l
  induction l with
  | nil => intro _; rfl
  | cons x l ih =>
    intro h
    obtain ⟨f, v⟩ := x
    have ih := ih fun y hy => h y (List.mem_cons_of_mem _ hy)
    by_cases hk : kept v = true
    · simp [cells, hk, h (f, v) (by simp) hk, ih]
    · simp [cells, hk, ih]

theorem items_keys : (plainFields.map id ++ [Field.created, Field.updated]).Perm order := by decide

/-- What `items` gives in terms of the shown values. -/
theorem items_eq {env : Env} {o : PathMeta} {l} (h : items env o = .ok l) :
    ∃ m : Meta, o.Shows env m ∧ l = (plainFields ++ [Field.created, Field.updated]).map fun f => (f, m f) := by
  simp only [items] at h
  split at h
  · cases h
  · rename_i c hc
    split at h
    · cases h
    · rename_i u hu
      cases h
      refine ⟨fun f => if f = .created then c else if f = .updated then u else o.plain f, ?_, ?_⟩
      · intro f
        cases f <;> first | simpa using hc | simpa using hu | rfl
      · rfl

theorem items_shows {env : Env} {o : PathMeta} {m : Meta} (h : o.Shows env m) :
    items env o = .ok ((plainFields ++ [Field.created, Field.updated]).map fun f => (f, m f)) := by
  have hp : ∀ f, f ≠ .created → f ≠ .updated → o.plain f = m f := by
    intro f h1 h2
    have := h f
    cases f <;> first | exact absurd rfl h1 | exact absurd rfl h2 | (simpa [PathMeta.get] using this)
  simp only [items, h .created, h .updated]
  simp [plainFields, hp]

/-- The rows come out in the order of the table. -/
theorem rows_sorted {f : Field → PyVal} {m : Meta} :
    (((plainFields ++ [Field.created, .updated]).map fun f => (f, m f)).filter
      (fun x => kept x.2)).map (fun x => (x.1, f x.1)) =
    ((plainFields ++ [Field.created, .updated]).filter fun x => kept (m x)).map fun x => (x, f x) := by
  rw [List.filter_map, List.map_map]; rfl

theorem sorted_filter (p : Field → Bool) (g : Field → PyVal) :
    (((order.filter p).map fun f => (f, g f)).map (·.1)).Nodup ∧
    ((order.filter p).map fun f => (f, g f)).Pairwise fun a b => rowLe a b := by
  constructor
  · rw [List.map_map]
    exact (List.map_id _).symm ▸ order_nodup.filter p
  · rw [List.pairwise_map]
    refine (order_sorted.filter p).imp ?_
    intro a b h
    simp only [rowLe, decide_eq_true_eq]
    omega

theorem sort_fields (p : Field → Bool) (g : Field → PyVal) :
    (((plainFields ++ [Field.created, .updated]).filter p).map fun f => (f, g f)).mergeSort rowLe =
      (order.filter p).map fun f => (f, g f) := by
  obtain ⟨h1, h2⟩ := sorted_filter p g
  exact mergeSort_rows ((items_keys.filter p).map _) h1 h2

/-- The cell of a value of the right type. -/
theorem cell_written (env : Env) (human : Bool) (f : Field) (v : PyVal) (ht : HasType f v)
    (hv : IsSet v) : cell env human f v = .ok (written human f v) := by
  cases f <;> cases v <;>
    simp_all [HasType, IsSet, cell, encode, written, strEncode, pyStr]
  cases human <;> rfl

/-- Reading a cell back. -/
def readCell : Field → PyVal → PyVal
  | .size, .str s | .chunksize, .str s | .multi, .str s | .file_id, .str s | .gid, .str s =>
    .int ((pyInt s).getD 0)
  | .user_id, .str s => match pyInt s with
    | some i => .int i
    | none => .str s
  | .created, .str s | .updated, .str s => match readIso s with
    | some d => .dt d
    | none => .none
  | .checksum, .str s => .bytes ((fromHex s).getD [])
  | .etag, .str s => match Xattrs.decodeEtag s with
    | .ok v => v
    | .error _ => .none
  | _, w => w

theorem readCell_written (f : Field) (v : PyVal) (ht : HasType f v) (hs : IsSet v)
    (hu : f = .user_id → ∀ s, v = .str s → pyInt s = none) :
    readCell f (written false f v) = v := by
  cases f <;> cases v <;> simp only [HasType] at ht <;>
    first
    | rfl
    | (exact absurd hs (by decide))
    | (simp [readCell, written, pyInt_intStr]; done)
    | (simp [readCell, written, fromHex_hex]; done)
    | (simp [readCell, written, readIso_isoformat _ ht]; done)
    | (simp [readCell, written, Xattrs.decodeEtag_enc _ _ ht]; done)
    | (simp [readCell, written, hu rfl _ rfl]; done)

theorem unset_eq (f : Field) (v : PyVal) (ht : HasType f v) (hs : ¬IsSet v = true) :
    v = if f = .errors then .strs [] else .none := by
  cases f <;> cases v <;> simp_all [HasType, IsSet]

/-! ## C69 -/

/-- **C69**: for metadata whose fields hold values of their types, the table has a row for each field
that is set and no others, in the fixed order, and beside it the value as the specification writes
it.  In particular the table can always be made. -/
theorem C69_table (env : Env) (o : PathMeta) (m : Meta) (ho : o.Shows env m) (hm : WellTyped m)
    (human : Bool) :
    rows env o human = .ok ((tableOrder.filter fun f => IsSet (m f)).map fun f =>
      (f, written human f (m f))) := by
  have hc := cells_total (env := env) (human := human) (fun f v => written human f v)
    ((plainFields ++ [Field.created, Field.updated]).map fun f => (f, m f)) (by
      intro x hx hk
      obtain ⟨f, _, rfl⟩ := List.mem_map.1 hx
      exact cell_written env human f (m f) (hm f) hk)
  simp only [rows, items_shows ho, hc]
  rw [List.filter_map, List.map_map]
  exact congrArg _ (sort_fields (fun f => IsSet (m f)) fun f => written human f (m f))

/-- **C69** for metadata of any shape: if a table is made, then it has exactly one row for each field
that is set, in the fixed order. -/
theorem C69_no_field_hidden (env : Env) (o : PathMeta) (human : Bool) (rs : List Row)
    (h : rows env o human = .ok rs) :
    ∃ m : Meta, o.Shows env m ∧ rs.map (·.1) = tableOrder.filter fun f => IsSet (m f) := by
  simp only [rows] at h
  split at h
  · cases h
  · rename_i its hits
    obtain ⟨m, hm, rfl⟩ := items_eq hits
    split at h
    · cases h
    · rename_i cs hcs
      cases h
      refine ⟨m, hm, ?_⟩
      obtain ⟨hk, _⟩ := cells_ok hcs
      rw [List.filter_map, List.map_map] at hk
      have hk' : cs.map (·.1) = (plainFields ++ [Field.created, .updated]).filter (fun f => IsSet (m f)) := by
        rw [hk]; exact List.map_id _
      have hs : (cs.mergeSort rowLe).Pairwise fun a b => rowLe a b := by
        apply List.pairwise_mergeSort
        · intro a b c h1 h2; simp only [rowLe, decide_eq_true_eq] at *; omega
        · intro a b; simp only [rowLe, Bool.or_eq_true, decide_eq_true_eq]; omega
      have hp : ((cs.mergeSort rowLe).map (·.1)).Perm (order.filter fun f => IsSet (m f)) := by
        refine ((List.mergeSort_perm cs rowLe).map _).trans ?_
        rw [hk']
        exact items_keys.filter _
      refine hp.eq_of_pairwise (le := fun a b => order.idxOf a ≤ order.idxOf b) ?_ ?_ ?_
      · intro a b _ _ h1 h2; exact idx_inj (by omega)
      · rw [List.pairwise_map]
        exact hs.imp fun h => by simpa [rowLe] using h
      · exact (order_sorted.filter _).imp fun h => by omega

/-- How a value of any type is shown, if it can be: text as it is, except that the errors are always a list, here of the characters; a
checksum in hexadecimal digits; a value that no rule is for as it is. -/
def shown (env : Env) (human : Bool) : Field → PyVal → Option PyVal
  | .errors, .strs l => some (.strs l)
  | .errors, .str s => some (.strs (s.map fun c => [c]))
  | .errors, _ => none
  | _, .str s => some (.str s)
  | .created, .dt d | .updated, .dt d => some (.str (isoformat d))
  | .created, _ | .updated, _ | .id, _ => none
  | .checksum, .bytes b => some (.str (hex b))
  | .etag, .etag b i => some (.str (hex b ++ '-' :: intStr i))
  | .etag, .bytes (b :: l) => some (.bytes (b :: l))
  | .etag, .strs (b :: l) => some (.strs (b :: l))
  | .etag, _ => none
  | .name, v | .mode, v | .old_id, v | .checksum_cypher, v | .checksum, v => some v
  | .size, .int i => some (.str (if human then hr i else intStr i))
  | .size, v | .chunksize, v | .multi, v | .parent_id, v | .file_id, v | .gid, v | .user_id, v => some (.str (pyStr env v))

theorem cell_shown (env : Env) (human : Bool) (f : Field) (v : PyVal) :
    (∃ w, cell env human f v = .ok w ∧ shown env human f v = some w) ∨
      (∃ e, cell env human f v = .error e) ∧ shown env human f v = none := by
  cases f <;> cases v <;> simp [cell, encode, strEncode, shown, pyStr]
  all_goals first
    | (rename_i l; cases l <;> simp; done)
    | (cases human <;> simp; done)

/-- **C69** for metadata of any shape: the table is made when each field that is set has a value that can be shown, and shows it. -/
theorem C69_any (env : Env) (o : PathMeta) (m : Meta) (ho : o.Shows env m) (human : Bool) (g : Field → PyVal)
    (hg : ∀ f, IsSet (m f) → shown env human f (m f) = some (g f)) :
    rows env o human = .ok ((tableOrder.filter fun f => IsSet (m f)).map fun f => (f, g f)) := by
  have hc := cells_total (env := env) (human := human) (fun f _ => g f)
    ((plainFields ++ [Field.created, Field.updated]).map fun f => (f, m f)) (by
      intro x hx hk
      obtain ⟨f, _, rfl⟩ := List.mem_map.1 hx
      rcases cell_shown env human f (m f) with ⟨w, h1, h2⟩ | ⟨-, h2⟩
      · rw [hg f hk] at h2
        rw [h1, Option.some.inj h2]
      · rw [hg f hk] at h2
        cases h2)
  simp only [rows, items_shows ho, hc]
  rw [List.filter_map, List.map_map]
  exact congrArg _ (sort_fields (fun f => IsSet (m f)) g)

/-- **C69** Otherwise there is no table at all. -/
theorem C69_no_table (env : Env) (o : PathMeta) (m : Meta) (ho : o.Shows env m) (human : Bool) (f : Field) (hf : IsSet (m f))
    (hs : shown env human f (m f) = none) : ∃ e, rows env o human = .error e := by
  have : ∀ l : List (Field × PyVal), (f, m f) ∈ l → ∃ e, cells env human l = .error e := by
    intro l
    induction l with
    | nil => simp
    | cons x l ih =>
      intro h
      obtain ⟨f', v'⟩ := x
      unfold cells
      rcases List.mem_cons.1 h with h | h
      · cases h
        rw [if_pos (show kept (m f) = true from hf)]
        rcases cell_shown env human f (m f) with ⟨w, -, h2⟩ | ⟨⟨e, h1⟩, -⟩
        · rw [hs] at h2; cases h2
        · exact ⟨e, by rw [h1]⟩
      · obtain ⟨e, he⟩ := ih h
        rw [he]
        split
        · split
          · exact ⟨_, rfl⟩
          · exact ⟨_, rfl⟩
        · exact ⟨_, rfl⟩
  obtain ⟨e, he⟩ := this ((plainFields ++ [Field.created, Field.updated]).map fun f => (f, m f))
    (List.mem_map.2 ⟨f, by cases f <;> decide, rfl⟩)
  exact ⟨e, by simp only [rows, items_shows ho, he]⟩

/-- A mode that is not text is shown as it is, and errors that are text letter by letter; a date that is a number cannot be shown. -/
example (env : Env) : shown env false .mode (.int 5) = some (.int 5) ∧ IsSet (.int 5) ∧
    shown env false .errors (.str ['a', 'b']) = some (.strs [['a'], ['b']]) ∧ shown env true .created (.int 5) = none := by
  refine ⟨rfl, by decide, rfl, rfl⟩

/-- **C69**: the table without rounding of sizes determines the metadata: two metadata objects with
the same table are the same, as long as no user id is a text that reads as a number. -/
theorem C69_faithful (env : Env) (o o' : PathMeta) (m m' : Meta) (ho : o.Shows env m)
    (ho' : o'.Shows env m') (hm : WellTyped m) (hm' : WellTyped m')
    (hu : ∀ s, m .user_id = .str s → pyInt s = none)
    (hu' : ∀ s, m' .user_id = .str s → pyInt s = none)
    (h : rows env o false = rows env o' false) : m = m' := by
  rw [C69_table env o m ho hm, C69_table env o' m' ho' hm'] at h
  have h := Except.ok.inj h
  funext f
  have mem : ∀ (n : Meta) (w : PyVal), (f, w) ∈ (tableOrder.filter fun f => IsSet (n f)).map
      (fun f => (f, written false f (n f))) ↔ IsSet (n f) ∧ written false f (n f) = w := by
    intro n w
    simp only [List.mem_map, List.mem_filter, Prod.mk.injEq]
    constructor
    · rintro ⟨g, ⟨_, h1⟩, rfl, h2⟩; exact ⟨h1, h2⟩
    · rintro ⟨h1, h2⟩; exact ⟨f, ⟨mem_order f, h1⟩, rfl, h2⟩
  have key : ∀ w, (IsSet (m f) ∧ written false f (m f) = w) ↔
      (IsSet (m' f) ∧ written false f (m' f) = w) := by
    intro w; rw [← mem m w, ← mem m' w, h]
  have hset : IsSet (m f) = IsSet (m' f) := by
    by_cases hs : IsSet (m f) = true
    · rw [hs, ((key _).1 ⟨hs, rfl⟩).1]
    · by_cases hs' : IsSet (m' f) = true
      · rw [hs', ((key _).2 ⟨hs', rfl⟩).1]
      · simp_all
  have hw : IsSet (m f) = true → written false f (m f) = written false f (m' f) :=
    fun hs => ((key _).1 ⟨hs, rfl⟩).2.symm
  have hr := readCell_written f (m f) (hm f)
  have hr' := readCell_written f (m' f) (hm' f)
  by_cases hs : IsSet (m f) = true
  · have hs' : IsSet (m' f) = true := hset ▸ hs
    rw [← hr hs (fun e s hs => hu s (e ▸ hs)), ← hr' hs' (fun e s hs => hu' s (e ▸ hs)), hw hs]
  · rw [unset_eq f (m f) (hm f) hs, unset_eq f (m' f) (hm' f) (hset ▸ hs)]

/-- An object that shows given metadata. -/
def objectOf (m : Meta) : PathMeta := ⟨m, ⟨some (m .created), .none⟩, ⟨some (m .updated), .none⟩, []⟩

theorem objectOf_shows (env : Env) (m : Meta) : (objectOf m).Shows env m := by
  intro f; cases f <;> rfl

/-- Metadata in which only some fields are set. -/
def only (l : List (Field × PyVal)) : Meta := fun f =>
  (dictGet f l).getD (if f = .errors then .strs [] else .none)

/-- Beyond **C69**: the guard on user ids is needed, the number 5 and the text 5 look the same. -/
theorem C69_user_id_counterexample (env : Env) :
    ∃ m m', WellTyped m ∧ WellTyped m' ∧ m ≠ m' ∧
      rows env (objectOf m) false = rows env (objectOf m') false := by
  have h : WellTyped (only [(.user_id, .int 5)]) := by intro f; cases f <;> exact trivial
  have h' : WellTyped (only [(.user_id, .str (lit "5"))]) := by intro f; cases f <;> exact trivial
  refine ⟨_, _, h, h', ?_, ?_⟩
  · intro e; exact absurd (congrFun e .user_id) (by decide)
  · rw [C69_table env _ _ (objectOf_shows env _) h, C69_table env _ _ (objectOf_shows env _) h']
    have h5 : intStr 5 = lit "5" := by decide +kernel
    change Except.ok [(Field.user_id, PyVal.str (intStr 5))] = Except.ok [(Field.user_id, PyVal.str (lit "5"))]
    rw [h5]

/-- The sample metadata meets the hypotheses of C69, and its table has seventeen rows. -/
example : ∃ o, PathMeta.Shows sampleEnv o sampleMeta ∧ WellTyped sampleMeta ∧
    ∀ s, sampleMeta .user_id = .str s → pyInt s = none := by
  refine ⟨⟨sampleMeta, mkSlot (sampleMeta .created), mkSlot (sampleMeta .updated), []⟩, ?_,
    sampleMeta_wellTyped, ?_⟩
  · intro f; cases f <;> rfl
  · intro s hs; simp only [sampleMeta, PyVal.str.injEq] at hs; subst hs; decide +kernel

example (human : Bool) : ((tableOrder.filter fun f => IsSet (sampleMeta f)).map fun f =>
    (f, written human f (sampleMeta f))).length = 17 := by
  rw [List.length_map]; decide

/-! ## C70 -/

theorem pyIndex_mem {α : Type} {l : List α} {i : Int} {x : α} (h : pyIndex l i = some x) : x ∈ l := by
  unfold pyIndex at h
  split at h
  · exact List.mem_of_getElem? h
  · split at h
    · exact List.mem_of_getElem? h
    · cases h

theorem takeFrom_mem {short : List Kind} : ∀ {n : Nat} {i : Int} {l},
    takeFrom short i n = .ok l → ∀ k ∈ l, k ∈ short.map (·.2.2) := by
  intro n
  induction n with
  | zero => intro i l h; cases h; simp
  | succ n ih =>
    intro i l h
    simp only [takeFrom] at h
    split at h
    · cases h
    · rename_i s hs
      split at h
      · cases h
      · rename_i l' hl
        cases h
        intro k hk
        rcases List.mem_cons.1 hk with rfl | hk
        · exact List.mem_map_of_mem (pyIndex_mem hs)
        · exact ih hl k hk

/-- Everything in `long` is shown, in order, and what is shown is from one of the two. -/
theorem alignLoop_ok {short : List Kind} : ∀ {long : List Kind} {started offset i l},
    alignLoop short started offset i long = .ok l →
      (long.map (·.2.2)).Sublist l ∧ ∀ k ∈ l, k ∈ long.map (·.2.2) ∨ k ∈ short.map (·.2.2) := by
  intro long
  induction long with
  | nil => intro started offset i l h; cases h; simp
  | cons x long ih =>
    intro started offset i l h
    obtain ⟨k, v, av⟩ := x
    cases k with
    | none =>
      simp only [alignLoop] at h
      split at h
      · split at h
        · cases h
        · rename_i s hs
          split at h
          · cases h
          · rename_i l' hl
            cases h
            obtain ⟨h1, h2⟩ := ih hl
            refine ⟨.cons_cons _ (.cons _ h1), ?_⟩
            intro k hk
            rcases List.mem_cons.1 hk with rfl | hk
            · simp
            rcases List.mem_cons.1 hk with rfl | hk
            · exact .inr (List.mem_map_of_mem (pyIndex_mem hs))
            · rcases h2 k hk with h | h
              · exact .inl (List.mem_cons_of_mem _ h)
              · exact .inr h
      · split at h
        · cases h
        · rename_i l' hl
          cases h
          obtain ⟨h1, h2⟩ := ih hl
          refine ⟨.cons_cons _ h1, ?_⟩
          intro k hk
          rcases List.mem_cons.1 hk with rfl | hk
          · simp
          · rcases h2 k hk with h | h
            · exact .inl (List.mem_cons_of_mem _ h)
            · exact .inr h
    | some k0 =>
      simp only [alignLoop] at h
      split at h
      · split at h
        · cases h
        · rename_i l' hl
          cases h
          obtain ⟨h1, h2⟩ := ih hl
          refine ⟨.cons_cons _ h1, ?_⟩
          intro k hk
          rcases List.mem_cons.1 hk with rfl | hk
          · simp
          · rcases h2 k hk with h | h
            · exact .inl (List.mem_cons_of_mem _ h)
            · exact .inr h
      · split at h
        · cases h
        · rename_i taken ht
          split at h
          · cases h
          · rename_i l' hl
            cases h
            obtain ⟨h1, h2⟩ := ih hl
            refine ⟨(List.Sublist.cons_cons _ h1).trans (List.sublist_append_right _ _), ?_⟩
            intro k hk
            rcases List.mem_append.1 hk with hk | hk
            · exact .inr (takeFrom_mem ht k hk)
            rcases List.mem_cons.1 hk with rfl | hk
            · simp
            · rcases h2 k hk with h | h
              · exact .inl (List.mem_cons_of_mem _ h)
              · exact .inr h

theorem kinds_keys (other : List Field) : ∀ (ks : List Field) (i : Nat),
    (kinds other i ks).map (·.2.2) = ks := by
  intro ks
  induction ks with
  | nil => intro i; rfl
  | cons k ks ih => intro i; simp only [kinds, List.map_cons, ih]; split <;> rfl

theorem kinds_length (other : List Field) (ks : List Field) (i : Nat) :
    (kinds other i ks).length = ks.length := by
  rw [← List.length_map (f := (·.2.2)), kinds_keys]

/-- Once a shared key was met at or before its place, keys are copied as long as no shared key is
further down on the other side. -/
theorem alignLoop_copy (short : List Kind) : ∀ (long : List Kind) (started : Bool) (i : Nat),
    (∀ x ∈ long, x.1.isSome → x.2.1 ≤ 0) →
    (started = true ∨ (∀ x, long.head? = some x → x.1.isSome)) →
    alignLoop short started 0 i long = .ok (long.map (·.2.2)) := by
  intro long
  induction long with
  | nil => intros; rfl
  | cons x long ih =>
    intro started i h hs
    obtain ⟨k, v, av⟩ := x
    have ih := ih true (i + 1) (fun y hy => h y (List.mem_cons_of_mem _ hy)) (.inl rfl)
    cases k with
    | none =>
      have hst : started = true := by
        rcases hs with hs | hs
        · exact hs
        · have := hs _ rfl; simp at this
      subst hst
      simp [alignLoop, ih]
    | some k =>
      have hv : v ≤ 0 := h (some k, v, av) (by simp) rfl
      simp [alignLoop, hv, ih]

theorem side_eq {rs : List Row} (k : Field) : side rs k = none ∧ k ∉ rs.map (·.1) ∨
    ∃ v, side rs k = some (k, v) ∧ (k, v) ∈ rs := by
  induction rs with
  | nil => left; simp [side, dictGet]
  | cons r rs ih =>
    obtain ⟨k', v'⟩ := r
    simp only [side, dictGet] at ih ⊢
    cases hd : dictGet k rs with
    | some w =>
      rw [hd] at ih
      rcases ih with ⟨h, _⟩ | ⟨v, h, hm⟩
      · simp at h
      · right; exact ⟨v, by simpa [hd] using h, List.mem_cons_of_mem _ hm⟩
    | none =>
      rw [hd] at ih
      rcases ih with ⟨_, h⟩ | ⟨v, h, hm⟩
      · by_cases he : k' = k
        · right; subst he; exact ⟨v', by simp, by simp⟩
        · left; simp only [he, if_false, Option.map_none, List.map_cons, List.mem_cons, not_or]
          exact ⟨trivial, fun h => he h.symm, h⟩
      · simp at h

/-- **C70**, soundness: whatever the comparison shows is right.  Each of its rows belongs to one
field; on each side it has either the row that the table of that side has for this field, or nothing
if that table has no such row, and the two are not both empty. -/
theorem C70_shown_is_right (a b : List Row) (l : List DiffRow) (h : merge a b = .ok l) (d : DiffRow)
    (hd : d ∈ l) :
    ∃ f : Field, (f ∈ a.map (·.1) ∨ f ∈ b.map (·.1)) ∧
      (d.1 = none ∧ f ∉ a.map (·.1) ∨ ∃ v, d.1 = some (f, v) ∧ (f, v) ∈ a) ∧
      (d.2 = none ∧ f ∉ b.map (·.1) ∨ ∃ v, d.2 = some (f, v) ∧ (f, v) ∈ b) := by
  simp only [merge] at h
  split at h
  · cases h
  · rename_i ks hks
    split at h
    · cases h
    · cases h
      obtain ⟨k, hk, rfl⟩ := List.mem_map.1 hd
      refine ⟨k, ?_, side_eq k, side_eq k⟩
      simp only [aligned] at hks
      split at hks <;> have := (alignLoop_ok hks).2 k hk <;> simp only [kinds_keys] at this
      · exact this
      · exact this.symm

theorem side_of_mem {rs : List Row} (hn : (rs.map (·.1)).Nodup) {r : Row} (h : r ∈ rs) :
    side rs r.1 = some r := by
  rcases side_eq (rs := rs) r.1 with ⟨_, h'⟩ | ⟨v, h', hv⟩
  · exact absurd (List.mem_map_of_mem h) h'
  · rw [h', List.inj_on_of_nodup_map hn hv h rfl]

/-- **C70**, completeness for one side: all rows of the table with more rows are shown, and on a tie
all rows of the second one. -/
theorem C70_longer_side_shown (a b : List Row) (ha : (a.map (·.1)).Nodup) (hb : (b.map (·.1)).Nodup)
    (l : List DiffRow) (h : merge a b = .ok l) :
    (b.length < a.length → ∀ r ∈ a, ∃ d ∈ l, d.1 = some r) ∧
    (a.length ≤ b.length → ∀ r ∈ b, ∃ d ∈ l, d.2 = some r) := by
  simp only [merge] at h
  split at h
  · cases h
  · rename_i ks hks
    split at h
    · cases h
    · cases h
      simp only [aligned, kinds_length, List.length_map] at hks
      constructor
      · intro hlt r hr
        rw [if_pos hlt] at hks
        have := (alignLoop_ok hks).1
        rw [kinds_keys] at this
        exact ⟨_, List.mem_map_of_mem (this.subset (List.mem_map_of_mem hr)), side_of_mem ha hr⟩
      · intro hle r hr
        rw [if_neg (by omega)] at hks
        have := (alignLoop_ok hks).1
        rw [kinds_keys] at this
        exact ⟨_, List.mem_map_of_mem (this.subset (List.mem_map_of_mem hr)), side_of_mem hb hr⟩

theorem idxOf_sublist {l l' : List Field} (h : l.Sublist l') (hn : l'.Nodup) :
    ∀ k ∈ l, l.idxOf k ≤ l'.idxOf k := by
  induction h with
  | slnil => simp
  | cons a h ih =>
    intro k hk
    rename_i l1 l2
    have hne : a ≠ k := by
      rintro rfl
      exact (List.nodup_cons.1 hn).1 (h.subset hk)
    have := ih (List.nodup_cons.1 hn).2 k hk
    rw [List.idxOf_cons_ne _ hne]
    omega
  | cons_cons a h ih =>
    intro k hk
    by_cases he : a = k
    · subst he; simp
    · rw [List.idxOf_cons_ne _ he, List.idxOf_cons_ne _ he]
      have := ih (List.nodup_cons.1 hn).2 k ((List.mem_cons.1 hk).resolve_left fun e => he e.symm)
      omega

theorem kinds_le {other : List Field} : ∀ {ks : List Field} {i : Nat} (full : List Field),
    (∀ k ∈ other, other.idxOf k ≤ full.idxOf k) → full.Nodup → full.drop i = ks →
    ∀ x ∈ kinds other i ks, x.1.isSome → x.2.1 ≤ 0 := by
  intro ks
  induction ks with
  | nil => intro i full _ _ _ x hx; simp [kinds] at hx
  | cons k ks ih =>
    intro i full hle hn hd x hx hs
    have hlt : i < full.length := by
      apply Classical.byContradiction
      intro h
      rw [List.drop_eq_nil_of_le (by omega)] at hd
      cases hd
    rw [List.drop_eq_getElem_cons hlt] at hd
    obtain ⟨hk, hks⟩ := List.cons.inj hd
    simp only [kinds, List.mem_cons] at hx
    rcases hx with rfl | hx
    · split at hs
      · rename_i hm
        rw [if_pos hm]
        have := hle k hm
        have hi : full.idxOf k = i := by rw [← hk]; exact hn.idxOf_getElem i hlt
        simp only
        omega
      · simp at hs
    · exact ih full hle hn hks x hx hs

/-- If the keys of one side are among the keys of the other, in the same order, and the first keys
agree, then the keys of the larger side are what is shown. -/
theorem alignLoop_sub {short long : List Field} (hs : short.Sublist long) (hn : long.Nodup)
    (hh : ∀ k, long.head? = some k → k ∈ short) :
    alignLoop (kinds long 0 short) false 0 0 (kinds short 0 long) = .ok long := by
  have := alignLoop_copy (kinds long 0 short) (kinds short 0 long) false 0
    (kinds_le long (idxOf_sublist hs hn) hn rfl) ?_
  · rw [this, kinds_keys]
  right
  intro x hx
  cases long with
  | nil => simp [kinds] at hx
  | cons k ks =>
    simp only [kinds, List.head?_cons, Option.some.injEq] at hx
    subst hx
    rw [if_pos (hh k rfl)]
    rfl

theorem aligned_sub {ks ks' : List Field} (h : ks'.Sublist ks) (hn : ks.Nodup)
    (hh : ∀ k, ks.head? = some k → k ∈ ks') : aligned ks ks' = .ok ks ∧ aligned ks' ks = .ok ks := by
  have hlen := h.length_le
  constructor
  · simp only [aligned, kinds_length]
    by_cases hlt : ks'.length < ks.length
    · rw [if_pos hlt]
      exact alignLoop_sub h hn hh
    · rw [if_neg hlt]
      have : ks' = ks := h.eq_of_length (by omega)
      subst this
      exact alignLoop_sub h hn hh
  · simp only [aligned, kinds_length]
    rw [if_neg (by omega)]
    exact alignLoop_sub h hn hh

/-- The rows for some fields of some metadata. -/
def rowsOf (human : Bool) (m : Meta) : List Row :=
  (tableOrder.filter fun f => IsSet (m f)).map fun f => (f, written human f (m f))

theorem rowsOf_keys (human : Bool) (m : Meta) :
    (rowsOf human m).map (·.1) = tableOrder.filter fun f => IsSet (m f) := by
  simp [rowsOf, List.map_map, Function.comp_def]

theorem rowsOf_nodup (human : Bool) (m : Meta) : ((rowsOf human m).map (·.1)).Nodup := by
  rw [rowsOf_keys]; exact order_nodup.filter _

theorem side_rowsOf (human : Bool) (m : Meta) (f : Field) :
    side (rowsOf human m) f = if IsSet (m f) then some (f, written human f (m f)) else none := by
  split
  · rename_i h
    have hm : (f, written human f (m f)) ∈ rowsOf human m :=
      List.mem_map.2 ⟨f, List.mem_filter.2 ⟨mem_order f, h⟩, rfl⟩
    exact side_of_mem (rowsOf_nodup human m) hm
  · rename_i h
    rcases side_eq (rs := rowsOf human m) f with ⟨h', _⟩ | ⟨v, _, hv⟩
    · exact h'
    · have := List.mem_map_of_mem (f := (·.1)) hv
      rw [rowsOf_keys, List.mem_filter] at this
      exact absurd this.2 h

theorem sublist_filter {p q : Field → Bool} (h : ∀ f, p f → q f) (l : List Field) :
    (l.filter p).Sublist (l.filter q) := by
  have : l.filter p = (l.filter q).filter p := by
    rw [List.filter_filter]
    congr 1; funext f
    cases hp : p f
    · simp
    · simp [h f hp]
  rw [this]
  exact List.filter_sublist

/-- **C70**, the case in which it is right altogether: one object has all the fields that the other
has set, and the first field in the order of the table is set in both.  Then the comparison has one
row for each field that is set in either, in the order of the table, with both values side by side
and empty cells where a field is not set; and the title is red exactly if the contents differ.
Missing from the full claim: objects of which each has a field that the other lacks, and objects
whose first fields differ; see the counterexamples. -/
theorem C70_comparison_partial (env : Env) (o o' : PathMeta) (m m' : Meta) (ho : o.Shows env m)
    (ho' : o'.Shows env m') (hm : WellTyped m) (hm' : WellTyped m') (human : Bool)
    (hsub : (∀ f, IsSet (m' f) → IsSet (m f)) ∨ (∀ f, IsSet (m f) → IsSet (m' f)))
    (hfirst : ∃ f, (tableOrder.filter fun f => IsSet (m f)).head? = some f ∧
      (tableOrder.filter fun f => IsSet (m' f)).head? = some f)
    (red : Bool) (hred : contentDifferent env o o' = .ok red) :
    asPrettyDiff env o o' human = .ok (red,
      (tableOrder.filter fun f => IsSet (m f) || IsSet (m' f)).map fun f =>
        (if IsSet (m f) then some (f, written human f (m f)) else none,
         if IsSet (m' f) then some (f, written human f (m' f)) else none)) := by
  obtain ⟨f0, h1, h2⟩ := hfirst
  have key : aligned ((rowsOf human m).map (·.1)) ((rowsOf human m').map (·.1)) =
      .ok (tableOrder.filter fun f => IsSet (m f) || IsSet (m' f)) := by
    rw [rowsOf_keys, rowsOf_keys]
    rcases hsub with hsub | hsub
    · have e : (fun f => IsSet (m f) || IsSet (m' f)) = fun f => IsSet (m f) := by
        funext f
        cases h : IsSet (m' f)
        · simp
        · simp [hsub f h]
      rw [e]
      refine (aligned_sub (sublist_filter hsub _) (order_nodup.filter _) ?_).1
      intro k hk
      have hk := h1.symm.trans hk; cases hk
      exact List.mem_of_head? h2
    · have e : (fun f => IsSet (m f) || IsSet (m' f)) = fun f => IsSet (m' f) := by
        funext f
        cases h : IsSet (m f)
        · simp
        · simp [hsub f h]
      rw [e]
      refine (aligned_sub (sublist_filter hsub _) (order_nodup.filter _) ?_).2
      intro k hk
      have hk := h2.symm.trans hk; cases hk
      exact List.mem_of_head? h1
  have hne : ∀ n : Meta, (tableOrder.filter fun f => IsSet (n f)).head? = some f0 →
      rowsOf human n ≠ [] := by
    intro n hn he
    have := rowsOf_keys human n
    rw [he] at this
    rw [← this] at hn
    simp at hn
  simp only [asPrettyDiff, hred, C69_table env o m ho hm, C69_table env o' m' ho' hm']
  change (match merge (rowsOf human m) (rowsOf human m') with
    | .error e => Except.error e | .ok l => .ok (red, l)) = _
  simp only [merge, key]
  rw [if_neg (by intro h; rcases h with h | h; exacts [hne m h1 h, hne m' h2 h])]
  simp only [side_rowsOf]

/-- The two sample objects: the same checksum, one with an id and one with a mode. -/
example : ∃ (o o' : PathMeta) (m m' : Meta), o.Shows sampleEnv m ∧ o'.Shows sampleEnv m' ∧
    WellTyped m ∧ WellTyped m' ∧ m ≠ m' ∧ (∀ f, IsSet (m' f) → IsSet (m f)) ∧
    (∃ f, (tableOrder.filter fun f => IsSet (m f)).head? = some f ∧
      (tableOrder.filter fun f => IsSet (m' f)).head? = some f) ∧
    contentDifferent sampleEnv o o' = .ok true := by
  refine ⟨_, _, sampleMeta, only [(.size, .int 3), (.id, .str (lit "N:package:2"))],
    objectOf_shows _ _, objectOf_shows _ _, sampleMeta_wellTyped, ?_, ?_, ?_,
    ⟨.size, by decide, by decide⟩, by decide⟩
  · intro f; cases f <;> exact trivial
  · intro e; exact absurd (congrFun e .size) (by decide)
  · intro f; cases f <;> decide

/-- **C70 is false**: a field that only one object has is not shown (here the id), although the
objects have the same content and both can be shown as tables. -/
theorem C70_lost_field_counterexample (env : Env) :
    ∃ m m', WellTyped m ∧ WellTyped m' ∧ m .id = .str (lit "N:package:1") ∧
      ∃ l, asPrettyDiff env (objectOf m) (objectOf m') false = .ok (false, l) ∧
        ∀ d ∈ l, ∀ v, d.1 ≠ some (.id, v) := by
  refine ⟨only [(.checksum, .bytes [1]), (.id, .str (lit "N:package:1"))],
    only [(.checksum, .bytes [1]), (.mode, .str (lit "rw"))], ?_, ?_, rfl,
    [(some (.checksum, .str (lit "01")), some (.checksum, .str (lit "01"))),
     (none, some (.mode, .str (lit "rw")))], ?_, ?_⟩
  · intro f; cases f <;> exact trivial
  · intro f; cases f <;> exact trivial
  · have h : WellTyped (only [(.checksum, .bytes [1]), (.id, .str (lit "N:package:1"))]) := by
      intro f; cases f <;> exact trivial
    have h' : WellTyped (only [(.checksum, .bytes [1]), (.mode, .str (lit "rw"))]) := by
      intro f; cases f <;> exact trivial
    simp only [asPrettyDiff, C69_table env _ _ (objectOf_shows env _) h,
      C69_table env _ _ (objectOf_shows env _) h']
    rfl
  · simp

/-- **C70 is false**: a field that both objects have is shown twice. -/
theorem C70_twice_counterexample (env : Env) :
    ∃ m m', WellTyped m ∧ WellTyped m' ∧
      ∃ l r, asPrettyDiff env (objectOf m) (objectOf m') false = .ok (false, l) ∧
        l.count (r, r) = 2 := by
  have h : WellTyped (only [(.size, .int 1), (.checksum, .bytes [1])]) := by
    intro f; cases f <;> exact trivial
  have h' : WellTyped (only [(.checksum, .bytes [1])]) := by
    intro f; cases f <;> exact trivial
  refine ⟨_, _, h, h', 
    [(some (.size, .str (intStr 1)), none), (some (.checksum, .str (lit "01")), some (.checksum, .str (lit "01"))),
     (some (.checksum, .str (lit "01")), some (.checksum, .str (lit "01")))],
    some (.checksum, .str (lit "01")), ?_, ?_⟩
  rotate_left
  · simp [List.count_cons]
  simp only [asPrettyDiff, C69_table env _ _ (objectOf_shows env _) h,
      C69_table env _ _ (objectOf_shows env _) h']
  rfl

/-- **C70 is false**: objects of which one has two more fields at the top cannot be compared, an
`IndexError` comes out. -/
theorem C70_raises_counterexample (env : Env) :
    ∃ m m', WellTyped m ∧ WellTyped m' ∧ (∀ f, IsSet (m' f) → IsSet (m f)) ∧
      contentDifferent env (objectOf m) (objectOf m') = .ok true ∧
      asPrettyDiff env (objectOf m) (objectOf m') false = .error .indexError := by
  have h : WellTyped (only [(.size, .int 1), (.checksum, .bytes [1]), (.id, .str (lit "N:package:1"))]) := by
    intro f; cases f <;> exact trivial
  have h' : WellTyped (only [(.id, .str (lit "N:package:1"))]) := by
    intro f; cases f <;> exact trivial
  refine ⟨_, _, h, h', ?_, by rfl, ?_⟩
  · intro f; cases f <;> decide
  simp only [asPrettyDiff, C69_table env _ _ (objectOf_shows env _) h,
      C69_table env _ _ (objectOf_shows env _) h']
  rfl

theorem alignLoop_again {short long : List Field} (hs : short.Sublist long) (hne : short ≠ [])
    (hh : ∀ k, long.head? = some k → k ∉ short) (l : List Field)
    (h : alignLoop (kinds long 0 short) false 0 0 (kinds short 0 long) = .ok l) : ¬ l.Nodup := by
  cases long with
  | nil => exact absurd (List.sublist_nil.1 hs) hne
  | cons k ks =>
    have hk := hh k rfl
    cases short with
    | nil => exact absurd rfl hne
    | cons x xs =>
      have hx : x ∈ ks := by
        have : x ∈ k :: ks := hs.subset (by simp)
        rcases List.mem_cons.1 this with rfl | h
        · simp at hk
        · exact h
      have hi : pyIndex (kinds (k :: ks) 0 (x :: xs)) 0 = (kinds (k :: ks) 0 (x :: xs)).head? := by
        simp [pyIndex, List.head?_eq_getElem?]
      have hx2 : ∃ s, (kinds (k :: ks) 0 (x :: xs)).head? = some s ∧ s.2.2 = x := by
        simp only [kinds, List.head?_cons]
        refine ⟨_, rfl, ?_⟩
        split <;> rfl
      obtain ⟨s, hs1, hs2⟩ := hx2
      generalize kinds (k :: ks) 0 (x :: xs) = sh at *
      rw [kinds, if_neg hk] at h
      simp only [alignLoop, Bool.not_false, if_true] at h
      rw [show ((0 : Nat) : Int) - 0 + 0 = 0 from rfl, hi, hs1] at h
      simp only at h
      cases hr : alignLoop sh false 0 (0 + 1) (kinds (x :: xs) (0 + 1) ks) with
      | error e => rw [hr] at h; cases h
      | ok l' =>
        rw [hr] at h
        cases h
        have := (alignLoop_ok hr).1
        rw [kinds_keys] at this
        intro hn
        rw [hs2] at hn
        exact (List.nodup_cons.1 (List.nodup_cons.1 hn).2).1 (this.subset hx)

theorem aligned_again {ks ks' : List Field} (h : ks'.Sublist ks) (hne : ks' ≠ [])
    (hh : ∀ k, ks.head? = some k → k ∉ ks') (l : List Field) (hl : aligned ks ks' = .ok l ∨ aligned ks' ks = .ok l) : ¬ l.Nodup := by
  have hlen := h.length_le
  have hlt : ks'.length < ks.length := by
    rcases Nat.lt_or_eq_of_le hlen with h' | h'
    · exact h'
    · have := h.eq_of_length h'
      subst this
      cases ks' with
      | nil => exact absurd rfl hne
      | cons k ks => exact absurd (by simp) (hh k rfl)
  simp only [aligned, kinds_length] at hl
  rw [if_pos hlt, if_neg (by omega)] at hl
  exact alignLoop_again h hne hh l (hl.elim id id)

/-- **C70**: if one object has all the fields of the other one, then the comparison shows each row once exactly if both have fields and
the first fields agree; otherwise it raises or shows one twice. -/
theorem C70_nested_iff (a b : List Row) (ha : (a.map (·.1)).Nodup) (hb : (b.map (·.1)).Nodup)
    (h : (b.map (·.1)).Sublist (a.map (·.1)) ∨ (a.map (·.1)).Sublist (b.map (·.1))) :
    (∃ l, merge a b = .ok l ∧ l.Nodup) ↔ ∃ f, (a.map (·.1)).head? = some f ∧ (b.map (·.1)).head? = some f := by
  have first : ∀ (ks ks' : List Field), ks'.Sublist ks → ks'.Nodup → ks.Nodup → ∀ k, ks.head? = some k → k ∈ ks' → ks'.head? = some k := by
    intro ks ks' hs _ hn k hk hm
    cases ks with
    | nil => cases hk
    | cons x xs =>
      cases hk
      cases hs with
      | cons _ hs => exact absurd (hs.subset hm) (List.nodup_cons.1 hn).1
      | cons_cons _ hs => rfl
  have diff : ∀ ks, aligned (a.map (·.1)) (b.map (·.1)) = .ok ks →
      a ≠ [] → b ≠ [] → ks.Nodup → ∃ f, (a.map (·.1)).head? = some f ∧ (b.map (·.1)).head? = some f := by
    intro ks hks hna hnb hn
    obtain ⟨x, xs, rfl⟩ := List.exists_cons_of_ne_nil hna
    obtain ⟨y, ys, rfl⟩ := List.exists_cons_of_ne_nil hnb
    rcases h with h | h
    · by_cases hm : x.1 ∈ ((y :: ys).map (·.1))
      · exact ⟨x.1, rfl, first _ _ h hb ha x.1 rfl hm⟩
      · exact absurd hn (aligned_again h (by simp) (by intro k hk; cases hk; exact hm) ks (.inl hks))
    · by_cases hm : y.1 ∈ ((x :: xs).map (·.1))
      · exact ⟨y.1, first _ _ h ha hb y.1 rfl hm, rfl⟩
      · exact absurd hn (aligned_again h (by simp) (by intro k hk; cases hk; exact hm) ks (.inr hks))
  constructor
  · rintro ⟨l, hl, hn⟩
    simp only [merge] at hl
    split at hl
    · cases hl
    · rename_i ks hks
      split at hl
      · cases hl
      · rename_i hne
        cases hl
        exact diff ks hks (fun e => hne (.inl e)) (fun e => hne (.inr e)) hn.of_map
  · rintro ⟨f, hfa, hfb⟩
    have hal : ∃ ks, aligned (a.map (·.1)) (b.map (·.1)) = .ok ks ∧ ks.Nodup ∧ (ks = a.map (·.1) ∨ ks = b.map (·.1)) := by
      rcases h with h | h
      · refine ⟨_, (aligned_sub h ha ?_).1, ha, .inl rfl⟩
        intro k hk
        rw [hfa] at hk; cases hk
        exact List.mem_of_mem_head? hfb
      · refine ⟨_, (aligned_sub h hb ?_).2, hb, .inr rfl⟩
        intro k hk
        rw [hfb] at hk; cases hk
        exact List.mem_of_mem_head? hfa
    obtain ⟨ks, hks, hn, hsub⟩ := hal
    have hna : ¬ (a = [] ∨ b = []) := by
      rintro (rfl | rfl)
      · cases hfa
      · cases hfb
    refine ⟨ks.map fun k => (side a k, side b k), by simp only [merge, hks, if_neg hna], ?_⟩
    have inj : ∀ x ∈ ks, ∀ y ∈ ks, (side a x, side b x) = (side a y, side b y) → x = y := by
      have one : ∀ (rs : List Row), ∀ x ∈ rs.map (·.1), ∀ y, side rs x = side rs y → x = y := by
        intro rs x hx y he
        rcases side_eq (rs := rs) x with ⟨_, h⟩ | ⟨v, h, _⟩
        · exact absurd hx h
        · rw [h] at he
          rcases side_eq (rs := rs) y with ⟨h', _⟩ | ⟨v', h', _⟩
          · rw [h'] at he; cases he
          · rw [h'] at he
            simp only [Option.some.injEq, Prod.mk.injEq] at he
            exact he.1
      intro x hx y hy he
      simp only [Prod.mk.injEq] at he
      rcases hsub with rfl | rfl
      · exact one a x hx y he.1
      · exact one b x hx y he.2
    exact List.Nodup.map_on (fun x hx y hy => inj x hx y hy) hn

example : ¬ ∃ l, merge [(.id, .int 1), (.size, .int 2)] [(.size, .int 3)] = .ok l ∧ l.Nodup := by
  rw [C70_nested_iff _ _ (by decide) (by decide) (.inl (by decide))]
  simp
example : ∃ l, merge [(.id, .int 1), (.size, .int 2)] [(.id, .int 3)] = .ok l ∧ l.Nodup := by
  rw [C70_nested_iff _ _ (by decide) (by decide) (.inl (by decide))]
  exact ⟨_, rfl, rfl⟩

/-- **C70 is false**: counting from the end of the other table (a negative index) is not noticed, so rows are shown again below rows that they do not belong to;
here both fields that only the first object has are above those of the second one. -/
theorem C70_wrapped_counterexample (env : Env) :
    ∃ m m', WellTyped m ∧ WellTyped m' ∧
      ∃ red l, asPrettyDiff env (objectOf m) (objectOf m') false = .ok (red, l) ∧
        l.map (fun d => (d.1.map (·.1), d.2.map (·.1))) =
          [(some .size, none), (some .parent_id, none), (some .id, some .id), (none, some .mode),
           (some .id, some .id), (none, some .name), (some .size, none)] := by
  have h : WellTyped (only [(.size, .int 1), (.parent_id, .str (lit "p")), (.id, .str (lit "i"))]) := by
    intro f; cases f <;> exact trivial
  have h' : WellTyped (only [(.id, .str (lit "i")), (.mode, .str (lit "rw")), (.name, .str (lit "n"))]) := by
    intro f; cases f <;> exact trivial
  let s (f : Field) (t : String) : Option Row := some (f, .str (lit t))
  refine ⟨_, _, h, h', true, [(some (.size, .str (intStr 1)), none), (s .parent_id "p", none), (s .id "i", s .id "i"), (none, s .mode "rw"),
    (s .id "i", s .id "i"), (none, s .name "n"), (some (.size, .str (intStr 1)), none)], ?_, rfl⟩
  simp only [asPrettyDiff, C69_table env _ _ (objectOf_shows env _) h, C69_table env _ _ (objectOf_shows env _) h']
  rfl

end Verif.Pretty
