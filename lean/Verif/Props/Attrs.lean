import Verif.Lemmas.Decide
import Verif.Model.Attrs

/-!
# C68: attribute namespaces
-/

namespace Verif.Attrs

/-! ## Specification: a map from namespace and key, the last operation counts -/

/-- The value that should be there after the operations; the history is read from its end. -/
def finalRev (ns key : Str) : List Op → Option Bytes
  | [] => none
  | .set ns' key' v :: before => if ns' = ns ∧ key' = key then some v else finalRev ns key before
  | .del ns' key' :: before => if ns' = ns ∧ key' = key then none else finalRev ns key before

def final (ops : List Op) (ns key : Str) : Option Bytes := finalRev ns key ops.reverse

/-- The namespace and key of an operation. -/
def Op.at : Op → Str × Str
  | .set ns key _ => (ns, key)
  | .del ns key => (ns, key)

/-- Namespaces have no dot in them (on linux: `user`, `system`, `security`, `trusted`) and keys are
not empty. -/
def Op.ok (o : Op) : Prop := '.' ∉ o.at.1 ∧ o.at.2 ≠ []

/-! ## Lemmas -/

theorem full_inj {ns ns' k k' : Str} (h : '.' ∉ ns) (h' : '.' ∉ ns') (he : full ns k = full ns' k') :
    ns = ns' ∧ k = k' := by
  induction ns generalizing ns' with
  | nil =>
    cases ns' with
    | nil => simpa [full] using he
    | cons c ns' => simp [full] at he; exact absurd (by simp [← he.1]) h'
  | cons c ns ih =>
    cases ns' with
    | nil => simp [full] at he; exact absurd (by simp [he.1]) h
    | cons c' ns' =>
      simp only [full, List.cons_append, List.cons.injEq] at he
      obtain ⟨h1, h2⟩ := ih (fun hm => h (by simp [hm])) (ns' := ns') (fun hm => h' (by simp [hm])) he.2
      exact ⟨by rw [he.1, h1], h2⟩

theorem lookup_insert (s : Store) (n m : Str) (v : Bytes) :
    lookup m (insert n v s) = if n = m then some v else lookup m s := by
  induction s with
  | nil => simp [insert, lookup]
  | cons x s ih =>
    obtain ⟨a, w⟩ := x
    simp only [insert]
    split
    · rename_i h; subst h; simp only [lookup]; split <;> rfl
    · rename_i h
      simp only [lookup, ih]
      by_cases h1 : a = m
      · simp only [h1, if_true]; rw [if_neg (fun h2 => h (h1.trans h2.symm))]
      · simp [h1]

/-- Every full name occurs at most once. -/
def Uniq (s : Store) : Prop := (s.map Prod.fst).Nodup

theorem insert_keys (s : Store) (n : Str) (v : Bytes) :
    (insert n v s).map Prod.fst = if n ∈ s.map Prod.fst then s.map Prod.fst else s.map Prod.fst ++ [n] := by
  induction s with
  | nil => simp [insert]
  | cons x s ih =>
    obtain ⟨a, w⟩ := x
    simp only [insert]
    split
    · rename_i h; subst h; simp
    · rename_i h
      simp only [List.map_cons, ih, List.mem_cons]
      have h' : n ≠ a := fun e => h e.symm
      by_cases hm : n ∈ s.map Prod.fst
      · rw [if_pos hm, if_pos (.inr hm)]
      · rw [if_neg hm, if_neg (by simp [hm, h'])]; rfl

theorem insert_uniq {s : Store} (h : Uniq s) (n : Str) (v : Bytes) : Uniq (insert n v s) := by
  unfold Uniq at *
  rw [insert_keys]
  split
  · exact h
  · rename_i hn
    rw [List.nodup_append]
    refine ⟨h, by simp, ?_⟩
    intro a ha b hb
    simp at hb; subst hb
    exact fun e => hn (e ▸ ha)

theorem lookup_none_of_not_mem {s : Store} {n : Str} (h : n ∉ s.map Prod.fst) : lookup n s = none := by
  induction s with
  | nil => rfl
  | cons x s ih =>
    obtain ⟨a, w⟩ := x
    simp only [List.map_cons, List.mem_cons, not_or] at h
    simp only [lookup, if_neg (fun e : a = n => h.1 e.symm), ih h.2]

theorem erase_keys (s : Store) (n : Str) : ∀ m ∈ (erase n s).map Prod.fst, m ∈ s.map Prod.fst := by
  induction s with
  | nil => simp [erase]
  | cons x s ih =>
    obtain ⟨a, w⟩ := x
    intro m hm
    simp only [erase] at hm
    split at hm
    · simp only [List.map_cons, List.mem_cons]; exact .inr hm
    · simp only [List.map_cons, List.mem_cons] at hm ⊢
      rcases hm with h | h
      · exact .inl h
      · exact .inr (ih m h)

theorem erase_uniq {s : Store} (h : Uniq s) (n : Str) : Uniq (erase n s) := by
  induction s with
  | nil => exact h
  | cons x s ih =>
    obtain ⟨a, w⟩ := x
    simp only [Uniq, List.map_cons, List.nodup_cons] at h
    simp only [erase]
    split
    · exact h.2
    · simp only [Uniq, List.map_cons, List.nodup_cons]
      exact ⟨fun hm => h.1 (erase_keys s n a hm), ih h.2⟩

theorem lookup_erase {s : Store} (h : Uniq s) (n m : Str) :
    lookup m (erase n s) = if n = m then none else lookup m s := by
  induction s with
  | nil => simp [erase, lookup]
  | cons x s ih =>
    obtain ⟨a, w⟩ := x
    simp only [Uniq, List.map_cons, List.nodup_cons] at h
    simp only [erase]
    split
    · rename_i ha
      subst ha
      by_cases hm : a = m
      · subst hm; rw [if_pos rfl]; exact lookup_none_of_not_mem h.1
      · simp [lookup, hm]
    · rename_i ha
      simp only [lookup, ih h.2]
      by_cases hm : a = m
      · simp only [hm, if_true]; rw [if_neg (fun e => ha (hm.trans e.symm))]
      · simp [hm]

theorem mem_iff_lookup {s : Store} (h : Uniq s) (n : Str) (v : Bytes) : (n, v) ∈ s ↔ lookup n s = some v := by
  induction s with
  | nil => simp [lookup]
  | cons x s ih =>
    obtain ⟨a, w⟩ := x
    simp only [Uniq, List.map_cons, List.nodup_cons] at h
    simp only [List.mem_cons, Prod.mk.injEq, lookup]
    by_cases ha : a = n
    · subst ha
      simp only [true_and, if_true, Option.some.injEq]
      constructor
      · rintro (h1 | h1)
        · exact h1.symm
        · exact absurd (List.mem_map.2 ⟨_, h1, rfl⟩) h.1
      · intro h1; exact .inl h1.symm
    · rw [if_neg ha, ← ih h.2]
      constructor
      · rintro (h1 | h1)
        · exact absurd h1.1.symm ha
        · exact h1
      · exact .inr

theorem step_uniq {s : Store} (h : Uniq s) (o : Op) : Uniq (step s o) := by
  cases o with
  | set ns k v => exact insert_uniq h _ _
  | del ns k =>
    simp only [step, delxattr]
    cases lookup (full ns k) s with
    | none => exact h
    | some v => exact erase_uniq h _

theorem lookup_step {s : Store} (h : Uniq s) (o : Op) (m : Str) :
    lookup m (step s o) = match o with
      | .set ns k v => if full ns k = m then some v else lookup m s
      | .del ns k => if full ns k = m then none else lookup m s := by
  cases o with
  | set ns k v => exact lookup_insert _ _ _ _
  | del ns k =>
    simp only [step, delxattr]
    cases hl : lookup (full ns k) s with
    | none =>
      simp only [Bool.false_eq_true, if_false]
      split
      · rename_i he; rw [← he]; exact hl
      · rfl
    | some v => exact lookup_erase h _ _

theorem run_snoc (ops : List Op) (o : Op) : run (ops ++ [o]) = step (run ops) o := by simp [run]

theorem run_spec (opsRev : List Op) : Uniq (run opsRev.reverse) ∧
    ((∀ o ∈ opsRev, o.ok) → ∀ ns k, '.' ∉ ns → lookup (full ns k) (run opsRev.reverse) = finalRev ns k opsRev) := by
  induction opsRev with
  | nil => exact ⟨by simp [run, Uniq], fun _ ns k _ => by simp [run, lookup, finalRev]⟩
  | cons o ops ih =>
    rw [List.reverse_cons, run_snoc]
    refine ⟨step_uniq ih.1 o, fun hok ns k hns => ?_⟩
    rw [lookup_step ih.1]
    have ih := ih.2 (fun x hx => hok x (by simp [hx])) ns k hns
    have ho := hok o (by simp)
    have key : ∀ ns' k', '.' ∉ ns' → (full ns' k' = full ns k ↔ ns' = ns ∧ k' = k) := by
      intro ns' k' h'
      exact ⟨full_inj h' hns, by rintro ⟨rfl, rfl⟩; rfl⟩
    cases o with
    | set ns' k' v => simp only [finalRev, key ns' k' ho.1, ih]
    | del ns' k' => simp only [finalRev, key ns' k' ho.1, ih]

/-! ## C68 -/

/-- C68: after any operations, reading an attribute gives the value of the last operation on it,
whatever happened to other attributes and namespaces. -/
theorem C68_get_exact (ops : List Op) (hok : ∀ o ∈ ops, o.ok) (ns key : Str) (hns : '.' ∉ ns) :
    getxattr (run ops) ns key = match final ops ns key with
      | some v => .ok v
      | none => .error .noStreamError := by
  have h := (run_spec ops.reverse).2 (fun o ho => hok o (List.mem_reverse.1 ho)) ns key hns
  rw [List.reverse_reverse] at h
  rw [getxattr, h, final]
  cases finalRev ns key ops.reverse <;> rfl

/-- C68 (posix): listing a namespace gives exactly the attributes that the operations left in that
namespace, each once. -/
theorem C68_list_exact (ops : List Op) (hok : ∀ o ∈ ops, o.ok) (ns key : Str) (v : Bytes) (hns : '.' ∉ ns)
    (hk : key ≠ []) :
    ((key, v) ∈ xattrs (run ops) ns ↔ final ops ns key = some v) ∧ ((xattrs (run ops) ns).map Prod.fst).Nodup := by
  have hu : Uniq (run ops) := by
    have := (run_spec ops.reverse).1
    rwa [List.reverse_reverse] at this
  have hl := (run_spec ops.reverse).2 (fun o ho => hok o (List.mem_reverse.1 ho)) ns key hns
  rw [List.reverse_reverse] at hl
  constructor
  · rw [final, ← hl, ← mem_iff_lookup hu]
    simp only [xattrs, List.mem_filterMap]
    constructor
    · rintro ⟨⟨n, w⟩, hm, hc⟩
      simp only at hc
      split at hc
      · rename_i hp
        simp only [Option.some.injEq, Prod.mk.injEq] at hc
        obtain ⟨h1, h2⟩ := hc
        obtain ⟨t, ht⟩ := List.isPrefixOf_iff_prefix.1 hp.1
        subst h2
        have : key = t := by rw [← h1, ← ht]; simp
        subst this
        rw [show full ns key = n by rw [← ht]; simp [full]]
        exact hm
      · simp at hc
    · intro hm
      refine ⟨(full ns key, v), hm, ?_⟩
      have h1 : (ns ++ ['.']).isPrefixOf (full ns key) = true := by
        rw [List.isPrefixOf_iff_prefix]; exact ⟨key, by simp [full]⟩
      have h2 : ns.length + 1 < (full ns key).length := by
        have := List.length_pos_iff.2 hk
        simp [full]; omega
      have h3 : (full ns key).drop (ns.length + 1) = key := by
        rw [show full ns key = (ns ++ ['.']) ++ key by simp [full],
          show ns.length + 1 = (ns ++ ['.']).length by simp, List.drop_left]
      simp only [h1, h2, and_self, if_true, h3]
  · clear hl hok
    unfold Uniq at hu
    generalize run ops = s at hu ⊢
    induction s with
    | nil => simp [xattrs]
    | cons x s ih =>
      obtain ⟨n, w⟩ := x
      simp only [List.map_cons, List.nodup_cons] at hu
      simp only [xattrs, List.filterMap_cons]
      split
      · exact ih hu.2
      · rename_i b hb
        split at hb
        · rename_i hp
          simp only [Option.some.injEq] at hb
          subst hb
          simp only [List.map_cons, List.nodup_cons]
          refine ⟨?_, ih hu.2⟩
          intro hm
          obtain ⟨⟨k, u⟩, hm, he⟩ := List.mem_map.1 hm
          obtain ⟨⟨m, y⟩, hm', hc⟩ := List.mem_filterMap.1 hm
          simp only at hc he
          split at hc
          · rename_i hp'
            simp only [Option.some.injEq, Prod.mk.injEq] at hc
            obtain ⟨t, ht⟩ := List.isPrefixOf_iff_prefix.1 hp.1
            obtain ⟨t', ht'⟩ := List.isPrefixOf_iff_prefix.1 hp'.1
            have e1 : n.drop (ns.length + 1) = t := by rw [← ht]; simp
            have e2 : m.drop (ns.length + 1) = t' := by rw [← ht']; simp
            have : n = m := by rw [← ht, ← ht', ← e1, ← e2, hc.1, he]
            exact hu.1 (List.mem_map.2 ⟨_, hm', this.symm⟩)
          · simp at hc
        · simp at hb

/-- C68: setting or deleting one attribute leaves every other one as it was. -/
theorem C68_frame (ops : List Op) (o : Op) (hok : ∀ x ∈ ops, x.ok) (ho : o.ok) (ns key : Str) (hns : '.' ∉ ns)
    (hne : o.at ≠ (ns, key)) : getxattr (run (ops ++ [o])) ns key = getxattr (run ops) ns key := by
  rw [C68_get_exact _ (by intro x hx; rcases List.mem_append.1 hx with h | h
                          · exact hok x h
                          · simp at h; rw [h]; exact ho) _ _ hns, C68_get_exact _ hok _ _ hns]
  have : final (ops ++ [o]) ns key = final ops ns key := by
    simp only [final, List.reverse_append, List.reverse_cons, List.reverse_nil, List.nil_append, List.cons_append]
    cases o with
    | set ns' k' v =>
      simp only [finalRev]
      rw [if_neg]
      rintro ⟨rfl, rfl⟩; exact hne rfl
    | del ns' k' =>
      simp only [finalRev]
      rw [if_neg]
      rintro ⟨rfl, rfl⟩; exact hne rfl
  rw [this]

/-- C68: deleting with `fail` raises exactly when there is nothing to delete. -/
theorem C68_delete_missing (s : Store) (ns key : Str) :
    (delxattr s ns key true = .error .osError ↔ getxattr s ns key = .error .noStreamError) ∧
    ∃ s', delxattr s ns key false = .ok s' := by
  simp only [delxattr, getxattr]
  cases lookup (full ns key) s <;> simp

/-- The namespaces of the examples. -/
def user : Str := ['u']
def userLong : Str := ['u', 'x']

example : (∀ o ∈ [Op.set user ['k'] [1], Op.set userLong ['k'] [2], Op.del userLong ['j']], o.ok) ∧ '.' ∉ user := by
  simp [Op.ok, Op.at, user, userLong]

/-- C68 (windows, part): listing is exact if no namespace in use continues the name of the listed
one (full claim: for all namespaces). -/
theorem C68_windows_list_partial (ops : List Op) (hok : ∀ o ∈ ops, o.ok) (ns key : Str) (v : Bytes) (hns : '.' ∉ ns)
    (hpre : ∀ o ∈ ops, ns <+: o.at.1 → o.at.1 = ns) :
    (key, v) ∈ xattrsADS (run ops) ns ↔ final ops ns key = some v := by
  have hu : Uniq (run ops) := by
    have := (run_spec ops.reverse).1
    rwa [List.reverse_reverse] at this
  have hl := (run_spec ops.reverse).2 (fun o ho => hok o (List.mem_reverse.1 ho)) ns key hns
  rw [List.reverse_reverse] at hl
  -- every full name in the store comes from an operation
  have hsrc : ∀ n ∈ (run ops).map Prod.fst, ∃ o ∈ ops, n = full o.at.1 o.at.2 := by
    have : ∀ opsRev : List Op, ∀ n ∈ (run opsRev.reverse).map Prod.fst, ∃ o ∈ opsRev, n = full o.at.1 o.at.2 := by
      intro opsRev
      induction opsRev with
      | nil => simp [run]
      | cons o ops ih =>
        intro n hn
        rw [List.reverse_cons, run_snoc] at hn
        cases o with
        | set ns' k' w =>
          simp only [step, setxattr, insert_keys] at hn
          split at hn
          · obtain ⟨x, hx, e⟩ := ih n hn; exact ⟨x, by simp [hx], e⟩
          · rcases List.mem_append.1 hn with hn | hn
            · obtain ⟨x, hx, e⟩ := ih n hn; exact ⟨x, by simp [hx], e⟩
            · simp at hn; exact ⟨.set ns' k' w, by simp, hn⟩
        | del ns' k' =>
          have hn' : n ∈ (run ops.reverse).map Prod.fst := by
            simp only [step, delxattr] at hn
            cases hl : lookup (full ns' k') (run ops.reverse) with
            | none => rw [hl] at hn; exact hn
            | some w => rw [hl] at hn; exact erase_keys _ _ n hn
          obtain ⟨x, hx, e⟩ := ih n hn'; exact ⟨x, by simp [hx], e⟩
    intro n hn
    have := this ops.reverse n (by rwa [List.reverse_reverse])
    obtain ⟨o, ho, e⟩ := this
    exact ⟨o, List.mem_reverse.1 ho, e⟩
  have hdrop : ∀ k : Str, (full ns k).drop (ns.length + 1) = k := by
    intro k
    rw [show full ns k = (ns ++ ['.']) ++ k by simp [full],
      show ns.length + 1 = (ns ++ ['.']).length by simp, List.drop_left]
  rw [final, ← hl, ← mem_iff_lookup hu]
  simp only [xattrsADS, List.mem_filterMap]
  constructor
  · rintro ⟨⟨n, w⟩, hm, hc⟩
    simp only at hc
    split at hc
    · rename_i hp
      simp only [Option.some.injEq, Prod.mk.injEq] at hc
      obtain ⟨h1, h2⟩ := hc
      obtain ⟨o, ho, e⟩ := hsrc n (List.mem_map.2 ⟨_, hm, rfl⟩)
      have hns' : o.at.1 = ns := by
        refine hpre o ho ?_
        have hp := List.isPrefixOf_iff_prefix.1 hp
        rw [e, full] at hp
        rcases List.prefix_or_prefix_of_prefix hp (List.prefix_append o.at.1 ('.' :: o.at.2)) with h | h
        · exact h
        · -- the namespace would go on with the dot
          obtain ⟨t, ht⟩ := h
          cases t with
          | nil => rw [List.append_nil] at ht; rw [ht]; exact List.prefix_refl _
          | cons c t =>
            rw [← ht, List.prefix_append_right_inj] at hp
            simp only [List.cons_prefix_cons] at hp
            exact absurd (by rw [← ht, hp.1]; simp) hns
      subst h2
      rw [e, hns', hdrop] at h1
      rw [e, hns', h1] at hm
      exact hm
    · simp at hc
  · intro hm
    refine ⟨(full ns key, v), hm, ?_⟩
    have h1 : ns.isPrefixOf (full ns key) = true := by
      rw [List.isPrefixOf_iff_prefix]; exact ⟨'.' :: key, rfl⟩
    simp only [h1, if_true, hdrop]

example : ∀ o ∈ [Op.set user ['k'] [1], Op.set ['s'] ['k'] [2]], user <+: o.at.1 → o.at.1 = user := by
  intro o ho
  simp at ho
  rcases ho with rfl | rfl
  · intro _; rfl
  · intro h; simp [user, Op.at] at h

/-- C68 is false on windows when one namespace continues another: attributes of the longer one show
up, under a mangled key. -/
theorem C68_windows_namespace_counterexample :
    xattrsADS (run [.set userLong ['k'] [2]]) user = [(['.', 'k'], [2])] ∧
    ∀ key, final [.set userLong ['k'] [2]] user key = none := by
  refine ⟨by decide, ?_⟩
  intro key
  simp [final, finalRev, user, userLong]

/-- C68 is false when a namespace may have a dot in it: two different attributes are the same. -/
theorem C68_dotted_namespace_counterexample :
    getxattr (run [.set ['u', '.', 'a'] ['b'] [1], .set ['u'] ['a', '.', 'b'] [2]]) ['u', '.', 'a'] ['b'] = .ok [2] := by
  decide

/-- Every full name in the store comes from an operation. -/
theorem run_source (ops : List Op) : ∀ n ∈ (run ops).map Prod.fst, ∃ o ∈ ops, n = full o.at.1 o.at.2 := by
  have : ∀ opsRev : List Op, ∀ n ∈ (run opsRev.reverse).map Prod.fst, ∃ o ∈ opsRev, n = full o.at.1 o.at.2 := by
    intro opsRev
    induction opsRev with
    | nil => simp [run]
    | cons o ops ih =>
      intro n hn
      rw [List.reverse_cons, run_snoc] at hn
      cases o with
      | set ns' k' w =>
        simp only [step, setxattr, insert_keys] at hn
        split at hn
        · obtain ⟨x, hx, e⟩ := ih n hn; exact ⟨x, by simp [hx], e⟩
        · rcases List.mem_append.1 hn with hn | hn
          · obtain ⟨x, hx, e⟩ := ih n hn; exact ⟨x, by simp [hx], e⟩
          · simp at hn; exact ⟨.set ns' k' w, by simp, hn⟩
      | del ns' k' =>
        have hn' : n ∈ (run ops.reverse).map Prod.fst := by
          simp only [step, delxattr] at hn
          cases hl : lookup (full ns' k') (run ops.reverse) with
          | none => rw [hl] at hn; exact hn
          | some w => rw [hl] at hn; exact erase_keys _ _ n hn
        obtain ⟨x, hx, e⟩ := ih n hn'; exact ⟨x, by simp [hx], e⟩
  intro n hn
  have := this ops.reverse n (by rwa [List.reverse_reverse])
  obtain ⟨o, ho, e⟩ := this
  exact ⟨o, List.mem_reverse.1 ho, e⟩

/-- C68 (windows): listing a namespace gives what the operations left in all namespaces whose name begins with that of the listed one; what is more in the
name of the namespace is left at the front of the key, without its first character. -/
theorem C68_windows_list_iff (ops : List Op) (hok : ∀ o ∈ ops, o.ok) (ns key : Str) (v : Bytes) (hns : '.' ∉ ns) :
    (key, v) ∈ xattrsADS (run ops) ns ↔
      ∃ more k, '.' ∉ more ∧ final ops (ns ++ more) k = some v ∧ key = (more ++ '.' :: k).drop 1 := by
  have hu : Uniq (run ops) := by
    have := (run_spec ops.reverse).1
    rwa [List.reverse_reverse] at this
  have hl : ∀ ns key, '.' ∉ ns → (lookup (full ns key) (run ops) = final ops ns key) := by
    intro ns key hns
    have := (run_spec ops.reverse).2 (fun o ho => hok o (List.mem_reverse.1 ho)) ns key hns
    rwa [List.reverse_reverse] at this
  have hdrop : ∀ more k : Str, (full (ns ++ more) k).drop (ns.length + 1) = (more ++ '.' :: k).drop 1 := by
    intro more k
    rw [show full (ns ++ more) k = ns ++ (more ++ '.' :: k) by simp [full], ← List.drop_drop, List.drop_left]
  simp only [xattrsADS, List.mem_filterMap]
  constructor
  · rintro ⟨⟨n, w⟩, hm, hc⟩
    simp only at hc
    split at hc
    · rename_i hp
      simp only [Option.some.injEq, Prod.mk.injEq] at hc
      obtain ⟨h1, h2⟩ := hc
      obtain ⟨o, ho, e⟩ := run_source ops n (List.mem_map.2 ⟨_, hm, rfl⟩)
      have hod := hok o ho
      obtain ⟨r, hr⟩ := List.isPrefixOf_iff_prefix.1 hp
      rw [e, full] at hr
      have : ∃ more, o.at.1 = ns ++ more := by
        rw [List.append_eq_append_iff] at hr
        rcases hr with ⟨x, hx, _⟩ | ⟨x, hx, hy⟩
        · exact ⟨x, hx⟩
        · cases x with
          | nil => exact ⟨[], by simpa using hx.symm⟩
          | cons c x =>
            simp only [List.cons_append, List.cons.injEq] at hy
            exact absurd (by rw [hx, ← hy.1]; simp) hns
      obtain ⟨more, hmore⟩ := this
      have hmd : '.' ∉ ns ++ more := hmore ▸ hod.1
      refine ⟨more, o.at.2, fun h => hmd (List.mem_append_right _ h), ?_, ?_⟩
      · rw [← hl _ _ hmd, ← mem_iff_lookup hu, ← hmore, ← e, ← h2]; exact hm
      · rw [← h1, e, hmore, hdrop]
    · simp at hc
  · rintro ⟨more, k, hm, hf, rfl⟩
    have hmd : '.' ∉ ns ++ more := by simp [hns, hm]
    rw [← hl _ _ hmd, ← mem_iff_lookup hu] at hf
    refine ⟨_, hf, ?_⟩
    have hp : ns.isPrefixOf (full (ns ++ more) k) = true :=
      List.isPrefixOf_iff_prefix.2 ⟨more ++ '.' :: k, by simp [full]⟩
    simp [hp, hdrop]

end Verif.Attrs
