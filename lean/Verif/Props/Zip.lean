import Verif.Lemmas.Decide
import Verif.Lemmas.Symlink
import Verif.Spec.Zip

/-!
# C65, C66: zip archives
-/

namespace Verif.Zip

open Verif.Symlink Verif.Zip.Spec

theorem mem_parentsGo {root : Str} {k : Nat} {comps : List Str} {q : Pure} :
    q ∈ parentsGo root k comps ↔ q.root = root ∧ ∃ j, j < k ∧ q.comps = comps.take j := by
  induction k with
  | zero => simp [parentsGo]
  | succ k ih =>
    simp only [parentsGo, List.mem_cons, ih]
    constructor
    · rintro (rfl | ⟨h, j, hj, hc⟩)
      · exact ⟨rfl, k, by omega, rfl⟩
      · exact ⟨h, j, by omega, hc⟩
    · rintro ⟨h, j, hj, hc⟩
      by_cases hjk : j = k
      · subst hjk; left; cases q; simp_all
      · exact .inr ⟨h, j, by omega, hc⟩

theorem mem_parents {p q : Pure} : q ∈ parents p ↔ Above q p := by
  rw [parents, mem_parentsGo, Above]
  constructor
  · rintro ⟨h, j, hj, hc⟩
    refine ⟨h, p.comps[j], p.comps.drop (j + 1), ?_⟩
    rw [hc, ← List.drop_eq_getElem_cons hj, List.take_append_drop]
  · rintro ⟨h, n, ns, hc⟩
    exact ⟨h, q.comps.length, by rw [hc]; simp, by rw [hc]; simp⟩

theorem mem_dedup {l : List Item} {p : Pure} : p ∈ (dedup l).map Item.path ↔ p ∈ l.map Item.path := by
  induction l with
  | nil => simp [dedup]
  | cons i is ih =>
    simp only [dedup, List.map_cons, List.mem_cons, List.mem_map, List.mem_filter] at ih ⊢
    constructor
    · rintro (h | ⟨j, ⟨hj, _⟩, rfl⟩)
      · exact .inl h
      · exact .inr (ih.1 ⟨j, hj, rfl⟩)
    · rintro (h | h)
      · exact .inl h
      · by_cases hp : p = i.path
        · exact .inl hp
        · obtain ⟨j, hj, rfl⟩ := ih.2 h
          exact .inr ⟨j, ⟨hj, by simpa using hp⟩, rfl⟩

theorem dedup_sub {l : List Item} {i : Item} (h : i ∈ dedup l) : i ∈ l := by
  induction l with
  | nil => simp [dedup] at h
  | cons j is ih =>
    simp only [dedup, List.mem_cons, List.mem_filter] at h ⊢
    rcases h with h | h
    · exact .inl h
    · exact .inr (ih h.1)

theorem dedup_nodup (l : List Item) : ((dedup l).map Item.path).Nodup := by
  induction l with
  | nil => simp [dedup]
  | cons i is ih =>
    simp only [dedup, List.map_cons, List.nodup_cons, List.mem_map, List.mem_filter, not_exists, not_and]
    refine ⟨?_, ?_⟩
    · rintro j ⟨_, hj⟩ he; simp [he] at hj
    · exact ih.sublist (List.filter_sublist.map _)

/-- The first element with a path is the one that stays. -/
theorem find_dedup (l : List Item) (p : Pure) :
    (dedup l).find? (fun i => i.path = p) = l.find? (fun i => i.path = p) := by
  induction l with
  | nil => simp [dedup]
  | cons i is ih =>
    simp only [dedup, List.find?_cons]
    by_cases h : i.path = p
    · simp [h]
    · simp only [h, decide_false]
      rw [← ih]
      induction dedup is with
      | nil => rfl
      | cons j js ihj =>
        simp only [List.filter_cons, List.find?_cons]
        by_cases hj : j.path = p
        · have : j.path ≠ i.path := fun he => h (he ▸ hj)
          rw [if_pos (by simpa using this)]
          simp [hj]
        · split
          · simp only [List.find?_cons, hj, decide_false]; exact ihj
          · simp only [hj, decide_false]; exact ihj

theorem mem_members {names : List Str} {p : Pure} : p ∈ (members names).map Item.path ↔ InTree names p := by
  simp only [members, mem_dedup, List.map_append, List.mem_append, List.map_map]
  constructor
  · rintro (h | h)
    · simp only [List.mem_map, List.mem_flatMap, Function.comp] at h
      obtain ⟨q, ⟨i, hi, hq⟩, rfl⟩ := h
      have := dedup_sub hi
      simp only [List.mem_map] at this
      obtain ⟨n, hn, rfl⟩ := this
      exact ⟨n, hn, .inr (mem_parents.1 hq)⟩
    · simp only [List.mem_map, Function.comp] at h
      obtain ⟨n, hn, rfl⟩ := h
      exact ⟨n, hn, .inl rfl⟩
  · rintro ⟨n, hn, rfl | h⟩
    · right
      simp only [List.mem_map, Function.comp]
      exact ⟨n, hn, rfl⟩
    · left
      simp only [List.mem_map, List.mem_flatMap, Function.comp]
      have : parse n ∈ (dedup (names.map fun n => (⟨parse n, some n⟩ : Item))).map Item.path := by
        rw [mem_dedup]; simp only [List.mem_map]; exact ⟨_, ⟨n, hn, rfl⟩, rfl⟩
      obtain ⟨i, hi, he⟩ := List.mem_map.1 this
      exact ⟨p, ⟨i, hi, by rw [he]; exact mem_parents.2 h⟩, rfl⟩

theorem members_nodup (names : List Str) : ((members names).map Item.path).Nodup := dedup_nodup _

theorem above_trans {p q r : Pure} (h : Above p q) (h' : Above q r) : Above p r := by
  obtain ⟨e, n, ns, h⟩ := h
  obtain ⟨e', m, ms, h'⟩ := h'
  exact ⟨e.trans e', n, ns ++ m :: ms, by rw [h', h]; simp⟩

theorem inTree_above {names : List Str} {p q : Pure} (h : InTree names q) (ha : Above p q) : InTree names p := by
  obtain ⟨n, hn, h⟩ := h
  refine ⟨n, hn, .inr ?_⟩
  rcases h with rfl | h
  · exact ha
  · exact above_trans ha h

/-! ## C65 -/

/-- C65: what exists in an archive are exactly the entries and their ancestors. -/
theorem C65_exists_iff (names : List Str) (p : Pure) : existsIn names p = true ↔ InTree names p := by
  rw [existsIn, List.contains_iff_mem, mem_members]

/-- C65: every ancestor of an archived entry exists and is a directory. -/
theorem C65_ancestor_dir (names : List Str) (n : Str) (hn : n ∈ names) (p : Pure) (hp : Above p (parse n)) :
    existsIn names p = true ∧ isDir names p = true := by
  refine ⟨(C65_exists_iff names p).2 ⟨n, hn, .inr hp⟩, ?_⟩
  -- the first member with this path is the one without entry
  have hpar : p ∈ ((dedup (names.map fun n => (⟨parse n, some n⟩ : Item))).flatMap fun i => parents i.path) := by
    have : parse n ∈ (dedup (names.map fun n => (⟨parse n, some n⟩ : Item))).map Item.path := by
      rw [mem_dedup]; simp only [List.mem_map]; exact ⟨_, ⟨n, hn, rfl⟩, rfl⟩
    obtain ⟨i, hi, he⟩ := List.mem_map.1 this
    exact List.mem_flatMap.2 ⟨i, hi, by rw [he]; exact mem_parents.2 hp⟩
  have hfind : ∃ i, (members names).find? (fun i => i.path = p) = some i ∧ i.info = none := by
    simp only [members]
    rw [find_dedup, List.find?_append, find_dedup]
    generalize (dedup (names.map fun n => (⟨parse n, some n⟩ : Item))).flatMap (fun i => parents i.path) = l at hpar ⊢
    cases hf : (l.map fun p => (⟨p, none⟩ : Item)).find? (fun i => i.path = p) with
    | none =>
      rw [List.find?_eq_none] at hf
      have := hf ⟨p, none⟩ (List.mem_map.2 ⟨p, hpar, rfl⟩)
      simp at this
    | some i =>
      refine ⟨i, by simp, ?_⟩
      obtain ⟨q, _, rfl⟩ := List.mem_map.1 (List.mem_of_find?_eq_some hf)
      rfl
  obtain ⟨i, hi, hin⟩ := hfind
  rw [isDir, obj, hi]
  simp [hin]

/-- The entry of something that nothing is below: the first one of that name. -/
theorem obj_info (names : List Str) (p : Pure) (hno : ∀ m ∈ names, ¬ Above p (parse m)) :
    (obj names p).info = names.find? fun n => parse n = p := by
  have hfind : (members names).find? (fun i => i.path = p) =
      (names.map fun n => (⟨parse n, some n⟩ : Item)).find? (fun i => i.path = p) := by
    simp only [members]
    rw [find_dedup, List.find?_append, find_dedup, find_dedup]
    rw [List.find?_eq_none.2, Option.none_or]
    intro i hi
    simp only [List.mem_map, List.mem_flatMap] at hi
    obtain ⟨q, ⟨j, hj, hq⟩, rfl⟩ := hi
    have := dedup_sub hj
    simp only [List.mem_map] at this
    obtain ⟨n, hn, rfl⟩ := this
    have := mem_parents.1 hq
    simp only [decide_eq_true_eq]
    rintro rfl
    exact hno n hn this
  rw [obj, hfind, List.find?_map]
  cases hf : names.find? (fun n => parse n = p) with
  | none =>
    have : names.find? ((fun i : Item => decide (i.path = p)) ∘ fun n => (⟨parse n, some n⟩ : Item)) = none := hf
    rw [this]; rfl
  | some n =>
    have : names.find? ((fun i : Item => decide (i.path = p)) ∘ fun n => (⟨parse n, some n⟩ : Item)) = some n := hf
    rw [this]; rfl

/-- C65: something is a directory unless it is an entry whose (first) name does not end with a slash and nothing is below it. -/
theorem C65_file_iff (names : List Str) (p : Pure) :
    isDir names p = false ↔ (∀ m ∈ names, ¬ Above p (parse m)) ∧
      ∃ before n after, names = before ++ n :: after ∧ parse n = p ∧ (∀ m ∈ before, parse m ≠ p) ∧ n.getLast? ≠ some '/' := by
  by_cases hab : ∃ m ∈ names, Above p (parse m)
  · obtain ⟨m, hm, ha⟩ := hab
    rw [(C65_ancestor_dir names m hm p ha).2]
    simp only [Bool.true_eq_false, false_iff, not_and]
    intro h
    exact absurd ha (h m hm)
  · have hno : ∀ m ∈ names, ¬ Above p (parse m) := fun m hm ha => hab ⟨m, hm, ha⟩
    rw [and_iff_right hno]
    rw [isDir, obj_info names p hno]
    cases hf : names.find? (fun n => parse n = p) with
    | none =>
      simp only [Bool.true_eq_false, false_iff]
      rintro ⟨b, n, a, rfl, hp, -, -⟩
      rw [List.find?_eq_none] at hf
      have := hf n (by simp)
      simp [hp] at this
    | some n =>
      have hn := hf
      rw [List.find?_eq_some_iff_append] at hn
      obtain ⟨hp, b, a, he, hb⟩ := hn
      simp only [decide_eq_true_eq, Bool.not_eq_eq_eq_not, Bool.not_true, decide_eq_false_iff_not] at hp hb ⊢
      constructor
      · exact fun h => ⟨b, n, a, he, hp, hb, h⟩
      · rintro ⟨b', n', a', he', hp', hb', h⟩
        have : n' = n := by
          rw [he] at he'
          rw [List.append_eq_append_iff] at he'
          rcases he' with ⟨l, h1, h2⟩ | ⟨l, h1, h2⟩
          · cases l with
            | nil => simp only [List.nil_append, List.cons.injEq] at h2; exact h2.1.symm
            | cons x l =>
              simp only [List.cons_append, List.cons.injEq] at h2
              exact absurd hp (hb' n (by rw [h1]; simp [h2.1]))
          · cases l with
            | nil => simp only [List.nil_append, List.cons.injEq] at h2; exact h2.1
            | cons x l =>
              simp only [List.cons_append, List.cons.injEq] at h2
              exact absurd hp' (hb n' (by rw [h1]; simp [h2.1]))
        exact this ▸ h

example : isDir [lit "a/b/c.txt", lit "d/"] (parse (lit "a/b/c.txt")) = false ∧ isDir [lit "a/b/c.txt", lit "d/"] (parse (lit "d")) = true := by
  decide +kernel

example : Above ⟨[], [lit "a"]⟩ (parse (lit "a/b/c.txt")) := ⟨rfl, lit "b", [lit "c.txt"], by decide +kernel⟩

/-- C65: `q` is listed as a child of `p` exactly when it is in the tree and one level below. -/
theorem C65_children_iff (names : List Str) (p q : Pure) :
    q ∈ children names p ↔ InTree names q ∧ q.root = p.root ∧ ∃ n, q.comps = p.comps ++ [n] := by
  simp only [children, List.mem_filter, mem_members, Bool.and_eq_true, decide_eq_true_eq, and_congr_right_iff]
  intro _
  constructor
  · rintro ⟨hne, hp⟩
    simp only [Pure.parent] at hp
    have hr : q.root = p.root := by rw [hp]
    have hc : p.comps = q.comps.dropLast := by rw [hp]
    refine ⟨hr, ?_⟩
    cases hq : q.comps.getLast? with
    | none =>
      have : q.comps = [] := List.getLast?_eq_none_iff.1 hq
      exact absurd (by rw [hp]; cases q; simp_all) hne
    | some n =>
      obtain ⟨l, hl⟩ := List.getLast?_eq_some_iff.1 hq
      exact ⟨n, by rw [hc, hl]; simp⟩
  · rintro ⟨hr, n, hc⟩
    refine ⟨?_, ?_⟩
    · intro he
      have := congrArg (fun x : Pure => x.comps.length) he
      rw [hc] at this
      simp at this
    · cases p; simp [Pure.parent, hc] at *; simp [hr]

/-- C65: the descendants listed for a path are exactly the transitive closure of the listed
children, and none is listed twice. -/
theorem C65_rchildren_closure (names : List Str) (p q : Pure) :
    (q ∈ rchildren names p ↔ Below (fun a b => b ∈ children names a) p q) ∧
    (rchildren names p).Nodup ∧ (children names p).Nodup := by
  refine ⟨?_, (members_nodup names).filter _, (members_nodup names).filter _⟩
  rw [rchildren, List.mem_filter, List.contains_iff_mem, mem_parents, mem_members]
  constructor
  · rintro ⟨hin, hr, n, ns, hc⟩
    -- add one component after the other
    have key : ∀ k (q : Pure), q.comps.length = p.comps.length + 1 + k → q.root = p.root → InTree names q →
        (∃ n ns, q.comps = p.comps ++ n :: ns) → Below (fun a b => b ∈ children names a) p q := by
      intro k
      induction k with
      | zero =>
        rintro q hl hr hin ⟨n, ns, hc⟩
        have : ns = [] := by rw [hc] at hl; simpa using hl
        subst this
        exact .single ((C65_children_iff names p q).2 ⟨hin, hr, n, hc⟩)
      | succ k ih =>
        rintro q hl hr hin ⟨n, ns, hc⟩
        have hns : ns ≠ [] := by rintro rfl; rw [hc] at hl; simp at hl
        have hns' : ns = ns.dropLast ++ [ns.getLast hns] := (List.dropLast_concat_getLast hns).symm
        have hpc : q.parent.comps = p.comps ++ n :: ns.dropLast := by
          simp only [Pure.parent]
          rw [hc, hns']
          simp [List.dropLast_cons_of_ne_nil]
        have hab : Above q.parent q := ⟨rfl, ns.getLast hns, [], by rw [hpc, hc]; conv => lhs; rw [hns']
                                                                    simp⟩
        refine .step (b := q.parent) (ih q.parent ?_ hr (inTree_above hin hab) ⟨n, _, hpc⟩) ?_
        · rw [hpc]; rw [hc] at hl; simp at hl ⊢; omega
        · refine (C65_children_iff names q.parent q).2 ⟨hin, rfl, ns.getLast hns, ?_⟩
          rw [hpc, hc]; conv => lhs; rw [hns']
          simp
    refine key ns.length q ?_ hr.symm hin ⟨n, ns, hc⟩
    rw [hc]; simp; omega
  · intro h
    induction h with
    | single h =>
      obtain ⟨hin, hr, n, hc⟩ := (C65_children_iff names _ _).1 h
      exact ⟨hin, hr.symm, n, [], hc⟩
    | step _ h ih =>
      obtain ⟨hin, hr, n, hc⟩ := (C65_children_iff names _ _).1 h
      exact ⟨hin, above_trans ih.2 ⟨hr.symm, n, [], hc⟩⟩

example : rchildren [lit "a/b/c.txt"] ⟨[], [lit "a"]⟩ = [⟨[], [lit "a", lit "b"]⟩, ⟨[], [lit "a", lit "b", lit "c.txt"]⟩] := by
  decide +kernel

/-! ## C66 -/

theorem zipPath_error {d : Disk} {p : List Str} {e : PyErr} (h : zipPath d p = .error e) :
    ∃ n up, n :: up <:+ p ∧ zipPath d up = .ok none ∧ suffix n = lit ".zip" ∧ isZipfile d (n :: up) = false := by
  induction p with
  | nil => simp [zipPath] at h
  | cons n up ih =>
    simp only [zipPath] at h
    cases hz : zipPath d up with
    | error e' =>
      rw [hz] at h
      simp only [Except.error.injEq] at h
      subst h
      obtain ⟨m, up', hs, rest⟩ := ih hz
      exact ⟨m, up', hs.trans (List.suffix_cons _ _), rest⟩
    | ok pzp =>
      rw [hz] at h
      simp only at h
      split at h
      · rename_i hc
        have hn : isZipfile d (n :: up) = false := by
          simp only [isZipfile]
          split at h <;> simp_all
        simp only [hn, Bool.false_eq_true, or_false] at hc
        exact ⟨n, up, List.suffix_refl _, by rw [hz, hc.1], hc.2, hn⟩
      · simp at h

/-- Below an archive and above it. -/
theorem zipPath_none {d : Disk} {p : List Str} (h : zipPath d p = .ok none) :
    ∀ z, z <:+ p → z ≠ [] → isZipfile d z = false := by
  induction p with
  | nil => intro z hz hne; simp at hz; exact absurd hz hne
  | cons n up ih =>
    intro z hz hne
    simp only [zipPath] at h
    cases hzp : zipPath d up with
    | error e => rw [hzp] at h; simp at h
    | ok pzp =>
      rw [hzp] at h
      simp only at h
      split at h
      · split at h <;> simp at h
      · rename_i hc
        simp only [Except.ok.injEq] at h
        subst h
        simp only [not_or] at hc
        rcases List.suffix_cons_iff.1 hz with rfl | hz
        · simpa using hc.2
        · exact ih hzp z hz hne

theorem zipPath_some {d : Disk} {p z : List Str} (h : zipPath d p = .ok (some z)) :
    z <:+ p ∧ ∃ names, d z = .zip names := by
  induction p generalizing z with
  | nil => simp [zipPath] at h
  | cons n up ih =>
    simp only [zipPath] at h
    cases hzp : zipPath d up with
    | error e => rw [hzp] at h; simp at h
    | ok pzp =>
      rw [hzp] at h
      simp only at h
      split at h
      · split at h <;> simp at h
        rename_i names hd
        subst h
        exact ⟨List.suffix_refl _, names, hd⟩
      · simp only [Except.ok.injEq] at h
        subst h
        obtain ⟨h1, h2⟩ := ih hzp
        exact ⟨h1.trans (List.suffix_cons _ _), h2⟩

theorem tree_above {d : Disk} (ht : Tree d) {z p : List Str} (h : z <:+ p) (hne : z ≠ p) (hp : d p ≠ .missing) :
    d z = .dir := by
  induction p with
  | nil => simp at h; exact absurd h hne
  | cons n up ih =>
    rcases List.suffix_cons_iff.1 h with rfl | h
    · exact absurd rfl hne
    · have hd := ht n up hp
      by_cases he : z = up
      · rw [he, hd]
      · exact ih h he (by rw [hd]; simp)

/-- Two archives on the same way are the same. -/
theorem archive_unique {d : Disk} (ht : Tree d) {z z' p : List Str} {ns ns' : List Str}
    (h : Archive d ns z p) (h' : Archive d ns' z' p) : z = z' ∧ ns = ns' := by
  have key : ∀ {z z' : List Str} {ns ns' : List Str}, d z = .zip ns → d z' = .zip ns' → z <:+ z' → z = z' := by
    intro z z' ns ns' h h' hs
    by_cases he : z = z'
    · exact he
    · have := tree_above ht hs he (by rw [h']; simp)
      rw [h] at this; simp at this
  have hz : z = z' := by
    rcases List.suffix_or_suffix_of_suffix h.1 h'.1 with hs | hs
    · exact key h.2 h'.2 hs
    · exact (key h'.2 h.2 hs).symm
  subst hz
  have := h.2.symm.trans h'.2
  simp at this
  exact ⟨rfl, this⟩

/-- A name that ends in `.zip`, with something before it. -/
def ZipName (n : Str) : Prop := ∃ a, a ≠ [] ∧ n = a ++ lit ".zip"

theorem suffix_zip_iff (n : Str) : suffix n = lit ".zip" ↔ ZipName n := by
  constructor
  · intro h
    unfold suffix at h
    by_cases hd : '.' ∈ n
    · obtain ⟨a, b, rfl, hb⟩ : ∃ a b, n = a ++ '.' :: b ∧ '.' ∉ b := by
        have : ∀ l : Str, '.' ∈ l → ∃ a b, l = a ++ '.' :: b ∧ '.' ∉ b := by
          intro l
          induction l with
          | nil => simp
          | cons c l ih =>
            intro hl
            by_cases hm : '.' ∈ l
            · obtain ⟨a, b, rfl, h2⟩ := ih hm
              exact ⟨c :: a, b, rfl, h2⟩
            · rcases List.mem_cons.1 hl with rfl | hl
              · exact ⟨[], l, rfl, hm⟩
              · exact absurd hl hm
        exact this n hd
      rw [rsplit1_append hb] at h
      dsimp only at h
      split at h
      · rename_i hab
        refine ⟨a, hab.1, ?_⟩
        rw [← h]
      · exact absurd h (by decide)
    · have : splitC '.' n = [n] := splitC_of_not_mem hd
      rw [rsplit1, this] at h
      simp [lit] at h
  · rintro ⟨a, ha, rfl⟩
    have hz : lit ".zip" = '.' :: ['z', 'i', 'p'] := rfl
    unfold suffix
    rw [hz, rsplit1_append (by decide)]
    simp [ha]

/-- C66 (part): if every name on the way that looks like an archive is one, and the path is inside
an archive or on disk, and it is not itself an archive with nothing in it, then `exists` answers,
and correctly.  (Full claim: for every path on every disk.) -/
theorem C66_exists_partial (d : Disk) (p : List Str) (ht : Tree d) (hroot : isZipfile d [] = false)
    (hlook : ∀ n up, n :: up <:+ p → ZipName n → zipPath d up = .ok none → isZipfile d (n :: up) = true)
    (hin : d p ≠ .missing ∨ ∃ names z, Archive d names z p)
    (hne : ∀ names, d p = .zip names → InTree names ⟨[], []⟩) :
    ∃ b, zipExists d p = .ok b ∧ (b = true ↔ Present d p) := by
  cases hz : zipPath d p with
  | error e =>
    obtain ⟨n, up, hs, h1, h2, h3⟩ := zipPath_error hz
    rw [hlook n up hs ((suffix_zip_iff n).1 h2) h1] at h3
    simp at h3
  | ok o =>
    cases o with
    | none =>
      have hnone := zipPath_none hz
      have hp : d p ≠ .missing := by
        rcases hin with h | ⟨names, z, hs, hd⟩
        · exact h
        · have : isZipfile d z = true := by simp [isZipfile, hd]
          by_cases hzn : z = []
          · subst hzn; rw [hroot] at this; simp at this
          · rw [hnone z hs hzn] at this; simp at this
      refine ⟨true, by simp [zipExists, hz, hp], by simp [Present, hp]⟩
    | some z =>
      obtain ⟨hs, names, hd⟩ := zipPath_some hz
      obtain ⟨rel, hrel⟩ := hs
      have hz' : zipExists d p = .ok (existsIn names ⟨[], rel.reverse⟩) := by
        simp only [zipExists, hz, hd]
        rw [← hrel]
        simp
      refine ⟨_, hz', ?_⟩
      rw [C65_exists_iff]
      constructor
      · intro h; exact .inr ⟨names, z, rel, ⟨⟨rel, hrel⟩, hd⟩, hrel.symm, h⟩
      · rintro (h | ⟨ns', z', rel', ha, hr', hin'⟩)
        · -- on disk and at or below the archive: it is the archive
          by_cases he : z = p
          · subst he
            have : rel = [] := by simpa using hrel
            subst this
            exact hne names hd
          · have := tree_above ht ⟨rel, hrel⟩ he h
            rw [hd] at this; simp at this
        · obtain ⟨rfl, rfl⟩ := archive_unique ht ha ⟨⟨rel, hrel⟩, hd⟩
          have : rel' = rel := List.append_cancel_right (hr'.symm.trans hrel.symm)
          subst this
          exact hin'

/-- A disk with one archive `/x.zip` that has the entry `a/b`. -/
def sampleDisk : Disk := fun p =>
  if p = [] then .dir else if p = [lit "x.zip"] then .zip [lit "a/b"] else .missing

example : Tree sampleDisk ∧ isZipfile sampleDisk [] = false ∧
    zipExists sampleDisk [lit "b", lit "a", lit "x.zip"] = .ok true ∧
    zipExists sampleDisk [lit "c", lit "a", lit "x.zip"] = .ok false := by
  refine ⟨?_, by decide, by decide +kernel, by decide +kernel⟩
  intro n up h
  simp only [sampleDisk] at h ⊢
  split
  · rfl
  · rename_i hup
    simp [hup] at h

/-- C66 is false for every path that has no archive on its way and is not on disk: `exists` raises
instead of saying no. -/
theorem C66_missing_raises_counterexample (d : Disk) (p : List Str) (hz : zipPath d p = .ok none)
    (hp : d p = .missing) : zipExists d p = .error .attributeError := by
  simp [zipExists, hz, hp]

example : zipPath sampleDisk [lit "nope"] = .ok none ∧ sampleDisk [lit "nope"] = .missing := by decide +kernel

/-- C66 is false where something only looks like an archive: `exists` raises on directories (and on
files) whose name ends in `.zip` and on everything in them. -/
theorem C66_looks_like_zip_counterexample (d : Disk) (n : Str) (up : List Str) (hup : zipPath d up = .ok none)
    (hn : ZipName n) (hz : isZipfile d (n :: up) = false) :
    ∃ e, zipExists d (n :: up) = .error e := by
  rw [← suffix_zip_iff] at hn
  simp only [zipExists, zipPath, hup, hn, true_and, true_or, if_true]
  cases hd : d (n :: up) with
  | zip names => simp [isZipfile, hd] at hz
  | missing => exact ⟨_, rfl⟩
  | dir => exact ⟨_, rfl⟩
  | file => exact ⟨_, rfl⟩

example : ZipName (lit "backup.zip") := ⟨lit "backup", by decide, rfl⟩

/-- C66 is false for an archive without entries: the file is on disk, but `exists` says no. -/
theorem C66_empty_archive_counterexample :
    let d : Disk := fun p => if p = [] then .dir else if p = [lit "x.zip"] then .zip [] else .missing
    zipExists d [lit "x.zip"] = .ok false ∧ Present d [lit "x.zip"] := by
  refine ⟨by decide +kernel, .inl (by decide)⟩

/-- Something on the way to `p` (or `p` itself) is named like an archive, but neither is one nor is inside of one. -/
def Lookalike (d : Disk) (p : List Str) : Prop :=
  ∃ n up, n :: up <:+ p ∧ ZipName n ∧ ∀ names z, ¬ Archive d names z (n :: up)

theorem zipPath_error_iff {d : Disk} (hroot : isZipfile d [] = false) (p : List Str) :
    (∃ e, zipPath d p = .error e) ↔ Lookalike d p := by
  constructor
  · rintro ⟨e, h⟩
    obtain ⟨n, up, hs, h1, h2, h3⟩ := zipPath_error h
    refine ⟨n, up, hs, (suffix_zip_iff n).1 h2, ?_⟩
    rintro names z ⟨hz, hd⟩
    have hzip : isZipfile d z = true := by simp [isZipfile, hd]
    rcases List.suffix_cons_iff.1 hz with rfl | hz
    · rw [h3] at hzip; simp at hzip
    · by_cases hzn : z = []
      · subst hzn; rw [hroot] at hzip; simp at hzip
      · rw [zipPath_none h1 z hz hzn] at hzip; simp at hzip
  · rintro ⟨n, up, hs, h2, h3⟩
    rw [← suffix_zip_iff] at h2
    induction p with
    | nil => simp at hs
    | cons m up' ih =>
      rcases List.suffix_cons_iff.1 hs with he | hs
      · simp only [List.cons.injEq] at he
        obtain ⟨rfl, rfl⟩ := he
        simp only [zipPath]
        cases hz : zipPath d up with
        | error e => exact ⟨e, rfl⟩
        | ok o =>
          cases o with
          | some z =>
            obtain ⟨hzs, names, hd⟩ := zipPath_some hz
            exact absurd ⟨hzs.trans (List.suffix_cons _ _), hd⟩ (h3 names z)
          | none =>
            simp only [h2, true_and, true_or, if_true]
            cases hd : d (n :: up) with
            | zip names => exact absurd ⟨List.suffix_refl _, hd⟩ (h3 names _)
            | missing => exact ⟨_, rfl⟩
            | dir => exact ⟨_, rfl⟩
            | file => exact ⟨_, rfl⟩
      · obtain ⟨e, he⟩ := ih hs
        exact ⟨e, by simp [zipPath, he]⟩

/-- C66, exactly: `exists` answers correctly if and only if nothing on the way only looks like an archive, the path is on disk
or inside of an archive, and it is not an archive in which there is nothing. -/
theorem C66_exists_iff (d : Disk) (p : List Str) (ht : Tree d) (hroot : isZipfile d [] = false) :
    (∃ b, zipExists d p = .ok b ∧ (b = true ↔ Present d p)) ↔
      ¬ Lookalike d p ∧ (d p ≠ .missing ∨ ∃ names z, Archive d names z p) ∧
        ∀ names, d p = .zip names → InTree names ⟨[], []⟩ := by
  constructor
  · rintro ⟨b, hb, hp⟩
    have herr : ¬ Lookalike d p := by
      rw [← zipPath_error_iff hroot]
      rintro ⟨e, he⟩
      simp [zipExists, he] at hb
    refine ⟨herr, ?_, ?_⟩
    · by_cases hm : d p = .missing
      · refine .inr ?_
        cases hz : zipPath d p with
        | error e => exact absurd ((zipPath_error_iff hroot p).1 ⟨e, hz⟩) herr
        | ok o =>
          cases o with
          | none => simp [zipExists, hz, hm] at hb
          | some z =>
            obtain ⟨hs, names, hd⟩ := zipPath_some hz
            exact ⟨names, z, hs, hd⟩
      · exact .inl hm
    · intro names hd
      cases hz : zipPath d p with
      | error e => exact absurd ((zipPath_error_iff hroot p).1 ⟨e, hz⟩) herr
      | ok o =>
        cases o with
        | none =>
          have hne : p ≠ [] := by rintro rfl; simp [isZipfile, hd] at hroot
          have := zipPath_none hz p (List.suffix_refl _) hne
          simp [isZipfile, hd] at this
        | some z =>
          obtain ⟨hs, ns, hdz⟩ := zipPath_some hz
          obtain ⟨rfl, rfl⟩ := archive_unique ht ⟨hs, hdz⟩ ⟨List.suffix_refl _, hd⟩
          simp only [zipExists, hz, hd, Nat.sub_self, List.take_zero, List.reverse_nil, Except.ok.injEq] at hb
          rw [← C65_exists_iff, hb, hp]
          exact .inl (by simp [hd])
  · rintro ⟨hlook, hin, hne⟩
    refine C66_exists_partial d p ht hroot ?_ hin hne
    intro n up hs hn hup
    cases hz : isZipfile d (n :: up) with
    | true => rfl
    | false =>
      refine absurd ⟨n, up, hs, hn, ?_⟩ hlook
      rintro names z ⟨hzs, hd⟩
      have hzip : isZipfile d z = true := by simp [isZipfile, hd]
      rcases List.suffix_cons_iff.1 hzs with rfl | hzs
      · rw [hz] at hzip; simp at hzip
      · by_cases hzn : z = []
        · subst hzn; rw [hroot] at hzip; simp at hzip
        · rw [zipPath_none hup z hzs hzn] at hzip; simp at hzip

/-- A path in the archive of `sampleDisk` meets the conditions, one below a missing `y.zip` does not. -/
example : (∃ names z, Archive sampleDisk names z [lit "c", lit "a", lit "x.zip"]) ∧ Lookalike sampleDisk [lit "c", lit "y.zip"] := by
  refine ⟨⟨[lit "a/b"], [lit "x.zip"], ⟨[lit "c", lit "a"], rfl⟩, by decide⟩, lit "y.zip", [], ⟨[lit "c"], rfl⟩, ⟨lit "y", by decide, rfl⟩, ?_⟩
  rintro names z ⟨hs, hd⟩
  rcases List.suffix_cons_iff.1 hs with rfl | hs
  · have : sampleDisk [lit "y.zip"] = .missing := by decide
    rw [this] at hd; simp at hd
  · have : z = [] := by simpa using hs
    subst this
    simp [sampleDisk] at hd

end Verif.Zip
