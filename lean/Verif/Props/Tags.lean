import Verif.Model.Package
import Verif.Lemmas.Decide

/-!
# C78: the version of the newest tag of a package, C79: the folder of a package
-/

namespace Verif.Pep440

/-! ## C78 -/

/-- A tag as it was made: for a package, with a version. -/
structure Tag where
  package : Str
  version : Str

/-- The text of the tag of a package that has a folder of its own. -/
def Tag.text (t : Tag) : Str := t.package ++ ['-'] ++ t.version

/-- The version that the tags, newest first, give for a package. -/
def newest (name : Str) (tags : List Tag) : Option Str := (tags.find? fun t => t.package == name).map Tag.version

theorem within_iff (a : Str) : ∀ b : Str, within a b = true ↔ a <:+: b
  | [] => by rw [within, List.isPrefixOf_iff_prefix]; simp
  | c :: cs => by
    rw [within, Bool.or_eq_true, within_iff a cs, List.infix_cons_iff, List.isPrefixOf_iff_prefix]

/-- The first of the texts of the tags that a test accepts, if the test accepts just the tags of the package. -/
theorem first_own (name : Str) (f : Str → Bool) (tags : List Tag) (h : ∀ t ∈ tags, f t.text = true ↔ t.package = name) :
    (tags.map Tag.text).find? f = (newest name tags).map fun v => name ++ ['-'] ++ v := by
  induction tags with
  | nil => rfl
  | cons t ts ih =>
    have ih := ih fun t ht => h t (by simp [ht])
    have ht := h t (by simp)
    simp only [List.map_cons, List.find?_cons, newest] at ih ⊢
    by_cases hp : t.package = name
    · have hb : (t.package == name) = true := by simpa using hp
      rw [ht.2 hp, hb, Option.map_some, Option.map_some, Tag.text, hp]
    · have : f t.text = false := by rw [Bool.eq_false_iff]; exact fun h => hp (ht.1 h)
      have hb : (t.package == name) = false := by simpa using hp
      rw [this, hb]
      exact ih

theorem tagVersion_own (parse : Str → Option Version) (name v : Str) :
    tagVersion parse true name (some (name ++ ['-'] ++ v)) =
      match parse v with
      | none => .error .invalidVersion
      | some v => .ok (some v) := by
  have h1 : (name ++ ['-'] ++ v).isEmpty = false := by cases name <;> rfl
  have h2 : (name ++ ['-'] ++ v).drop (name.length + 1) = v := List.drop_left' (by simp)
  simp only [tagVersion, h1, Bool.false_eq_true, if_false, if_true, h2]
  cases parse v <;> rfl

/-- What the version of a package should be. -/
def want (parse : Str → Option Version) : Option Str → Except PErr (Option Version)
  | none => .ok none
  | some v => match parse v with
    | none => .error .invalidVersion
    | some v => .ok (some v)

/-- C78 (part): for a package in a folder of its own, `version_tag` is the version of its nearest tag, if the name of the
package and a dash do not begin the tag of another package.  (Full claim: without this hypothesis.) -/
theorem C78_nearest_partial (parse : Str → Option Version) (name : Str) (tags : List Tag)
    (h : ∀ t ∈ tags, t.package ≠ name → ¬ name ++ ['-'] <+: t.text) :
    versionTag parse true name (tags.map Tag.text) = want parse (newest name tags) := by
  have key := first_own name (fun t => (name ++ ['-']).isPrefixOf t) tags (by
    intro t ht
    rw [List.isPrefixOf_iff_prefix]
    constructor
    · intro hp
      exact Classical.byContradiction fun hne => h t ht hne hp
    · rintro rfl
      exact List.prefix_append _ _)
  simp only [versionTag, tagNearest, if_true]
  rw [key]
  cases newest name tags with
  | none => rfl
  | some v => rw [Option.map_some, tagVersion_own]; rfl

/-- C78 (part): for a package in a folder of its own, `version_latest_github` is the version of its newest release, if the
name of the package is in no tag of another package.  (Full claim: without this hypothesis.) -/
theorem C78_github_partial (parse : Str → Option Version) (name : Str) (tags : List Tag)
    (h : ∀ t ∈ tags, t.package ≠ name → ¬ name <:+: t.text) :
    versionLatestGithub parse true name (some (tags.map Tag.text)) = want parse (newest name tags) := by
  have key := first_own name (within name) tags (by
    intro t ht
    rw [within_iff]
    constructor
    · intro hp
      exact Classical.byContradiction fun hne => h t ht hne hp
    · rintro rfl
      exact ⟨[], ['-'] ++ t.version, by simp [Tag.text]⟩)
  simp only [versionLatestGithub, tagLatestGithub, if_true]
  rw [List.head?_filter, key]
  cases newest name tags with
  | none => rfl
  | some v => rw [Option.map_some, tagVersion_own]; rfl

/-- C78: when there is no reply or no tag of the package there is no version. -/
theorem C78_none (parse : Str → Option Version) (prefixed : Bool) (name : Str) :
    versionLatestGithub parse prefixed name none = .ok none ∧ versionTag parse prefixed name [] = .ok none :=
  ⟨rfl, rfl⟩

/-- The ten characters are the digits. -/
theorem isDigit_eq (c : Char) : isDigit c = c.isDigit := by
  rw [Bool.eq_iff_iff]
  simp only [isDigit, lit, List.contains_iff_mem, Char.isDigit, Bool.and_eq_true, decide_eq_true_eq, ge_iff_le]
  have hl : "0123456789".toList = ['0', '1', '2', '3', '4', '5', '6', '7', '8', '9'] := rfl
  rw [hl]
  constructor
  · intro h
    simp only [List.mem_cons, List.not_mem_nil, or_false] at h
    rcases h with rfl | rfl | rfl | rfl | rfl | rfl | rfl | rfl | rfl | rfl <;> decide
  · rintro ⟨h1, h2⟩
    have h1 : 48 ≤ c.val.toNat := h1
    have h2 : c.val.toNat ≤ 57 := h2
    have key : ∀ d : Char, d.val.toNat = c.val.toNat → c = d := fun d h => Char.ext (UInt32.toNat.inj h.symm)
    have : c.val.toNat = 48 ∨ c.val.toNat = 49 ∨ c.val.toNat = 50 ∨ c.val.toNat = 51 ∨ c.val.toNat = 52 ∨ c.val.toNat = 53 ∨
      c.val.toNat = 54 ∨ c.val.toNat = 55 ∨ c.val.toNat = 56 ∨ c.val.toNat = 57 := by omega
    rcases this with h | h | h | h | h | h | h | h | h | h
    · rw [key '0' (h ▸ rfl)]; simp
    · rw [key '1' (h ▸ rfl)]; simp
    · rw [key '2' (h ▸ rfl)]; simp
    · rw [key '3' (h ▸ rfl)]; simp
    · rw [key '4' (h ▸ rfl)]; simp
    · rw [key '5' (h ▸ rfl)]; simp
    · rw [key '6' (h ▸ rfl)]; simp
    · rw [key '7' (h ▸ rfl)]; simp
    · rw [key '8' (h ▸ rfl)]; simp
    · rw [key '9' (h ▸ rfl)]; simp

/-- C78: for the package in the folder of the repository, whose tags are versions without a prefix, both give the version
of the first tag, if versions begin with a digit and the names of the packages that have a prefix do not.  An entry on the right in the
list is a tag of such another package. -/
theorem C78_plain (parse : Str → Option Version) (name : Str) (tags : List (Str ⊕ Tag))
    (hv : ∀ v, .inl v ∈ tags → v.head?.any Char.isDigit = true)
    (hp : ∀ t, .inr t ∈ tags → t.text.head?.any Char.isDigit = false) :
    versionTag parse false name (tags.map (Sum.elim id Tag.text)) = want parse (tags.findSome? Sum.getLeft?) ∧
    versionLatestGithub parse false name (some (tags.map (Sum.elim id Tag.text))) = want parse (tags.findSome? Sum.getLeft?) := by
  rw [← show isDigit = Char.isDigit from funext isDigit_eq] at hv hp
  have key : (tags.map (Sum.elim id Tag.text)).find? (fun t => t.head?.any isDigit) = tags.findSome? Sum.getLeft? := by
    induction tags with
    | nil => rfl
    | cons t ts ih =>
      have ih := ih (fun v h => hv v (by simp [h])) (fun t h => hp t (by simp [h]))
      cases t with
      | inl v =>
        have := hv v (by simp)
        simp [this, List.findSome?_cons]
      | inr t =>
        have := hp t (by simp)
        simp [this, ih, List.findSome?_cons]
  have hne : (tags.map (Sum.elim id Tag.text)).any List.isEmpty = false := by
    rw [Bool.eq_false_iff]
    intro h
    simp only [List.any_eq_true, List.mem_map] at h
    obtain ⟨x, ⟨y, hy, rfl⟩, hx⟩ := h
    cases y with
    | inl v =>
      have := hv v hy
      rw [List.isEmpty_iff] at hx
      simp only [Sum.elim_inl, id] at hx
      simp [hx] at this
    | inr t =>
      simp [Tag.text] at hx
  have hw : ∀ o : Option Str, (∀ v, o = some v → v ≠ []) → tagVersion parse false name o = want parse o := by
    intro o ho
    cases o with
    | none => rfl
    | some v =>
      have : v.isEmpty = false := by simpa using ho v rfl
      simp [tagVersion, want, this]
      cases parse v <;> rfl
  have hfirst : ∀ v, tags.findSome? Sum.getLeft? = some v → v ≠ [] := by
    intro v h
    rw [← key] at h
    have := List.find?_some h
    intro he
    simp [he] at this
  refine ⟨?_, ?_⟩
  · simp only [versionTag, tagNearest, Bool.false_eq_true, if_false]
    rw [key]
    exact hw _ hfirst
  · simp only [versionLatestGithub, tagLatestGithub, hne, Bool.false_eq_true, if_false]
    rw [List.head?_filter, key]
    exact hw _ hfirst

/-- C78: a tag of a package whose name has the name in it is taken for a tag of the package: `foobar-2` for `foo`. -/
theorem C78_github_counterexample (parse : Str → Option Version) (h : parse (lit "ar-2") = none) :
    versionLatestGithub parse true (lit "foo") (some ([⟨lit "foobar", lit "2"⟩, ⟨lit "foo", lit "1"⟩].map Tag.text)) =
      .error .invalidVersion ∧
    newest (lit "foo") [⟨lit "foobar", lit "2"⟩, ⟨lit "foo", lit "1"⟩] = some (lit "1") := by
  have h1 : tagLatestGithub true (lit "foo") (some ([⟨lit "foobar", lit "2"⟩, ⟨lit "foo", lit "1"⟩].map Tag.text)) =
      .ok (some (lit "foobar-2")) := by decide +kernel
  have h2 : (lit "foobar-2").drop ((lit "foo").length + 1) = lit "ar-2" := by decide +kernel
  have h3 : (lit "foobar-2").isEmpty = false := by decide +kernel
  refine ⟨?_, by decide +kernel⟩
  simp only [versionLatestGithub, h1, tagVersion, h2, h3, h, Bool.false_eq_true, if_false, if_true]

/-- C78: a tag of a package whose name begins with the name and a dash is taken for a tag of the package: `foo-bar-2`
for `foo`. -/
theorem C78_nearest_counterexample (parse : Str → Option Version) (h : parse (lit "bar-2") = none) :
    versionTag parse true (lit "foo") ([⟨lit "foo-bar", lit "2"⟩, ⟨lit "foo", lit "1"⟩].map Tag.text) =
      .error .invalidVersion ∧
    newest (lit "foo") [⟨lit "foo-bar", lit "2"⟩, ⟨lit "foo", lit "1"⟩] = some (lit "1") := by
  have h1 : tagNearest true (lit "foo") ([⟨lit "foo-bar", lit "2"⟩, ⟨lit "foo", lit "1"⟩].map Tag.text) =
      some (lit "foo-bar-2") := by decide +kernel
  have h2 : (lit "foo-bar-2").drop ((lit "foo").length + 1) = lit "bar-2" := by decide +kernel
  have h3 : (lit "foo-bar-2").isEmpty = false := by decide +kernel
  refine ⟨?_, by decide +kernel⟩
  simp only [versionTag, h1, tagVersion, h2, h3, h, Bool.false_eq_true, if_false, if_true]

/-- A case that meets the hypotheses: two packages in one repository. -/
example : ∀ t ∈ ([⟨lit "bar", lit "2"⟩, ⟨lit "foo", lit "1"⟩] : List Tag), t.package ≠ lit "foo" → ¬ lit "foo" <:+: t.text := by
  intro t ht hne
  simp only [List.mem_cons, List.not_mem_nil, or_false] at ht
  rcases ht with rfl | rfl
  · rw [← within_iff]; decide +kernel
  · exact absurd rfl hne

/-! ## C79 -/

theorem folderAt_up (here : List Str → Bool) (p : List Str) (n : Str) :
    folderAt here (p ++ [n]) = if here (p ++ [n]) then .ok (p ++ [n]) else folderAt here p := by
  rw [folderAt]
  simp

/-- C79: the folder of a package is the nearest of the directories above a path, or the path itself, that has a
`setup.py`; there is an error exactly if there is none. -/
theorem C79_nearest (here : List Str → Bool) (p : List Str) :
    (∀ q, folderAt here p = .ok q ↔ q <+: p ∧ here q = true ∧ ∀ r, r <+: p → here r = true → r <+: q) ∧
    ((∃ e, folderAt here p = .error e) ↔ ∀ q, q <+: p → here q = false) := by
  obtain ⟨l, rfl⟩ : ∃ l : List Str, p = l.reverse := ⟨p.reverse, by simp⟩
  induction l with
  | nil =>
    rw [folderAt]
    simp only [List.reverse_nil, List.dropLast_nil, List.prefix_nil]
    by_cases h : here [] = true
    · simp only [h, if_true, Except.ok.injEq]
      refine ⟨fun q => ⟨?_, fun h => h.1.symm⟩, by simp [h]⟩
      rintro rfl
      simp [h]
    · simp [h]
  | cons n l ih =>
    rw [List.reverse_cons, folderAt_up]
    by_cases h : here (l.reverse ++ [n]) = true
    · simp only [h, if_true, Except.ok.injEq]
      refine ⟨fun q => ⟨?_, ?_⟩, ?_⟩
      · rintro rfl
        exact ⟨List.prefix_rfl, h, fun r hr _ => hr⟩
      · rintro ⟨h1, -, h3⟩
        exact ((h3 _ List.prefix_rfl h).eq_of_length_le h1.length_le)
      · constructor
        · rintro ⟨e, he⟩; simp at he
        · intro h'; simp [h' _ List.prefix_rfl] at h
    · simp only [h, Bool.false_eq_true, if_false]
      refine ⟨fun q => ?_, ?_⟩
      · rw [ih.1 q]
        constructor
        · rintro ⟨h1, h2, h3⟩
          refine ⟨h1.trans (List.prefix_append _ _), h2, fun r hr hh => ?_⟩
          rcases List.prefix_concat_iff.1 hr with rfl | hr
          · exact absurd hh h
          · exact h3 r hr hh
        · rintro ⟨h1, h2, h3⟩
          refine ⟨?_, h2, fun r hr hh => h3 r (hr.trans (List.prefix_append _ _)) hh⟩
          rcases List.prefix_concat_iff.1 h1 with rfl | h1
          · exact absurd h2 h
          · exact h1
      · rw [ih.2]
        constructor
        · intro h' q hq
          rcases List.prefix_concat_iff.1 hq with rfl | hq
          · simpa using h
          · exact h' q hq
        · intro h' q hq
          exact h' q (hq.trans (List.prefix_append _ _))

/-- C79: a path that is relative or has `..` in it is resolved first, so that the folder is above the place where the path
leads. -/
theorem C79_folder (here : List Str → Bool) (resolve : List Str → List Str) (absolute : Bool) (p q : List Str)
    (h : folder here resolve absolute p = .ok q) :
    here q = true ∧ (absolute = true → lit ".." ∉ p → q <+: p) ∧ (absolute = false ∨ lit ".." ∈ p → q <+: resolve p) := by
  have h1 := ((C79_nearest here _).1 q).1 h
  refine ⟨h1.2.1, fun ha hp => ?_, fun ha => ?_⟩
  · have : p.contains (lit "..") = false := by simpa using hp
    simpa only [ha, this, Bool.not_true, Bool.or_self, Bool.false_eq_true, if_false] using h1.1
  · have : (!absolute || p.contains (lit "..")) = true := by
      rcases ha with ha | ha
      · simp [ha]
      · rw [List.contains_iff_mem.2 ha]; simp
    simpa only [this, if_true] using h1.1

example : folderAt (fun p => p.length < 3) [['a'], ['b'], ['c'], ['d']] = .ok [['a'], ['b']] := by decide +kernel
example : folderAt (fun _ => false) [['a'], ['b'], ['c'], ['d']] = .error .valueError := by decide +kernel

/-- C78: whatever the tags are, `version_tag` is the version that follows the name and a dash in the first tag that begins with
them, and there is none exactly if no tag does. -/
theorem C78_nearest_law (parse : Str → Option Version) (name : Str) (texts : List Str) :
    (versionTag parse true name texts = .ok none ↔ ∀ t ∈ texts, ¬ name ++ ['-'] <+: t) ∧
    ∀ before v after, texts = before ++ (name ++ ['-'] ++ v) :: after → (∀ t ∈ before, ¬ name ++ ['-'] <+: t) →
      versionTag parse true name texts = want parse (some v) := by
  have hlaw : ∀ before v after, texts = before ++ (name ++ ['-'] ++ v) :: after → (∀ t ∈ before, ¬ name ++ ['-'] <+: t) →
      versionTag parse true name texts = want parse (some v) := by
    rintro before v after rfl hb
    simp only [versionTag, tagNearest, if_true]
    have : (before ++ (name ++ ['-'] ++ v) :: after).find? (fun t => (name ++ ['-']).isPrefixOf t) = some (name ++ ['-'] ++ v) := by
      rw [List.find?_append, List.find?_eq_none.2 (fun t ht => by simpa [List.isPrefixOf_iff_prefix] using hb t ht), Option.none_or,
        List.find?_cons_of_pos]
      rw [List.isPrefixOf_iff_prefix]; exact List.prefix_append _ _
    rw [this, tagVersion_own]; rfl
  refine ⟨?_, hlaw⟩
  constructor
  · intro h t ht hp
    have hsome : (texts.find? fun t => (name ++ ['-']).isPrefixOf t).isSome := by
      rw [List.find?_isSome]; exact ⟨t, ht, List.isPrefixOf_iff_prefix.2 hp⟩
    obtain ⟨u, hu⟩ := Option.isSome_iff_exists.1 hsome
    obtain ⟨h1, before, after, he, hb⟩ := List.find?_eq_some_iff_append.1 hu
    obtain ⟨v, rfl⟩ := List.isPrefixOf_iff_prefix.1 h1
    rw [hlaw before v after he (fun t ht hp => by
      have := hb t ht
      rw [List.isPrefixOf_iff_prefix.2 hp] at this; exact nomatch this)] at h
    simp only [want] at h
    cases hpv : parse v <;> simp [hpv] at h
  · intro h
    simp only [versionTag, tagNearest, if_true]
    rw [List.find?_eq_none.2 (fun t ht => by simpa [List.isPrefixOf_iff_prefix] using h t ht)]
    rfl

/-- C78: whatever the releases are, `version_latest_github` is read from the first of them that has the name of the package anywhere
in it, after as many characters as the name and a dash have. -/
theorem C78_github_law (parse : Str → Option Version) (name : Str) (hn : name ≠ []) (texts : List Str) :
    (versionLatestGithub parse true name (some texts) = .ok none ↔ ∀ t ∈ texts, ¬ name <:+: t) ∧
    ∀ before t after, texts = before ++ t :: after → name <:+: t → (∀ t ∈ before, ¬ name <:+: t) →
      versionLatestGithub parse true name (some texts) = want parse (some (t.drop (name.length + 1))) := by
  have hlaw : ∀ before t after, texts = before ++ t :: after → name <:+: t → (∀ t ∈ before, ¬ name <:+: t) →
      versionLatestGithub parse true name (some texts) = want parse (some (t.drop (name.length + 1))) := by
    rintro before t after rfl ht hb
    have hne : t.isEmpty = false := by
      rw [List.isEmpty_eq_false_iff]
      rintro rfl
      exact hn (List.infix_nil.1 ht)
    simp only [versionLatestGithub, tagLatestGithub, if_true]
    have : (before ++ t :: after).find? (within name) = some t := by
      rw [List.find?_append, List.find?_eq_none.2 (fun t ht => by simpa [within_iff] using hb t ht), Option.none_or,
        List.find?_cons_of_pos]
      rw [within_iff]; exact ht
    rw [List.head?_filter, this]
    simp only [tagVersion, hne, Bool.false_eq_true, if_false, if_true, want]
    cases parse (t.drop (name.length + 1)) <;> rfl
  refine ⟨?_, hlaw⟩
  constructor
  · intro h t ht hp
    have hsome : (texts.find? (within name)).isSome := by
      rw [List.find?_isSome]; exact ⟨t, ht, (within_iff _ _).2 hp⟩
    obtain ⟨u, hu⟩ := Option.isSome_iff_exists.1 hsome
    obtain ⟨h1, before, after, he, hb⟩ := List.find?_eq_some_iff_append.1 hu
    rw [hlaw before u after he ((within_iff _ _).1 h1) (fun t ht => by simpa [← within_iff] using hb t ht)] at h
    simp only [want] at h
    cases hpv : parse (u.drop (name.length + 1)) <;> simp [hpv] at h
  · intro h
    simp only [versionLatestGithub, tagLatestGithub, if_true]
    rw [List.head?_filter, List.find?_eq_none.2 (fun t ht => by simpa [within_iff] using h t ht)]
    rfl

end Verif.Pep440
