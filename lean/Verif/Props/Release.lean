import Verif.Model.Release
import Verif.Props.Package
import Verif.Props.Url
import Verif.Lemmas.Decide
import Verif.Lemmas.Str

/-!
# C134: the commits since the last release, C135: bumping the version, C136: the command that makes a release
-/

namespace Verif.Pep440

open Verif.Pep440.Spec

/-! ## C134 -/

/-- What the list says about a commit: the date, the author, the hash and the subject. -/
def about (c : Rec) : Str := c.date ++ [' '] ++ c.author ++ [' '] ++ c.hash ++ [' '] ++ c.subject

/-- The tag is one of a release of the package: the version, after the name and a dash if there are other packages. -/
def IsRelease (prefixed : Bool) (name t : Str) : Prop :=
  ∃ v : Str, v.head?.any isDigit = true ∧ t = if prefixed then name ++ '-' :: v else v

/-- The commit changes one of the files, or something below one of the folders. -/
def Changes (c : Rec) (paths : List (List Str)) : Prop := ∃ p ∈ paths, ∃ q, p ++ q ∈ c.changes

instance (c : Rec) (paths : List (List Str)) : Decidable (Changes c paths) :=
  decidable_of_iff ((c.changes.any fun f => paths.any fun p => p.isPrefixOf f) = true) (by
    simp only [List.any_eq_true, List.isPrefixOf_iff_prefix, Changes]
    constructor
    · rintro ⟨f, hf, p, hp, q, rfl⟩
      exact ⟨p, hp, q, hf⟩
    · rintro ⟨p, hp, q, hq⟩
      exact ⟨_, hq, p, hp, q, rfl⟩)

theorem unquote_printed (c : Rec) : unquote c.printed = about c := by
  have h : c.printed = '\'' :: (about c ++ ['\'']) := by simp [Rec.printed, about]
  rw [h, unquote, List.drop_succ_cons, List.drop_zero, List.dropLast_concat]

theorem about_ne (c : Rec) : about c ≠ [] := by simp [about]

/-- What is printed is read back. -/
theorem read_back (l : List Rec) (h : ∀ c ∈ l, '\n' ∉ about c) :
    ((splitC '\n' (joinC '\n' (l.map Rec.printed))).map unquote).filter (fun e => decide (e ≠ [])) = l.map about := by
  cases l with
  | nil => rfl
  | cons c l =>
    rw [splitC_joinC (by simp) (by
      intro w hw
      obtain ⟨d, hd, rfl⟩ := List.mem_map.1 hw
      have := h d hd
      have hp : d.printed = '\'' :: (about d ++ ['\'']) := by simp [Rec.printed, about]
      rw [hp]
      simp [this])]
    rw [List.map_map]
    have : (unquote ∘ Rec.printed) = about := funext unquote_printed
    rw [this, List.filter_eq_self]
    intro e he
    obtain ⟨d, -, rfl⟩ := List.mem_map.1 he
    simpa using about_ne d

/-- The paths that are looked at: the files of a release, or the folder where the list of them cannot be made. -/
def released (folder : List Str) : Except PyErr (List (List Str)) → List (List Str)
  | .ok fs => fs.map (folder ++ ·)
  | .error _ => [folder]

/-- The pattern takes a tag. -/
def taken (prefixed : Bool) (name t : Str) : Bool := if prefixed then (name ++ ['-']).isPrefixOf t else t.head?.any isDigit

theorem taken_release {prefixed : Bool} {name t : Str} (h : IsRelease prefixed name t) : taken prefixed name t = true := by
  obtain ⟨v, hv, rfl⟩ := h
  cases prefixed with
  | false => simpa [taken] using hv
  | true => simp [taken]

theorem nearest_split (prefixed : Bool) (name : Str) (new : List Rec) (c : Rec) (old : List Rec)
    (hn : ∀ d ∈ new, ∀ t ∈ d.tags, taken prefixed name t = false) (hc : ∃ t ∈ c.tags, taken prefixed name t = true) :
    ∃ t ∈ c.tags, taken prefixed name t = true ∧ tagNearest prefixed name ((new ++ c :: old).flatMap Rec.tags) = some t := by
  have h1 : (new.flatMap Rec.tags).find? (taken prefixed name) = none := by
    rw [List.find?_eq_none]
    intro t ht
    obtain ⟨d, hd, htd⟩ := List.mem_flatMap.1 ht
    simp [hn d hd t htd]
  have h2 : ∃ t, c.tags.find? (taken prefixed name) = some t := by
    obtain ⟨t, ht, hk⟩ := hc
    cases hf : c.tags.find? (taken prefixed name) with
    | some t => exact ⟨t, rfl⟩
    | none => exact absurd hk (by simpa using List.find?_eq_none.1 hf t ht)
  obtain ⟨t, ht⟩ := h2
  refine ⟨t, List.mem_of_find?_eq_some ht, by simpa using List.find?_some ht, ?_⟩
  have : tagNearest prefixed name = fun l => l.find? (taken prefixed name) := rfl
  rw [this]
  simp [List.flatMap_append, List.find?_append, h1, ht]

theorem taken_ne {prefixed : Bool} {name t : Str} (h : taken prefixed name t = true) : t ≠ [] := by
  rintro rfl
  cases prefixed <;> simp [taken] at h

theorem commitsSince_eq (prefixed : Bool) (name : Str) (folder : List Str) (files : Except PyErr (List (List Str)))
    (history : List Rec) (hf : ∀ e, files = .error e → e = .fileNotFoundError) (hne : history ≠ []) (tag : Option Str)
    (ht : tagText (tagNearest prefixed name (history.flatMap Rec.tags)) = tag)
    (hl : ∀ c ∈ history, '\n' ∉ about c) :
    commitsSince prefixed name folder files history =
      .ok (((range history tag).filter fun c => Changes c (released folder files)).map about) := by
  have hr : releasePaths folder files = .ok (released folder files) := by
    cases files with
    | ok fs => rfl
    | error e => rw [hf e rfl]; rfl
  have hsub : ∀ c ∈ range history tag, c ∈ history := by
    intro c hc
    cases tag with
    | none => simp [range] at hc
    | some t => exact (List.takeWhile_sublist _).subset hc
  unfold commitsSince
  rw [hr]
  dsimp only
  rw [ht, gitLog, if_neg (by simpa using hne)]
  dsimp only
  rw [read_back _ (fun c hc => hl c (hsub c (List.mem_filter.1 hc).1))]
  congr 2
  apply List.filter_congr
  intro c _
  rw [Bool.eq_iff_iff, decide_eq_true_iff]
  simp only [List.any_eq_true, List.isPrefixOf_iff_prefix, Changes]
  constructor
  · rintro ⟨f, hf, p, hp, q, rfl⟩
    exact ⟨p, hp, q, hf⟩
  · rintro ⟨p, hp, q, hq⟩
    exact ⟨_, hq, p, hp, q, rfl⟩

/-- C134 (part): after a release of the package, the list has exactly the commits after the latest release that change a file
of the next one (or anything in the folder, if the list of those files cannot be made), the latest first, each with its date,
author, hash and subject; if no tag after that release begins like those of the package.  (Full claim: without this hypothesis,
and before the first release all commits.) -/
theorem C134_since_partial (prefixed : Bool) (name : Str) (folder : List Str) (files : Except PyErr (List (List Str)))
    (new : List Rec) (c : Rec) (old : List Rec) (hf : ∀ e, files = .error e → e = .fileNotFoundError)
    (hl : ∀ d ∈ new ++ c :: old, '\n' ∉ about d) (hc : ∃ t ∈ c.tags, IsRelease prefixed name t)
    (hn : ∀ d ∈ new, ∀ t ∈ d.tags, ¬ IsRelease prefixed name t)
    (ho : ∀ d ∈ new, ∀ t ∈ d.tags, prefixed = true → name ++ ['-'] <+: t → IsRelease prefixed name t) :
    commitsSince prefixed name folder files (new ++ c :: old) =
      .ok ((new.filter fun d => Changes d (released folder files)).map about) := by
  have hn' : ∀ d ∈ new, ∀ t ∈ d.tags, taken prefixed name t = false := by
    intro d hd t ht
    rw [Bool.eq_false_iff]
    intro hk
    refine hn d hd t ht ?_
    cases prefixed with
    | true => exact ho d hd t ht rfl (by simpa [taken, List.isPrefixOf_iff_prefix] using hk)
    | false => exact ⟨t, by simpa [taken] using hk, rfl⟩
  obtain ⟨t, htc, hk, hnear⟩ := nearest_split prefixed name new c old hn' (by
    obtain ⟨t, ht, hr⟩ := hc
    exact ⟨t, ht, taken_release hr⟩)
  rw [commitsSince_eq prefixed name folder files _ hf (by simp) (some t) (by
    rw [hnear]
    have := taken_ne hk
    cases t with
    | nil => exact absurd rfl this
    | cons x xs => rfl) hl]
  have hrange : range (new ++ c :: old) (some t) = new := by
    rw [range, List.takeWhile_append_of_pos]
    · rw [List.takeWhile_cons_of_neg (by simpa using htc), List.append_nil]
    · intro d hd
      rw [Bool.not_eq_true']
      rw [Bool.eq_false_iff]
      intro hm
      rw [hn' d hd t (by simpa using hm)] at hk
      exact Bool.noConfusion hk
  rw [hrange]

/-- C134: without a tag that begins like those of the package nothing is listed, whatever was committed. -/
theorem C134_never (prefixed : Bool) (name : Str) (folder : List Str) (files : Except PyErr (List (List Str)))
    (history : List Rec) (hf : ∀ e, files = .error e → e = .fileNotFoundError) (hne : history ≠ [])
    (h : ∀ c ∈ history, ∀ t ∈ c.tags, if prefixed then ¬ name ++ ['-'] <+: t else t.head?.any isDigit = false) :
    commitsSince prefixed name folder files history = .ok [] := by
  have hnone : tagNearest prefixed name (history.flatMap Rec.tags) = none := by
    rw [tagNearest, List.find?_eq_none]
    intro t ht
    obtain ⟨c, hc, htc⟩ := List.mem_flatMap.1 ht
    have := h c hc t htc
    cases prefixed with
    | true => simpa [List.isPrefixOf_iff_prefix] using this
    | false => simpa using this
  have hr : ∃ rfs, releasePaths folder files = .ok rfs := by
    cases files with
    | ok fs => exact ⟨_, rfl⟩
    | error e => rw [hf e rfl]; exact ⟨_, rfl⟩
  obtain ⟨rfs, hr⟩ := hr
  unfold commitsSince
  rw [hr]
  dsimp only
  rw [hnone, gitLog, if_neg (by simpa using hne)]
  rfl

/-- C134 is false before the first release: a package with a commit has none since its last release. -/
theorem C134_never_counterexample : ∃ c : Rec, Changes c (released [] (.ok [[lit "setup.py"]])) ∧
    commitsSince false (lit "foo") [] (.ok [[lit "setup.py"]]) [c] = .ok [] :=
  ⟨⟨lit "2026-11-17T00:00:00+00:00", lit "me", lit "abc", lit "first", [], [[lit "setup.py"]]⟩, by decide, by decide +kernel⟩

/-- C134 is false where the tag of another package begins with the name of the package and a dash: what came before it is missing. -/
theorem C134_other_counterexample : ∃ a b c : Rec, (∃ t ∈ c.tags, IsRelease true (lit "foo") t) ∧
    (∀ d ∈ [a, b], ∀ t ∈ d.tags, ¬ IsRelease true (lit "foo") t) ∧
    Changes b (released [lit "foo"] (.ok [[lit "setup.py"]])) ∧
    commitsSince true (lit "foo") [lit "foo"] (.ok [[lit "setup.py"]]) [a, b, c] = .ok [] := by
  refine ⟨⟨lit "3", lit "me", lit "c", lit "x", [lit "foo-bar-2"], []⟩,
    ⟨lit "2", lit "me", lit "b", lit "x", [], [[lit "foo", lit "setup.py"]]⟩,
    ⟨lit "1", lit "me", lit "a", lit "x", [lit "foo-1"], []⟩, ⟨lit "foo-1", by simp, lit "1", by decide, by decide⟩, ?_, by decide, by decide +kernel⟩
  intro d hd t ht
  simp only [List.mem_cons, List.not_mem_nil, or_false] at hd
  rcases hd with rfl | rfl
  · simp only [List.mem_cons, List.not_mem_nil, or_false] at ht
    subst ht
    rintro ⟨v, hv, h⟩
    have : v = lit "bar-2" := by
      have h2 : lit "foo-bar-2" = lit "foo" ++ '-' :: lit "bar-2" := by decide
      rw [if_pos rfl, h2] at h
      simpa using h.symm
    subst this
    exact absurd hv (by decide)
  · simp at ht

/-- C134: without a commit there is no list; and other failures of the list of files come through. -/
theorem C134_raises (prefixed : Bool) (name : Str) (folder : List Str) (files : Except PyErr (List (List Str))) :
    (∀ e, files = .error e → e ≠ .fileNotFoundError → ∀ history, commitsSince prefixed name folder files history = .error e) ∧
    ((∀ e, files = .error e → e = .fileNotFoundError) → commitsSince prefixed name folder files [] = .error .gitError) := by
  constructor
  · rintro e rfl he history
    cases e <;> first | rfl | exact absurd rfl he
  · intro h
    cases files with
    | ok fs => rfl
    | error e => rw [h e rfl]; rfl

/-- Cases that meet the hypotheses: two commits after a release, one of them elsewhere; with a quote in the subject. -/
example : commitsSince true (lit "foo") [lit "foo"] (.ok [[lit "setup.py"]])
    [⟨lit "3", lit "me", lit "c", lit "don't", [], [[lit "foo", lit "setup.py"]]⟩,
     ⟨lit "2", lit "me", lit "b", lit "x", [lit "other-1"], [[lit "bar", lit "setup.py"]]⟩,
     ⟨lit "1", lit "me", lit "a", lit "x", [lit "foo-1"], [[lit "foo", lit "setup.py"]]⟩] = .ok [lit "3 me c don't"] := by decide +kernel

example : commitsSince true (lit "foo") [lit "foo"] (.error .fileNotFoundError)
    [⟨lit "3", lit "me", lit "c", lit "x", [], [[lit "foo", lit "any"]]⟩,
     ⟨lit "1", lit "me", lit "a", lit "x", [lit "foo-1"], []⟩] = .ok [lit "3 me c x"] := by decide +kernel

/-! ## C135 -/

/-- C135: exactly when `bump` gets to its end: there is a next version, it is not that of the repository, the index does not have it as
its latest, and for a pretended one there is a package with the name. -/
theorem C135_iff (parse : Str → Option Version) (s : Sources) (third : Option Index) (next comp : Word) (pretend : Bool) (name : Str)
    (packages : List Str) :
    bump parse s third next comp pretend name packages = .ok () ↔
      ∃ nv r, versionNext parse s next comp = .ok nv ∧ parse s.repo = some r ∧ ¬ Same nv r ∧ (pretend = true → name ∈ packages) ∧
        ((∃ i, (if s.first.isSome then s.first else if s.second.isSome then s.second else third) = some i ∧
          ∃ vs m, i.releases.mapM parse = some vs ∧ latest vs = some m ∧ ¬ Same nv m) ∨
         s.first = none ∧ s.second = none ∧ third = none) := by
  have hm : hasModule name packages = true ↔ name ∈ packages := by
    simp only [hasModule, List.any_eq_true, decide_eq_true_eq]
    constructor
    · rintro ⟨x, hx, rfl⟩; exact hx
    · exact fun h => ⟨name, h, rfl⟩
  have hk : (if s.first.isSome then s.first else if s.second.isSome then s.second else third) = none ↔
      s.first = none ∧ s.second = none ∧ third = none := by
    cases s.first <;> cases s.second <;> simp
  unfold bump
  cases hv : versionNext parse s next comp with
  | error e => simp
  | ok nv =>
    dsimp only
    generalize hkd : (if s.first.isSome then s.first else if s.second.isSome then s.second else third) = kept at hk ⊢
    cases kept with
    | none =>
      obtain ⟨h1, h2, h3⟩ := hk.1 rfl
      simp only [latestReleased, Option.any_none, Bool.false_eq_true, if_false]
      cases hr : parse s.repo with
      | none => simp
      | some r =>
        dsimp only
        by_cases hs : veq nv r = true
        · rw [if_pos hs]
          have := (veq_iff _ _).1 hs
          simp [this]
        · rw [if_neg hs]
          have : ¬ Same nv r := fun h => hs ((veq_iff _ _).2 h)
          cases pretend with
          | false => simp [this, h1, h2, h3]
          | true => cases hp : hasModule name packages <;> simp_all
    | some i =>
      have hno : ¬ (s.first = none ∧ s.second = none ∧ third = none) := fun h => by simpa using hk.2 h
      simp only [latestReleased]
      cases hvs : i.releases.mapM parse with
      | none => simp [hno, hvs]
      | some vs =>
        cases hl : latest vs with
        | none => simp [hno, hvs, hl]
        | some m =>
          dsimp only
          rw [hl]
          simp only [Option.any_some]
          by_cases hs : veq nv m = true
          · rw [if_pos hs]
            have := (veq_iff _ _).1 hs
            simp [hno, hvs, hl, this]
          · rw [if_neg hs]
            have hs' : ¬ Same nv m := fun h => hs ((veq_iff _ _).2 h)
            cases hr : parse s.repo with
            | none => simp
            | some r =>
              dsimp only
              by_cases hs : veq nv r = true
              · rw [if_pos hs]
                have := (veq_iff _ _).1 hs
                simp [this]
              · rw [if_neg hs]
                have : ¬ Same nv r := fun h => hs ((veq_iff _ _).2 h)
                cases pretend with
                | false => simp [this, hvs, hl, hs']
                | true => cases hp : hasModule name packages <;> simp_all

theorem mapM_mem' {α β : Type} (f : α → Option β) (l : List α) (vs : List β) (h : l.mapM f = some vs) :
    ∀ b ∈ vs, ∃ a ∈ l, f a = some b := by
  induction l generalizing vs with
  | nil => simp only [List.mapM_nil, Option.pure_def, Option.some.injEq] at h; subst h; simp
  | cons a as ih =>
    rw [List.mapM_cons] at h
    cases ha : f a with
    | none => simp [ha] at h
    | some b =>
      cases has : as.mapM f with
      | none => simp [ha, has] at h
      | some bs =>
        simp only [ha, has, Option.bind_eq_bind, Option.bind_some, Option.pure_def, Option.some.injEq] at h
        subst h
        intro x hx
        rcases List.mem_cons.1 hx with rfl | hx
        · exact ⟨a, by simp, ha⟩
        · obtain ⟨y, hy, hy'⟩ := ih bs has x hx
          exact ⟨y, by simp [hy], hy'⟩

theorem same_refl (v : Version) : Same v v := by
  rcases lt_total v v with h | h | h
  · exact absurd h (lt_irrefl v)
  · exact h
  · exact absurd h (lt_irrefl v)

/-- C135: the branch that "we should never hit" is not taken when the index answers the first request. -/
theorem C135_never_released_partial (parse : Str → Option Version) (hp : ∀ s v, parse s = some v → v.release ≠ []) (s : Sources)
    (third : Option Index) (next comp : Word) (hc : IsComponent comp) (pretend : Bool) (name : Str) (packages : List Str)
    (hf : s.first.isSome = true) : bump parse s third next comp pretend name packages ≠ .error .released := by
  obtain ⟨i, hi⟩ := Option.isSome_iff_exists.1 hf
  unfold bump
  cases hv : versionNext parse s next comp with
  | error e => simp
  | ok nv =>
    dsimp only
    rw [if_pos hf, hi]
    simp only [latestReleased]
    cases hvs : i.releases.mapM parse with
    | none => simp
    | some vs =>
      dsimp only
      cases hl : latest vs with
      | none => simp
      | some m =>
        dsimp only
        obtain ⟨hm, -⟩ := latest_spec vs m hl
        obtain ⟨x, hx, hxm⟩ : ∃ x ∈ i.releases, parse x = some m := mapM_mem' parse i.releases vs hvs m hm
        have := C77_never_released parse hp s i next comp hc nv hi hv x hx m hxm
        rw [if_neg (by simp [this])]
        cases parse s.repo with
        | none => simp
        | some r =>
          dsimp only
          repeat' split
          all_goals simp

/-- C135: for a package that the index does not have, `bump` always refuses: what comes next is the version that the repository has. -/
theorem C135_unreleased (parse : Str → Option Version) (s : Sources) (next comp : Word) (pretend : Bool) (name : Str)
    (packages : List Str) (h1 : s.first = none) (h2 : s.second = none) (v : Version) (hv : parse s.repo = some v) :
    bump parse s none next comp pretend name packages = .error .bumped := by
  have hs : veq v v = true := (veq_iff v v).2 (same_refl v)
  simp [bump, versionNext, latestPypi, latestReleased, h1, h2, hv, hs]

/-- C135 is false if the index answers the third request only: then the version of the repository can be a released one. -/
theorem C135_late_counterexample :
    bump digits ⟨none, none, lit "9"⟩ (some ⟨lit "9", [lit "9"]⟩) .release .release false (lit "foo") [] = .error .released := by
  decide +kernel

/-- Cases that meet the hypotheses: one that goes through, one that was bumped already, one that has no package of the name. -/
example : bump digits ⟨some ⟨lit "10", [lit "9", lit "10"]⟩, none, lit "10"⟩ none .release .release true (lit "foo") [lit "foo"] = .ok () ∧
    bump digits ⟨some ⟨lit "10", [lit "9", lit "10"]⟩, none, lit "11"⟩ none .release .release false (lit "foo") [lit "foo"] = .error .bumped ∧
    bump digits ⟨some ⟨lit "10", [lit "9", lit "10"]⟩, none, lit "10"⟩ none .release .release true (lit "foo") [lit "bar"] =
      .error .noModule := by decide +kernel

/-! ## C136 -/

theorem address_split (g r : Str) (ref rel : List Str) : ∃ x : Str,
    Url.address g r ref rel = lit "https://github.com/" ++ (g ++ '/' :: (r ++ '/' :: x)) := by
  unfold Url.address
  generalize lit "https://github.com/" = a
  generalize lit "blob" = b
  exact ⟨joinC '/' (b :: (ref ++ rel)), by rw [List.append_assoc]; rfl⟩

open Url in
theorem orgRepo_eq (g r : Str) (hg : Name g) (hr : Name r) (ref rel : List Str) (hne : ref ≠ [])
    (href : ∀ w ∈ ref, w ≠ [] ∧ w ≠ ['.'] ∧ '/' ∉ w) (url : Str)
    (hu : url = sshForm g (r ++ lit ".git") ∨ url = httpsForm g (r ++ lit ".git")) :
    orgRepo url (joinC '/' ref) ⟨[], rel⟩ = .ok (g, r) := by
  have h := C62_same_address_partial g r hg hr ref rel hne href
  have ha : remoteUriHuman url (joinC '/' ref) ⟨[], rel⟩ = .ok (address g r ref rel) := by
    rcases hu with rfl | rfl
    · exact h.1
    · exact h.2
  rw [orgRepo, ha]
  dsimp only
  have hcut : ∃ tail : Str, (urlparse (address g r ref rel)).2 = '/' :: (g ++ '/' :: (r ++ '/' :: tail)) := by
    obtain ⟨x, hx⟩ := address_split g r ref rel
    refine ⟨x.takeWhile fun c => decide (c ≠ '?' ∧ c ≠ '#'), ?_⟩
    rw [hx]
    have h1 : Ssh.splitColon (lit "https://github.com/" ++ (g ++ '/' :: (r ++ '/' :: x))) =
        some (lit "https", lit "//github.com/" ++ (g ++ '/' :: (r ++ '/' :: x))) :=
      Ssh.splitColon_append (h := lit "https") (p := lit "//github.com/" ++ (g ++ '/' :: (r ++ '/' :: x))) (by simp [lit])
    simp only [urlparse, h1]
    show (let netloc := (lit "github.com" ++ '/' :: (g ++ '/' :: (r ++ '/' :: x))).takeWhile _
      ((lit "github.com" ++ '/' :: (g ++ '/' :: (r ++ '/' :: x))).drop netloc.length).takeWhile _) = _
    rw [takeWhile_stop _ (lit "github.com") '/' _ (by simp [lit]) (by decide)]
    simp only [List.drop_left]
    rw [List.takeWhile_cons_of_pos (by decide), List.takeWhile_append_of_pos, List.takeWhile_cons_of_pos (by decide),
      List.takeWhile_append_of_pos, List.takeWhile_cons_of_pos (by decide)]
    · intro c hc; have := hr.2.2 c hc; simpa using this.2.2
    · intro c hc; have := hg.2.2 c hc; simpa using this.2.2
  obtain ⟨tail, ht⟩ := hcut
  have hs : splitC '/' ('/' :: (g ++ '/' :: (r ++ '/' :: tail))) = [] :: g :: r :: splitC '/' tail := by
    have h0 : '/' :: (g ++ '/' :: (r ++ '/' :: tail)) = [] ++ '/' :: (g ++ '/' :: (r ++ '/' :: tail)) := rfl
    rw [h0, splitC_append_sep (by simp), splitC_append_sep hg.slash, splitC_append_sep hr.slash]
  rw [ht, hs]

open Url in
/-- C136 (part): the command names, in this order, the group and the repository of the remote, the folder, the package and the
version, each as one word, if the remote ends in `.git` and none of them has a space.  (Full claim: without these hypotheses.) -/
theorem C136_words_partial (g r : Str) (hg : Name g) (hr : Name r) (ref rel : List Str) (hne : ref ≠ [])
    (href : ∀ w ∈ ref, w ≠ [] ∧ w ≠ ['.'] ∧ '/' ∉ w) (url : Str)
    (hu : url = sshForm g (r ++ lit ".git") ∨ url = httpsForm g (r ++ lit ".git")) (folder : List Str) (name version : Str)
    (hs : ∀ w ∈ [g, r, joinC '/' folder, name, version], ' ' ∉ w) :
    ∃ text, command url (joinC '/' ref) ⟨[], rel⟩ folder name version = .ok text ∧
      splitC ' ' text = [lit "build-release", g, r, joinC '/' folder, name, version] := by
  refine ⟨joinC ' ' [lit "build-release", g, r, joinC '/' folder, name, version], ?_, ?_⟩
  · rw [command, orgRepo_eq g r hg hr ref rel hne href url hu]
    simp [joinC, lit]
  · refine splitC_joinC (by simp) ?_
    intro w hw
    rcases List.mem_cons.1 hw with rfl | hw
    · decide
    · exact hs w hw

/-- C136 is false for folders with a space in their name: the command has one word more. -/
theorem C136_space_counterexample :
    command (lit "https://github.com/g/r.git") (lit "master") ⟨[], [lit "f"]⟩ [lit "r", lit "a b"] (lit "p") (lit "1") =
      .ok (lit "build-release g r r/a b p 1") := by decide +kernel

/-- C136 is false for a remote without `.git` whose repository has a dot in its name: another one is named. -/
theorem C136_dotted_counterexample :
    command (lit "https://github.com/g/my.repo") (lit "master") ⟨[], [lit "f"]⟩ [lit "my.repo"] (lit "p") (lit "1") =
      .ok (lit "build-release g my my.repo p 1") := by decide +kernel

/-- A case that meets the hypotheses. -/
example : command (lit "git@github.com:tgbugs/augpathlib.git") (lit "master") ⟨[], [lit "setup.py"]⟩ [lit "augpathlib"]
    (lit "augpathlib") (lit "0.0.32") = .ok (lit "build-release tgbugs augpathlib augpathlib augpathlib 0.0.32") := by decide +kernel

/-- C136 is false for a remote whose address has a fragment before its second part: there is no command, but an exception about unpacking. -/
theorem C136_fragment_counterexample :
    command (lit "https://github.com/#/r.git") (lit "master") ⟨[], [lit "f"]⟩ [lit "r"] (lit "p") (lit "1") = .error .valueError := by decide +kernel

end Verif.Pep440
