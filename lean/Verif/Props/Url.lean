import Verif.Lemmas.Decide
import Verif.Lemmas.Symlink
import Verif.Lemmas.Ssh
import Verif.Model.Url

/-!
# C62: web addresses
-/

namespace Verif.Url

open Verif.Symlink

/-- A name that can stand in an address: not empty, not a dot, and without the characters that
separate the parts of an address. -/
def Name (n : Str) : Prop := n ≠ [] ∧ n ≠ ['.'] ∧ ∀ c ∈ n, c ≠ '/' ∧ c ≠ ':' ∧ c ≠ '?' ∧ c ≠ '#'

/-- The ssh form of a remote. -/
def sshForm (group file : Str) : Str := lit "git@github.com:" ++ group ++ '/' :: file

/-- The https form of a remote. -/
def httpsForm (group file : Str) : Str := lit "https://github.com/" ++ group ++ '/' :: file

/-- The address of a file that a person would look up. -/
def address (group repo : Str) (ref rel : List Str) : Str :=
  lit "https://github.com/" ++ joinC '/' ([group, repo, lit "blob"] ++ ref ++ rel)

theorem Name.slash {n : Str} (h : Name n) : '/' ∉ n := fun hm => (h.2.2 _ hm).1 rfl
theorem Name.colon {n : Str} (h : Name n) : ':' ∉ n := fun hm => (h.2.2 _ hm).2.1 rfl
theorem Name.quest {n : Str} (h : Name n) : '?' ∉ n := fun hm => (h.2.2 _ hm).2.2.1 rfl
theorem Name.hash {n : Str} (h : Name n) : '#' ∉ n := fun hm => (h.2.2 _ hm).2.2.2 rfl
theorem Name.comp {n : Str} (h : Name n) : n ≠ [] ∧ n ≠ ['.'] ∧ '/' ∉ n := ⟨h.1, h.2.1, h.slash⟩

theorem Name.git {n : Str} (h : Name n) : Name (n ++ lit ".git") := by
  refine ⟨by simp [lit], ?_, ?_⟩
  · intro he
    have := congrArg List.length he
    simp [lit] at this
  · intro c hc
    rcases List.mem_append.1 hc with hc | hc
    · exact h.2.2 c hc
    · simp [lit] at hc
      rcases hc with rfl | rfl | rfl | rfl <;> decide

theorem parse_abs (comps : List Str) (h : ∀ w ∈ comps, w ≠ [] ∧ w ≠ ['.'] ∧ '/' ∉ w) (hne : comps ≠ []) :
    parse ('/' :: joinC '/' comps) = ⟨['/'], comps⟩ := by
  have hs : splitC '/' (joinC '/' comps) = comps := splitC_joinC hne fun w hw => (h w hw).2.2
  have hf : comps.filter (fun w => decide (w ≠ [] ∧ w ≠ ['.'])) = comps := by
    rw [List.filter_eq_self]
    intro w hw
    simp [(h w hw).1, (h w hw).2.1]
  have hroot : ∀ s, joinC '/' comps ≠ '/' :: s := by
    intro s hs'
    rw [hs'] at hs
    simp only [splitC, if_true] at hs
    exact (h [] (by rw [← hs]; simp)).1 rfl
  unfold parse
  congr 1
  · split
    · rename_i he; simp at he; exact absurd he (hroot _)
    · rename_i he; simp at he; exact absurd he (hroot _)
    · rfl
    · rename_i h1; exact absurd rfl (h1 _)
  · simp only [splitC, if_true, hs, List.filter_cons]
    simpa using hf

theorem stem_git {n : Str} (h : n ≠ []) : Zip.stem (n ++ lit ".git") = n := by
  have : rsplit1 '.' (n ++ '.' :: lit "git") = some (n, lit "git") := rsplit1_append (by simp [lit])
  simp only [Zip.stem]
  rw [show n ++ lit ".git" = n ++ '.' :: lit "git" from rfl, this]
  simp [h, lit]

theorem stem_plain {n : Str} (h : '.' ∉ n) : Zip.stem n = n := by
  simp [Zip.stem, rsplit1, splitC_of_not_mem h]

theorem takeWhile_stop {α : Type} (p : α → Bool) (l : List α) (x : α) (r : List α) (h : ∀ y ∈ l, p y = true)
    (hx : p x = false) : (l ++ x :: r).takeWhile p = l := by
  induction l with
  | nil => simp [hx]
  | cons y l ih =>
    simp only [List.cons_append, List.takeWhile_cons, h y (by simp), if_true]
    rw [ih (fun z hz => h z (by simp [hz]))]

theorem takeWhile_all {α : Type} (p : α → Bool) (l : List α) (h : ∀ y ∈ l, p y = true) : l.takeWhile p = l := by
  induction l with
  | nil => rfl
  | cons y l ih => simp only [List.takeWhile_cons, h y (by simp), if_true]; rw [ih (fun z hz => h z (by simp [hz]))]

theorem urlparse_https {g f : Str} (hg : Name g) (hf : Name f) :
    urlparse (httpsForm g f) = (lit "github.com", '/' :: g ++ '/' :: f) := by
  have h1 : Ssh.splitColon (httpsForm g f) = some (lit "https", lit "//github.com/" ++ g ++ '/' :: f) :=
    Ssh.splitColon_append (h := lit "https") (p := lit "//github.com/" ++ g ++ '/' :: f) (by simp [lit])
  simp only [urlparse, h1]
  show (let netloc := (lit "github.com" ++ '/' :: (g ++ '/' :: f)).takeWhile _
    (netloc, ((lit "github.com" ++ '/' :: (g ++ '/' :: f)).drop netloc.length).takeWhile _)) = _
  rw [takeWhile_stop _ (lit "github.com") '/' _ (by simp [lit]) (by decide)]
  simp only [List.drop_left, List.cons_append]
  rw [takeWhile_all]
  intro c hc
  simp only [List.mem_cons, List.mem_append] at hc
  rcases hc with rfl | hc | rfl | hc
  · decide
  · simpa using (hg.2.2 c hc).2.2
  · decide
  · simpa using (hf.2.2 c hc).2.2

theorem urlparse_ssh {g f : Str} (hg : Name g) (hf : Name f) :
    urlparse (lit "ssh://" ++ sshForm g f) = (lit "git@github.com:" ++ g, '/' :: f) := by
  have h1 : Ssh.splitColon (lit "ssh://" ++ sshForm g f) = some (lit "ssh", lit "//git@github.com:" ++ g ++ '/' :: f) :=
    Ssh.splitColon_append (h := lit "ssh") (p := lit "//git@github.com:" ++ g ++ '/' :: f) (by simp [lit])
  simp only [urlparse, h1]
  show (let netloc := ((lit "git@github.com:" ++ g) ++ '/' :: f).takeWhile _
    (netloc, (((lit "git@github.com:" ++ g) ++ '/' :: f).drop netloc.length).takeWhile _)) = _
  rw [takeWhile_stop _ (lit "git@github.com:" ++ g) '/' _ ?_ (by decide)]
  · simp only [List.drop_left]
    rw [takeWhile_all]
    intro c hc
    simp only [List.mem_cons] at hc
    rcases hc with rfl | hc
    · decide
    · simpa using (hf.2.2 c hc).2.2
  · intro c hc
    rcases List.mem_append.1 hc with hc | hc
    · have : ∀ c ∈ lit "git@github.com:", decide (c ≠ '/' ∧ c ≠ '?' ∧ c ≠ '#') = true := by decide
      exact this c hc
    · have := hg.2.2 c hc
      simp [this.1, this.2.2.1, this.2.2.2]

theorem remoteHelper_https {g f : Str} (hg : Name g) (hf : Name f) :
    remoteHelper (httpsForm g f) = .ok (lit "github.com", '/' :: joinC '/' [g, f]) := by
  have h0 : (lit "git@").isPrefixOf (httpsForm g f) = false := by rfl
  have h1 : (lit "git@github.com").isPrefixOf (lit "github.com") = false := by decide
  simp only [remoteHelper, h0, Bool.false_eq_true, if_false, urlparse_https hg hf, h1]
  simp [joinC]

theorem remoteHelper_ssh {g f : Str} (hg : Name g) (hf : Name f) :
    remoteHelper (sshForm g f) = .ok (lit "github.com", '/' :: joinC '/' [g, f]) := by
  have h0 : (lit "git@").isPrefixOf (sshForm g f) = true := by
    rw [List.isPrefixOf_iff_prefix]
    exact ⟨lit "github.com:" ++ g ++ '/' :: f, rfl⟩
  have h1 : (lit "git@github.com").isPrefixOf (lit "git@github.com:" ++ g) = true := by
    rw [List.isPrefixOf_iff_prefix]
    exact ⟨':' :: g, by simp [lit]⟩
  have h2 : splitC ':' (lit "git@github.com:" ++ g) = [lit "git@github.com", g] := by
    rw [show lit "git@github.com:" ++ g = lit "git@github.com" ++ ':' :: g from rfl,
      splitC_append_sep (by simp [lit]), splitC_of_not_mem hg.colon]
  simp only [remoteHelper, h0, if_true, urlparse_ssh hg hf, h1, h2]
  simp [joinC]

theorem withoutSuffix_two {g f : Str} (hg : Name g) (hf : Name f) :
    withoutSuffix (parse ('/' :: joinC '/' [g, f])) = .ok ⟨['/'], [g, Zip.stem f]⟩ := by
  rw [parse_abs [g, f] (by simp [hg.comp, hf.comp]) (by simp)]
  simp [withoutSuffix]

theorem join_str (g f : Str) (ref rel : List Str) :
    ((((Symlink.Pure.mk ['/'] [g, f]).join ⟨[], [lit "blob"]⟩).join ⟨[], ref⟩ ).join ⟨[], rel⟩).str =
      '/' :: joinC '/' ([g, f, lit "blob"] ++ ref ++ rel) := by
  simp [Symlink.Pure.join, Symlink.Pure.str]

theorem remoteUri_eq (pre : Str) {g f : Str} (hg : Name g) (hf : Name f) (ref rel : List Str) (hr : ref ≠ [])
    (href : ∀ w ∈ ref, w ≠ [] ∧ w ≠ ['.'] ∧ '/' ∉ w) (url : Str) (hu : url = sshForm g f ∨ url = httpsForm g f) :
    remoteUri pre (some (lit "blob")) url (joinC '/' ref) ⟨[], rel⟩ =
      .ok (pre ++ '/' :: joinC '/' ([g, Zip.stem f, lit "blob"] ++ ref ++ rel)) := by
  have hh : remoteHelper url = .ok (lit "github.com", '/' :: joinC '/' [g, f]) := by
    rcases hu with rfl | rfl
    · exact remoteHelper_ssh hg hf
    · exact remoteHelper_https hg hf
  have hb : parse (lit "blob") = ⟨[], [lit "blob"]⟩ := parse_single _ (by decide)
  rw [remoteUri, hh]
  dsimp only
  rw [if_pos rfl, withoutSuffix_two hg hf]
  dsimp only
  rw [hb, parse_joinC ref hr href, join_str]

/-- The address that the code computes, in terms of the stem of the file part of the remote. -/
theorem remoteUriHuman_eq {g f : Str} (hg : Name g) (hf : Name f) (ref rel : List Str) (hr : ref ≠ [])
    (href : ∀ w ∈ ref, w ≠ [] ∧ w ≠ ['.'] ∧ '/' ∉ w) (url : Str) (hu : url = sshForm g f ∨ url = httpsForm g f) :
    remoteUriHuman url (joinC '/' ref) ⟨[], rel⟩ = .ok (address g (Zip.stem f) ref rel) := by
  have hc : ∀ x : Str, lit "https://github.com" ++ '/' :: x = lit "https://github.com/" ++ x := fun _ => rfl
  have h := remoteUri_eq (lit "https://github.com") hg hf ref rel hr href url hu
  rw [hc] at h
  exact h

/-! ## C62 -/

/-- C62: for a remote whose address ends in `.git` (as github gives it), the ssh and the https form
lead to the same web address, which names exactly that group, repository, reference and file;
`clone_path` picks the name of the repository. -/
theorem C62_same_address_partial (g r : Str) (hg : Name g) (hr : Name r) (ref rel : List Str) (hne : ref ≠ [])
    (href : ∀ w ∈ ref, w ≠ [] ∧ w ≠ ['.'] ∧ '/' ∉ w) :
    remoteUriHuman (sshForm g (r ++ lit ".git")) (joinC '/' ref) ⟨[], rel⟩ = .ok (address g r ref rel) ∧
    remoteUriHuman (httpsForm g (r ++ lit ".git")) (joinC '/' ref) ⟨[], rel⟩ = .ok (address g r ref rel) := by
  have h1 := remoteUriHuman_eq hg hr.git ref rel hne href _ (.inl rfl)
  have h2 := remoteUriHuman_eq hg hr.git ref rel hne href _ (.inr rfl)
  rw [stem_git hr.1] at h1 h2
  exact ⟨h1, h2⟩

example : Name (lit "tgbugs") ∧ Name (lit "my.repo") ∧ [lit "master"] ≠ [] := by
  refine ⟨⟨by simp [lit], by simp [lit], by simp [lit]⟩, ⟨by simp [lit], by simp [lit], by simp [lit]⟩, by simp⟩

/-- The address of the content of a file. -/
def rawAddress (group repo : Str) (ref rel : List Str) : Str :=
  lit "https://raw.githubusercontent.com" ++ '/' :: joinC '/' ([group, repo] ++ ref ++ rel)

theorem remoteHelper_either {g r : Str} (hg : Name g) (hr : Name r) (url : Str)
    (hu : url = sshForm g (r ++ lit ".git") ∨ url = httpsForm g (r ++ lit ".git")) :
    remoteHelper url = .ok (lit "github.com", '/' :: joinC '/' [g, r ++ lit ".git"]) := by
  rcases hu with rfl | rfl
  · exact remoteHelper_ssh hg hr.git
  · exact remoteHelper_https hg hr.git

theorem remoteUri_plain (pre : Str) {g r : Str} (hg : Name g) (hr : Name r) (ref rel : List Str) (hne : ref ≠ [])
    (href : ∀ w ∈ ref, w ≠ [] ∧ w ≠ ['.'] ∧ '/' ∉ w) (url : Str)
    (hu : url = sshForm g (r ++ lit ".git") ∨ url = httpsForm g (r ++ lit ".git")) :
    remoteUri pre none url (joinC '/' ref) ⟨[], rel⟩ = .ok (pre ++ '/' :: joinC '/' ([g, r] ++ ref ++ rel)) := by
  rw [remoteUri, remoteHelper_either hg hr url hu]
  dsimp only
  rw [if_pos rfl, withoutSuffix_two hg hr.git, stem_git hr.1]
  dsimp only
  rw [parse_joinC ref hne href]
  simp [Symlink.Pure.join, Symlink.Pure.str]

theorem remoteUriApi_eq {g r : Str} (hg : Name g) (hr : Name r) (url : Str)
    (hu : url = sshForm g (r ++ lit ".git") ∨ url = httpsForm g (r ++ lit ".git")) :
    remoteUriApi url = .ok (lit "https://api.github.com/repos" ++ '/' :: (g ++ '/' :: r)) := by
  have : (Symlink.Pure.mk ['/'] [g, r]).str = '/' :: (g ++ '/' :: r) := by simp [Symlink.Pure.str, joinC]
  rw [remoteUriApi, remoteHelper_either hg hr url hu]
  generalize lit "https://api.github.com/repos" = x
  dsimp only
  rw [withoutSuffix_two hg hr.git, stem_git hr.1]
  dsimp only
  rw [this]

/-- C62: likewise for the addresses for programs: that of the content names group, repository, reference and file, and that of the
api names group and repository. -/
theorem C62_machine_partial (g r : Str) (hg : Name g) (hr : Name r) (ref rel : List Str) (hne : ref ≠ [])
    (href : ∀ w ∈ ref, w ≠ [] ∧ w ≠ ['.'] ∧ '/' ∉ w) (url : Str)
    (hu : url = sshForm g (r ++ lit ".git") ∨ url = httpsForm g (r ++ lit ".git")) :
    remoteUriMachine url (joinC '/' ref) ⟨[], rel⟩ = .ok (rawAddress g r ref rel) ∧
    remoteUriApi url = .ok (lit "https://api.github.com/repos" ++ '/' :: (g ++ '/' :: r)) :=
  ⟨remoteUri_plain _ hg hr ref rel hne href url hu, remoteUriApi_eq hg hr url hu⟩

/-- C62 (part): without `.git` the same holds if the name of the repository has no dot. -/
theorem C62_undotted_partial (g r : Str) (hg : Name g) (hr : Name r) (hd : '.' ∉ r) (ref rel : List Str)
    (hne : ref ≠ []) (href : ∀ w ∈ ref, w ≠ [] ∧ w ≠ ['.'] ∧ '/' ∉ w) :
    remoteUriHuman (sshForm g r) (joinC '/' ref) ⟨[], rel⟩ = .ok (address g r ref rel) ∧
    remoteUriHuman (httpsForm g r) (joinC '/' ref) ⟨[], rel⟩ = .ok (address g r ref rel) := by
  have h1 := remoteUriHuman_eq hg hr ref rel hne href _ (.inl rfl)
  have h2 := remoteUriHuman_eq hg hr ref rel hne href _ (.inr rfl)
  rw [stem_plain hd] at h1 h2
  exact ⟨h1, h2⟩

example : '.' ∉ lit "augpathlib" := by simp [lit]

/-- C62: different groups, repositories, references or files have different addresses as soon as one
differs in the way from the root (so the address "names exactly" them). -/
theorem C62_address_injective (g r g' r' : Str) (hg : Name g) (hr : Name r) (hg' : Name g') (hr' : Name r')
    (ref rel ref' rel' : List Str) (h1 : ∀ w ∈ ref ++ rel, '/' ∉ w) (h2 : ∀ w ∈ ref' ++ rel', '/' ∉ w)
    (h : address g r ref rel = address g' r' ref' rel') :
    g = g' ∧ r = r' ∧ ref ++ rel = ref' ++ rel' := by
  have hj := List.append_cancel_left h
  have s1 : splitC '/' (joinC '/' ([g, r, lit "blob"] ++ ref ++ rel)) = [g, r, lit "blob"] ++ ref ++ rel := by
    apply splitC_joinC (by simp)
    intro w hw
    simp only [List.append_assoc, List.mem_append, List.mem_cons, List.not_mem_nil, or_false] at hw
    rcases hw with (rfl | rfl | rfl) | hw | hw
    · exact hg.slash
    · exact hr.slash
    · simp [lit]
    · exact h1 w (by simp [hw])
    · exact h1 w (by simp [hw])
  have s2 : splitC '/' (joinC '/' ([g', r', lit "blob"] ++ ref' ++ rel')) = [g', r', lit "blob"] ++ ref' ++ rel' := by
    apply splitC_joinC (by simp)
    intro w hw
    simp only [List.append_assoc, List.mem_append, List.mem_cons, List.not_mem_nil, or_false] at hw
    rcases hw with (rfl | rfl | rfl) | hw | hw
    · exact hg'.slash
    · exact hr'.slash
    · simp [lit]
    · exact h2 w (by simp [hw])
    · exact h2 w (by simp [hw])
  rw [hj, s2] at s1
  simp at s1
  exact ⟨s1.1.symm, s1.2.1.symm, s1.2.2.symm⟩

/-- C62: `clone_path` picks the repository's name for both forms. -/
theorem C62_clone_name_partial (g r : Str) (hr : Name r) :
    cloneName (sshForm g (r ++ lit ".git")) = r ∧ cloneName (httpsForm g (r ++ lit ".git")) = r := by
  have key : ∀ pre : Str, (∃ ws, splitC '/' (pre ++ '/' :: (r ++ lit ".git")) = ws ++ [r ++ lit ".git"]) →
      cloneName (pre ++ '/' :: (r ++ lit ".git")) = r := by
    rintro pre ⟨ws, h⟩
    have : (parse (pre ++ '/' :: (r ++ lit ".git"))).comps.getLast? = some (r ++ lit ".git") := by
      simp only [parse, h]
      rw [List.filter_append]
      have hk : decide (r ++ lit ".git" ≠ [] ∧ r ++ lit ".git" ≠ ['.']) = true := by
        simp only [decide_eq_true_eq]; exact ⟨hr.git.1, hr.git.2.1⟩
      rw [List.filter_cons, if_pos hk]
      simp
    rw [cloneName, this]
    exact stem_git hr.1
  have split : ∀ pre : Str, ∃ ws, splitC '/' (pre ++ '/' :: (r ++ lit ".git")) = ws ++ [r ++ lit ".git"] := by
    intro pre
    induction pre with
    | nil => exact ⟨[[]], by simp [splitC, splitC_of_not_mem hr.git.slash]⟩
    | cons c pre ih =>
      obtain ⟨ws, h⟩ := ih
      by_cases hc : c = '/'
      · exact ⟨[] :: ws, by rw [List.cons_append, splitC, if_pos hc, h]; rfl⟩
      · cases ws with
        | nil =>
          exfalso
          have := congrArg (joinC '/') h
          rw [joinC_splitC] at this
          have := congrArg List.length this
          simp [joinC] at this
          omega
        | cons w ws => exact ⟨(c :: w) :: ws, by rw [List.cons_append, splitC, if_neg hc, h]; rfl⟩
  constructor
  · have := key (lit "git@github.com:" ++ g) (split _)
    unfold sshForm; exact this
  · have := key (lit "https://github.com/" ++ g) (split _)
    unfold httpsForm; exact this

/-- C62 is false for every repository with a dot in its name whose remote is given without `.git`
(github accepts both): the address names another repository. -/
theorem C62_dotted_counterexample (g a b : Str) (hg : Name g) (hn : Name (a ++ '.' :: b)) (ha : a ≠ []) (hb : b ≠ [])
    (hd : '.' ∉ b) (ref rel : List Str) (hne : ref ≠ []) (href : ∀ w ∈ ref, w ≠ [] ∧ w ≠ ['.'] ∧ '/' ∉ w) :
    remoteUriHuman (httpsForm g (a ++ '.' :: b)) (joinC '/' ref) ⟨[], rel⟩ = .ok (address g a ref rel) := by
  have h := remoteUriHuman_eq hg hn ref rel hne href _ (.inr rfl)
  have : Zip.stem (a ++ '.' :: b) = a := by
    simp [Zip.stem, rsplit1_append hd, ha, hb]
  rw [this] at h
  exact h

example : Name (lit "my" ++ '.' :: lit "repo") :=
  ⟨by simp [lit], by simp [lit], by simp [lit]⟩

/-- C62 is false for the third form that github offers, with `ssh://` written out: it raises. -/
theorem C62_ssh_url_counterexample :
    remoteUriHuman (lit "ssh://git@github.com/g/r.git") (lit "master") ⟨[], [lit "f"]⟩ = .error .valueError := by
  decide +kernel

theorem last_split {c : Char} {s : Str} (h : c ∈ s) : ∃ a b, s = a ++ c :: b ∧ c ∉ b := by
  induction s with
  | nil => simp at h
  | cons x s ih =>
    by_cases hs : c ∈ s
    · obtain ⟨a, b, rfl, hb⟩ := ih hs
      exact ⟨x :: a, b, rfl, hb⟩
    · rcases List.mem_cons.1 h with rfl | h
      · exact ⟨[], s, rfl, hs⟩
      · exact absurd h hs

theorem stem_eq_iff (r : Str) : Zip.stem r = r ↔ ¬ ∃ a b, a ≠ [] ∧ b ≠ [] ∧ '.' ∉ b ∧ r = a ++ '.' :: b := by
  constructor
  · rintro h ⟨a, b, ha, hb, hd, rfl⟩
    have : Zip.stem (a ++ '.' :: b) = a := by simp [Zip.stem, rsplit1_append hd, ha, hb]
    rw [this] at h
    have := congrArg List.length h
    simp at this
  · intro h
    by_cases hm : '.' ∈ r
    · obtain ⟨a, b, rfl, hb⟩ := last_split hm
      have hab : ¬(a ≠ [] ∧ b ≠ []) := fun hab => h ⟨a, b, hab.1, hab.2, hb, rfl⟩
      unfold Zip.stem
      rw [rsplit1_append hb]
      dsimp only
      rw [if_neg hab]
    · exact stem_plain hm

theorem address_repo {g x y : Str} {ref rel : List Str} (h : address g x ref rel = address g y ref rel) : x = y := by
  unfold address at h
  generalize lit "https://github.com/" = u at h
  generalize lit "blob" = v at h
  rw [List.append_cancel_left_eq] at h
  have e : ∀ x : Str, joinC '/' ([g, x, v] ++ ref ++ rel) = g ++ '/' :: (x ++ '/' :: joinC '/' ([v] ++ ref ++ rel)) := fun x => by
    simp [joinC]
  rw [e, e, List.append_cancel_left_eq, List.cons.injEq] at h
  exact List.append_cancel_right h.2

/-- C62, exactly, for a remote that is given without `.git`: both forms always lead to the same address, and it is the one of the repository
if and only if the name of the repository has no last dot that is neither at its beginning nor at its end. -/
theorem C62_without_git_iff (g r : Str) (hg : Name g) (hr : Name r) (ref rel : List Str) (hne : ref ≠ [])
    (href : ∀ w ∈ ref, w ≠ [] ∧ w ≠ ['.'] ∧ '/' ∉ w) :
    remoteUriHuman (sshForm g r) (joinC '/' ref) ⟨[], rel⟩ = remoteUriHuman (httpsForm g r) (joinC '/' ref) ⟨[], rel⟩ ∧
    (remoteUriHuman (httpsForm g r) (joinC '/' ref) ⟨[], rel⟩ = .ok (address g r ref rel) ↔
      ¬ ∃ a b, a ≠ [] ∧ b ≠ [] ∧ '.' ∉ b ∧ r = a ++ '.' :: b) := by
  have h1 := remoteUriHuman_eq hg hr ref rel hne href _ (.inl rfl)
  have h2 := remoteUriHuman_eq hg hr ref rel hne href _ (.inr rfl)
  refine ⟨h1.trans h2.symm, ?_⟩
  rw [h2, ← stem_eq_iff]
  constructor
  · intro h
    exact address_repo (Except.ok.inj h)
  · intro h; rw [h]

end Verif.Url
