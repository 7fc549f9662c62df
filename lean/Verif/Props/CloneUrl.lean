import Verif.Model.CloneUrl
import Verif.Props.Url
import Verif.Props.RepoMemo
import Verif.Lemmas.Decide

/-!
# C137: the web address of a file in a clone of a clone
-/

namespace Verif.CloneUrl
open Verif.FS

/-- A name that can stand in the address of a local remote. -/
def Plain (n : Str) : Prop := n ≠ [] ∧ n ≠ ['.'] ∧ '/' ∉ n ∧ ':' ∉ n

/-- There is a repository at `w`, and no other one on the way from there to the file. -/
def Home (d : Disk) (rel : Path) (w : Path) : Prop :=
  d.git w = true ∧ ∀ q, q <+: rel → q ≠ [] → d.git (w ++ q) = false

/-- The repository at the first path is a clone of a clone (and so on, so many times) of the one at the second; the file is in each of
them. -/
inductive Clones (d : Disk) (rel : Path) : Path → Path → Nat → Prop
  | same {w : Path} : Home d rel w → Clones d rel w w 0
  | clone {w v o : Path} {n : Nat} : Home d rel w → v ≠ [] → (∀ c ∈ v, Plain c) → d.url w = '/' :: joinC '/' v → d.there v = true →
      Clones d rel v o n → Clones d rel w o (n + 1)

theorem Clones.home {d : Disk} {rel w o : Path} {n : Nat} (h : Clones d rel w o n) : Home d rel w := by
  cases h <;> assumption

theorem Clones.last {d : Disk} {rel w o : Path} {n : Nat} (h : Clones d rel w o n) : Home d rel o := by
  induction h with
  | same h => exact h
  | clone _ _ _ _ _ _ ih => exact ih

theorem workingDir_home {d : Disk} {rel w : Path} (h : Home d rel w) : d.workingDir (w ++ rel) = some w := by
  obtain ⟨r, h1, h2, h3⟩ := RepoMemo.wda_spec d.git _ (w ++ rel) (Nat.le_refl _)
  rw [Disk.workingDir, h1]
  cases r with
  | none => exact absurd h.1 (by simp [h2 rfl w (List.prefix_append _ _)])
  | some e =>
    obtain ⟨he, hg, hl⟩ := h3 e rfl
    have hle := hl w (List.prefix_append _ _) h.1
    have hwe : w <+: e := List.prefix_of_prefix_length_le (List.prefix_append _ _) he hle
    obtain ⟨q, rfl⟩ := hwe
    by_cases hq : q = []
    · simp [hq]
    · have hqr : q <+: rel := (List.prefix_append_right_inj w).1 he
      rw [h.2 q hqr hq] at hg
      exact absurd hg (by simp)

theorem splitColon_plain : ∀ {s : Str}, ':' ∉ s → Ssh.splitColon s = none
  | [], _ => rfl
  | c :: s, h => by
    have h1 : c ≠ ':' := fun e => h (by simp [e])
    have h2 := splitColon_plain (s := s) fun hm => h (by simp [hm])
    simp [Ssh.splitColon, h1, h2]

theorem helper_local (v : Path) (hp : ∀ c ∈ v, Plain c) :
    Url.remoteHelper ('/' :: joinC '/' v) = .ok ([], '/' :: joinC '/' v) := by
  have hc : ':' ∉ ('/' :: joinC '/' v : Str) := by
    have : ∀ l : List Str, (∀ c ∈ l, Plain c) → ':' ∉ joinC '/' l := by
      intro l
      induction l with
      | nil => intro _; simp [joinC]
      | cons a l ih =>
        intro h
        cases l with
        | nil => simpa [joinC] using (h a (by simp)).2.2.2
        | cons b l =>
          simp only [joinC, List.mem_append, List.mem_cons, not_or]
          exact ⟨(h a (by simp)).2.2.2, by decide, ih fun c hc => h c (by simp [hc])⟩
    simp only [List.mem_cons, not_or]
    exact ⟨by decide, this v hp⟩
  have hs : Ssh.splitColon ('/' :: joinC '/' v) = none := splitColon_plain hc
  have h1 : (lit "git@").isPrefixOf ('/' :: joinC '/' v) = false := rfl
  have h2 : (lit "git@github.com").isPrefixOf ([] : Str) = false := rfl
  simp only [Url.remoteHelper, h1, Bool.false_eq_true, if_false, Url.urlparse, hs, h2]

/-- C137: a file in a clone of a repository on the same disk, or in a clone of such a clone and so on, has the same web address as that
file in the original repository, whatever that address is. -/
theorem C137_same (d : Disk) (rel w o : Path) (n : Nat) (h : Clones d rel w o n) (depth : Nat) (ref : Option Str) :
    d.human (depth + n) ref (w ++ rel) = d.human depth ref (o ++ rel) := by
  induction h with
  | same _ => rfl
  | @clone w v o n hw hv hp hu ht _ ih =>
    rw [← ih]
    have hpv : Symlink.parse (d.url w) = ⟨['/'], v⟩ := by
      rw [hu]
      exact Url.parse_abs v (fun c hc => ⟨(hp c hc).1, (hp c hc).2.1, (hp c hc).2.2.1⟩) hv
    have hh := helper_local v hp
    show d.remoteUri _ _ _ ((depth + n) + 1) _ = _
    rw [Disk.remoteUri, workingDir_home hw]
    dsimp only
    rw [hu, hh]
    dsimp only
    rw [← hu, hpv]
    dsimp only
    rw [if_neg (by decide), if_pos (by rw [hu, ht]; rfl), List.drop_left]
    rfl

open Url in
/-- C137: so the address names the group and the repository of the original's remote, and the file. -/
theorem C137_address (d : Disk) (rel w o : Path) (n : Nat) (h : Clones d rel w o n) (g r : Str) (hg : Name g) (hr : Name r)
    (hu : d.url o = sshForm g (r ++ lit ".git") ∨ d.url o = httpsForm g (r ++ lit ".git")) (ref : Option Str) (names : List Str)
    (hne : names ≠ []) (href : ∀ w ∈ names, w ≠ [] ∧ w ≠ ['.'] ∧ '/' ∉ w)
    (hb : (∃ t, ref = some t ∧ t ≠ [] ∧ t ≠ lit "HEAD" ∧ t = joinC '/' names) ∨
      (ref = none ∨ ref = some (lit "HEAD")) ∧ d.branch o = .ok (joinC '/' names))
    (depth : Nat) (hd : n < depth) :
    d.human depth ref (w ++ rel) = .ok (address g r names rel) := by
  obtain ⟨k, rfl⟩ : ∃ k, depth = (k + 1) + n := ⟨depth - n - 1, by omega⟩
  rw [C137_same d rel w o n h]
  have hhelp : ∃ p, remoteHelper (d.url o) = .ok (lit "github.com", p) := by
    rcases hu with hu | hu <;> rw [hu]
    · exact ⟨_, remoteHelper_ssh hg hr.git⟩
    · exact ⟨_, remoteHelper_https hg hr.git⟩
  obtain ⟨p, hhelp⟩ := hhelp
  have href' : d.refOf o ref = .ok (joinC '/' names) := by
    rcases hb with ⟨t, rfl, h1, h2, h3⟩ | ⟨h1, h2⟩
    · rw [Disk.refOf, if_neg (by simp [h1, h2]), h3]
    · rcases h1 with rfl | rfl
      · exact h2
      · rw [Disk.refOf, if_pos (Or.inr rfl)]; exact h2
  show d.remoteUri _ _ _ (k + 1) _ = _
  rw [Disk.remoteUri, workingDir_home h.last]
  dsimp only
  rw [hhelp]
  dsimp only
  rw [if_pos rfl, href']
  dsimp only
  rw [List.drop_left]
  have := C62_same_address_partial g r hg hr names rel hne href
  rcases hu with hu | hu <;> rw [hu]
  · exact this.1
  · exact this.2

/-! Disks for the examples: a few repositories, everything exists. -/

/-- A disk with these repositories: where they are, their remote, their branch. -/
def demo (l : List (Path × Str × Str)) : Disk where
  there _ := true
  git p := (l.lookup p).isSome
  url p := ((l.lookup p).map Prod.fst).getD []
  branch p := match l.lookup p with
    | some (_, b) => .ok b
    | none => .error .typeError

/-- C137 is false for the branch: without a reference it is that of the original, not that of the clone. -/
theorem C137_branch_counterexample :
    (demo [([lit "a"], lit "/b", lit "dev"), ([lit "b"], lit "git@github.com:g/r.git", lit "master")]).human 1000 none [lit "a", lit "f"] =
      .ok (lit "https://github.com/g/r/blob/master/f") := by decide +kernel

/-- C137 is false for clones of bare repositories, which have no `.git`: there is no address, or, if there is a repository around it, one
of that. -/
theorem C137_bare_counterexample :
    (demo [([lit "a"], lit "/srv/b.git", lit "master")]).human 1000 none [lit "a", lit "f"] = .error .augPathlibError ∧
    (demo [([lit "a"], lit "/srv/b.git", lit "master"), ([lit "srv"], lit "git@github.com:g/other.git", lit "master")]).human 1000 none
      [lit "a", lit "f"] = .ok (lit "https://github.com/g/other/blob/master/b.git/f") := by decide +kernel

/-- C137: the file can be in another repository at the remote's place. -/
theorem C137_nested_counterexample :
    (demo [([lit "a"], lit "/b", lit "master"), ([lit "b"], lit "git@github.com:g/r.git", lit "master"),
      ([lit "b", lit "sub"], lit "git@github.com:g/other.git", lit "master")]).human 1000 none [lit "a", lit "sub", lit "f"] =
      .ok (lit "https://github.com/g/other/blob/master/f") := by decide +kernel

/-- C137 is false for the address for programs: it is made of the path on the disk. -/
theorem C137_api_counterexample :
    (demo [([lit "a"], lit "/b/c", lit "master"), ([lit "b", lit "c"], lit "git@github.com:g/r.git", lit "master")]).api [lit "a", lit "f"] =
      .ok (lit "https://api.github.com/repos/b/c") := by decide +kernel

/-- C137: two repositories that are each other's remotes have no address: the search does not end, however many calls are allowed. -/
theorem C137_cycle (d : Disk) (rel w v : Path) (hw : Home d rel w) (hv : Home d rel v) (hne : w ≠ [] ∧ v ≠ [])
    (hp : (∀ c ∈ w, Plain c) ∧ ∀ c ∈ v, Plain c) (hu : d.url w = '/' :: joinC '/' v ∧ d.url v = '/' :: joinC '/' w)
    (ht : d.there w = true ∧ d.there v = true) (ref : Option Str) (depth : Nat) :
    d.human depth ref (w ++ rel) = .error .runtimeError ∧ d.human depth ref (v ++ rel) = .error .runtimeError := by
  induction depth with
  | zero => exact ⟨rfl, rfl⟩
  | succ k ih =>
    have h1 := C137_same d rel w v 1 (.clone hw hne.2 hp.2 hu.1 ht.2 (.same hv)) k ref
    have h2 := C137_same d rel v w 1 (.clone hv hne.1 hp.1 hu.2 ht.1 (.same hw)) k ref
    exact ⟨h1.trans ih.2, h2.trans ih.1⟩

/-- A case that meets the hypotheses: a clone of a clone. -/
example : ∃ d : Disk, Clones d [lit "f"] [lit "a"] [lit "c"] 2 ∧
    d.human 1000 none [lit "a", lit "f"] = .ok (lit "https://github.com/g/r/blob/master/f") := by
  refine ⟨demo [([lit "a"], lit "/b", lit "x"), ([lit "b"], lit "/c", lit "y"), ([lit "c"], lit "https://github.com/g/r.git", lit "master")],
    .clone (v := [lit "b"]) ?_ (by simp) ?_ (by decide) rfl (.clone (v := [lit "c"]) ?_ (by simp) ?_ (by decide) rfl (.same ?_)), by decide +kernel⟩
  all_goals first
    | (intro c hc; simp only [List.mem_cons, List.not_mem_nil, or_false] at hc; subst hc; exact ⟨by decide, by decide, by decide, by decide⟩)
    | (refine ⟨by decide, fun q hq hne => ?_⟩
       obtain ⟨t, ht⟩ := hq
       cases q with
       | nil => exact absurd rfl hne
       | cons x q =>
         simp only [List.cons_append, List.cons.injEq, List.append_eq_nil_iff] at ht
         obtain ⟨rfl, rfl, -⟩ := ht
         decide)

/-- C137: a path that is in no repository has no address. -/
theorem C137_outside (d : Disk) (p : Path) (h : ∀ q, q <+: p → d.git q = false) (depth : Nat) (ref : Option Str) :
    d.human (depth + 1) ref p = .error .augPathlibError ∧ d.api p = .error .augPathlibError := by
  obtain ⟨r, h1, h2, h3⟩ := RepoMemo.wda_spec d.git _ p (Nat.le_refl _)
  have : d.workingDir p = none := by
    rw [Disk.workingDir, h1]
    cases r with
    | none => rfl
    | some e =>
      obtain ⟨he, hg, -⟩ := h3 e rfl
      rw [h e he] at hg
      cases hg
  constructor
  · rw [Disk.human, Disk.remoteUri, this]
  · rw [Disk.api, this]

/-- C137: a clone of something that is not on the disk any more has no address. -/
theorem C137_gone (d : Disk) (rel w v : Path) (hw : Home d rel w) (hv : v ≠ []) (hp : ∀ c ∈ v, Plain c) (hu : d.url w = '/' :: joinC '/' v)
    (ht : d.there v = false) (depth : Nat) (ref : Option Str) : d.human (depth + 1) ref (w ++ rel) = .error .notImplementedError := by
  have hpv : Symlink.parse (d.url w) = ⟨['/'], v⟩ := by
    rw [hu]
    exact Url.parse_abs v (fun c hc => ⟨(hp c hc).1, (hp c hc).2.1, (hp c hc).2.2.1⟩) hv
  have hh := helper_local v hp
  rw [Disk.human, Disk.remoteUri, workingDir_home hw]
  dsimp only
  rw [hu, hh]
  dsimp only
  rw [← hu, hpv]
  dsimp only
  rw [if_neg (by decide), if_neg (by rw [ht]; simp)]

example : ∃ d : Disk, Home d [['f']] [['w']] ∧ d.url [['w']] = '/' :: joinC '/' [['v']] ∧ d.there [['v']] = false ∧
    d.human 9 none [['w'], ['f']] = .error .notImplementedError ∧ d.human 9 none [['x']] = .error .augPathlibError := by
  have hw : Home ⟨fun _ => false, fun q => q = [['w']], fun _ => '/' :: joinC '/' [['v']], fun _ => .ok []⟩ [['f']] [['w']] := by
    refine ⟨by simp, fun q h hq => ?_⟩
    cases q with
    | nil => exact absurd rfl hq
    | cons a q => simp
  refine ⟨_, hw, rfl, rfl, ?_, ?_⟩
  · exact C137_gone _ [['f']] [['w']] [['v']] hw (by decide) (by
      intro c hc
      simp only [List.mem_cons, List.not_mem_nil, or_false] at hc
      subst hc
      exact ⟨by decide, by decide, by decide, by decide⟩) rfl rfl 8 none
  · refine (C137_outside _ [['x']] (fun q h => ?_) 8 none).1
    have := h.length_le
    rcases q with _ | ⟨a, _ | ⟨b, q⟩⟩
    · rfl
    · obtain ⟨t, ht⟩ := h
      simp only [List.cons_append, List.nil_append, List.cons.injEq] at ht
      rw [ht.1]
      decide
    · simp at this

end Verif.CloneUrl
