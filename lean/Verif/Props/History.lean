import Verif.Model.History
import Verif.Model.Str

/-!
# C103: The changes and the history of one path in a repository
-/

namespace Verif.Git

/-! ## Specification -/

/-- `d` is `c` or comes before it. -/
inductive Commit.Reaches : Commit → Commit → Prop
  | here (c : Commit) : Reaches c c
  | back {c p d : Commit} (h : c.parent = some p) (r : Reaches p d) : Reaches c d

/-- The path is the same in both trees. -/
def SameAt (spec : File → Bool) (a b : Tree) : Prop := ∀ p, spec p = true → a p = b p

/-- `c` is the latest commit, from `start` on, that changed the path: nothing after it did, and what was before it was different. -/
def Latest (spec : File → Bool) (start c : Commit) : Prop :=
  start.Reaches c ∧ (∀ d, start.Reaches d → d.Reaches c → SameAt spec d.tree c.tree) ∧ ¬ SameAt spec c.tree c.before

theorem Commit.linear {P : Commit → Prop} (h0 : ∀ t, P (.mk t none)) (h1 : ∀ t p, P p → P (.mk t (some p))) : ∀ c, P c
  | .mk t none => h0 t
  | .mk t (some p) => h1 t p (Commit.linear h0 h1 p)

theorem past_root (t : Tree) : (Commit.mk t none).past = [.mk t none] := by rw [Commit.past]

theorem past_step (t : Tree) (p : Commit) : (Commit.mk t (some p)).past = .mk t (some p) :: p.past := by rw [Commit.past]

theorem reaches_root {t : Tree} {d : Commit} : (Commit.mk t none).Reaches d ↔ d = .mk t none := by
  constructor
  · intro h
    cases h with
    | here => rfl
    | back h _ => cases h
  · rintro rfl; exact .here _

theorem reaches_step {t : Tree} {p d : Commit} : (Commit.mk t (some p)).Reaches d ↔ d = .mk t (some p) ∨ p.Reaches d := by
  constructor
  · intro h
    cases h with
    | here => exact .inl rfl
    | back h r => cases h; exact .inr r
  · rintro (rfl | h)
    · exact .here _
    · exact .back rfl h

theorem mem_past {c d : Commit} : d ∈ c.past ↔ c.Reaches d := by
  induction c using Commit.linear with
  | h0 t => rw [past_root, reaches_root, List.mem_singleton]
  | h1 t p ih => rw [past_step, reaches_step, List.mem_cons, ih]

theorem past_size {c d : Commit} (h : c.Reaches d) : d.past.length ≤ c.past.length ∧ (d.past.length = c.past.length → d = c) := by
  induction c using Commit.linear with
  | h0 t => cases reaches_root.1 h; exact ⟨Nat.le_refl _, fun _ => rfl⟩
  | h1 t p ih =>
    rcases reaches_step.1 h with rfl | h
    · exact ⟨Nat.le_refl _, fun _ => rfl⟩
    · have := (ih h).1
      rw [past_step, List.length_cons]
      exact ⟨by omega, fun he => by omega⟩

theorem reaches_antisymm {c d : Commit} (h : c.Reaches d) (h' : d.Reaches c) : c = d := by
  have h1 := (past_size h).1
  have h2 := (past_size h').1
  exact ((past_size h).2 (by omega)).symm

theorem reaches_trans {a b c : Commit} (h : a.Reaches b) (h' : b.Reaches c) : a.Reaches c := by
  induction h with
  | here => exact h'
  | back hp _ ih => exact .back hp (ih h')

theorem not_touches {spec : File → Bool} {c : Commit} : ¬ c.touches spec ↔ SameAt spec c.tree c.before := by
  unfold Commit.touches SameAt
  constructor
  · intro h p hp
    exact Classical.byContradiction fun hc => h ⟨p, hp, hc⟩
  · rintro h ⟨p, hp, hc⟩
    exact hc (h p hp)

theorem touches_iff {spec : File → Bool} {c : Commit} : c.touches spec ↔ ¬ SameAt spec c.tree c.before := by
  rw [← not_touches, Classical.not_not]

/-- C103: the commits of a path are those in the history that change it, the latest first, at most as many as asked for. -/
theorem C103_commits (r : Repo) (spec : File → Bool) (start : Commit) :
    ∃ l, (∀ n, r.commits spec (some start) (some n) = .ok (l.take n)) ∧ r.commits spec (some start) none = .ok l ∧
    (∀ c, c ∈ l ↔ start.Reaches c ∧ ¬ SameAt spec c.tree c.before) ∧
    l.Pairwise (fun c d => c.Reaches d ∧ c ≠ d) := by
  classical
  refine ⟨_, fun n => rfl, rfl, fun c => ?_, ?_⟩
  · simp only [List.mem_filter, mem_past, decide_eq_true_eq, touches_iff]
  · apply List.Pairwise.filter
    induction start using Commit.linear with
    | h0 t => rw [past_root]; exact List.pairwise_singleton _ _
    | h1 t p ih =>
      rw [past_step, List.pairwise_cons]
      refine ⟨fun d hd => ⟨reaches_step.2 (.inr (mem_past.1 hd)), ?_⟩, ih⟩
      rintro rfl
      have := (past_size (mem_past.1 hd)).1
      rw [past_step, List.length_cons] at this
      omega

/-- C103: without a revision it is those of `HEAD`, which must have a commit. -/
theorem C103_head (r : Repo) (spec : File → Bool) (n : Option Nat) :
    r.commits spec none n = (match r.commit with | some c => r.commits spec (some c) n | none => .error .value) ∧
    r.latestCommit spec none = match r.commit with | some c => r.latestCommit spec (some c) | none => .error .value := by
  unfold Repo.latestCommit Repo.commits
  cases r.commit <;> exact ⟨rfl, rfl⟩

theorem latest_some (r : Repo) (spec : File → Bool) (start : Commit) :
    r.latestCommit spec (some start) = match (revList spec none start).head? with | some c => .ok c | none => .error .noCommits := by
  have : ∀ n, r.commits spec (some start) (some n) = .ok ((revList spec none start).take n) := fun n => rfl
  unfold Repo.latestCommit
  rw [this]
  cases revList spec none start <;> rfl

open Classical in
theorem revList_root (spec : File → Bool) (t : Tree) :
    revList spec none (.mk t none) = if (Commit.mk t none).touches spec then [Commit.mk t none] else [] := by
  unfold revList
  rw [past_root]
  by_cases h : (Commit.mk t none).touches spec <;> simp [h]

open Classical in
theorem revList_step (spec : File → Bool) (t : Tree) (p : Commit) :
    revList spec none (.mk t (some p)) =
      if (Commit.mk t (some p)).touches spec then .mk t (some p) :: revList spec none p else revList spec none p := by
  unfold revList
  rw [past_step]
  by_cases h : (Commit.mk t (some p)).touches spec <;> simp [h]

/-- C103: the latest commit is the one that gave the path the content that it has in the revision. -/
theorem C103_latest (r : Repo) (spec : File → Bool) (start c : Commit) :
    r.latestCommit spec (some start) = .ok c ↔ Latest spec start c := by
  rw [latest_some]
  induction start using Commit.linear with
  | h0 t =>
    rw [revList_root]
    by_cases h : (Commit.mk t none).touches spec
    · simp only [if_pos h, List.head?_cons, Except.ok.injEq]
      constructor
      · rintro rfl
        exact ⟨.here _, fun d hd _ => by cases reaches_root.1 hd; exact fun _ _ => rfl, touches_iff.1 h⟩
      · rintro ⟨hr, _⟩
        exact (reaches_root.1 hr).symm
    · simp only [if_neg h, List.head?_nil, reduceCtorEq, false_iff]
      rintro ⟨hr, _, hn⟩
      cases reaches_root.1 hr
      exact h (touches_iff.2 hn)
  | h1 t p ih =>
    rw [revList_step]
    by_cases h : (Commit.mk t (some p)).touches spec
    · simp only [if_pos h, List.head?_cons, Except.ok.injEq]
      constructor
      · rintro rfl
        exact ⟨.here _, fun d hd hd' => by cases reaches_antisymm hd hd'; exact fun _ _ => rfl, touches_iff.1 h⟩
      · rintro ⟨hr, hs, _⟩
        rcases reaches_step.1 hr with rfl | hr
        · rfl
        · exfalso
          refine touches_iff.1 h fun q hq => ?_
          exact (hs _ (.here _) (reaches_step.2 (.inr hr)) q hq).trans (hs p (.back rfl (.here _)) hr q hq).symm
    · rw [if_neg h, ih]
      have hsame := not_touches.1 h
      constructor
      · rintro ⟨hr, hs, hn⟩
        refine ⟨reaches_step.2 (.inr hr), fun d hd hd' => ?_, hn⟩
        rcases reaches_step.1 hd with rfl | hd
        · exact fun q hq => (hsame q hq).trans (hs p (.here _) hr q hq)
        · exact hs d hd hd'
      · rintro ⟨hr, hs, hn⟩
        rcases reaches_step.1 hr with rfl | hr
        · exact absurd hsame hn
        · exact ⟨hr, fun d hd hd' => hs d (reaches_step.2 (.inr hd)) hd', hn⟩

/-- C103: there is none exactly if the path never was. -/
theorem C103_never (r : Repo) (spec : File → Bool) (start : Commit) :
    r.latestCommit spec (some start) = .error .noCommits ↔ ∀ d, start.Reaches d → ∀ p, spec p = true → d.tree p = none := by
  rw [latest_some]
  induction start using Commit.linear with
  | h0 t =>
    rw [revList_root]
    by_cases h : (Commit.mk t none).touches spec
    · simp only [if_pos h, List.head?_cons, reduceCtorEq, false_iff]
      intro h'
      obtain ⟨p, hp, hc⟩ := h
      exact hc (h' _ (.here _) p hp)
    · simp only [if_neg h, List.head?_nil, true_iff]
      intro d hd p hp
      cases reaches_root.1 hd
      exact not_touches.1 h p hp
  | h1 t p ih =>
    rw [revList_step]
    by_cases h : (Commit.mk t (some p)).touches spec
    · simp only [if_pos h, List.head?_cons, reduceCtorEq, false_iff]
      intro h'
      obtain ⟨q, hq, hc⟩ := h
      exact hc ((h' _ (.here _) q hq).trans (h' p (.back rfl (.here _)) q hq).symm)
    · rw [if_neg h, ih]
      constructor
      · intro h' d hd q hq
        rcases reaches_step.1 hd with rfl | hd
        · exact (not_touches.1 h q hq).trans (h' p (.here _) q hq)
        · exact h' d hd q hq
      · intro h' d hd
        exact h' d (reaches_step.2 (.inr hd))

/-! ## Differences -/

/-- What a comparison of two versions should answer: nothing if the path is the same in both, otherwise a change that is one. -/
def Tells (spec : File → Bool) (a b : Tree) (o : Option Change) : Prop :=
  (o = none ↔ SameAt spec a b) ∧ ∀ ch, o = some ch → spec ch.file = true ∧ ch.a = a ch.file ∧ ch.b = b ch.file ∧ ch.a ≠ ch.b

/-- Something is at the path. -/
def Repo.There (r : Repo) (spec : File → Bool) : Prop := ∃ p, spec p = true ∧ r.work p ≠ none

theorem firstChange_tells (spec : File → Bool) (a b : Tree) : Tells spec a b (firstChange spec a b) := by
  unfold firstChange Tells
  by_cases h : ∃ p, spec p = true ∧ a p ≠ b p
  · rw [dif_pos h]
    refine ⟨by simp only [reduceCtorEq, false_iff]; exact fun hs => h.choose_spec.2 (hs _ h.choose_spec.1), ?_⟩
    intro ch hch
    cases hch
    exact ⟨h.choose_spec.1, rfl, rfl, h.choose_spec.2⟩
  · rw [dif_neg h]
    refine ⟨by simp only [true_iff]; exact fun p hp => Classical.byContradiction fun hc => h ⟨p, hp, hc⟩, fun _ h => nomatch h⟩

theorem doDiff_there {r : Repo} {spec : File → Bool} (h : r.There spec) (a b : Side) : r.doDiff spec a b = r.gitDiff spec a b := by
  unfold Repo.doDiff
  rw [if_pos]
  obtain ⟨p, hp, hw⟩ := h
  exact ⟨p, hp, Option.isSome_iff_ne_none.2 hw⟩

theorem doDiff_gone {r : Repo} {spec : File → Bool} (h : ¬ r.There spec) (a b : Side) : r.doDiff spec a b = .error .notFound := by
  unfold Repo.doDiff
  rw [if_neg]
  rintro ⟨p, hp, hw⟩
  exact h ⟨p, hp, Option.isSome_iff_ne_none.1 hw⟩

/-- The working directory as git sees it: files that are in the index. -/
def Seen (r : Repo) (w : Tree) : Prop := ∀ p, (r.index p ≠ none → w p = r.work p) ∧ (r.index p = none → w p = none)

theorem known_seen (r : Repo) : Seen r r.known := by
  intro p
  unfold Repo.known
  cases h : r.index p <;> simp

/-- **C103** (partial: for paths that exist): `modified` tells the change from the index to the working directory, and `has_uncommitted_changes` that from
`HEAD` to the working directory, of the files that are in the index. -/
theorem C103_modified_partial (r : Repo) (spec : File → Bool) (h : r.There spec) :
    (∃ o w, r.modified spec = .ok o ∧ Seen r w ∧ Tells spec r.index w o) ∧
    ∀ c, r.commit = some c → ∃ o w, r.hasUncommittedChanges spec = .ok o ∧ Seen r w ∧ Tells spec c.tree w o := by
  refine ⟨⟨_, _, doDiff_there h _ _, known_seen r, firstChange_tells _ _ _⟩, fun c hc => ?_⟩
  refine ⟨_, r.known, ?_, known_seen r, firstChange_tells _ _ _⟩
  simp only [Repo.hasUncommittedChanges, Repo.headCommit, hc]
  exact doDiff_there h _ _

/-- C103: for a file that is in the index, `modified` says nothing exactly if the file is as it is there. -/
theorem C103_modified_file_iff (r : Repo) (f : File) (hw : r.work f ≠ none) (hi : r.index f ≠ none) :
    r.modified (fun p => p = f) = .ok none ↔ r.work f = r.index f := by
  obtain ⟨o, w, h1, h2, h3⟩ := (C103_modified_partial r (fun p => p = f) ⟨f, by simp, hw⟩).1
  rw [h1]
  simp only [Except.ok.injEq]
  rw [h3.1]
  unfold SameAt
  constructor
  · intro h
    have := h f (by simp)
    rw [this, (h2 f).1 hi]
  · intro h p hp
    cases of_decide_eq_true hp
    rw [(h2 f).1 hi, h]

/-- **C103** (partial): `diff` between commits, from a commit or the index to the working directory, and from the index to a commit. -/
theorem C103_diff_partial (r : Repo) (spec : File → Bool) (h : r.There spec) (c d : Commit) :
    (∃ o, r.diff spec (.commit d) (.commit c) = .ok o ∧ Tells spec c.tree d.tree o) ∧
    (∃ o w, r.diff spec .work (.commit c) = .ok o ∧ Seen r w ∧ Tells spec c.tree w o) ∧
    (∃ o w, r.diff spec .work .index = .ok o ∧ Seen r w ∧ Tells spec r.index w o) ∧
    (∃ o, r.diff spec (.commit d) .index = .ok o ∧ Tells spec r.index d.tree o) :=
  ⟨⟨_, doDiff_there h _ _, firstChange_tells _ _ _⟩, ⟨_, _, doDiff_there h _ _, known_seen r, firstChange_tells _ _ _⟩,
    ⟨_, _, doDiff_there h _ _, known_seen r, firstChange_tells _ _ _⟩, ⟨_, doDiff_there h _ _, firstChange_tells _ _ _⟩⟩

/-- **From the working directory to a commit or to the index, the two sides of the answer are swapped.** -/
theorem C103_swapped_counterexample (r : Repo) (spec : File → Bool) (h : r.There spec) (d : Commit) :
    (∃ o w, r.diff spec (.commit d) .work = .ok o ∧ Seen r w ∧ Tells spec d.tree w o) ∧
    (∃ o w, r.diff spec .index .work = .ok o ∧ Seen r w ∧ Tells spec r.index w o) :=
  ⟨⟨_, _, doDiff_there h _ _, known_seen r, firstChange_tells _ _ _⟩, ⟨_, _, doDiff_there h _ _, known_seen r, firstChange_tells _ _ _⟩⟩

/-- **The index is never the second side: `indexed` always raises**, and so does a `diff` from a commit or from the index to the index. -/
theorem C103_index_counterexample (r : Repo) (spec : File → Bool) (c : Commit) :
    (∀ o, r.indexed spec ≠ .ok o) ∧ (∀ o, r.diff spec .index (.commit c) ≠ .ok o) ∧ ∀ o, r.diff spec .index .index ≠ .ok o := by
  by_cases h : r.There spec
  · refine ⟨fun o => ?_, fun o => ?_, fun o => ?_⟩
    · unfold Repo.indexed
      cases r.headCommit with
      | error e => simp
      | ok c => simp [doDiff_there h, Repo.gitDiff]
    · simp [Repo.diff, doDiff_there h, Repo.gitDiff]
    · simp [Repo.diff, doDiff_there h, Repo.gitDiff]
  · refine ⟨fun o => ?_, fun o => ?_, fun o => ?_⟩
    · unfold Repo.indexed
      cases r.headCommit with
      | error e => simp
      | ok c => simp [doDiff_gone h]
    · simp [Repo.diff, doDiff_gone h]
    · simp [Repo.diff, doDiff_gone h]

/-- **A file that was deleted raises instead of being a change.** -/
theorem C103_deleted_counterexample (r : Repo) (spec : File → Bool) (h : ¬ r.There spec) :
    r.modified spec = .error .notFound ∧ ∀ c, r.commit = some c → r.hasUncommittedChanges spec = .error .notFound := by
  refine ⟨doDiff_gone h _ _, fun c hc => ?_⟩
  simp only [Repo.hasUncommittedChanges, Repo.headCommit, hc]
  exact doDiff_gone h _ _

/-- **A new file is no change, and a file that was taken out of the index is a deleted one, although it is there.** -/
theorem C103_untracked_counterexample (r : Repo) (f : File) (c : Commit) (hc : r.commit = some c) (hw : r.work f ≠ none) (hi : r.index f = none) :
    r.modified (fun p => p = f) = .ok none ∧
    (c.tree f = none → r.hasUncommittedChanges (fun p => p = f) = .ok none) ∧
    (c.tree f ≠ none → ∃ ch, r.hasUncommittedChanges (fun p => p = f) = .ok (some ch) ∧ ch.b = none) := by
  obtain ⟨⟨o, w, h1, h2, h3⟩, h⟩ := C103_modified_partial r (fun p => p = f) ⟨f, by simp, hw⟩
  obtain ⟨o', w', h1', h2', h3'⟩ := h c hc
  have hwf := (h2 f).2 hi
  have hwf' := (h2' f).2 hi
  refine ⟨?_, fun ht => ?_, fun ht => ?_⟩
  · rw [h1, h3.1.2]
    intro p hp
    cases of_decide_eq_true hp
    rw [hi, hwf]
  · rw [h1', h3'.1.2]
    intro p hp
    cases of_decide_eq_true hp
    rw [ht, hwf']
  · cases ho : o' with
    | none =>
      have := h3'.1.1 ho f (by simp)
      rw [hwf'] at this
      exact absurd this ht
    | some ch =>
      refine ⟨ch, by rw [h1', ho], ?_⟩
      obtain ⟨e1, _, e3, _⟩ := h3'.2 ch ho
      cases of_decide_eq_true e1
      rw [e3, hwf']

/-! ## The hypotheses can be met -/

/-- Three commits: a file is added, another one is changed, the first one is changed. -/
def sampleFirst : Commit := .mk (fun p => if p = lit "a" then some [1] else none) none
def sampleSecond : Commit := .mk (fun p => if p = lit "a" then some [1] else if p = lit "b" then some [5] else none) (some sampleFirst)

example : Latest (fun p => p = lit "a") sampleSecond sampleFirst ∧ Latest (fun p => p = lit "b") sampleSecond sampleSecond := by
  constructor
  · refine ⟨.back rfl (.here _), fun d hd _ => ?_, fun h => ?_⟩
    · rcases reaches_step.1 hd with rfl | hd
      · intro p hp
        cases of_decide_eq_true hp
        rfl
      · cases reaches_root.1 hd
        exact fun _ _ => rfl
    · have := h (lit "a") (by decide)
      revert this
      decide
  · refine ⟨.here _, fun d hd hd' => ?_, fun h => ?_⟩
    · cases reaches_antisymm hd hd'
      exact fun _ _ => rfl
    · have := h (lit "b") (by decide)
      revert this
      decide

end Verif.Git
