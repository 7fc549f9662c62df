import Verif.Model.Git

/-!
# C60, C61: Visiting refs and committing one path
-/

namespace Verif.Git

/-! ## Reasoning about programs -/

/-- From a repository with `P` the program ends with a result and a repository in `Q`, or with an exception and one in `R`. -/
def Triple {α : Type} (P : Repo → Prop) (m : Prog α) (Q : α → Repo → Prop) (R : PyErr → Repo → Prop) : Prop :=
  ∀ s : Machine, P s.repo → match m s with
    | (.ok a, s') => Q a s'.repo
    | (.error e, s') => R e s'.repo

namespace Triple
variable {α β : Type} {P P' : Repo → Prop} {Q : α → Repo → Prop} {Q' : β → Repo → Prop} {R R' : PyErr → Repo → Prop}

theorem pure_ {a : α} (h : ∀ r, P r → Q a r) : Triple P (Prog.pure a) Q R := fun s hs => h s.repo hs

theorem throw_ {e : PyErr} (h : ∀ r, P r → R e r) : Triple P (Prog.throw e : Prog α) Q R := fun s hs => h s.repo hs

theorem bind_ {m : Prog α} {f : α → Prog β} (hm : Triple P m Q R) (hf : ∀ a, Triple (Q a) (f a) Q' R) :
    Triple P (Prog.bind m f) Q' R := by
  intro s hs
  have := hm s hs
  simp only [Prog.bind]
  generalize m s = r at this ⊢
  obtain ⟨r, s'⟩ := r
  cases r with
  | ok a => exact hf a s' this
  | error e => exact this

theorem catch_ {m : Prog α} {h : PyErr → Prog α} (hm : Triple P m Q R) (hh : ∀ e, Triple (R e) (h e) Q R') :
    Triple P (Prog.catch_ m h) Q R' := by
  intro s hs
  have := hm s hs
  simp only [Prog.catch_]
  generalize m s = r at this ⊢
  obtain ⟨r, s'⟩ := r
  cases r with
  | ok a => exact this
  | error e => exact hh e s' this

theorem finally_ {m : Prog α} {f : Prog Unit} {Q₁ : α → Repo → Prop} {R₁ : PyErr → Repo → Prop} (hm : Triple P m Q₁ R₁)
    (hok : ∀ a, Triple (Q₁ a) f (fun _ => Q a) R) (herr : ∀ e, Triple (R₁ e) f (fun _ => R e) R) : Triple P (Prog.finally_ m f) Q R := by
  intro s hs
  have := hm s hs
  simp only [Prog.finally_]
  generalize m s = r at this ⊢
  obtain ⟨r, s'⟩ := r
  cases r with
  | ok a =>
    have := hok a s' this
    dsimp only at this ⊢
    generalize f s' = o at this ⊢
    obtain ⟨o, s''⟩ := o
    cases o with
    | ok a => exact this
    | error e => exact this
  | error e =>
    have := herr e s' this
    dsimp only at this ⊢
    generalize f s' = o at this ⊢
    obtain ⟨o, s''⟩ := o
    cases o with
    | ok a => exact this
    | error e => exact this

theorem mono {Q₁ : α → Repo → Prop} {R₁ : PyErr → Repo → Prop} {m : Prog α} (h : Triple P m Q₁ R₁) (hp : ∀ r, P' r → P r)
    (hq : ∀ a r, Q₁ a r → Q a r) (hr : ∀ e r, R₁ e r → R e r) : Triple P' m Q R := by
  intro s hs
  have := h s (hp _ hs)
  generalize m s = o at this ⊢
  obtain ⟨o, s'⟩ := o
  cases o with
  | ok a => exact hq _ _ this
  | error e => exact hr _ _ this

theorem of_pre {c : Prop} {m : Prog α} (h : c → Triple P m Q R) : Triple (fun r => c ∧ P r) m Q R := fun s hs => h hs.1 s hs.2

theorem of_each {m : Prog α} (h : ∀ r0, P r0 → Triple (fun r => r = r0) m Q R) : Triple P m Q R := fun s hs => h s.repo hs s rfl

theorem cmd_ {E : Env} {f : Repo → Except PyErr (α × Repo)} (hok : ∀ r a r', P r → f r = .ok (a, r') → Q a r')
    (herr : ∀ e r, P r → (∃ n, E.F n = some e) ∨ f r = .error e → R e r) : Triple P (Prog.cmd E f) Q R := by
  intro s hs
  simp only [Prog.cmd]
  cases hf : E.F s.tick with
  | some e => exact herr e _ hs (.inl ⟨_, hf⟩)
  | none =>
    dsimp only
    cases h : f s.repo with
    | ok x => exact hok _ _ _ hs h
    | error e => exact herr _ _ hs (.inr h)

theorem pop_ {E : Env} {k : Nat} {Q : Unit → Repo → Prop} (hok : ∀ r, P r → match stashPop E.mess k r with
      | (.done, r') => Q () r'
      | (.kept, r') => R .gitError r') (herr : ∀ e r, P r → (∃ n, E.F n = some e) → R e r) : Triple P (E.pop k) Q R := by
  intro s hs
  simp only [Env.pop]
  cases hf : E.F s.tick with
  | some e => exact herr e _ hs ⟨_, hf⟩
  | none =>
    have := hok _ hs
    generalize stashPop E.mess k s.repo = o at this ⊢
    obtain ⟨o, r⟩ := o
    cases o with
    | done => exact this
    | kept => exact this

/-- What a program does, as a triple. -/
theorem run (m : Prog α) : Triple P m (fun a r => ∃ s s', P s.repo ∧ m s = (.ok a, s') ∧ s'.repo = r)
    (fun e r => ∃ s s', P s.repo ∧ m s = (.error e, s') ∧ s'.repo = r) := by
  intro s hs
  cases h : m s with
  | mk o s' => cases o with
    | ok a => exact ⟨s, s', hs, h, rfl⟩
    | error e => exact ⟨s, s', hs, h, rfl⟩

end Triple

/-! ## The git commands -/

/-- A command fails. -/
def Fails (E : Env) : Prop := ∃ n e, E.F n = some e

/-- Nothing is changed: the index and the working directory are those of `HEAD`. -/
def Clean (r : Repo) : Prop := r.index = r.tree ∧ r.work = r.tree

/-- The entry that `git stash --all` makes. -/
def entryOf (r : Repo) : Entry := ⟨r.tree, r.index, r.ours, r.others⟩

theorem unchanged_clean {r : Repo} (h : ¬ r.changed true) : Clean r := by
  unfold Repo.changed at h
  simp only [true_and, not_or, not_exists, not_and, Decidable.not_not] at h
  obtain ⟨h1, h2, h3⟩ := h
  have hi : r.index = r.tree := funext h1
  refine ⟨hi, funext fun p => ?_⟩
  cases hp : r.tracked p with
  | true => rw [h2 p hp, hi]
  | false =>
    have := h3 p
    simp only [Repo.tracked, Bool.or_eq_false_iff, Option.isSome_eq_false_iff, Option.isNone_iff_eq_none] at hp
    simp only [Repo.others, hp.2, Option.isSome_none, Bool.false_eq_true, if_false] at this
    rw [this, hp.1]

/-- What `git stash --all` leaves. -/
structure Stashed (r : Repo) (again : Bool) (r' : Repo) : Prop where
  some : again = true ↔ r.changed true
  refs : r'.refs = r.refs
  head : r'.head = r.head
  index : r'.index = r.tree
  work : r'.work = r.tree
  stash : r'.stash = (if again then [entryOf r] else []) ++ r.stash

theorem Stashed.commit {r r' : Repo} {again : Bool} (h : Stashed r again r') : r'.commit = r.commit := by
  unfold Repo.commit
  rw [h.head, h.refs]

theorem Stashed.clean {r r' : Repo} {again : Bool} (h : Stashed r again r') : Clean r' := by
  have : r'.tree = r.tree := by unfold Repo.tree; rw [h.commit]
  exact ⟨by rw [h.index, this], by rw [h.work, this]⟩

theorem stash_triple (E : Env) {r0 : Repo} : Triple (fun r => r = r0) (E.stash true) (fun again r => Stashed r0 again r)
    (fun _ r => r = r0 ∧ (Fails E ∨ r0.commit = none)) := by
  refine .cmd_ ?_ ?_
  · rintro r again r' rfl h
    unfold stashPush at h
    split at h
    · simp at h
    · split at h
      · rename_i hc
        simp only [Except.ok.injEq, Prod.mk.injEq] at h
        obtain ⟨rfl, rfl⟩ := h
        refine ⟨by simp [hc], rfl, rfl, rfl, ?_, rfl⟩
        funext p
        simp
      · rename_i hc
        simp only [Except.ok.injEq, Prod.mk.injEq] at h
        obtain ⟨rfl, rfl⟩ := h
        exact ⟨by simp [hc], rfl, rfl, (unchanged_clean hc).1, (unchanged_clean hc).2, rfl⟩
  · rintro e r rfl (⟨n, hn⟩ | h)
    · exact ⟨rfl, .inl ⟨n, e, hn⟩⟩
    · refine ⟨rfl, .inr ?_⟩
      unfold stashPush at h
      split at h
      · assumption
      · split at h <;> simp at h

/-- Where `HEAD` is after the checkout of a ref. -/
def headOf (ref : Ref) (c : Commit) : Head :=
  match ref with
  | .head n => .branch n
  | .remote _ | .tag _ => .detached c

theorem checkout_clean {r : Repo} {ref : Ref} {c : Commit} (hr : Clean r) (hc : r.refs ref = some c) :
    Git.checkout ref r = .ok { r with head := headOf ref c, index := c.tree, work := c.tree } := by
  unfold Git.checkout
  rw [hc]
  dsimp only
  rw [if_neg]
  · simp only [Except.ok.injEq]
    unfold headOf
    congr 1 <;> funext p <;> split
    · rename_i h; rw [hr.1, h]
    · rfl
    · rename_i h; rw [hr.2, h]
    · rfl
  · rintro ⟨p, h1, h2⟩
    exact h2 ⟨by rw [hr.1], by rw [hr.2]⟩

theorem checkout_triple (E : Env) {ref : Ref} {c : Commit} {r0 : Repo} (hr : Clean r0) (hc : r0.refs ref = some c) :
    Triple (fun r => r = r0) (E.checkout ref) (fun _ r => r = { r0 with head := headOf ref c, index := c.tree, work := c.tree })
      (fun _ r => r = r0 ∧ (Fails E ∨ ∃ n, ref = .tag n)) := by
  unfold Env.checkout
  split
  · rename_i n
    exact .throw_ fun r h => ⟨h, .inr ⟨n, rfl⟩⟩
  · refine .cmd_ ?_ ?_
    · rintro r a r' rfl h
      rw [checkout_clean hr hc] at h
      simpa [eq_comm] using h
    · rintro e r rfl (⟨n, hn⟩ | h)
      · exact ⟨rfl, .inl ⟨n, e, hn⟩⟩
      · rw [checkout_clean hr hc] at h
        simp at h

/-! ## Coming back -/

/-- No file that `HEAD` has is in the working directory but not in the index. -/
def Covered (r : Repo) : Prop := ∀ p, (r.tree p).isSome → (r.work p).isSome → (r.index p).isSome

/-- The index after a stash was popped: changes are not staged, new files are. -/
def unstaged (r : Repo) : Tree := fun p => if (r.tree p).isSome then r.tree p else r.ours p

theorem entry_work (r : Repo) (p : File) : (if ((entryOf r).work p).isSome then (entryOf r).work p else (entryOf r).untracked p) = r.work p := by
  simp only [entryOf, Repo.ours, Repo.others, Repo.tracked]
  by_cases h1 : (r.tree p).isSome = true <;> by_cases h2 : (r.index p).isSome = true <;> by_cases h3 : (r.work p).isSome = true <;>
    simp_all

/-- Popping the entry on a clean repository with the same files. -/
theorem pop_clean {mess : Repo → Tree × Tree} {k : Nat} {r r0 : Repo} (hr : Clean r) (ht : r.tree = r0.tree) (hcov : Covered r0)
    (hk : r.stash[k]? = some (entryOf r0)) :
    stashPop mess k r = (.done, { r with index := unstaged r0, work := r0.work, stash := r.stash.eraseIdx k }) := by
  have hm : ∀ p, merge3 ((entryOf r0).base p) (r.index p) ((entryOf r0).work p) = some ((entryOf r0).work p) := by
    intro p
    unfold merge3
    rw [if_pos]
    rw [hr.1, ht]
    rfl
  have hw : ∀ p, (if (entryOf r0).work p = r.index p then r.work p else (entryOf r0).work p) = (entryOf r0).work p := by
    intro p
    split
    · rename_i h; rw [h, hr.2, hr.1]
    · rfl
  unfold stashPop
  rw [hk]
  dsimp only
  have hgetD : ∀ p, (merge3 ((entryOf r0).base p) (r.index p) ((entryOf r0).work p)).getD none = (entryOf r0).work p := by
    intro p; rw [hm]; rfl
  rw [if_neg, if_neg (by rintro ⟨p, h⟩; rw [hm] at h; simp at h)]
  simp only [hgetD, hw]
  rw [if_neg]
  · congr 2
    · funext p
      unfold unstaged
      rw [hr.1, ht]
      rfl
    · funext p
      exact entry_work r0 p
  · rintro ⟨p, h1, h2⟩
    have := hcov p
    have h1 : ((entryOf r0).work p).isSome = true := by
      split at h1
      · rename_i h
        rw [← hgetD p]
        exact (congrArg Option.isSome (h.trans (by rw [hr.2, hr.1]))).trans h1
      · rw [← hgetD p]; exact h1
    simp only [entryOf, Repo.ours, Repo.others, Repo.tracked] at h1 h2
    by_cases h3 : (r0.tree p).isSome = true <;> by_cases h4 : (r0.index p).isSome = true <;> by_cases h5 : (r0.work p).isSome = true <;>
      simp_all
  · rintro ⟨p, -, h⟩
    exact h (by rw [hr.2, hr.1])

/-! ## The specification -/

/-- The files of the working directory and of the index are all in a stash entry. -/
def Holds (e : Entry) (r : Repo) : Prop := e.index = r.index ∧ ∀ p, (if (e.work p).isSome then e.work p else e.untracked p) = r.work p

/-- Nothing of `r0` is lost: its uncommitted files are still in the working directory, or in the stash, or there were none;
and all the old stash entries are still there in order. -/
def Kept (r0 r : Repo) : Prop :=
  ((r.work = r0.work) ∨ (∃ e ∈ r.stash, Holds e r0) ∨ (r0.index = r0.tree ∧ r0.work = r0.tree)) ∧ r0.stash <:+ r.stash

/-- What the body of the `with` must leave alone, when it starts at the ref without any changes: the stash, the branch that was
current before, and if that is the visited one, `HEAD`. -/
def Polite {α : Type} (b : Str) (ref : Ref) (c' : Commit) (body : Prog α) : Prop :=
  ∀ s : Machine, s.repo.head = headOf ref c' → s.repo.commit = some c' → s.repo.index = c'.tree → s.repo.work = c'.tree →
    (body s).2.repo.stash = s.repo.stash ∧ (body s).2.repo.refs (.head b) = s.repo.refs (.head b) ∧
    (body s).2.repo.commit.isSome ∧ (ref = .head b → (body s).2.repo.head = s.repo.head)

/-- The repository when the body starts: `HEAD` is at the ref, and nothing is changed. -/
structure Entered (r0 : Repo) (b : Str) (ref : Ref) (c' : Commit) (stashed : Bool) (r : Repo) : Prop where
  refs : r.refs = r0.refs
  head : r.head = headOf ref c'
  commit : r.commit = some c'
  index : r.index = c'.tree
  work : r.work = c'.tree
  some : stashed = true ↔ r0.changed true
  stash : r.stash = (if stashed then [entryOf r0] else []) ++ r0.stash

/-- The repository after the block, when the body left it as `rb`. -/
structure Back (r0 rb r : Repo) : Prop where
  head : r.head = r0.head
  refs : r.refs = rb.refs
  work : r.work = r0.work
  index : r.index = unstaged r0
  stash : (¬ rb.changed true ∧ r.stash = r0.stash) ∨ rb.changed true ∧ ∃ e, r.stash = e :: r0.stash ∧ e.base = rb.tree ∧ Holds e rb

theorem unstaged_clean {r : Repo} (h : Clean r) : unstaged r = r.tree := by
  funext p
  unfold unstaged Repo.ours Repo.tracked
  rw [h.1, h.2]
  cases hp : r.tree p <;> simp [hp]

theorem enter_triple (E : Env) {r0 : Repo} {b : Str} {c c' : Commit} {ref : Ref} (hb : r0.head = .branch b) (hc : r0.refs (.head b) = some c)
    (href : r0.refs ref = some c') : Triple (fun r => r = r0) (E.enter ref)
      (fun kept r => kept.1 = b ∧ Entered r0 b ref c' kept.2 r)
      (fun _ r => Kept r0 r ∧ (Fails E ∨ ∃ n, ref = .tag n)) := by
  have hcommit : r0.commit = some c := by rw [Repo.commit, hb]; exact hc
  unfold Env.enter
  refine .bind_ (Q := fun v r => v = true ∧ r = r0) ?_ fun v => .of_pre fun hv => ?_
  · rintro s rfl
    exact ⟨by rw [href]; rfl, rfl⟩
  subst hv
  rw [if_pos rfl]
  refine .bind_ (Q := fun n r => n = b ∧ r = r0) ?_ fun n => .of_pre fun hn => ?_
  · rintro s rfl
    unfold activeBranch
    rw [hb]
    exact ⟨rfl, rfl⟩
  subst hn
  refine .bind_ ((stash_triple E).mono (fun _ h => h) (fun _ _ h => h) ?_) fun stashed => ?_
  · rintro e r ⟨rfl, h⟩
    refine ⟨⟨.inl rfl, List.suffix_refl _⟩, .inl (h.resolve_right ?_)⟩
    rw [hcommit]; simp
  split
  · rename_i he
    subst he
    rw [hc, Option.some.injEq] at href
    subst href
    refine .pure_ fun r h => ⟨rfl, h.refs, h.head.trans hb, h.commit.trans hcommit, ?_, ?_, h.some, h.stash⟩
    · rw [h.index, Repo.tree, hcommit]; rfl
    · rw [h.work, Repo.tree, hcommit]; rfl
  · refine .of_each fun r1 hst => ?_
    refine .bind_ ((checkout_triple E hst.clean (hst.refs ▸ href)).mono (fun _ h => h) (fun _ _ h => h) ?_) fun _ => ?_
    · rintro e r ⟨rfl, h⟩
      refine ⟨⟨?_, ?_⟩, h⟩
      · cases stashed with
        | true =>
          refine .inr (.inl ⟨entryOf r0, ?_, rfl, entry_work r0⟩)
          rw [hst.stash]; simp
        | false => exact .inr (.inr (unchanged_clean (by rw [← hst.some]; simp)))
      · rw [hst.stash]
        exact List.suffix_append _ _
    · refine .pure_ ?_
      rintro r rfl
      refine ⟨rfl, hst.refs, rfl, ?_, rfl, rfl, hst.some, hst.stash⟩
      unfold Repo.commit headOf
      cases ref with
      | head m => exact (congrFun hst.refs _).trans href
      | remote m => rfl
      | tag m => rfl

theorem exit_triple (E : Env) {r0 rb : Repo} {b : Str} {c : Commit} {ref : Ref} {stashed : Bool} (hb : r0.head = .branch b)
    (hc : r0.refs (.head b) = some c) (hcov : Covered r0) (hbc : rb.refs (.head b) = some c) (hbcommit : rb.commit.isSome)
    (hbhead : ref = .head b → rb.head = .branch b) (hsome : stashed = true ↔ r0.changed true)
    (hstash : rb.stash = (if stashed then [entryOf r0] else []) ++ r0.stash) :
    Triple (fun r => r = rb) (E.exit ref b stashed) (fun _ r => Back r0 rb r) (fun _ r => Kept r0 r ∧ Fails E) := by
  have htree : r0.tree = c.tree := by simp [Repo.tree, Repo.commit, hb, hc]
  -- what is true until the pop
  have kept : ∀ r again, r.stash = (if again = true then [entryOf rb] else []) ++ rb.stash → Kept r0 r := by
    intro r again h
    rw [hstash] at h
    refine ⟨?_, ?_⟩
    · cases stashed with
      | true =>
        refine .inr (.inl ⟨entryOf r0, ?_, rfl, entry_work r0⟩)
        rw [h]; simp
      | false => exact .inr (.inr (unchanged_clean (by rw [← hsome]; simp)))
    · rw [h, ← List.append_assoc]
      exact List.suffix_append _ _
  unfold Env.exit
  refine .bind_ ((stash_triple E).mono (fun _ h => h) (fun _ _ h => h) ?_) fun again => ?_
  · rintro e r ⟨rfl, h⟩
    refine ⟨kept _ false (by simp), h.resolve_right ?_⟩
    intro h; rw [h] at hbcommit; simp at hbcommit
  dsimp only
  -- on the branch again
  refine .bind_ (Q := fun _ r => r.head = .branch b ∧ r.refs = rb.refs ∧ r.index = c.tree ∧ r.work = c.tree ∧
    r.stash = (if again = true then [entryOf rb] else []) ++ rb.stash ∧ (again = true ↔ rb.changed true)) ?_ fun _ => ?_
  · split
    · rename_i he
      have hh := hbhead he.symm
      refine .pure_ fun r h => ⟨h.head.trans hh, h.refs, ?_, ?_, h.stash, h.some⟩
      · rw [h.index]; simp [Repo.tree, Repo.commit, hh, hbc]
      · rw [h.work]; simp [Repo.tree, Repo.commit, hh, hbc]
    · refine .of_each fun r1 hst => ?_
      refine (checkout_triple E hst.clean (hst.refs ▸ hbc)).mono (fun _ h => h) ?_ ?_
      · rintro _ r rfl
        exact ⟨rfl, hst.refs, rfl, rfl, hst.stash, hst.some⟩
      · rintro e r ⟨rfl, h⟩
        refine ⟨kept _ again hst.stash, h.resolve_right ?_⟩
        rintro ⟨n, hn⟩
        simp at hn
  · have clean : ∀ {r : Repo}, r.head = .branch b → r.refs = rb.refs → r.index = c.tree → r.work = c.tree → Clean r ∧ r.tree = r0.tree := by
      intro r h1 h2 h3 h4
      have : r.tree = c.tree := by simp [Repo.tree, Repo.commit, h1, h2, hbc]
      exact ⟨⟨by rw [h3, this], by rw [h4, this]⟩, by rw [this, htree]⟩
    by_cases hs : stashed = true
    · rw [if_pos hs]
      subst hs
      refine .pop_ ?_ ?_
      · rintro r ⟨h1, h2, h3, h4, h5, h6⟩
        obtain ⟨hclean, ht⟩ := clean h1 h2 h3 h4
        rw [pop_clean hclean ht hcov (k := if again then 1 else 0)]
        · refine ⟨h1.trans hb.symm, h2, rfl, rfl, ?_⟩
          cases again with
          | true => exact .inr ⟨h6.1 rfl, entryOf rb, by simp [h5, hstash], rfl, rfl, entry_work rb⟩
          | false => exact .inl ⟨by rw [← h6]; simp, by simp [h5, hstash]⟩
        · rw [h5, hstash]
          cases again <;> simp
      · rintro e r ⟨h1, h2, h3, h4, h5, h6⟩ ⟨n, hn⟩
        exact ⟨kept _ again h5, n, e, hn⟩
    · rw [if_neg hs]
      refine .pure_ ?_
      rintro r ⟨h1, h2, h3, h4, h5, h6⟩
      obtain ⟨hclean, ht⟩ := clean h1 h2 h3 h4
      have hc0 := unchanged_clean (r := r0) (by rw [← hsome]; exact hs)
      refine ⟨h1.trans hb.symm, h2, by rw [h4, hc0.2, htree], by rw [h3, unstaged_clean hc0, htree], ?_⟩
      rw [Bool.not_eq_true] at hs
      subst hs
      cases again with
      | true => exact .inr ⟨h6.1 rfl, entryOf rb, by simp [h5, hstash], rfl, rfl, entry_work rb⟩
      | false => exact .inl ⟨by rw [← h6]; simp, by simp [h5, hstash]⟩

/-- A run of a whole block. -/
theorem visit_triple (E : Env) {α : Type} {r0 : Repo} {b : Str} {c c' : Commit} {ref : Ref} {body : Prog α} (hb : r0.head = .branch b)
    (hc : r0.refs (.head b) = some c) (href : r0.refs ref = some c') (hcov : Covered r0) (hbody : Polite b ref c' body) :
    Triple (fun r => r = r0) (E.visit ref body)
      (fun a r => ∃ s s' stashed, Entered r0 b ref c' stashed s.repo ∧ body s = (.ok a, s') ∧ Back r0 s'.repo r)
      (fun e r => (∃ s s' stashed, Entered r0 b ref c' stashed s.repo ∧ body s = (.error e, s') ∧ Back r0 s'.repo r) ∨
        Kept r0 r ∧ (Fails E ∨ ∃ n, ref = .tag n)) := by
  have hexit : ∀ {o : Except PyErr α} {s s' : Machine} {stashed : Bool}, Entered r0 b ref c' stashed s.repo → body s = (o, s') →
      Triple (fun r => r = s'.repo) (E.exit ref b stashed) (fun _ r => Back r0 s'.repo r) (fun _ r => Kept r0 r ∧ Fails E) := by
    intro o s s' stashed he hs
    have := hbody s he.head he.commit he.index he.work
    rw [hs] at this
    obtain ⟨h1, h2, h3, h4⟩ := this
    refine exit_triple E hb hc hcov (h2.trans (by rw [he.refs, hc])) h3 ?_ he.some (h1.trans he.stash)
    rintro rfl
    exact (h4 rfl).trans he.head
  unfold Env.visit
  refine .bind_ ((enter_triple E hb hc href).mono (fun _ h => h) (fun _ _ h => h) fun _ _ h => .inr h) ?_
  rintro ⟨b', stashed⟩
  refine .of_pre fun hb' => ?_
  dsimp only at hb' ⊢
  subst hb'
  refine .finally_ (Triple.run body) (fun a => ?_) (fun e => ?_)
  · refine .of_each ?_
    rintro r1 ⟨s, s', h1, h2, rfl⟩
    exact (hexit h1 h2).mono (fun _ h => h) (fun _ _ h => ⟨s, s', stashed, h1, h2, h⟩) (fun _ _ h => .inr ⟨h.1, .inl h.2⟩)
  · refine .of_each ?_
    rintro r1 ⟨s, s', h1, h2, rfl⟩
    exact (hexit h1 h2).mono (fun _ h => h) (fun _ _ h => .inl ⟨s, s', stashed, h1, h2, h⟩) (fun _ _ h => .inr ⟨h.1, .inl h.2⟩)

/-- **C60** (partial: the index is not restored, see below; not for tags; the body leaves the stash and the original branch alone): when
no command fails, the block runs its body at the ref without any changes, ends as the body does, and leaves `HEAD`, the
files in the working directory and the older stash entries as they were; changes the body left are in one new entry. -/
theorem C60_restored_partial (E : Env) {α : Type} {r0 : Repo} {t : Nat} {b : Str} {c c' : Commit} {ref : Ref} {body : Prog α}
    (hF : ∀ n, E.F n = none) (hb : r0.head = .branch b) (hc : r0.refs (.head b) = some c) (href : r0.refs ref = some c')
    (htag : ∀ n, ref ≠ .tag n) (hcov : Covered r0) (hbody : Polite b ref c' body) :
    ∃ s s', s.repo.refs = r0.refs ∧ s.repo.head = headOf ref c' ∧ s.repo.index = c'.tree ∧ s.repo.work = c'.tree ∧
      body s = ((E.visit ref body ⟨r0, t⟩).1, s') ∧
      (E.visit ref body ⟨r0, t⟩).2.repo.head = r0.head ∧
      (E.visit ref body ⟨r0, t⟩).2.repo.refs = s'.repo.refs ∧
      (E.visit ref body ⟨r0, t⟩).2.repo.work = r0.work ∧
      ((¬ s'.repo.changed true ∧ (E.visit ref body ⟨r0, t⟩).2.repo.stash = r0.stash) ∨
        s'.repo.changed true ∧ ∃ e, (E.visit ref body ⟨r0, t⟩).2.repo.stash = e :: r0.stash ∧ e.base = s'.repo.tree ∧ Holds e s'.repo) := by
  have := visit_triple E hb hc href hcov hbody ⟨r0, t⟩ rfl
  generalize E.visit ref body ⟨r0, t⟩ = o at this ⊢
  obtain ⟨o, s''⟩ := o
  cases o with
  | ok a =>
    obtain ⟨s, s', stashed, h1, h2, h3⟩ := this
    exact ⟨s, s', h1.refs, h1.head, h1.index, h1.work, h2, h3.head, h3.refs, h3.work, h3.stash⟩
  | error e =>
    rcases this with ⟨s, s', stashed, h1, h2, h3⟩ | ⟨-, ⟨n, e, h⟩ | ⟨n, h⟩⟩
    · exact ⟨s, s', h1.refs, h1.head, h1.index, h1.work, h2, h3.head, h3.refs, h3.work, h3.stash⟩
    · simp [hF] at h
    · exact absurd h (htag n)

/-- **C60** (partial: only without staged changes to files that `HEAD` has): then the index is restored too. -/
theorem C60_index_partial (E : Env) {α : Type} {r0 : Repo} {t : Nat} {b : Str} {c c' : Commit} {ref : Ref} {body : Prog α}
    (hF : ∀ n, E.F n = none) (hb : r0.head = .branch b) (hc : r0.refs (.head b) = some c) (href : r0.refs ref = some c')
    (htag : ∀ n, ref ≠ .tag n) (hbody : Polite b ref c' body)
    (hstaged : ∀ p, (c.tree p).isSome → r0.index p = c.tree p) (hnew : ∀ p, c.tree p = none → (r0.index p).isSome → r0.work p = r0.index p) :
    (E.visit ref body ⟨r0, t⟩).2.repo.index = r0.index := by
  have htree : r0.tree = c.tree := by simp [Repo.tree, Repo.commit, hb, hc]
  have hcov : Covered r0 := by
    intro p h1 _
    rw [htree] at h1
    rw [hstaged p h1]
    exact h1
  have hidx : unstaged r0 = r0.index := by
    funext p
    unfold unstaged Repo.ours Repo.tracked
    rw [htree]
    cases h1 : c.tree p with
    | some x => simpa [h1] using (hstaged p (by simp [h1])).symm
    | none =>
      cases h2 : r0.index p with
      | none => simp
      | some y => simpa [h2] using hnew p h1 (by simp [h2])
  have := visit_triple E hb hc href hcov hbody ⟨r0, t⟩ rfl
  generalize E.visit ref body ⟨r0, t⟩ = o at this ⊢
  obtain ⟨o, s''⟩ := o
  cases o with
  | ok a =>
    obtain ⟨s, s', stashed, h1, h2, h3⟩ := this
    exact h3.index.trans hidx
  | error e =>
    rcases this with ⟨s, s', stashed, h1, h2, h3⟩ | ⟨-, ⟨n, e, h⟩ | ⟨n, h⟩⟩
    · exact h3.index.trans hidx
    · simp [hF] at h
    · exact absurd h (htag n)

/-- **C60** (partial as above): whatever command fails, for every kind of ref, no uncommitted file and no older stash entry is
lost. -/
theorem C60_kept_partial (E : Env) {α : Type} {r0 : Repo} {t : Nat} {b : Str} {c c' : Commit} {ref : Ref} {body : Prog α}
    (hb : r0.head = .branch b) (hc : r0.refs (.head b) = some c) (href : r0.refs ref = some c') (hcov : Covered r0)
    (hbody : Polite b ref c' body) : Kept r0 (E.visit ref body ⟨r0, t⟩).2.repo := by
  have back : ∀ {rb r}, Back r0 rb r → Kept r0 r := by
    intro rb r h
    refine ⟨.inl h.work, ?_⟩
    rcases h.stash with ⟨-, h⟩ | ⟨-, e, h, -⟩
    · rw [h]; exact List.suffix_refl _
    · rw [h]; exact List.suffix_cons _ _
  have := visit_triple E hb hc href hcov hbody ⟨r0, t⟩ rfl
  generalize E.visit ref body ⟨r0, t⟩ = o at this ⊢
  obtain ⟨o, s''⟩ := o
  cases o with
  | ok a =>
    obtain ⟨s, s', stashed, h1, h2, h3⟩ := this
    exact back h3
  | error e =>
    rcases this with ⟨s, s', stashed, h1, h2, h3⟩ | ⟨h, -⟩
    · exact back h3
    · exact h

/-- **C60**: a ref that does not exist is a `NameError`, and a detached `HEAD` a `TypeError`, before anything is done. -/
theorem C60_refused (E : Env) {α : Type} {s : Machine} {ref : Ref} {body : Prog α}
    (h : s.repo.refs ref = none ∨ ∃ c, s.repo.head = .detached c) :
    (E.visit ref body s).2 = s ∧ (E.visit ref body s).1 = .error (if s.repo.refs ref = none then .nameError else .typeError) := by
  unfold Env.visit Env.enter activeBranch
  cases href : s.repo.refs ref with
  | none => simp [Prog.bind, href, Prog.throw]
  | some c =>
    rcases h with h | ⟨c', h⟩
    · rw [href] at h; simp at h
    · simp [Prog.bind, href, h]

/-- **C60** fails for the index: whatever was staged for a file that `HEAD` has is not any more, and not in the stash either. -/
theorem C60_staged_counterexample (E : Env) {α : Type} {r0 : Repo} {t : Nat} {b : Str} {c c' : Commit} {ref : Ref} {body : Prog α} {p : File}
    (hF : ∀ n, E.F n = none) (hb : r0.head = .branch b) (hc : r0.refs (.head b) = some c) (href : r0.refs ref = some c')
    (htag : ∀ n, ref ≠ .tag n) (hcov : Covered r0) (hbody : Polite b ref c' body) (hp : (c.tree p).isSome) :
    (E.visit ref body ⟨r0, t⟩).2.repo.index p = c.tree p := by
  have htree : r0.tree = c.tree := by simp [Repo.tree, Repo.commit, hb, hc]
  have hidx : unstaged r0 p = c.tree p := by
    unfold unstaged
    rw [htree, if_pos hp]
  have := visit_triple E hb hc href hcov hbody ⟨r0, t⟩ rfl
  generalize E.visit ref body ⟨r0, t⟩ = o at this ⊢
  obtain ⟨o, s''⟩ := o
  cases o with
  | ok a =>
    obtain ⟨s, s', stashed, h1, h2, h3⟩ := this
    exact (congrFun h3.index p).trans hidx
  | error e =>
    rcases this with ⟨s, s', stashed, h1, h2, h3⟩ | ⟨-, ⟨n, e, h⟩ | ⟨n, h⟩⟩
    · exact (congrFun h3.index p).trans hidx
    · simp [hF] at h
    · exact absurd h (htag n)

/-- **C60** fails for tags: the block raises and leaves the changes in the stash. -/
theorem C60_tag_counterexample (E : Env) {α : Type} {r0 : Repo} {t : Nat} {b n : Str} {c c' : Commit} {body : Prog α}
    (hF : ∀ n, E.F n = none) (hb : r0.head = .branch b) (hc : r0.refs (.head b) = some c) (href : r0.refs (.tag n) = some c')
    (hchanged : r0.changed true) :
    (E.visit (.tag n) body ⟨r0, t⟩).1 = .error .attributeError ∧ (E.visit (.tag n) body ⟨r0, t⟩).2.repo.work = c.tree ∧
      (E.visit (.tag n) body ⟨r0, t⟩).2.repo.stash = entryOf r0 :: r0.stash := by
  have hcommit : r0.commit = some c := by rw [Repo.commit, hb]; exact hc
  have htree : r0.tree = c.tree := by simp [Repo.tree, hcommit]
  have key : Triple (fun r => r = r0) (E.visit (.tag n) body) (fun _ _ => False)
      (fun e r => e = .attributeError ∧ r.work = c.tree ∧ r.stash = entryOf r0 :: r0.stash) := by
    unfold Env.visit Env.enter
    refine .bind_ (Q := fun _ _ => False) ?_ fun _ s h => h.elim
    refine .bind_ (Q := fun v r => v = true ∧ r = r0) ?_ fun v => .of_pre fun hv => ?_
    · rintro s rfl
      exact ⟨by rw [href]; rfl, rfl⟩
    subst hv
    rw [if_pos rfl]
    refine .bind_ (Q := fun m r => m = b ∧ r = r0) ?_ fun m => .of_pre fun hm => ?_
    · rintro s rfl
      unfold activeBranch
      rw [hb]
      exact ⟨rfl, rfl⟩
    refine .bind_ ((stash_triple E).mono (fun _ h => h) (fun _ _ h => h) ?_) fun stashed => ?_
    · rintro e r ⟨-, ⟨n, e, h⟩ | h⟩
      · simp [hF] at h
      · rw [hcommit] at h; simp at h
    rw [if_neg (by simp)]
    refine .bind_ (Q := fun _ _ => False) ?_ fun _ s h => h.elim
    refine .throw_ fun r h => ⟨rfl, h.work.trans htree, ?_⟩
    rw [h.stash, h.some.2 hchanged]
    rfl
  have := key ⟨r0, t⟩ rfl
  generalize E.visit (.tag n) body ⟨r0, t⟩ = o at this ⊢
  obtain ⟨o, s'⟩ := o
  cases o with
  | ok a => exact this.elim
  | error e => exact ⟨by rw [this.1], this.2⟩

/-- **C60** fails when the body stashes something itself: that is what comes back. -/
theorem C60_body_counterexample (E : Env) {r0 r1 : Repo} {t : Nat} {b : Str} {c : Commit}
    (hF : ∀ n, E.F n = none) (hb : r0.head = .branch b) (hc : r0.refs (.head b) = some c)
    (hchanged : r0.changed true) (ht : r1.tree = c.tree) (hcov : Covered r1) :
    (E.visit (.head b) (fun s => (.ok (), ⟨{ s.repo with stash := entryOf r1 :: s.repo.stash }, s.tick⟩)) ⟨r0, t⟩).2.repo.work = r1.work ∧
    (E.visit (.head b) (fun s => (.ok (), ⟨{ s.repo with stash := entryOf r1 :: s.repo.stash }, s.tick⟩)) ⟨r0, t⟩).2.repo.stash =
      entryOf r0 :: r0.stash := by
  have nofail : ¬ Fails E := by
    rintro ⟨n, e, h⟩
    simp [hF] at h
  have key : Triple (fun r => r = r0) (E.visit (.head b) (fun s => (.ok (), ⟨{ s.repo with stash := entryOf r1 :: s.repo.stash }, s.tick⟩)))
      (fun _ r => r.work = r1.work ∧ r.stash = entryOf r0 :: r0.stash) (fun _ _ => False) := by
    unfold Env.visit
    refine .bind_ ((enter_triple E hb hc hc).mono (fun _ h => h) (fun _ _ h => h) fun _ _ h => h.2.elim nofail (by simp)) ?_
    rintro ⟨b', stashed⟩
    refine .of_pre fun hb' => ?_
    dsimp only at hb' ⊢
    subst hb'
    refine .finally_ (Q₁ := fun _ r => r.head = .branch b' ∧ r.refs (.head b') = some c ∧ r.index = c.tree ∧ r.work = c.tree ∧ stashed = true ∧
      r.stash = entryOf r1 :: entryOf r0 :: r0.stash) (R₁ := fun _ _ => False) ?_ (fun a => ?_) (fun e s h => h.elim)
    · intro s he
      have hs := he.some.2 hchanged
      refine ⟨he.head, (congrFun he.refs _).trans hc, he.index, he.work, hs, ?_⟩
      rw [he.stash, hs]
      rfl
    · refine .of_each ?_
      rintro r ⟨h1, h2, h3, h4, rfl, h5⟩
      have hcommit : r.commit = some c := by rw [Repo.commit, h1]; exact h2
      have htree : r.tree = c.tree := by simp [Repo.tree, hcommit]
      have hclean : ¬ r.changed true := by
        rintro (⟨p, h⟩ | ⟨p, -, h⟩ | ⟨-, p, h⟩)
        · exact h (by rw [h3, htree])
        · exact h (by rw [h3, h4])
        · unfold Repo.others at h
          rw [h3, h4] at h
          cases hp : c.tree p <;> simp [hp] at h
      unfold Env.exit
      refine .bind_ ((stash_triple E).mono (fun _ h => h) (fun _ _ h => h) ?_) fun again => ?_
      · rintro e r ⟨-, h | h⟩
        · exact nofail h
        · rw [hcommit] at h; simp at h
      rw [if_pos rfl]
      refine .bind_ (.pure_ (Q := fun _ r' => Stashed r again r') fun _ h => h) fun _ => ?_
      rw [if_pos rfl]
      refine .pop_ ?_ ?_
      · rintro r' h
        have ha : again = false := by
          cases again with
          | false => rfl
          | true => exact absurd (h.some.1 rfl) hclean
        subst ha
        have hstash : r'.stash = entryOf r1 :: entryOf r0 :: r0.stash := by rw [h.stash, h5]; rfl
        have ht' : r'.tree = r1.tree := by
          rw [ht, ← htree]
          unfold Repo.tree
          rw [h.commit]
        rw [pop_clean h.clean ht' hcov (k := if false = true then 1 else 0) (by rw [hstash]; rfl)]
        exact ⟨rfl, by simp [hstash]⟩
      · rintro e r _ ⟨n, h⟩
        exact nofail ⟨n, e, h⟩
  have := key ⟨r0, t⟩ rfl
  revert this
  generalize E.visit _ _ _ = o
  intro this
  obtain ⟨o, s'⟩ := o
  cases o with
  | ok a => exact this
  | error e => exact this.elim

/-! ## A case -/

/-- One file in the branch, changed, and another one that git does not know. -/
def sampleTree : Tree := fun p => if p = ['a'] then some [1] else none

def sampleRepo : Repo where
  refs := fun ref => if ref = .head ['m'] then some (.mk sampleTree none) else if ref = .head ['d'] then some (.mk (fun _ => none) none)
    else if ref = .tag ['t'] then some (.mk sampleTree none) else none
  head := .branch ['m']
  index := sampleTree
  work := fun p => if p = ['a'] then some [2] else if p = ['n'] then some [3] else none
  stash := []

theorem sample_tree : sampleRepo.tree = sampleTree := by
  simp [Repo.tree, Repo.commit, sampleRepo, Commit.tree]

theorem sample_changed (all : Bool) : sampleRepo.changed all :=
  .inr (.inl ⟨['a'], by simp [Repo.tracked, sampleRepo, sampleTree]⟩)

example : Covered sampleRepo := by
  intro p h _
  rw [sample_tree] at h
  exact h

-- C60_restored_partial, C60_index_partial, C60_kept_partial, C60_staged_counterexample: a body that writes a file
example {c' : Commit} : Polite ['m'] (.head ['d']) c' (fun s => (.ok (), ⟨{ s.repo with work := fun p => if p = ['w'] then some [] else s.repo.work p }, s.tick⟩)) :=
  fun s _ h _ _ => ⟨rfl, rfl, (congrArg Option.isSome h : s.repo.commit.isSome = true), by simp⟩

example : (∀ p, (sampleTree p).isSome → sampleRepo.index p = sampleTree p) ∧
    ∀ p, sampleTree p = none → (sampleRepo.index p).isSome → sampleRepo.work p = sampleRepo.index p := by
  refine ⟨fun p _ => rfl, fun p h h' => ?_⟩
  have : sampleRepo.index p = sampleTree p := rfl
  rw [this, h] at h'
  simp at h'

/-! ## Committing -/

/-- The files at the path that the commit gets: those that git tracks and that are there. -/
def picked (spec : File → Bool) (r : Repo) : Tree := fun p => if spec p && (r.ours p).isSome then r.ours p else r.tree p

/-- The repository before the pop: `did` is whether the files at the path were put into the index. -/
structure Mid (r0 : Repo) (spec : File → Bool) (did again : Bool) (r : Repo) : Prop where
  head : r.head = r0.head
  some : again = true ↔ r0.changed false
  index : r.index = if did then picked spec r0 else r0.tree
  work : r.work = fun p => if did && spec p && (r0.ours p).isSome then r0.ours p else if r0.tracked p then r0.tree p else r0.work p
  stash : r.stash = (if again then [⟨r0.tree, r0.index, r0.ours, fun _ => none⟩] else []) ++ r0.stash

theorem unchanged_ours {r : Repo} (h : ¬ r.changed false) : r.index = r.tree ∧ r.ours = r.tree ∧
    (fun p => if r.tracked p then r.tree p else r.work p) = r.work := by
  unfold Repo.changed at h
  simp only [not_or, not_exists, not_and, Decidable.not_not] at h
  obtain ⟨h1, h2, h3⟩ := h
  have hi : r.index = r.tree := funext h1
  refine ⟨hi, funext fun p => ?_, funext fun p => ?_⟩
  · unfold Repo.ours
    split
    · rename_i hp
      rw [h2 p hp, hi]
    · rename_i hp
      simp only [Repo.tracked, Bool.or_eq_true, not_or, Bool.not_eq_true, Option.isSome_eq_false_iff, Option.isNone_iff_eq_none] at hp
      exact hp.1.symm
  · split
    · rename_i hp
      rw [h2 p hp, hi]
    · rfl

theorem push_triple (E : Env) {r0 : Repo} {c : Commit} (hc : r0.commit = some c) (spec : File → Bool) :
    Triple (fun r => r = r0) (E.stash false) (fun again r => Mid r0 spec false again r ∧ r.refs = r0.refs) (fun _ r => r = r0 ∧ Fails E) := by
  refine .cmd_ ?_ ?_
  · rintro r again r' rfl h
    unfold stashPush at h
    rw [hc] at h
    dsimp only at h
    split at h
    · rename_i hch
      simp only [Except.ok.injEq, Prod.mk.injEq] at h
      obtain ⟨rfl, rfl⟩ := h
      refine ⟨⟨rfl, by simp [hch], by simp, ?_, by simp⟩, rfl⟩
      funext p
      simp
    · rename_i hch
      simp only [Except.ok.injEq, Prod.mk.injEq] at h
      obtain ⟨rfl, rfl⟩ := h
      refine ⟨⟨rfl, by simp [hch], by simpa using (unchanged_ours hch).1, ?_, by simp⟩, rfl⟩
      simpa using (unchanged_ours hch).2.2.symm
  · rintro e r rfl (⟨n, hn⟩ | h)
    · exact ⟨rfl, n, e, hn⟩
    · unfold stashPush at h
      rw [hc] at h
      dsimp only at h
      split at h <;> simp at h

theorem pick_triple (E : Env) {r0 : Repo} {spec : File → Bool} {again : Bool} (hst : again = true ∨ r0.stash = []) :
    Triple (fun r => Mid r0 spec false again r ∧ r.refs = r0.refs)
      (ignoring (.cmd E fun r => match checkoutFrom 0 spec r with
        | .ok r => .ok ((), r)
        | .error e => .error e))
      (fun _ r => ∃ did, Mid r0 spec did again r ∧ r.refs = r0.refs ∧ (did = false → Fails E))
      (fun _ r => Mid r0 spec false again r ∧ r.refs = r0.refs ∧ Fails E) := by
  -- nothing to pick
  have none : ∀ {r}, (∀ p, picked spec r0 p = r0.tree p) → (∀ p, spec p = true → (r0.ours p).isSome = true → r0.ours p = if r0.tracked p then r0.tree p else r0.work p) →
      Mid r0 spec false again r → Mid r0 spec true again r := by
    intro r h h' hm
    refine ⟨hm.head, hm.some, ?_, ?_, hm.stash⟩
    · rw [hm.index, if_pos rfl, if_neg (by simp)]
      exact (funext h).symm
    · rw [hm.work]
      funext p
      by_cases hp : spec p = true ∧ (r0.ours p).isSome = true
      · simp only [hp.1, hp.2, Bool.false_and, Bool.true_and, Bool.and_self, Bool.false_eq_true, if_false, if_true]
        exact (h' p hp.1 hp.2).symm
      · have : ¬ (true && spec p && (r0.ours p).isSome) = true := by
          rw [Bool.true_and, Bool.and_eq_true]
          exact hp
        rw [if_neg this, if_neg (by simp)]
  unfold ignoring
  refine .catch_ (R := fun e r => Mid r0 spec false again r ∧ r.refs = r0.refs ∧ (Fails E ∨ e = .gitError ∧ Mid r0 spec true again r)) (.cmd_ ?_ ?_) fun e => ?_
  · rintro r a r' ⟨hm, hr⟩ h
    refine ⟨true, ?_, ?_, by simp⟩
    all_goals
      unfold checkoutFrom at h
      cases hs : r.stash[0]? with
      | none => simp [hs] at h
      | some e =>
        simp only [hs] at h
        split at h
        · rename_i r'' hx
          split at hx
          · simp only [Except.ok.injEq] at hx
            simp only [Except.ok.injEq, Prod.mk.injEq, true_and] at h
            subst hx
            subst h
            have hw : e.work = r0.ours := by
              rw [hm.stash] at hs
              cases again with
              | true =>
                simp only [if_true, List.cons_append, List.nil_append, List.getElem?_cons_zero, Option.some.injEq] at hs
                rw [← hs]
              | false =>
                rw [hst.resolve_left (by simp)] at hs
                simp at hs
            first
            | exact hr
            | refine ⟨hm.head, hm.some, ?_, ?_, hm.stash⟩
              · simp only [hw, hm.index]
                funext p
                simp [picked]
              · simp only [hw, hm.work]
                funext p
                simp
          · simp at hx
        · simp at h
  · rintro e r ⟨hm, hr⟩ (⟨n, hn⟩ | h)
    · exact ⟨hm, hr, .inl ⟨n, e, hn⟩⟩
    · refine ⟨hm, hr, .inr ?_⟩
      unfold checkoutFrom at h
      cases hs : r.stash[0]? with
      | none =>
        simp only [hs, Except.error.injEq] at h
        refine ⟨h.symm, ?_⟩
        have ha : again = false := by
          cases again with
          | false => rfl
          | true => rw [hm.stash] at hs; simp at hs
        subst ha
        have hun : ¬ r0.changed false := by rw [← hm.some]; simp
        obtain ⟨h1, h2, h3⟩ := unchanged_ours hun
        refine none (fun p => ?_) (fun p _ hp => ?_) hm
        · unfold picked
          rw [h2]
          simp
        · rw [h2] at hp ⊢
          have : r0.tracked p = true := by simp [Repo.tracked, hp]
          rw [if_pos this]
      | some en =>
        simp only [hs] at h
        split at h
        · simp at h
        · rename_i e' hx
          split at hx
          · simp at hx
          · rename_i hno
            simp only [Except.error.injEq] at hx h
            refine ⟨by rw [← h, ← hx], ?_⟩
            have hw : en.work = r0.ours := by
              rw [hm.stash] at hs
              cases again with
              | true =>
                simp only [if_true, List.cons_append, List.nil_append, List.getElem?_cons_zero, Option.some.injEq] at hs
                rw [← hs]
              | false =>
                rw [hst.resolve_left (by simp)] at hs
                simp at hs
            rw [hw] at hno
            refine none (fun p => ?_) (fun p h1 h2 => absurd ⟨p, h1, h2⟩ hno) hm
            unfold picked
            rw [if_neg]
            intro hp
            rw [Bool.and_eq_true] at hp
            exact hno ⟨p, hp⟩
  · split
    · rename_i he
      refine .pure_ ?_
      rintro r ⟨h1, h2, h3 | ⟨-, h3⟩⟩
      · exact ⟨false, h1, h2, fun _ => h3⟩
      · exact ⟨true, h3, h2, by simp⟩
    · rename_i he
      refine .throw_ ?_
      rintro r ⟨h1, h2, h3 | ⟨h3, -⟩⟩
      · exact ⟨h1, h2, h3⟩
      · exact absurd h3 he

/-- The repository after the pop: all is back, changes are not staged any more. -/
structure Returned (r0 : Repo) (spec : File → Bool) (did : Bool) (r : Repo) : Prop where
  head : r.head = r0.head
  index : r.index = fun p => if ((if did then picked spec r0 else r0.tree) p).isSome then (if did then picked spec r0 else r0.tree) p else r0.ours p
  work : r.work = r0.work
  stash : r.stash = r0.stash

/-- Nothing is lost: everything is in the working directory and the stash is the old one, or what git tracks is in a new entry on
top of the old ones. -/
def KeptTracked (r0 r : Repo) : Prop :=
  (r.work = r0.work ∧ r.stash = r0.stash) ∨
  ∃ e, r.stash = e :: r0.stash ∧ e.index = r0.index ∧ ∀ p, (if r0.tracked p then e.work p else r.work p) = r0.work p

theorem popMid_triple (E : Env) {r0 : Repo} {spec : File → Bool} {did again : Bool} (hst : again = true ∨ r0.stash = [])
    {S : (Ref → Option Commit) → Prop} :
    Triple (fun r => Mid r0 spec did again r ∧ S r.refs) (ignoring (E.pop 0))
      (fun _ r => KeptTracked r0 r ∧ S r.refs ∧ r.head = r0.head ∧ (Returned r0 spec did r ∨ Fails E)) (fun _ r => KeptTracked r0 r ∧ Fails E) := by
  have kept : ∀ {r}, Mid r0 spec did again r → KeptTracked r0 r := by
    intro r hm
    cases again with
    | true =>
      refine .inr ⟨_, hm.stash, rfl, fun p => ?_⟩
      rw [hm.work]
      dsimp only
      unfold Repo.ours
      cases hp : r0.tracked p <;> simp
    | false =>
      obtain ⟨h1, h2, h3⟩ := unchanged_ours (r := r0) (by rw [← hm.some]; simp)
      refine .inl ⟨?_, by simpa using hm.stash⟩
      rw [hm.work]
      refine Eq.trans ?_ h3
      funext p
      rw [h2]
      by_cases hp : (r0.tree p).isSome = true
      · simp [Repo.tracked, hp]
      · simp [hp]
  unfold ignoring
  refine .catch_ (R := fun e r => KeptTracked r0 r ∧ S r.refs ∧ r.head = r0.head ∧ (Fails E ∨ e = .gitError ∧ Returned r0 spec did r)) (.pop_ ?_ ?_) fun e => ?_
  · rintro r ⟨hm, hS⟩
    cases hag : again with
    | false =>
      subst hag
      have hs : r.stash = [] := by rw [hm.stash, hst.resolve_left (by simp)]; simp
      unfold stashPop
      rw [hs]
      refine ⟨kept hm, hS, hm.head, .inr ⟨rfl, ?_⟩⟩
      obtain ⟨h1, h2, h3⟩ := unchanged_ours (r := r0) (by rw [← hm.some]; simp)
      have hpick : picked spec r0 = r0.tree := by
        funext p
        unfold picked
        rw [h2]
        simp
      refine ⟨hm.head, ?_, ?_, hs.trans (hst.resolve_left (by simp)).symm⟩
      · rw [hm.index, hpick, h2]
        funext p
        simp
      · exact ((kept hm).resolve_right (by rintro ⟨e, he, -⟩; rw [hs] at he; simp at he)).1
    | true =>
      subst hag
      have hT : ∀ p, r.index p = if did && (spec p && (r0.ours p).isSome) then r0.ours p else r0.tree p := by
        intro p
        rw [hm.index]
        cases did <;> simp [picked]
      have hmerge : ∀ p, merge3 (r0.tree p) (r.index p) (r0.ours p) = some (r0.ours p) := by
        intro p
        unfold merge3
        rw [hT]
        by_cases hp : did && (spec p && (r0.ours p).isSome)
        · rw [if_pos hp]
          split
          · rfl
          · split
            · rfl
            · rename_i h; exact absurd rfl h
        · rw [if_neg hp, if_pos rfl]
      have hwork : ∀ p, r.work p = if did && (spec p && (r0.ours p).isSome) then r0.ours p else if r0.tracked p then r0.tree p else r0.work p := by
        intro p
        rw [hm.work]
        simp [Bool.and_assoc]
      have huntr : ∀ p, ¬ r0.tracked p = true → r0.ours p = none ∧ r0.tree p = none := by
        intro p hp
        refine ⟨by unfold Repo.ours; rw [if_neg hp], ?_⟩
        simp only [Repo.tracked, Bool.or_eq_true, not_or, Bool.not_eq_true, Option.isSome_eq_false_iff, Option.isNone_iff_eq_none] at hp
        exact hp.1
      have hours : ∀ p, r0.tracked p = true → r0.ours p = r0.work p := by
        intro p hp
        unfold Repo.ours
        rw [if_pos hp]
      unfold stashPop
      rw [hm.stash]
      simp only [if_true, List.cons_append, List.nil_append, List.getElem?_cons_zero, List.eraseIdx_cons_zero]
      rw [if_neg, if_neg (by rintro ⟨p, h⟩; rw [hmerge] at h; simp at h), if_neg (by simp)]
      · have hfinal : (fun p => if (if (merge3 (r0.tree p) (r.index p) (r0.ours p)).getD none = r.index p then r.work p
            else (merge3 (r0.tree p) (r.index p) (r0.ours p)).getD none).isSome = true then
              (if (merge3 (r0.tree p) (r.index p) (r0.ours p)).getD none = r.index p then r.work p
            else (merge3 (r0.tree p) (r.index p) (r0.ours p)).getD none) else none) = r0.work := by
          funext p
          have hx : (if (merge3 (r0.tree p) (r.index p) (r0.ours p)).getD none = r.index p then r.work p
            else (merge3 (r0.tree p) (r.index p) (r0.ours p)).getD none) = r0.work p := by
            split
            · rename_i h
              rw [hmerge, Option.getD_some, hT] at h
              rw [hwork]
              by_cases hp : r0.tracked p = true
              · rw [← hours p hp]
                split
                · rfl
                · rename_i hc
                  rw [if_neg hc] at h
                  rw [h]
              · rw [if_neg (by simp [(huntr p hp).1]), if_neg hp]
            · rename_i h
              rw [hmerge, Option.getD_some]
              rw [hmerge, Option.getD_some, hT] at h
              by_cases hp : r0.tracked p = true
              · exact hours p hp
              · exfalso
                obtain ⟨h1, h2⟩ := huntr p hp
                simp [h1, h2] at h
          simp only [hx]
          cases r0.work p <;> rfl
        refine ⟨.inl ⟨hfinal, rfl⟩, hS, hm.head, .inl ⟨hm.head, ?_, hfinal, rfl⟩⟩
        funext p
        have : (if did then picked spec r0 else r0.tree) = r.index := hm.index.symm
        dsimp only
        rw [this]
        split
        · rfl
        · rw [hmerge]; rfl
      · rintro ⟨p, h1, h2⟩
        rw [hmerge, hT] at h1
        rw [hwork, hT] at h2
        by_cases hc : did && (spec p && (r0.ours p).isSome)
        · rw [if_pos hc] at h1
          exact h1 rfl
        · rw [if_neg hc] at h1 h2
          rw [if_neg hc] at h2
          by_cases hp : r0.tracked p = true
          · rw [if_pos hp] at h2
            exact h2 rfl
          · obtain ⟨h3, h4⟩ := huntr p hp
            rw [h3, h4] at h1
            exact h1 rfl
  · rintro e r ⟨hm, hS⟩ ⟨n, hn⟩
    exact ⟨kept hm, hS, hm.head, .inl ⟨n, e, hn⟩⟩
  · split
    · refine .pure_ ?_
      rintro r ⟨h1, h2, h3, h4 | ⟨-, h4⟩⟩
      · exact ⟨h1, h2, h3, .inr h4⟩
      · exact ⟨h1, h2, h3, .inl h4⟩
    · rename_i he
      refine .throw_ ?_
      rintro r ⟨h1, h2, h3, h4 | ⟨h4, -⟩⟩
      · exact ⟨h1, h4⟩
      · exact absurd h4 he

/-- The refs with a new commit on a branch. -/
def onBranch (refs : Ref → Option Commit) (b : Str) (c : Commit) : Ref → Option Commit := fun ref => if ref = .head b then some c else refs ref

theorem commit_triple (E : Env) {r0 : Repo} {b : Str} {c : Commit} {spec : File → Bool} (hb : r0.head = .branch b) (hc : r0.refs (.head b) = some c)
    (hst : r0.changed false ∨ r0.stash = []) :
    Triple (fun r => r = r0) (E.commit spec)
      (fun c' r => KeptTracked r0 r ∧ r.head = r0.head ∧ ∃ did, c' = .mk (if did then picked spec r0 else r0.tree) (some c) ∧ r.refs = onBranch r0.refs b c' ∧
        (Fails E ∨ did = true ∧ Returned r0 spec true r))
      (fun _ r => KeptTracked r0 r ∧ Fails E) := by
  have hcommit : r0.commit = some c := by rw [Repo.commit, hb]; exact hc
  unfold Env.commit
  refine .bind_ (Q := fun n r => n = b ∧ r = r0) ?_ fun n => .of_pre fun hn => ?_
  · rintro s rfl
    unfold activeBranch
    rw [hb]
    exact ⟨rfl, rfl⟩
  subst hn
  refine .bind_ (Q := fun v r => v = true ∧ r = r0) ?_ fun v => .of_pre fun hv => ?_
  · rintro s rfl
    exact ⟨by rw [hc]; rfl, rfl⟩
  subst hv
  rw [if_pos rfl]
  refine .bind_ ((push_triple E hcommit spec).mono (fun _ h => h) (fun _ _ h => h) ?_) fun again => ?_
  · rintro e r ⟨rfl, h⟩
    exact ⟨.inl ⟨rfl, rfl⟩, h⟩
  refine .of_each fun r1 hr1 => ?_
  have hst' : again = true ∨ r0.stash = [] := hst.imp_left hr1.1.some.2
  refine .finally_
    (Q₁ := fun c' r => ∃ did, c' = .mk (if did then picked spec r0 else r0.tree) (some c) ∧ (did = false → Fails E) ∧ Mid r0 spec did again r ∧
      r.refs = onBranch r0.refs n c')
    (R₁ := fun _ r => Fails E ∧ ∃ did, Mid r0 spec did again r ∧ True)
    ?_ (fun c' => ?_) (fun e => .of_pre fun hf => ?_)
  · refine .bind_ ((pick_triple E hst').mono (fun r h => h ▸ hr1) (fun _ _ h => h) ?_) fun _ => .cmd_ ?_ ?_
    · rintro e r ⟨h1, h2, h3⟩
      exact ⟨h3, false, h1, trivial⟩
    · rintro r c' r' ⟨did, hm, hr, hdid⟩ h
      unfold indexCommit at h
      rw [hm.head, hb] at h
      simp only [Except.ok.injEq, Prod.mk.injEq] at h
      obtain ⟨rfl, rfl⟩ := h
      refine ⟨did, ?_, hdid, ⟨hb.symm ▸ rfl, hm.some, hm.index, hm.work, hm.stash⟩, ?_⟩
      · rw [hm.index]
        congr 1
        rw [Repo.commit, hm.head, hb, hr]
        exact hc
      · rw [hr]
        rfl
    · rintro e r ⟨did, hm, hr, hdid⟩ (⟨k, hk⟩ | h)
      · exact ⟨⟨k, e, hk⟩, did, hm, trivial⟩
      · unfold indexCommit at h
        rw [hm.head, hb] at h
        simp at h
  · refine .of_each ?_
    rintro r ⟨did, hc', hdid, hm, hr⟩
    refine (popMid_triple E hst' (S := fun refs => refs = onBranch r0.refs n c')).mono (by rintro _ rfl; exact ⟨hm, hr⟩) ?_ (fun _ _ h => h)
    rintro _ r' ⟨h1, h2, h3, h4⟩
    refine ⟨h1, h3, did, hc', h2, ?_⟩
    cases did with
    | false => exact .inl (hdid rfl)
    | true => exact h4.symm.imp_right fun h => ⟨rfl, h⟩
  · refine .of_each ?_
    rintro r ⟨did, hm, -⟩
    exact (popMid_triple E hst' (S := fun _ => True)).mono (by rintro _ rfl; exact ⟨hm, trivial⟩) (fun _ _ h => ⟨h.1, hf⟩) (fun _ _ h => h)

/-- The result and the repository at the end of a run that cannot fail. -/
theorem commit_run (E : Env) {r0 : Repo} {t : Nat} {b : Str} {c : Commit} {spec : File → Bool} (hF : ∀ n, E.F n = none)
    (hb : r0.head = .branch b) (hc : r0.refs (.head b) = some c) (hst : r0.changed false ∨ r0.stash = []) :
    (E.commit spec ⟨r0, t⟩).1 = .ok (.mk (picked spec r0) (some c)) ∧ Returned r0 spec true (E.commit spec ⟨r0, t⟩).2.repo ∧
      (E.commit spec ⟨r0, t⟩).2.repo.refs = onBranch r0.refs b (.mk (picked spec r0) (some c)) := by
  have nofail : ¬ Fails E := by
    rintro ⟨n, e, h⟩
    simp [hF] at h
  have := commit_triple E (spec := spec) hb hc hst ⟨r0, t⟩ rfl
  generalize E.commit spec ⟨r0, t⟩ = o at this ⊢
  obtain ⟨o, s'⟩ := o
  cases o with
  | error e => exact absurd this.2 nofail
  | ok c' =>
    obtain ⟨h1, h2, did, h3, h4, h5⟩ := this
    obtain ⟨rfl, h6⟩ := h5.resolve_left nofail
    rw [if_pos rfl] at h3
    subst h3
    exact ⟨rfl, h6, h4⟩

/-- **C61** (partial: not for files that git does not track yet or that are gone; not when nothing is changed but something is in the stash;
the index is not restored, see below): `commit` makes a commit on `HEAD` that differs from it only at the path, where it has
the files of the working directory; the branch moves to it, and the files in the working directory and the stash
are as before. -/
theorem C61_commit_partial (E : Env) {r0 : Repo} {t : Nat} {b : Str} {c : Commit} {spec : File → Bool} (hF : ∀ n, E.F n = none)
    (hb : r0.head = .branch b) (hc : r0.refs (.head b) = some c) (hst : r0.changed false ∨ r0.stash = []) :
    ∃ c', (E.commit spec ⟨r0, t⟩).1 = .ok c' ∧ c'.parent = some c ∧
      (∀ p, spec p = false → c'.tree p = c.tree p) ∧
      (∀ p, spec p = true → ((c.tree p).isSome ∨ (r0.index p).isSome) → (r0.work p).isSome → c'.tree p = r0.work p) ∧
      (E.commit spec ⟨r0, t⟩).2.repo.head = r0.head ∧
      (E.commit spec ⟨r0, t⟩).2.repo.refs (.head b) = some c' ∧
      (∀ ref, ref ≠ .head b → (E.commit spec ⟨r0, t⟩).2.repo.refs ref = r0.refs ref) ∧
      (E.commit spec ⟨r0, t⟩).2.repo.work = r0.work ∧ (E.commit spec ⟨r0, t⟩).2.repo.stash = r0.stash := by
  obtain ⟨h1, h2, h3⟩ := commit_run E (t := t) (spec := spec) hF hb hc hst
  have htree : r0.tree = c.tree := by simp [Repo.tree, Repo.commit, hb, hc]
  refine ⟨_, h1, rfl, fun p hp => ?_, fun p hp ht hw => ?_, h2.head, ?_, fun ref href => ?_, h2.work, h2.stash⟩
  · show picked spec r0 p = _
    simp [picked, hp, htree]
  · show picked spec r0 p = _
    have : r0.tracked p = true := by simpa [Repo.tracked, htree] using ht
    simp [picked, hp, Repo.ours, this, hw]
  · rw [h3, onBranch, if_pos rfl]
  · rw [h3, onBranch, if_neg href]

/-- **C61** (partial as above; only without staged changes elsewhere to files that `HEAD` has): then the index is as before elsewhere, and
at the path it has what was committed. -/
theorem C61_index_partial (E : Env) {r0 : Repo} {t : Nat} {b : Str} {c : Commit} {spec : File → Bool} (hF : ∀ n, E.F n = none)
    (hb : r0.head = .branch b) (hc : r0.refs (.head b) = some c) (hst : r0.changed false ∨ r0.stash = [])
    (hstaged : ∀ p, spec p = false → (c.tree p).isSome → r0.index p = c.tree p)
    (hnew : ∀ p, spec p = false → c.tree p = none → (r0.index p).isSome → r0.work p = r0.index p) :
    (∀ p, spec p = false → (E.commit spec ⟨r0, t⟩).2.repo.index p = r0.index p) ∧
    ∀ p c', (E.commit spec ⟨r0, t⟩).1 = .ok c' → spec p = true → (E.commit spec ⟨r0, t⟩).2.repo.index p = c'.tree p := by
  obtain ⟨h1, h2, h3⟩ := commit_run E (t := t) (spec := spec) hF hb hc hst
  have htree : r0.tree = c.tree := by simp [Repo.tree, Repo.commit, hb, hc]
  refine ⟨fun p hp => ?_, fun p c' hc' hp => ?_⟩
  · rw [h2.index]
    have hpick : picked spec r0 p = c.tree p := by simp [picked, hp, htree]
    simp only [if_true, hpick]
    by_cases hx : (c.tree p).isSome = true
    · rw [if_pos hx, hstaged p hp hx]
    · rw [if_neg hx]
      rw [Option.not_isSome_iff_eq_none] at hx
      unfold Repo.ours Repo.tracked
      rw [htree, hx]
      by_cases hi : (r0.index p).isSome = true
      · simpa [hi] using hnew p hp hx hi
      · rw [Option.not_isSome_iff_eq_none] at hi
        simp [hi]
  · rw [h1, Except.ok.injEq] at hc'
    subst hc'
    rw [h2.index]
    show _ = picked spec r0 p
    simp only [if_true]
    by_cases hx : (picked spec r0 p).isSome = true
    · rw [if_pos hx]
    · rw [if_neg hx]
      rw [Option.not_isSome_iff_eq_none] at hx
      rw [hx]
      by_cases ho : (r0.ours p).isSome = true
      · simp [picked, hp, ho] at hx
        simp [hx] at ho
      · simpa using ho

/-- **C61**: whatever command fails, nothing is lost: all the files are still in the working directory, or those that git tracks are
in a stash entry on top of the old ones. -/
theorem C61_kept_partial (E : Env) {r0 : Repo} {t : Nat} {b : Str} {c : Commit} {spec : File → Bool}
    (hb : r0.head = .branch b) (hc : r0.refs (.head b) = some c) (hst : r0.changed false ∨ r0.stash = []) :
    KeptTracked r0 (E.commit spec ⟨r0, t⟩).2.repo := by
  have := commit_triple E (spec := spec) hb hc hst ⟨r0, t⟩ rfl
  generalize E.commit spec ⟨r0, t⟩ = o at this ⊢
  obtain ⟨o, s'⟩ := o
  cases o with
  | error e => exact this.1
  | ok c' => exact this.1

/-- **C61** (partial: not for files that are gone; stash and index as above): `commit_from_working_tree` commits also files that git did not
track. -/
theorem C61_working_tree_partial (E : Env) {r0 : Repo} {t : Nat} {b : Str} {c : Commit} {spec : File → Bool} (hF : ∀ n, E.F n = none)
    (hb : r0.head = .branch b) (hc : r0.refs (.head b) = some c) (hst : (indexAdd spec r0).changed false ∨ r0.stash = []) :
    ∃ c', (E.commitFromWorkingTree spec ⟨r0, t⟩).1 = .ok c' ∧ c'.parent = some c ∧
      (∀ p, spec p = false → c'.tree p = c.tree p) ∧
      (∀ p, spec p = true → c'.tree p = if (r0.work p).isSome then r0.work p else c.tree p) ∧
      (E.commitFromWorkingTree spec ⟨r0, t⟩).2.repo.head = r0.head ∧
      (E.commitFromWorkingTree spec ⟨r0, t⟩).2.repo.refs (.head b) = some c' ∧
      (∀ ref, ref ≠ .head b → (E.commitFromWorkingTree spec ⟨r0, t⟩).2.repo.refs ref = r0.refs ref) ∧
      (E.commitFromWorkingTree spec ⟨r0, t⟩).2.repo.work = r0.work ∧ (E.commitFromWorkingTree spec ⟨r0, t⟩).2.repo.stash = r0.stash := by
  have hrun : E.commitFromWorkingTree spec ⟨r0, t⟩ = E.commit spec ⟨indexAdd spec r0, t + 1⟩ := by
    simp [Env.commitFromWorkingTree, Prog.bind, Prog.cmd, hF]
  rw [hrun]
  obtain ⟨c', h1, h2, h3, h4, h5, h6, h7, h8, h9⟩ := C61_commit_partial E (r0 := indexAdd spec r0) (t := t + 1) (spec := spec) hF hb hc hst
  refine ⟨c', h1, h2, h3, fun p hp => ?_, h5, h6, h7, h8, h9⟩
  have hpick := (commit_run E (r0 := indexAdd spec r0) (t := t + 1) (spec := spec) hF hb hc hst).1
  have htree : (indexAdd spec r0).tree = c.tree := by
    show r0.tree = _
    simp [Repo.tree, Repo.commit, hb, hc]
  rw [h1] at hpick
  cases hpick
  show picked spec (indexAdd spec r0) p = _
  unfold picked Repo.ours Repo.tracked
  rw [htree]
  cases hw : r0.work p <;> simp [indexAdd, hp, hw]

/-- **C61** (partial as above): also after `commit_from_working_tree` the index is as before elsewhere, and at the path it has what
was committed. -/
theorem C61_working_tree_index_partial (E : Env) {r0 : Repo} {t : Nat} {b : Str} {c : Commit} {spec : File → Bool} (hF : ∀ n, E.F n = none)
    (hb : r0.head = .branch b) (hc : r0.refs (.head b) = some c) (hst : (indexAdd spec r0).changed false ∨ r0.stash = [])
    (hstaged : ∀ p, spec p = false → (c.tree p).isSome → r0.index p = c.tree p)
    (hnew : ∀ p, spec p = false → c.tree p = none → (r0.index p).isSome → r0.work p = r0.index p) :
    (∀ p, spec p = false → (E.commitFromWorkingTree spec ⟨r0, t⟩).2.repo.index p = r0.index p) ∧
    ∀ p c', (E.commitFromWorkingTree spec ⟨r0, t⟩).1 = .ok c' → spec p = true →
      (E.commitFromWorkingTree spec ⟨r0, t⟩).2.repo.index p = c'.tree p := by
  have hrun : E.commitFromWorkingTree spec ⟨r0, t⟩ = E.commit spec ⟨indexAdd spec r0, t + 1⟩ := by
    simp [Env.commitFromWorkingTree, Prog.bind, Prog.cmd, hF]
  have hidx : ∀ p, spec p = false → (indexAdd spec r0).index p = r0.index p := fun p hp => by simp [indexAdd, hp]
  rw [hrun]
  obtain ⟨h1, h2⟩ := C61_index_partial E (r0 := indexAdd spec r0) (t := t + 1) (spec := spec) hF hb hc hst
    (fun p hp hs => by rw [hidx p hp]; exact hstaged p hp hs) (fun p hp hs hi => by rw [hidx p hp] at hi ⊢; exact hnew p hp hs hi)
  exact ⟨fun p hp => by rw [h1 p hp, hidx p hp], h2⟩

/-- **C61**: on a detached `HEAD` nothing is done, it is a `TypeError`. -/
theorem C61_detached (E : Env) {s : Machine} {c : Commit} (spec : File → Bool) (h : s.repo.head = .detached c) :
    E.commit spec s = (.error .typeError, s) := by
  simp [Env.commit, Prog.bind, activeBranch, h]

/-- **C61** fails for files that git does not track, and for those that are gone: they remain in the commit as they were in `HEAD`, and no
exception is raised. -/
theorem C61_missing_counterexample (E : Env) {r0 : Repo} {t : Nat} {b : Str} {c : Commit} {spec : File → Bool} {p : File} (hF : ∀ n, E.F n = none)
    (hb : r0.head = .branch b) (hc : r0.refs (.head b) = some c) (hst : r0.changed false ∨ r0.stash = [])
    (hp : (c.tree p = none ∧ r0.index p = none) ∨ r0.work p = none) :
    ∃ c', (E.commit spec ⟨r0, t⟩).1 = .ok c' ∧ c'.tree p = c.tree p := by
  obtain ⟨h1, h2, h3⟩ := commit_run E (t := t) (spec := spec) hF hb hc hst
  have htree : r0.tree = c.tree := by simp [Repo.tree, Repo.commit, hb, hc]
  refine ⟨_, h1, ?_⟩
  show picked spec r0 p = _
  unfold picked Repo.ours Repo.tracked
  rw [htree]
  rcases hp with ⟨h, h'⟩ | h
  · simp [h, h']
  · simp [h]

/-- **C61** fails for the index: what was staged elsewhere, for a file that `HEAD` has, is not any more. -/
theorem C61_staged_counterexample (E : Env) {r0 : Repo} {t : Nat} {b : Str} {c : Commit} {spec : File → Bool} {p : File} (hF : ∀ n, E.F n = none)
    (hb : r0.head = .branch b) (hc : r0.refs (.head b) = some c) (hst : r0.changed false ∨ r0.stash = []) (hp : spec p = false)
    (hx : (c.tree p).isSome) : (E.commit spec ⟨r0, t⟩).2.repo.index p = c.tree p := by
  obtain ⟨h1, h2, h3⟩ := commit_run E (t := t) (spec := spec) hF hb hc hst
  have htree : r0.tree = c.tree := by simp [Repo.tree, Repo.commit, hb, hc]
  rw [h2.index]
  have hpick : picked spec r0 p = c.tree p := by simp [picked, hp, htree]
  simp only [if_true, hpick, hx]

/-- **C61** fails when nothing is changed and something is in the stash: the content that an old stash entry has for the path is
committed. -/
theorem C61_old_stash_counterexample (E : Env) {r0 : Repo} {t : Nat} {b : Str} {c : Commit} {spec : File → Bool} {p : File} {e : Entry} {rest : List Entry}
    (hF : ∀ n, E.F n = none) (hb : r0.head = .branch b) (hc : r0.refs (.head b) = some c) (hst : ¬ r0.changed false) (hs : r0.stash = e :: rest)
    (hp : spec p = true) (hx : (e.work p).isSome) :
    ∃ c', (E.commit spec ⟨r0, t⟩).1 = .ok c' ∧ c'.tree p = e.work p := by
  have hcommit : r0.commit = some c := by rw [Repo.commit, hb]; exact hc
  have hpush : stashPush false r0 = .ok (false, r0) := by
    unfold stashPush
    rw [hcommit]
    dsimp only
    rw [if_neg hst]
  have hex : ∃ p, spec p = true ∧ (e.work p).isSome = true := ⟨p, hp, hx⟩
  simp only [Env.commit, Prog.bind, activeBranch, hb, hc, Option.isSome_some, if_true, Env.stash, Prog.cmd, hF, hpush, Prog.finally_, ignoring,
    Prog.catch_, checkoutFrom, hs, List.getElem?_cons_zero, if_pos hex, indexCommit]
  generalize hpop : E.pop 0 _ = o
  have hpop' : ∀ e', o.1 = .error e' → e' = .gitError := by
    intro e' h
    rw [← hpop] at h
    unfold Env.pop at h
    rw [hF] at h
    dsimp only at h
    split at h
    · simp at h
    · simpa [eq_comm] using h
  obtain ⟨o, s'⟩ := o
  cases o with
  | ok a => exact ⟨_, rfl, by simp [Commit.tree, hp, hx]⟩
  | error e' =>
    obtain rfl := hpop' e' rfl
    exact ⟨_, rfl, by simp [Commit.tree, hp, hx]⟩

/-- **C61** fails on a branch without a commit: the whole index is committed. -/
theorem C61_first_counterexample (E : Env) {r0 : Repo} {t : Nat} {b : Str} {spec : File → Bool} (hF : ∀ n, E.F n = none)
    (hb : r0.head = .branch b) (hc : r0.refs (.head b) = none) :
    ∃ c', (E.commit spec ⟨r0, t⟩).1 = .ok c' ∧ c'.tree = r0.index ∧ c'.parent = none := by
  simp [Env.commit, Prog.bind, activeBranch, hb, hc, Prog.cmd, hF, indexCommit, Commit.tree, Commit.parent, Repo.commit]

/-- **C61**: a command that fails is not always seen: when the checkout from the stash fails, a commit without the change is
returned. -/
theorem C61_silent_counterexample : ∃ (E : Env) (c' : Commit), (∀ n, E.F n = none ∨ E.F n = some .gitError) ∧
    (E.commit (fun p => p = ['a']) ⟨sampleRepo, 0⟩).1 = .ok c' ∧ c'.tree ['a'] = some [1] ∧ sampleRepo.work ['a'] = some [2] := by
  let E : Env := ⟨fun n => if n = 1 then some .gitError else none, fun _ => (sampleTree, sampleTree)⟩
  have hpush : stashPush false sampleRepo = .ok (true, { sampleRepo with
        index := sampleRepo.tree
        work := fun p => if sampleRepo.tracked p then sampleRepo.tree p else sampleRepo.work p
        stash := [⟨sampleRepo.tree, sampleRepo.index, sampleRepo.ours, fun _ => none⟩] }) := by
    have hcommit : sampleRepo.commit = some (.mk sampleTree none) := rfl
    unfold stashPush
    rw [hcommit]
    dsimp only
    rw [if_pos (sample_changed false)]
    simp only [Bool.false_or, Bool.false_eq_true, if_false]
    rfl
  refine ⟨E, .mk sampleTree (some (.mk sampleTree none)), fun n => ?_, ?_, rfl, rfl⟩
  · show (if n = 1 then some PyErr.gitError else none) = _ ∨ (if n = 1 then some PyErr.gitError else none) = _
    split <;> simp
  · have h0 : E.F 0 = none := rfl
    have h1 : E.F (0 + 1) = some .gitError := rfl
    have h2 : E.F (0 + 1 + 1) = none := rfl
    have h3 : E.F (0 + 1 + 1 + 1) = none := rfl
    have hb : sampleRepo.head = .branch ['m'] := rfl
    have hc : sampleRepo.refs (.head ['m']) = some (.mk sampleTree none) := rfl
    simp only [Env.commit, Prog.bind, activeBranch, hb, hc, Option.isSome_some, if_true, Env.stash, Prog.cmd, h0, h1, h2, hpush, Prog.finally_, ignoring,
      Prog.catch_, Prog.pure, indexCommit]
    generalize hpop : E.pop 0 _ = o
    have hpop' : ∀ e', o.1 = .error e' → e' = .gitError := by
      intro e' h
      rw [← hpop] at h
      unfold Env.pop at h
      rw [h3] at h
      dsimp only at h
      split at h
      · simp at h
      · simpa [eq_comm] using h
    obtain ⟨o, s'⟩ := o
    cases o with
    | ok a => simp [sample_tree, Repo.commit, hc]
    | error e' =>
      obtain rfl := hpop' e' rfl
      simp [sample_tree, Repo.commit, hc, Prog.pure]

-- C61_commit_partial, C61_index_partial, C61_kept_partial, C61_working_tree_partial: `a` is changed and tracked
example : sampleRepo.changed false ∧ (sampleRepo.index ['a']).isSome ∧ sampleRepo.work ['a'] = some [2] ∧ (sampleTree ['a']) = some [1] :=
  ⟨sample_changed false, rfl, rfl, rfl⟩

example : (indexAdd (fun p => p = ['n']) sampleRepo).changed false ∧ sampleRepo.index ['n'] = none ∧ sampleRepo.work ['n'] = some [3] := by
  refine ⟨.inl ⟨['n'], ?_⟩, rfl, rfl⟩
  have : (indexAdd (fun p => p = ['n']) sampleRepo).tree ['n'] = none := rfl
  rw [this]
  simp [indexAdd, sampleRepo]

-- C61_old_stash_counterexample: a clean repository with an entry in the stash
example : ¬ ({ sampleRepo with work := sampleTree, stash := [entryOf sampleRepo] } : Repo).changed false ∧ ((entryOf sampleRepo).work ['a']) = some [2] := by
  refine ⟨?_, rfl⟩
  rintro (⟨p, h⟩ | ⟨p, -, h⟩ | ⟨h, -⟩)
  · exact h rfl
  · exact h rfl
  · simp at h

/-- **C60**, exactly when the index is restored too: nothing was staged for a file that `HEAD` has, and what was staged for a new file
is what the file holds. -/
theorem C60_index_iff (E : Env) {α : Type} {r0 : Repo} {t : Nat} {b : Str} {c c' : Commit} {ref : Ref} {body : Prog α}
    (hF : ∀ n, E.F n = none) (hb : r0.head = .branch b) (hc : r0.refs (.head b) = some c) (href : r0.refs ref = some c')
    (htag : ∀ n, ref ≠ .tag n) (hcov : Covered r0) (hbody : Polite b ref c' body) :
    (E.visit ref body ⟨r0, t⟩).2.repo.index = r0.index ↔
      (∀ p, (c.tree p).isSome → r0.index p = c.tree p) ∧ ∀ p, c.tree p = none → (r0.index p).isSome → r0.work p = r0.index p := by
  constructor
  · intro h
    have htree : r0.tree = c.tree := by simp [Repo.tree, Repo.commit, hb, hc]
    have hidx : unstaged r0 = r0.index := by
      have := visit_triple E hb hc href hcov hbody ⟨r0, t⟩ rfl
      generalize E.visit ref body ⟨r0, t⟩ = o at this h
      obtain ⟨o, s''⟩ := o
      cases o with
      | ok a =>
        obtain ⟨s, s', stashed, h1, h2, h3⟩ := this
        exact h3.index.symm.trans h
      | error e =>
        rcases this with ⟨s, s', stashed, h1, h2, h3⟩ | ⟨-, ⟨n, e, h'⟩ | ⟨n, h'⟩⟩
        · exact h3.index.symm.trans h
        · simp [hF] at h'
        · exact absurd h' (htag n)
    refine ⟨fun p hp => ?_, fun p hp hi => ?_⟩
    · have := congrFun hidx p
      unfold unstaged at this
      rw [htree] at this
      cases h1 : c.tree p with
      | none => rw [h1] at hp; exact nomatch hp
      | some x => rw [← this]; simp [h1]
    · have := congrFun hidx p
      unfold unstaged Repo.ours Repo.tracked at this
      rw [htree] at this
      cases h2 : r0.index p with
      | none => rw [h2] at hi; exact nomatch hi
      | some y => simpa [hp, h2] using this
  · rintro ⟨h1, h2⟩
    exact C60_index_partial E hF hb hc href htag hbody h1 h2

/-- **C61**, exactly: when git works, the index outside the given paths is as before exactly when nothing is staged there that the
commit has and the commit does not agree with, and what is staged there and is new is what is in the working directory. -/
theorem C61_index_iff (E : Env) {r0 : Repo} {t : Nat} {b : Str} {c : Commit} {spec : File → Bool} (hF : ∀ n, E.F n = none)
    (hb : r0.head = .branch b) (hc : r0.refs (.head b) = some c) (hst : r0.changed false ∨ r0.stash = []) :
    (∀ p, spec p = false → (E.commit spec ⟨r0, t⟩).2.repo.index p = r0.index p) ↔
      (∀ p, spec p = false → (c.tree p).isSome → r0.index p = c.tree p) ∧
      (∀ p, spec p = false → c.tree p = none → (r0.index p).isSome → r0.work p = r0.index p) := by
  constructor
  · intro h
    obtain ⟨h1, h2, h3⟩ := commit_run E (t := t) (spec := spec) hF hb hc hst
    have htree : r0.tree = c.tree := by simp [Repo.tree, Repo.commit, hb, hc]
    refine ⟨fun p hp hx => ?_, fun p hp hn hi => ?_⟩
    · rw [← h p hp]
      exact C61_staged_counterexample E hF hb hc hst hp hx
    · have := h p hp
      rw [h2.index] at this
      have hpick : picked spec r0 p = none := by simp [picked, hp, htree, hn]
      simp only [if_true, hpick] at this
      unfold Repo.ours Repo.tracked at this
      rw [htree, hn] at this
      simpa [hi] using this
  · rintro ⟨h1, h2⟩
    exact (C61_index_partial E hF hb hc hst h1 h2).1

end Verif.Git
