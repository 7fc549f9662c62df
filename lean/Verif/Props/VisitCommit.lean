import Verif.Props.Git

/-!
# C151: commits in a with-ref block
-/

namespace Verif.Git

/-- `with ref: ...` in which the files of the working directory are changed and those at a path are committed. -/
noncomputable def changeAndCommit (E : Env) (edit : Tree → Tree) (spec : File → Bool) : Prog Commit :=
  .bind (fun s => (.ok (), ⟨{ s.repo with work := edit s.repo.work }, s.tick⟩)) fun _ => E.commitFromWorkingTree spec

/-- The block leaves something to commit at the path. -/
def Changes (edit : Tree → Tree) (spec : File → Bool) (c : Commit) : Prop :=
  ∃ p, spec p = true ∧ (edit c.tree p).isSome ∧ edit c.tree p ≠ c.tree p

theorem changeAndCommit_run (E : Env) (hF : ∀ n, E.F n = none) {edit : Tree → Tree} {spec : File → Bool} {x : Str} {c' : Commit} {s : Machine}
    (hh : s.repo.head = .branch x) (hc : s.repo.commit = some c') (hw : s.repo.work = c'.tree)
    (hch : Changes edit spec c') :
    ∃ d, (changeAndCommit E edit spec s).1 = .ok d ∧ d.parent = some c' ∧ (∀ p, spec p = false → d.tree p = c'.tree p) ∧
      (∀ p, spec p = true → d.tree p = if (edit c'.tree p).isSome then edit c'.tree p else c'.tree p) ∧
      (changeAndCommit E edit spec s).2.repo.head = s.repo.head ∧
      (changeAndCommit E edit spec s).2.repo.refs (.head x) = some d ∧
      (∀ ref, ref ≠ .head x → (changeAndCommit E edit spec s).2.repo.refs ref = s.repo.refs ref) ∧
      (changeAndCommit E edit spec s).2.repo.work = edit c'.tree ∧ (changeAndCommit E edit spec s).2.repo.stash = s.repo.stash ∧
      (s.repo.index = c'.tree → (changeAndCommit E edit spec s).2.repo.index = d.tree) := by
  have hr : s.repo.refs (.head x) = some c' := by unfold Repo.commit at hc; rw [hh] at hc; exact hc
  have ht : s.repo.tree = c'.tree := by unfold Repo.tree; rw [hc]; rfl
  have hrun : changeAndCommit E edit spec s = E.commitFromWorkingTree spec ⟨{ s.repo with work := edit s.repo.work }, s.tick⟩ := rfl
  rw [hrun, hw]
  have hst : (indexAdd spec { s.repo with work := edit c'.tree }).changed false ∨ s.repo.stash = [] := by
    obtain ⟨p, h1, h2, h3⟩ := hch
    refine .inl (.inl ⟨p, ?_⟩)
    rw [show (indexAdd spec { s.repo with work := edit c'.tree }).tree = s.repo.tree from rfl, ht]
    simp only [indexAdd, h1, h2, Bool.and_self, ↓reduceIte]
    exact h3
  obtain ⟨d, h1, h2, h3, h4, h5, h6, h7, h8, h9⟩ :=
    C61_working_tree_partial E (r0 := { s.repo with work := edit c'.tree }) (t := s.tick) hF hh hr hst
  refine ⟨d, h1, h2, h3, h4, h5, h6, h7, h8, h9, fun hi => ?_⟩
  obtain ⟨k1, k2⟩ := C61_working_tree_index_partial E (r0 := { s.repo with work := edit c'.tree }) (t := s.tick) hF hh hr hst
    (fun p _ _ => by rw [hi]) (fun p _ hn hs => by rw [hi, hn] at hs; simp at hs)
  funext p
  cases hp : spec p with
  | false => rw [k1 p hp, h3 p hp, hi]
  | true => exact k2 p d h1 hp

/-- **C151** (partial: something is changed at the path; another branch; files that are gone stay in the commit): a block that changes files at the
ref and commits those at a path adds one commit to that branch, on the one it had, that differs from it only at the path.  All other
refs, the branch, and the files of the working directory are as before the block; what it changed elsewhere is in a new stash entry. -/
theorem C151_commit_partial (E : Env) {r0 : Repo} {t : Nat} {b x : Str} {c c' : Commit} {edit : Tree → Tree} {spec : File → Bool}
    (hF : ∀ n, E.F n = none) (hb : r0.head = .branch b) (hc : r0.refs (.head b) = some c) (hx : r0.refs (.head x) = some c') (hne : x ≠ b)
    (hcov : Covered r0) (hch : Changes edit spec c') :
    ∃ d, (E.visit (.head x) (changeAndCommit E edit spec) ⟨r0, t⟩).1 = .ok d ∧ d.parent = some c' ∧
      (∀ p, spec p = false → d.tree p = c'.tree p) ∧ (∀ p, spec p = true → d.tree p = if (edit c'.tree p).isSome then edit c'.tree p else c'.tree p) ∧
      (E.visit (.head x) (changeAndCommit E edit spec) ⟨r0, t⟩).2.repo.refs (.head x) = some d ∧
      (∀ ref, ref ≠ .head x → (E.visit (.head x) (changeAndCommit E edit spec) ⟨r0, t⟩).2.repo.refs ref = r0.refs ref) ∧
      (E.visit (.head x) (changeAndCommit E edit spec) ⟨r0, t⟩).2.repo.head = r0.head ∧
      (E.visit (.head x) (changeAndCommit E edit spec) ⟨r0, t⟩).2.repo.work = r0.work ∧
      ((edit c'.tree = d.tree → (E.visit (.head x) (changeAndCommit E edit spec) ⟨r0, t⟩).2.repo.stash = r0.stash) ∧
        (edit c'.tree ≠ d.tree → ∃ e, (E.visit (.head x) (changeAndCommit E edit spec) ⟨r0, t⟩).2.repo.stash = e :: r0.stash ∧
          e.base = d.tree ∧ ∀ p, (if (e.work p).isSome then e.work p else e.untracked p) = edit c'.tree p)) := by
  have hpol : Polite b (.head x) c' (changeAndCommit E edit spec) := by
    intro s h1 h2 h3 h4
    obtain ⟨d, k1, k2, k3, k4, k5, k6, k7, k8, k9, k10⟩ := changeAndCommit_run E hF h1 h2 h4 hch
    refine ⟨k9, k7 _ (by simpa using fun h => hne h.symm), ?_, fun h => absurd (by simpa using h) hne⟩
    unfold Repo.commit
    rw [k5, h1]
    simp only [headOf, k6, Option.isSome_some]
  obtain ⟨s, s', h1, h2, h3, h4, h5, h6, h7, h8, h9⟩ := C60_restored_partial E (t := t) hF hb hc hx (by simp) hcov hpol
  have hcs : s.repo.commit = some c' := by
    unfold Repo.commit
    rw [h2, h1]
    exact hx
  obtain ⟨d, k1, k2, k3, k4, k5, k6, k7, k8, k9, k10⟩ := changeAndCommit_run E hF h2 hcs h4 hch
  rw [h5] at k1 k5 k6 k7 k8 k9 k10
  dsimp only at k1 k5 k6 k7 k8 k9 k10
  have hs' : s'.repo.tree = d.tree := by
    unfold Repo.tree Repo.commit
    rw [k5, h2]
    simp [headOf, k6]
  have hi := k10 h3
  refine ⟨d, k1, k2, k3, k4, by rw [h7, k6], fun ref hr => by rw [h7, k7 ref hr, h1], h6, h8, fun he => ?_, fun he => ?_⟩
  · rcases h9 with ⟨-, h⟩ | ⟨h, -⟩
    · exact h
    · exfalso
      rcases h with ⟨p, hp⟩ | ⟨p, -, hp⟩ | ⟨-, p, hp⟩
      · exact hp (by rw [hi, hs'])
      · exact hp (by rw [k8, hi, he])
      · unfold Repo.others at hp
        rw [hi, k8, he] at hp
        cases hd : d.tree p <;> simp [hd] at hp
  · rcases h9 with ⟨h, -⟩ | ⟨-, e, h10, h11, h12⟩
    · exact absurd ((k8.symm.trans (unchanged_clean h).2).trans hs') he
    · exact ⟨e, h10, by rw [h11, hs'], fun p => by rw [← k8]; exact h12.2 p⟩

/-! ## Nothing to commit -/

/-- The commit that takes the files at the path from a stash entry. -/
def taken (spec : File → Bool) (e : Entry) (c : Commit) : Tree := fun p => if spec p && (e.work p).isSome then e.work p else c.tree p

/-- A commit at a clean state, when something is in the stash. -/
theorem commit_idle (E : Env) (hF : ∀ n, E.F n = none) {spec : File → Bool} {x : Str} {c' : Commit} {e : Entry} {rest : List Entry} {r : Repo} {t : Nat}
    (hh : r.head = .branch x) (hc : r.refs (.head x) = some c') (hi : r.index = c'.tree) (hw : r.work = c'.tree) (hs : r.stash = e :: rest)
    (hm : ∀ p, merge3 (e.base p) (taken spec e c' p) (e.work p) = some (taken spec e c' p)) (hu : ∀ p, e.untracked p = none)
    (hx : ∃ p, spec p = true ∧ (e.work p).isSome) : ∃ t',
    E.commitFromWorkingTree spec ⟨r, t⟩ = (.ok (.mk (taken spec e c') (some c')),
      ⟨{ r with
          refs := fun ref => if ref = .head x then some (.mk (taken spec e c') (some c')) else r.refs ref
          index := taken spec e c'
          work := taken spec e c'
          stash := rest }, t'⟩) := by
  have hcommit : r.commit = some c' := by unfold Repo.commit; rw [hh]; exact hc
  have htree : r.tree = c'.tree := by unfold Repo.tree; rw [hcommit]; rfl
  have hadd : indexAdd spec r = r := by
    unfold indexAdd
    have : (fun p => if spec p && (r.work p).isSome then r.work p else r.index p) = r.index := by
      funext p
      rw [hw, hi]
      split <;> rfl
    rw [this]
  have hpush : stashPush false r = .ok (false, r) := by
    unfold stashPush
    rw [hcommit]
    dsimp only
    rw [if_neg]
    rintro (⟨p, hp⟩ | ⟨p, -, hp⟩ | ⟨hp, -⟩)
    · exact hp (by rw [hi, htree])
    · exact hp (by rw [hw, hi])
    · cases hp
  have hfrom : checkoutFrom 0 spec r = .ok { r with index := taken spec e c', work := taken spec e c' } := by
    unfold checkoutFrom
    rw [hs]
    simp only [List.getElem?_cons_zero]
    rw [if_pos hx]
    have h1 : (fun p => if spec p && (e.work p).isSome then e.work p else r.index p) = taken spec e c' := by rw [hi]; rfl
    have h2 : (fun p => if spec p && (e.work p).isSome then e.work p else r.work p) = taken spec e c' := by rw [hw]; rfl
    rw [h1, h2]
  have hco : indexCommit { r with index := taken spec e c', work := taken spec e c' } = .ok (.mk (taken spec e c') (some c'),
      { r with
        refs := fun ref => if ref = .head x then some (.mk (taken spec e c') (some c')) else r.refs ref
        index := taken spec e c'
        work := taken spec e c' }) := by
    unfold indexCommit Repo.commit
    simp only [hh, hc]
  have hpop : ∀ refs, stashPop E.mess 0 { r with refs := refs, index := taken spec e c', work := taken spec e c' } = (.done,
      { r with refs := refs, index := taken spec e c', work := taken spec e c', stash := rest }) := by
    intro refs
    unfold stashPop
    rw [hs]
    simp only [List.getElem?_cons_zero, hm, ne_eq, not_true_eq_false, exists_false, ↓reduceIte, reduceCtorEq, Option.getD_some, hu,
      Option.isSome_none, Bool.false_eq_true, and_false, List.eraseIdx_zero, List.tail_cons, Prod.mk.injEq, true_and, Repo.mk.injEq, and_true]
    refine ⟨funext fun p => ?_, funext fun p => ?_⟩
    · split <;> rfl
    · cases taken spec e c' p <;> rfl
  refine ⟨t + 1 + 1 + 1 + 1 + 1, ?_⟩
  rw [hh] at hco hpop
  simp only [Env.commitFromWorkingTree, Env.commit, Env.stash, Env.pop, ignoring, Prog.bind, Prog.cmd, Prog.catch_, Prog.finally_, activeBranch, hF, hadd, hh,
    hc, Option.isSome_some, ↓reduceIte, hpush, hfrom, hco, hpop]

/-- **C151** fails when nothing is changed at the path: the changes of the user to files at the path, which were put aside before the block, are
committed to the branch of the ref, and they are gone from the working directory; the block raises. -/
theorem C151_unchanged_counterexample (E : Env) {r0 : Repo} {t : Nat} {b x : Str} {c c' : Commit} {spec : File → Bool} {p : File}
    (hF : ∀ n, E.F n = none) (hb : r0.head = .branch b) (hc : r0.refs (.head b) = some c) (hx : r0.refs (.head x) = some c') (hne : x ≠ b)
    (hi : r0.index = c.tree) (hst : r0.stash = []) (hsame : ∀ p, (r0.work p).isSome = (c.tree p).isSome)
    (hspec : ∀ p, spec p = false → r0.work p = c.tree p) (hp : spec p = true) (hch : r0.work p ≠ c.tree p) :
    (E.visit (.head x) (E.commitFromWorkingTree spec) ⟨r0, t⟩).1 = .error .gitError ∧
    (E.visit (.head x) (E.commitFromWorkingTree spec) ⟨r0, t⟩).2.repo.head = r0.head ∧
    (E.visit (.head x) (E.commitFromWorkingTree spec) ⟨r0, t⟩).2.repo.work = c.tree ∧
    (E.visit (.head x) (E.commitFromWorkingTree spec) ⟨r0, t⟩).2.repo.stash = [] ∧
    ∃ d, (E.visit (.head x) (E.commitFromWorkingTree spec) ⟨r0, t⟩).2.repo.refs (.head x) = some d ∧ d.parent = some c' ∧ d.tree p = r0.work p := by
  have htree : r0.tree = c.tree := by simp [Repo.tree, Repo.commit, hb, hc]
  have hsome : (r0.work p).isSome := by
    cases h : r0.work p with
    | some y => rfl
    | none =>
      have h1 := hsame p
      rw [h] at h1
      have h2 : c.tree p = none := by simpa using h1.symm
      rw [h, h2] at hch
      exact absurd rfl hch
  have htr : ∀ q, r0.tracked q = (r0.work q).isSome := by
    intro q
    unfold Repo.tracked
    rw [htree, hi, hsame q, Bool.or_self]
  have hours : r0.ours = r0.work := by
    funext q
    unfold Repo.ours
    rw [htr]
    cases r0.work q <;> rfl
  have hothers : ∀ q, r0.others q = none := by
    intro q
    unfold Repo.others
    rw [hi, ← hsame q]
    cases r0.work q <;> rfl
  have hchanged : r0.changed true := .inr (.inl ⟨p, by rw [htr]; exact hsome, by rw [hi]; exact hch⟩)
  have nofail : ¬ Fails E := by
    rintro ⟨n, e, h⟩
    rw [hF] at h; cases h
  have hbx : Ref.head b ≠ .head x := by simpa using fun h => hne h.symm
  have key : Triple (fun r => r = r0) (E.visit (.head x) (E.commitFromWorkingTree spec)) (fun _ _ => False)
      (fun e r => e = .gitError ∧ r.head = r0.head ∧ r.work = c.tree ∧ r.stash = [] ∧
        r.refs (.head x) = some (.mk (taken spec (entryOf r0) c') (some c'))) := by
    unfold Env.visit
    refine .bind_ ((enter_triple E hb hc hx).mono (fun _ h => h) (fun _ _ h => h) ?_) fun kept => ?_
    · rintro e r ⟨-, h | ⟨n, h⟩⟩
      · exact absurd h nofail
      · cases h
    obtain ⟨b', stashed⟩ := kept
    refine .of_pre fun hb' => ?_
    dsimp only at hb' ⊢
    subst hb'
    refine .of_each fun r he => ?_
    have hk : stashed = true := he.some.2 hchanged
    subst hk
    have hstash : r.stash = entryOf r0 :: [] := by rw [he.stash, hst]; rfl
    have hmerge : ∀ q, merge3 ((entryOf r0).base q) (taken spec (entryOf r0) c' q) ((entryOf r0).work q) = some (taken spec (entryOf r0) c' q) := by
      intro q
      have h1 : (entryOf r0).base q = c.tree q := by rw [← htree]; rfl
      have h2 : (entryOf r0).work q = r0.work q := by rw [← hours]; rfl
      unfold taken
      rw [h1, h2]
      unfold merge3
      by_cases h3 : (spec q && (r0.work q).isSome) = true
      · rw [if_pos h3]
        split
        · rfl
        · split
          · rfl
          · rename_i h
            exact absurd rfl h
      · rw [if_neg h3]
        have h4 : c.tree q = r0.work q := by
          cases hq : spec q with
          | false => exact (hspec q hq).symm
          | true =>
            rw [hq, Bool.true_and, Bool.not_eq_true] at h3
            have h5 := hsame q
            rw [h3] at h5
            rw [Option.isSome_eq_false_iff, Option.isNone_iff_eq_none] at h3
            have h5 := h5.symm
            rw [Option.isSome_eq_false_iff, Option.isNone_iff_eq_none] at h5
            rw [h3, h5]
        split
        · rename_i h
          rw [← h4, h]
        · rfl
    have hrx : r.refs (.head x) = some c' := by rw [he.refs]; exact hx
    have hrb : r.refs (.head b') = some c := by rw [he.refs]; exact hc
    refine .finally_ (Q₁ := fun _ r' => r' = { r with
          refs := fun ref => if ref = .head x then some (.mk (taken spec (entryOf r0) c') (some c')) else r.refs ref
          index := taken spec (entryOf r0) c'
          work := taken spec (entryOf r0) c'
          stash := [] }) (R₁ := fun _ _ => False) ?_ (fun _ => ?_) (fun _ => ?_)
    · rintro ⟨r', t'⟩ rfl
      obtain ⟨t'', h⟩ := commit_idle E hF (spec := spec) (t := t') he.head hrx he.index he.work hstash hmerge hothers
        ⟨p, hp, by rw [show (entryOf r0).work p = r0.work p by rw [← hours]; rfl]; exact hsome⟩
      rw [h]
    · generalize hr2 : ({ r with
          refs := fun ref => if ref = .head x then some (.mk (taken spec (entryOf r0) c') (some c')) else r.refs ref
          index := taken spec (entryOf r0) c'
          work := taken spec (entryOf r0) c'
          stash := [] } : Repo) = r2
      have h2c : r2.commit = some (.mk (taken spec (entryOf r0) c') (some c')) := by
        rw [← hr2]
        unfold Repo.commit
        simp only [he.head, headOf, ↓reduceIte]
      have h2t : r2.tree = taken spec (entryOf r0) c' := by unfold Repo.tree; rw [h2c]; rfl
      have h2i : r2.index = taken spec (entryOf r0) c' := by rw [← hr2]
      have h2w : r2.work = taken spec (entryOf r0) c' := by rw [← hr2]
      have h2s : r2.stash = [] := by rw [← hr2]
      have h2x : r2.refs (.head x) = some (.mk (taken spec (entryOf r0) c') (some c')) := by rw [← hr2]; simp
      have h2b : r2.refs (.head b') = some c := by rw [← hr2]; simp only [if_neg hbx]; exact hrb
      have h2u : ¬ r2.changed true := by
        rintro (⟨q, hq⟩ | ⟨q, -, hq⟩ | ⟨-, q, hq⟩)
        · exact hq (by rw [h2i, h2t])
        · exact hq (by rw [h2i, h2w])
        · unfold Repo.others at hq
          rw [h2i, h2w] at hq
          cases hd : taken spec (entryOf r0) c' q <;> simp [hd] at hq
      unfold Env.exit
      refine .bind_ ((stash_triple E).mono (fun _ h => h) (fun _ _ h => h) ?_) fun again => ?_
      · rintro e r' ⟨-, h | h⟩
        · exact absurd h nofail
        · rw [h2c] at h; cases h
      refine .of_each fun r3 h3 => ?_
      have hag : again = false := by
        cases again with
        | false => rfl
        | true => exact absurd (h3.some.1 rfl) h2u
      subst hag
      rw [if_neg hbx]
      refine .bind_ ((checkout_triple E h3.clean (by rw [h3.refs]; exact h2b)).mono (fun _ h => h) (fun _ _ h => h) ?_) fun _ => ?_
      · rintro e r' ⟨-, h | ⟨n, h⟩⟩
        · exact absurd h nofail
        · cases h
      rw [if_pos rfl]
      refine .pop_ ?_ ?_
      · rintro r4 rfl
        have h3s : r3.stash = [] := by rw [h3.stash, h2s]; rfl
        unfold stashPop
        simp only [h3s, Bool.false_eq_true, ↓reduceIte, List.getElem?_nil]
        exact ⟨trivial, by rw [hb]; rfl, trivial, trivial, by rw [h3.refs]; exact h2x⟩
      · rintro e r' _ ⟨n, h⟩
        exact absurd ⟨n, e, h⟩ nofail
    · rintro s h
      exact h.elim
  have := key ⟨r0, t⟩ rfl
  generalize E.visit (.head x) (E.commitFromWorkingTree spec) ⟨r0, t⟩ = o at this ⊢
  obtain ⟨o, s'⟩ := o
  cases o with
  | ok a => exact this.elim
  | error e =>
    obtain ⟨rfl, h1, h2, h3, h4⟩ := this
    refine ⟨rfl, h1, h2, h3, _, h4, rfl, ?_⟩
    show taken spec (entryOf r0) c' p = _
    unfold taken
    rw [show (entryOf r0).work p = r0.work p by rw [← hours]; rfl, hp, hsome]
    rfl

/-! ## A case -/

-- C151_commit_partial: a block that writes a file that was not there, and commits it
example : Covered sampleRepo ∧ sampleRepo.head = .branch ['m'] ∧ (['d'] : Str) ≠ ['m'] ∧ ∃ c', sampleRepo.refs (.head ['d']) = some c' ∧
    Changes (fun w p => if p = ['w'] then some [7] else w p) (fun p => p == ['w']) c' := by
  refine ⟨fun p h _ => ?_, rfl, by decide, _, rfl, ['w'], by simp, by simp, by simp [Commit.tree]⟩
  rw [sample_tree] at h
  exact h

-- C151_unchanged_counterexample: the user has changed the file that is committed on the other branch
example : ∃ (r0 : Repo) (c c' : Commit) (spec : File → Bool) (p : File), r0.head = .branch ['m'] ∧ r0.refs (.head ['m']) = some c ∧
    r0.refs (.head ['d']) = some c' ∧ r0.index = c.tree ∧ r0.stash = [] ∧ (∀ p, (r0.work p).isSome = (c.tree p).isSome) ∧
    (∀ p, spec p = false → r0.work p = c.tree p) ∧ spec p = true ∧ r0.work p ≠ c.tree p := by
  refine ⟨{ sampleRepo with work := fun p => if p = ['a'] then some [2] else none }, .mk sampleTree none, .mk (fun _ => none) none, fun p => p == ['a'], ['a'],
    rfl, rfl, rfl, rfl, rfl, fun p => ?_, fun p hp => ?_, by simp, by simp [Commit.tree, sampleTree]⟩
  · by_cases h : p = ['a'] <;> simp [Commit.tree, sampleTree, h]
  · have : p ≠ ['a'] := by simpa using hp
    simp [Commit.tree, sampleTree, this]

/-! ## Whatever fails -/

/-- What a body may do to the stash: put entries on top of it.  If it leaves it as it was, it must leave the branch that was current before, and if that
is the visited one, `HEAD`. -/
def Gentle {α : Type} (b : Str) (ref : Ref) (c' : Commit) (body : Prog α) : Prop :=
  ∀ s : Machine, s.repo.head = headOf ref c' → s.repo.commit = some c' → s.repo.index = c'.tree → s.repo.work = c'.tree →
    ∃ new, (body s).2.repo.stash = new ++ s.repo.stash ∧ (new = [] → (body s).2.repo.refs (.head b) = s.repo.refs (.head b) ∧
      (body s).2.repo.commit.isSome ∧ (ref = .head b → (body s).2.repo.head = s.repo.head))

theorem pop_stash (mess : Repo → Tree × Tree) (k : Nat) (r : Repo) :
    (stashPop mess k r).2.stash = r.stash ∨ (stashPop mess k r).2.stash = r.stash.eraseIdx k := by
  unfold stashPop
  split
  · exact .inl rfl
  · dsimp only
    split
    · exact .inl rfl
    · split
      · exact .inl rfl
      · split
        · exact .inl rfl
        · exact .inr rfl

theorem checkout_stash {ref : Ref} {r r' : Repo} (h : Git.checkout ref r = .ok r') : r'.stash = r.stash := by
  unfold Git.checkout at h
  split at h
  · cases h
  · split at h
    · cases h
    · injection h with h; rw [← h]

/-- The end of the block, with entries on top of the stash that are not of `__enter__`. -/
theorem exit_over (E : Env) {r0 rb : Repo} {b : Str} {ref : Ref} {stashed : Bool} {e1 : Entry} {new : List Entry} (hsome : stashed = true ↔ r0.changed true)
    (hstash : rb.stash = e1 :: new ++ ((if stashed then [entryOf r0] else []) ++ r0.stash)) :
    Triple (fun r => r = rb) (E.exit ref b stashed) (fun _ r => Kept r0 r) (fun _ r => Kept r0 r) := by
  have kept : ∀ r pre, r.stash = pre ++ ((if stashed then [entryOf r0] else []) ++ r0.stash) → Kept r0 r := by
    intro r pre h
    refine ⟨?_, ?_⟩
    · cases stashed with
      | true =>
        refine .inr (.inl ⟨entryOf r0, ?_, rfl, entry_work r0⟩)
        rw [h]; simp
      | false => exact .inr (.inr (unchanged_clean (by rw [← hsome]; simp)))
    · rw [h, ← List.append_assoc]
      exact List.suffix_append _ _
  unfold Env.exit
  refine .bind_ ((stash_triple E).mono (fun _ h => h) (fun _ _ h => h) ?_) fun again => ?_
  · rintro e r ⟨rfl, -⟩
    exact kept _ _ hstash
  dsimp only
  have hold : ∀ r, r.stash = (if again = true then [entryOf rb] else []) ++ rb.stash → Kept r0 r := by
    intro r h
    refine kept r ((if again = true then [entryOf rb] else []) ++ e1 :: new) ?_
    rw [h, hstash, List.append_assoc]
  refine .bind_ (Q := fun _ r => r.stash = (if again = true then [entryOf rb] else []) ++ rb.stash) ?_ fun _ => ?_
  · split
    · exact .pure_ fun r h => h.stash
    · unfold Env.checkout
      refine .cmd_ ?_ ?_
      · rintro r a r' h hr
        split at hr
        · rename_i r2 h2
          injection hr with hr
          injection hr with _ hr
          rw [← hr, checkout_stash h2, h.stash]
        · cases hr
      · rintro e r h -
        exact hold r h.stash
  · by_cases hs : stashed = true
    · rw [if_pos hs]
      refine .pop_ ?_ ?_
      · intro r h
        have hafter : Kept r0 (stashPop E.mess (if again then 1 else 0) r).2 := by
          rcases pop_stash E.mess (if again then 1 else 0) r with h1 | h1
          · exact hold _ (h1.trans h)
          · refine kept _ ((if again = true then [entryOf rb] else []) ++ new) ?_
            rw [h1, h, hstash]
            cases again <;> simp
        generalize stashPop E.mess (if again then 1 else 0) r = o at hafter
        obtain ⟨o, r'⟩ := o
        cases o <;> exact hafter
      · rintro e r h -
        exact hold r h
    · rw [if_neg hs]
      exact .pure_ fun r h => hold r h

/-- **C60** (partial: the block is entered on a branch, with tracked files that are covered): nothing of the user is lost either when the body leaves
entries of its own on the stash, whatever fails. -/
theorem C60_gentle_partial (E : Env) {α : Type} {r0 : Repo} {t : Nat} {b : Str} {c c' : Commit} {ref : Ref} {body : Prog α}
    (hb : r0.head = .branch b) (hc : r0.refs (.head b) = some c) (href : r0.refs ref = some c') (hcov : Covered r0)
    (hbody : Gentle b ref c' body) : Kept r0 (E.visit ref body ⟨r0, t⟩).2.repo := by
  have back : ∀ {rb r}, Back r0 rb r → Kept r0 r := by
    intro rb r h
    refine ⟨.inl h.work, ?_⟩
    rcases h.stash with ⟨-, h⟩ | ⟨-, e, h, -⟩
    · rw [h]; exact List.suffix_refl _
    · rw [h]; exact List.suffix_cons _ _
  have hexit : ∀ {o : Except PyErr α} {s s' : Machine} {stashed : Bool}, Entered r0 b ref c' stashed s.repo → body s = (o, s') →
      Triple (fun r => r = s'.repo) (E.exit ref b stashed) (fun _ r => Kept r0 r) (fun _ r => Kept r0 r) := by
    intro o s s' stashed he hs
    have := hbody s he.head he.commit he.index he.work
    rw [hs] at this
    obtain ⟨new, h1, h2⟩ := this
    cases new with
    | nil =>
      obtain ⟨h2, h3, h4⟩ := h2 rfl
      refine (exit_triple E hb hc hcov (h2.trans (by rw [he.refs, hc])) h3 ?_ he.some (h1.trans he.stash)).mono (fun _ h => h) (fun _ _ h => back h)
        (fun _ _ h => h.1)
      rintro rfl
      exact (h4 rfl).trans he.head
    | cons e1 new => exact exit_over E he.some (by rw [← he.stash]; exact h1)
  have key : Triple (fun r => r = r0) (E.visit ref body) (fun _ r => Kept r0 r) (fun _ r => Kept r0 r) := by
    unfold Env.visit
    refine .bind_ ((enter_triple E hb hc href).mono (fun _ h => h) (fun _ _ h => h) fun _ _ h => h.1) ?_
    rintro ⟨b', stashed⟩
    refine .of_pre fun hb' => ?_
    dsimp only at hb' ⊢
    subst hb'
    refine .finally_ (Triple.run body) (fun a => ?_) (fun e => ?_)
    · refine .of_each ?_
      rintro r1 ⟨s, s', h1, h2, rfl⟩
      exact hexit h1 h2
    · refine .of_each ?_
      rintro r1 ⟨s, s', h1, h2, rfl⟩
      exact hexit h1 h2
  have := key ⟨r0, t⟩ rfl
  generalize E.visit ref body ⟨r0, t⟩ = o at this ⊢
  obtain ⟨o, s''⟩ := o
  cases o <;> exact this

/-- On the branch, with a commit, and another branch as it was. -/
def On (x b : Str) (v : Option Commit) (r : Repo) : Prop := r.head = .branch x ∧ (r.refs (.head x)).isSome ∧ r.refs (.head b) = v

theorem commit_on (E : Env) {spec : File → Bool} {x b : Str} {v : Option Commit} (hne : x ≠ b) :
    Triple (On x b v) (E.commit spec) (fun _ r => On x b v r) (fun _ r => On x b v r) := by
  have hpush : Triple (On x b v) (E.stash false) (fun _ r => On x b v r) (fun _ r => On x b v r) := by
    refine .cmd_ ?_ (fun _ _ h _ => h)
    intro r again r' h hr
    unfold stashPush at hr
    split at hr
    · cases hr
    · split at hr <;> (injection hr with hr; injection hr with _ hr; rw [← hr]; exact h)
  have hcommit : Triple (On x b v) (.cmd E indexCommit) (fun _ r => On x b v r) (fun _ r => On x b v r) := by
    refine .cmd_ ?_ (fun _ _ h _ => h)
    intro r a r' h hr
    unfold indexCommit at hr
    rw [h.1] at hr
    injection hr with hr
    injection hr with _ hr
    rw [← hr]
    exact ⟨rfl, by simp, by simp only [Ref.head.injEq, if_neg (fun h : b = x => hne h.symm)]; exact h.2.2⟩
  have hpop : Triple (On x b v) (ignoring (E.pop 0)) (fun _ r => On x b v r) (fun _ r => On x b v r) := by
    refine .catch_ (R := fun _ r => On x b v r) (.pop_ ?_ fun _ _ h _ => h) fun e => ?_
    · intro r h
      have : On x b v (stashPop E.mess 0 r).2 := by
        unfold stashPop
        split
        · exact h
        · dsimp only
          split
          · exact h
          · split
            · exact h
            · split <;> exact h
      generalize stashPop E.mess 0 r = o at this
      obtain ⟨o, r'⟩ := o
      cases o <;> exact this
    · split
      · exact .pure_ fun _ h => h
      · exact .throw_ fun _ h => h
  have hfrom : Triple (On x b v) (ignoring (.cmd E fun r => match checkoutFrom 0 spec r with
        | .ok r => .ok ((), r)
        | .error e => .error e)) (fun _ r => On x b v r) (fun _ r => On x b v r) := by
    refine .catch_ (R := fun _ r => On x b v r) (.cmd_ ?_ fun _ _ h _ => h) fun e => ?_
    · intro r a r' h hr
      split at hr
      · rename_i r2 h2
        injection hr with hr
        injection hr with _ hr
        rw [← hr]
        unfold checkoutFrom at h2
        split at h2
        · cases h2
        · split at h2
          · injection h2 with h2
            rw [← h2]
            exact h
          · cases h2
      · cases hr
    · split
      · exact .pure_ fun _ h => h
      · exact .throw_ fun _ h => h
  unfold Env.commit
  refine .bind_ (Q := fun _ r => On x b v r) ?_ fun n => ?_
  · intro s h
    unfold activeBranch
    rw [h.1]
    exact h
  refine .bind_ (Q := fun _ r => On x b v r) (fun s h => h) fun valid => ?_
  split
  · refine .bind_ hpush fun _ => ?_
    exact .finally_ (.bind_ hfrom fun _ => hcommit) (fun _ => hpop) (fun _ => hpop)
  · exact hcommit

/-- **C151** (partial: something is changed at the path; another branch): whatever commands fail, the uncommitted changes of the user are in the working
directory or in the stash, and all old stash entries are there. -/
theorem C151_kept_partial (E : Env) {r0 : Repo} {t : Nat} {b x : Str} {c c' : Commit} {edit : Tree → Tree} {spec : File → Bool}
    (hb : r0.head = .branch b) (hc : r0.refs (.head b) = some c) (hx : r0.refs (.head x) = some c') (hne : x ≠ b)
    (hcov : Covered r0) (hch : Changes edit spec c') :
    Kept r0 (E.visit (.head x) (changeAndCommit E edit spec) ⟨r0, t⟩).2.repo := by
  refine C60_gentle_partial E hb hc hx hcov ?_
  intro s h1 h2 h3 h4
  have hr : s.repo.refs (.head x) = some c' := by unfold Repo.commit at h2; rw [h1] at h2; exact h2
  have hrun : changeAndCommit E edit spec s = E.commitFromWorkingTree spec ⟨{ s.repo with work := edit s.repo.work }, s.tick⟩ := rfl
  have nothing : (∃ p, spec p = true ∧ (edit c'.tree p).isSome ∧ edit c'.tree p ≠ c'.tree p) := hch
  rw [hrun, h4]
  unfold Env.commitFromWorkingTree Prog.bind Prog.cmd
  cases hf : E.F s.tick with
  | some e =>
    refine ⟨[], rfl, fun _ => ⟨rfl, ?_, fun h => absurd (by simpa using h) hne⟩⟩
    show (Repo.commit _).isSome
    unfold Repo.commit
    rw [show ({ s.repo with work := edit c'.tree } : Repo).head = .branch x from h1]
    simp [hr]
  | none =>
    dsimp only
    have hst : (indexAdd spec { s.repo with work := edit c'.tree }).changed false ∨ s.repo.stash = [] := by
      obtain ⟨p, k1, k2, k3⟩ := hch
      refine .inl (.inl ⟨p, ?_⟩)
      rw [show (indexAdd spec { s.repo with work := edit c'.tree }).tree = s.repo.tree from rfl, show s.repo.tree = c'.tree by unfold Repo.tree; rw [h2]; rfl]
      simp only [indexAdd, k1, k2, Bool.and_self, ↓reduceIte]
      exact k3
    have hk := C61_kept_partial E (r0 := indexAdd spec { s.repo with work := edit c'.tree }) (t := s.tick + 1) (spec := spec) h1 hr hst
    have ho := commit_on E (spec := spec) (v := s.repo.refs (.head b)) hne ⟨indexAdd spec { s.repo with work := edit c'.tree }, s.tick + 1⟩
      ⟨h1, by rw [show (indexAdd spec { s.repo with work := edit c'.tree }).refs (.head x) = s.repo.refs (.head x) from rfl, hr]; rfl, rfl⟩
    generalize E.commit spec ⟨indexAdd spec { s.repo with work := edit c'.tree }, s.tick + 1⟩ = o at hk ho
    obtain ⟨o, s'⟩ := o
    have ho : On x b (s.repo.refs (.head b)) s'.repo := by cases o <;> exact ho
    have fine : s'.repo.refs (.head b) = s.repo.refs (.head b) ∧ s'.repo.commit.isSome ∧ (Ref.head x = .head b → s'.repo.head = s.repo.head) := by
      refine ⟨ho.2.2, ?_, fun h => absurd (by simpa using h) hne⟩
      unfold Repo.commit
      rw [ho.1]
      exact ho.2.1
    rcases hk with ⟨-, hk⟩ | ⟨e, hk, -⟩
    · exact ⟨[], hk, fun _ => fine⟩
    · exact ⟨[e], hk, fun h => by cases h⟩

-- C60_gentle_partial: a body that leaves an entry on the stash
example {c' : Commit} {e : Entry} : Gentle ['m'] (.head ['d']) c' (fun s => (.ok (), ⟨{ s.repo with stash := e :: s.repo.stash }, s.tick⟩)) :=
  fun _ _ _ _ _ => ⟨[e], rfl, fun h => by cases h⟩

/-! ## At the current branch -/

/-- Popping the entry on a clean repository with other files, where no file was changed in both. -/
theorem pop_onto {mess : Repo → Tree × Tree} {k : Nat} {r r0 : Repo} (hr : Clean r) (hcov : Covered r0)
    (hk : r.stash[k]? = some (entryOf r0)) (hap : ∀ p, r.tree p = r0.tree p ∨ r0.work p = r0.tree p) :
    ∃ index, stashPop mess k r = (.done, { r with index := index, work := fun p => if r.tree p = r0.tree p then r0.work p else r.tree p, stash := r.stash.eraseIdx k }) := by
  have hours : ∀ p, r0.work p = r0.tree p → r0.ours p = r0.tree p := by
    intro p h
    unfold Repo.ours Repo.tracked
    cases ht : r0.tree p with
    | some x => rw [h, ht]; rfl
    | none => rw [h, ht]; simp
  have hm : ∀ p, merge3 ((entryOf r0).base p) (r.index p) ((entryOf r0).work p) = some (if r.tree p = r0.tree p then r0.ours p else r.tree p) := by
    intro p
    rw [hr.1, show (entryOf r0).base p = r0.tree p from rfl, show (entryOf r0).work p = r0.ours p from rfl]
    unfold merge3
    by_cases h : r.tree p = r0.tree p
    · rw [if_pos h.symm, if_pos h]
    · rw [if_neg (fun h' => h h'.symm), if_neg h, if_pos (hours p ((hap p).resolve_left h)).symm]
  have hgetD : ∀ p, (merge3 ((entryOf r0).base p) (r.index p) ((entryOf r0).work p)).getD none = if r.tree p = r0.tree p then r0.ours p else r.tree p := by
    intro p; rw [hm]; rfl
  have hw : ∀ p, (if (if r.tree p = r0.tree p then r0.ours p else r.tree p) = r.index p then r.work p else if r.tree p = r0.tree p then r0.ours p else r.tree p) =
      if r.tree p = r0.tree p then r0.ours p else r.tree p := by
    intro p
    generalize (if r.tree p = r0.tree p then r0.ours p else r.tree p) = v
    by_cases h : v = r.index p
    · rw [if_pos h, h, hr.2, hr.1]
    · rw [if_neg h]
  unfold stashPop
  rw [hk]
  dsimp only
  rw [if_neg, if_neg (by rintro ⟨p, h⟩; rw [hm] at h; simp at h)]
  · simp only [hgetD, hw]
    rw [if_neg]
    · refine ⟨fun p => if (r.index p).isSome then r.index p else if r.tree p = r0.tree p then r0.ours p else r.tree p, ?_⟩
      congr 2
      funext p
      by_cases h : r.tree p = r0.tree p
      · simp only [if_pos h]
        exact entry_work r0 p
      · simp only [if_neg h]
        have h0 := (hap p).resolve_left h
        cases hd : r.tree p with
        | some x => rfl
        | none =>
          have hne : (r0.tree p).isSome := by
            cases ht : r0.tree p with
            | some x => rfl
            | none => rw [hd, ht] at h; exact absurd rfl h
          have := hcov p hne (by rw [h0]; exact hne)
          show (if (none : Option Bytes).isSome then none else r0.others p) = none
          unfold Repo.others
          rw [this]
          rfl
    · rintro ⟨p, h1, h2⟩
      have hc := hcov p
      simp only [hgetD, hw] at h1
      change (r0.others p).isSome = true at h2
      by_cases h : r.tree p = r0.tree p
      · rw [if_pos h] at h1
        simp only [Repo.ours, Repo.others, Repo.tracked] at h1 h2
        by_cases h3 : (r0.tree p).isSome = true <;> by_cases h4 : (r0.index p).isSome = true <;> by_cases h5 : (r0.work p).isSome = true <;> simp_all
      · have h0 := (hap p).resolve_left h
        simp only [Repo.others] at h2
        by_cases h4 : (r0.index p).isSome = true
        · rw [if_pos h4] at h2; cases h2
        · rw [if_neg h4] at h2
          exact h4 (hc (by rw [← h0]; exact h2) h2)
  · rintro ⟨p, -, h⟩
    exact h (by rw [hr.2, hr.1])

/-- What is done at the current branch up to the pop at the end. -/
theorem same_run (E : Env) {r0 : Repo} {b : Str} {c : Commit} {edit : Tree → Tree} {spec : File → Bool}
    (hF : ∀ n, E.F n = none) (hb : r0.head = .branch b) (hc : r0.refs (.head b) = some c) (hch : Changes edit spec c)
    {Q : Commit → Repo → Prop} {R : PyErr → Repo → Prop}
    (h : ∀ d r, d.parent = some c → (∀ p, spec p = false → d.tree p = c.tree p) → (∀ p, spec p = true → d.tree p = if (edit c.tree p).isSome then edit c.tree p else c.tree p) →
      r.head = .branch b → r.refs (.head b) = some d → (∀ ref, ref ≠ .head b → r.refs ref = r0.refs ref) → r.index = d.tree → r.work = d.tree →
      ∀ again stashed : Bool, (again = true ↔ edit c.tree ≠ d.tree) → (stashed = true ↔ r0.changed true) →
      ∀ e : Entry, e.base = d.tree → (∀ p, (if (e.work p).isSome then e.work p else e.untracked p) = edit c.tree p) →
      r.stash = (if again then [e] else []) ++ ((if stashed then [entryOf r0] else []) ++ r0.stash) →
      Triple (fun r' => r' = r) (if stashed then E.pop (if again then 1 else 0) else .pure ()) (fun _ => Q d) R) :
    Triple (fun r => r = r0) (E.visit (.head b) (changeAndCommit E edit spec)) Q R := by
  have nofail : ¬ Fails E := by
    rintro ⟨n, e, h⟩
    rw [hF] at h; cases h
  unfold Env.visit
  refine .bind_ ((enter_triple E hb hc hc).mono (fun _ h => h) (fun _ _ h => h) ?_) fun kept => ?_
  · rintro e r ⟨-, h | ⟨n, h⟩⟩
    · exact absurd h nofail
    · cases h
  obtain ⟨b', stashed⟩ := kept
  refine .of_pre fun hb' => ?_
  dsimp only at hb' ⊢
  subst hb'
  refine .of_each fun r he => ?_
  refine .finally_ (R₁ := fun _ _ => False) (Q₁ := fun d r2 => d.parent = some c ∧ (∀ p, spec p = false → d.tree p = c.tree p) ∧
      (∀ p, spec p = true → d.tree p = if (edit c.tree p).isSome then edit c.tree p else c.tree p) ∧ r2.head = .branch b' ∧ r2.refs (.head b') = some d ∧
      (∀ ref, ref ≠ .head b' → r2.refs ref = r0.refs ref) ∧ r2.index = d.tree ∧ r2.work = edit c.tree ∧ r2.stash = r.stash) ?_ (fun d => ?_) (fun _ s h => h.elim)
  · rintro ⟨r', t'⟩ rfl
    obtain ⟨d, k1, k2, k3, k4, k5, k6, k7, k8, k9, k10⟩ := changeAndCommit_run E hF (s := ⟨r', t'⟩) he.head he.commit he.work hch
    generalize changeAndCommit E edit spec ⟨r', t'⟩ = o at k1 k5 k6 k7 k8 k9 k10
    obtain ⟨o, s'⟩ := o
    dsimp only at k1
    subst k1
    exact ⟨k2, k3, k4, k5.trans he.head, k6, fun ref hr => (k7 ref hr).trans (by rw [he.refs]), k10 he.index, k8, k9⟩
  · refine .of_each ?_
    rintro r2 ⟨k2, k3, k4, k5, k6, k7, k8, k9, k10⟩
    have hcommit : r2.commit = some d := by unfold Repo.commit; rw [k5]; exact k6
    have htree : r2.tree = d.tree := by unfold Repo.tree; rw [hcommit]; rfl
    unfold Env.exit
    refine .bind_ ((stash_triple E).mono (fun _ h => h) (fun _ _ h => h) ?_) fun again => ?_
    · rintro e r' ⟨-, h | h⟩
      · exact absurd h nofail
      · rw [hcommit] at h; cases h
    rw [if_pos rfl]
    refine .bind_ (Q := fun _ r => Stashed r2 again r) (.pure_ fun _ h => h) fun _ => ?_
    refine .of_each fun r3 h3 => ?_
    refine h d r3 k2 k3 k4 (h3.head.trans k5) (by rw [h3.refs]; exact k6) (fun ref hr => by rw [h3.refs]; exact k7 ref hr) (by rw [h3.index, htree]) (by rw [h3.work, htree])
      again stashed ?_ he.some (entryOf r2) (by rw [← htree]; rfl) (fun p => by rw [← k9]; exact entry_work r2 p) (by rw [h3.stash, k10, he.stash])
    rw [h3.some]
    constructor
    · intro hch he
      rcases hch with ⟨p, hp⟩ | ⟨p, -, hp⟩ | ⟨-, p, hp⟩
      · exact hp (by rw [k8, htree])
      · exact hp (by rw [k9, k8, he])
      · unfold Repo.others at hp
        rw [k8, k9, he] at hp
        cases hd : d.tree p <;> simp [hd] at hp
    · intro hne
      rcases Classical.em (r2.changed true) with h | h
      · exact h
      · exact absurd ((k9.symm.trans (unchanged_clean h).2).trans htree) hne

/-- **C151** (partial: something is changed at the path, and the user has changed nothing there): a block at the current branch adds one commit to it; the uncommitted
changes of the user come back, and the files at the path are those of the commit. -/
theorem C151_same_partial (E : Env) {r0 : Repo} {t : Nat} {b : Str} {c : Commit} {edit : Tree → Tree} {spec : File → Bool}
    (hF : ∀ n, E.F n = none) (hb : r0.head = .branch b) (hc : r0.refs (.head b) = some c)
    (hcov : Covered r0) (hch : Changes edit spec c) (hap : ∀ p, spec p = true → r0.work p = c.tree p) :
    ∃ d, (E.visit (.head b) (changeAndCommit E edit spec) ⟨r0, t⟩).1 = .ok d ∧ d.parent = some c ∧
      (∀ p, spec p = false → d.tree p = c.tree p) ∧ (∀ p, spec p = true → d.tree p = if (edit c.tree p).isSome then edit c.tree p else c.tree p) ∧
      (E.visit (.head b) (changeAndCommit E edit spec) ⟨r0, t⟩).2.repo.refs (.head b) = some d ∧
      (∀ ref, ref ≠ .head b → (E.visit (.head b) (changeAndCommit E edit spec) ⟨r0, t⟩).2.repo.refs ref = r0.refs ref) ∧
      (E.visit (.head b) (changeAndCommit E edit spec) ⟨r0, t⟩).2.repo.head = r0.head ∧
      (∀ p, (E.visit (.head b) (changeAndCommit E edit spec) ⟨r0, t⟩).2.repo.work p = if spec p then d.tree p else r0.work p) ∧
      ((edit c.tree = d.tree → (E.visit (.head b) (changeAndCommit E edit spec) ⟨r0, t⟩).2.repo.stash = r0.stash) ∧
        (edit c.tree ≠ d.tree → ∃ e, (E.visit (.head b) (changeAndCommit E edit spec) ⟨r0, t⟩).2.repo.stash = e :: r0.stash ∧
          e.base = d.tree ∧ ∀ p, (if (e.work p).isSome then e.work p else e.untracked p) = edit c.tree p)) := by
  have htree : r0.tree = c.tree := by simp [Repo.tree, Repo.commit, hb, hc]
  have nofail : ¬ Fails E := by
    rintro ⟨n, e, h⟩
    rw [hF] at h; cases h
  have key := same_run E hF hb hc hch (R := fun _ _ => False)
    (Q := fun d r => d.parent = some c ∧ (∀ p, spec p = false → d.tree p = c.tree p) ∧ (∀ p, spec p = true → d.tree p = if (edit c.tree p).isSome then edit c.tree p else c.tree p) ∧
      r.refs (.head b) = some d ∧ (∀ ref, ref ≠ .head b → r.refs ref = r0.refs ref) ∧ r.head = r0.head ∧ (∀ p, r.work p = if spec p then d.tree p else r0.work p) ∧
      ((edit c.tree = d.tree → r.stash = r0.stash) ∧ (edit c.tree ≠ d.tree → ∃ e, r.stash = e :: r0.stash ∧
          e.base = d.tree ∧ ∀ p, (if (e.work p).isSome then e.work p else e.untracked p) = edit c.tree p))) ?_
  · have := key ⟨r0, t⟩ rfl
    generalize E.visit (.head b) (changeAndCommit E edit spec) ⟨r0, t⟩ = o at this ⊢
    obtain ⟨o, s'⟩ := o
    cases o with
    | ok d => exact ⟨d, rfl, this⟩
    | error e => exact this.elim
  intro d r h1 h2 h3 h4 h5 h6 h7 h8 again stashed h9 h10 e h11 h12 h13
  have hrt : r.tree = d.tree := by unfold Repo.tree Repo.commit; rw [h4]; simp only [h5]; rfl
  have hclean : Clean r := ⟨by rw [h7, hrt], by rw [h8, hrt]⟩
  have hstash : ∀ s : List Entry, s = (if again then [e] else []) ++ r0.stash → (edit c.tree = d.tree → s = r0.stash) ∧ (edit c.tree ≠ d.tree → ∃ e, s = e :: r0.stash ∧
          e.base = d.tree ∧ ∀ p, (if (e.work p).isSome then e.work p else e.untracked p) = edit c.tree p) := by
    intro s hs
    cases again with
    | true => exact ⟨fun h => absurd h (h9.1 rfl), fun _ => ⟨e, hs, h11, h12⟩⟩
    | false => exact ⟨fun _ => hs, fun h => absurd (h9.2 h) (by simp)⟩
  by_cases hs : stashed = true
  · rw [if_pos hs]
    refine .pop_ ?_ fun e _ _ ⟨n, hn⟩ => nofail ⟨n, e, hn⟩
    rintro r' rfl
    have hk : r'.stash[if again then 1 else 0]? = some (entryOf r0) := by
      rw [h13, hs]
      cases again <;> simp
    obtain ⟨index, hpop⟩ := pop_onto (mess := E.mess) hclean hcov hk fun p => by
      rw [hrt, htree]
      cases hp : spec p with
      | true => exact .inr (hap p hp)
      | false => exact .inl (h2 p hp)
    rw [hpop]
    refine ⟨h1, h2, h3, h5, h6, h4.trans hb.symm, fun p => ?_, hstash _ ?_⟩
    · show (if r'.tree p = r0.tree p then r0.work p else r'.tree p) = _
      rw [hrt, htree]
      cases hp : spec p with
      | true =>
        rw [hap p hp]
        split
        · rename_i h; rw [h]; rfl
        · rfl
      | false => rw [if_pos (h2 p hp)]; rfl
    · show r'.stash.eraseIdx _ = _
      rw [h13, hs]
      cases again <;> simp
  · rw [if_neg hs]
    refine .pure_ ?_
    rintro r' rfl
    have hc0 := unchanged_clean (r := r0) (by rw [← h10]; exact hs)
    refine ⟨h1, h2, h3, h5, h6, h4.trans hb.symm, fun p => ?_, hstash _ ?_⟩
    · rw [h8]
      cases hp : spec p with
      | true => rfl
      | false => rw [h2 p hp, hc0.2, htree]; rfl
    · rw [h13, if_neg hs]
      simp

/-- **C151** fails at the current branch when the user has changed a tracked file that the block commits with other contents: the commit is made, but the pop is a conflict;
the block raises, and the changes of the user are only in the stash. -/
theorem C151_conflict_counterexample (E : Env) {r0 : Repo} {t : Nat} {b : Str} {c : Commit} {edit : Tree → Tree} {spec : File → Bool} {p : File}
    (hF : ∀ n, E.F n = none) (hb : r0.head = .branch b) (hc : r0.refs (.head b) = some c) (hch : Changes edit spec c)
    (hp : spec p = true) (htr : r0.tracked p = true) (h1 : (edit c.tree p).isSome) (h2 : edit c.tree p ≠ c.tree p) (h3 : r0.work p ≠ c.tree p)
    (h4 : r0.work p ≠ edit c.tree p) :
    (E.visit (.head b) (changeAndCommit E edit spec) ⟨r0, t⟩).1 = .error .gitError ∧
    (∃ d, (E.visit (.head b) (changeAndCommit E edit spec) ⟨r0, t⟩).2.repo.refs (.head b) = some d ∧ d.parent = some c ∧ d.tree p = edit c.tree p) ∧
    entryOf r0 ∈ (E.visit (.head b) (changeAndCommit E edit spec) ⟨r0, t⟩).2.repo.stash := by
  have htree : r0.tree = c.tree := by simp [Repo.tree, Repo.commit, hb, hc]
  have nofail : ¬ Fails E := by
    rintro ⟨n, e, h⟩
    rw [hF] at h; cases h
  have hours : r0.ours p = r0.work p := by unfold Repo.ours; rw [htr]; rfl
  have hchanged : r0.changed true := by
    rcases Classical.em (r0.changed true) with h | h
    · exact h
    · exact absurd (congrFun ((unchanged_clean h).2.trans htree) p) h3
  have key := same_run E hF hb hc hch (Q := fun _ _ => False)
    (R := fun e r => e = .gitError ∧ (∃ d, r.refs (.head b) = some d ∧ d.parent = some c ∧ d.tree p = edit c.tree p) ∧ entryOf r0 ∈ r.stash) ?_
  · have := key ⟨r0, t⟩ rfl
    generalize E.visit (.head b) (changeAndCommit E edit spec) ⟨r0, t⟩ = o at this ⊢
    obtain ⟨o, s'⟩ := o
    cases o with
    | ok d => exact this.elim
    | error e => exact ⟨by rw [this.1], this.2⟩
  intro d r k1 k2 k3 k4 k5 k6 k7 k8 again stashed k9 k10 e k11 k12 k13
  have hs : stashed = true := k10.2 hchanged
  rw [if_pos hs]
  refine .pop_ ?_ fun e _ _ ⟨n, hn⟩ => absurd ⟨n, e, hn⟩ nofail
  rintro r' rfl
  have hk : r'.stash[if again then 1 else 0]? = some (entryOf r0) := by
    rw [k13, hs]
    cases again <;> simp
  have hconf : merge3 ((entryOf r0).base p) (r'.index p) ((entryOf r0).work p) = none := by
    rw [k7, show (entryOf r0).base p = c.tree p by rw [← htree]; rfl, show (entryOf r0).work p = r0.work p from hours, (k3 p hp).trans (if_pos h1)]
    unfold merge3
    rw [if_neg (fun h => h2 h.symm), if_neg (fun h => h3 h.symm), if_neg (fun h => h4 h.symm)]
  have hmem : entryOf r0 ∈ r'.stash := by
    rw [k13, hs]
    simp
  unfold stashPop
  rw [hk]
  dsimp only
  rw [if_neg (by rintro ⟨p, -, h⟩; exact h (by rw [k8, k7])), if_pos ⟨p, hconf⟩]
  exact ⟨rfl, ⟨d, k5, k1, (k3 p hp).trans (if_pos h1)⟩, hmem⟩

-- C151_same_partial: a block that writes a file that was not there; the user has changed another one
example : Covered sampleRepo ∧ sampleRepo.head = .branch ['m'] ∧ ∃ c, sampleRepo.refs (.head ['m']) = some c ∧
    Changes (fun w p => if p = ['w'] then some [7] else w p) (fun p => p == ['w']) c ∧ (∀ p, (p == ['w']) = true → sampleRepo.work p = c.tree p) := by
  refine ⟨fun p h _ => ?_, rfl, _, rfl, ⟨['w'], by simp, by simp, by simp [Commit.tree, sampleTree]⟩, fun p hp => ?_⟩
  · rw [sample_tree] at h
    exact h
  · have : p = ['w'] := by simpa using hp
    subst this
    rfl

-- C151_conflict_counterexample: the user has changed `a`, and so does the block
example : sampleRepo.tracked ['a'] = true ∧ ∃ c, sampleRepo.refs (.head ['m']) = some c ∧
    Changes (fun w p => if p = ['a'] then some [7] else w p) (fun p => p == ['a']) c ∧ sampleRepo.work ['a'] ≠ c.tree ['a'] ∧ sampleRepo.work ['a'] ≠ some [7] :=
  ⟨rfl, _, rfl, ⟨['a'], by simp, by simp, by simp [Commit.tree, sampleTree]⟩, by simp [Commit.tree, sampleTree, sampleRepo], by simp [sampleRepo]⟩

end Verif.Git
