import Verif.Model.GitNest
import Verif.Props.Git

/-!
# C112: Visits inside visits
-/

namespace Verif.Git

/-! ## One object, one block -/

variable {α : Type}

/-- What a block does with the object. -/
theorem enterObj_run (E : Env) (ref : Ref) (o : RefObj) (m : Machine) :
    ∃ o', E.enterObj ref (o, m) = (match E.enter ref m with
      | (.ok kept, m') => (.ok (), ⟨some kept.1, some kept.2⟩, m')
      | (.error e, m') => (.error e, o', m')) := by
  unfold Env.enterObj Env.enter OProg.bind Prog.bind OProg.lift
  cases hv : (m.repo.refs ref).isSome with
  | false => exact ⟨o, by simp [hv, OProg.throw, Prog.throw]⟩
  | true =>
    simp only [hv, if_true]
    cases hb : activeBranch m with
    | mk x m1 => cases x with
      | error e => exact ⟨o, rfl⟩
      | ok b =>
        dsimp only [OProg.set]
        cases hs : E.stash true m1 with
        | mk y m2 => cases y with
          | error e => exact ⟨_, rfl⟩
          | ok st =>
            dsimp only [OProg.get]
            by_cases hr : ref = .head b
            · rw [if_pos hr, if_pos hr]
              exact ⟨o, rfl⟩
            · rw [if_neg hr, if_neg hr]
              dsimp only
              cases hc : E.checkout ref m2 with
              | mk z m3 => cases z with
                | error e => exact ⟨_, rfl⟩
                | ok u => exact ⟨o, rfl⟩

theorem exitObj_run (E : Env) (ref : Ref) (b : Str) (st : Bool) (m : Machine) :
    ∃ o', E.exitObj ref (⟨some b, some st⟩, m) = ((E.exit ref b st m).1, o', (E.exit ref b st m).2) := by
  unfold Env.exitObj Env.exit OProg.bind Prog.bind OProg.lift
  cases hs : E.stash true m with
  | mk y m2 => cases y with
    | error e => exact ⟨_, rfl⟩
    | ok again =>
      dsimp only [OProg.get]
      by_cases hr : Ref.head b = ref
      · rw [if_pos hr, if_pos hr]
        dsimp only [OProg.pure, Prog.pure]
        cases st with
        | false => exact ⟨_, rfl⟩
        | true =>
          simp only [if_true]
          cases hp : E.pop (if again = true then 1 else 0) m2 with
          | mk z m3 => cases z with
            | error e => exact ⟨_, rfl⟩
            | ok u => exact ⟨_, rfl⟩
      · rw [if_neg hr, if_neg hr]
        dsimp only
        cases hc : E.checkout (.head b) m2 with
        | mk w m3 => cases w with
          | error e => exact ⟨_, rfl⟩
          | ok u =>
            dsimp only
            cases st with
            | false => exact ⟨_, rfl⟩
            | true =>
              simp only [if_true]
              cases hp : E.pop (if again = true then 1 else 0) m3 with
              | mk z m4 => cases z with
                | error e => exact ⟨_, rfl⟩
                | ok u => exact ⟨_, rfl⟩

/-- **C112**: a block whose body does not use the object does what **C60** says, whatever was left in the attributes by blocks
before. -/
theorem C112_one (E : Env) (ref : Ref) (body : Prog α) (o : RefObj) (m : Machine) :
    (E.visitObj ref (.lift body) (o, m)).1 = (E.visit ref body m).1 ∧ (E.visitObj ref (.lift body) (o, m)).2.2 = (E.visit ref body m).2 := by
  obtain ⟨o', ho⟩ := enterObj_run E ref o m
  unfold Env.visitObj OProg.bind Env.visit Prog.bind
  rw [ho]
  cases he : E.enter ref m with
  | mk x m1 => cases x with
    | error e => exact ⟨rfl, rfl⟩
    | ok kept =>
      dsimp only [OProg.finally_, Prog.finally_, OProg.lift]
      cases hb : body m1 with
      | mk y m2 =>
        dsimp only
        obtain ⟨o2, h2⟩ := exitObj_run E ref kept.1 kept.2 m2
        rw [h2]
        cases hx : E.exit ref kept.1 kept.2 m2 with
        | mk z m3 => cases z with
          | error e => exact ⟨rfl, rfl⟩
          | ok u => exact ⟨rfl, rfl⟩

/-! ## Each block has its own object -/

theorem unchanged_of_clean {r : Repo} (h : Clean r) : ¬ r.changed true := by
  rintro (⟨p, hp⟩ | ⟨p, -, hp⟩ | ⟨-, p, hp⟩)
  · exact hp (by rw [h.1])
  · exact hp (by rw [h.1, h.2])
  · unfold Repo.others at hp
    rw [h.1, h.2] at hp
    cases hq : r.tree p <;> simp [hq] at hp

theorem ownObjs_cons (E : Env) (ref : Ref) (o : RefObj) (rest : List (Ref × RefObj)) (body : Prog α) (m : Machine) :
    E.ownObjs body ((ref, o) :: rest) m = E.visit ref (E.ownObjs body rest) m := by
  obtain ⟨h1, h2⟩ := C112_one E ref (E.ownObjs body rest) o m
  show (match E.visitObj ref (.lift (E.ownObjs body rest)) (o, m) with | (r, _, m') => (r, m')) = _
  revert h1 h2
  generalize E.visitObj ref _ _ = x
  rintro h1 h2
  exact Prod.ext h1 h2

theorem entered_clean {r0 r : Repo} {b : Str} {ref : Ref} {c' : Commit} {stashed : Bool} (h : Entered r0 b ref c' stashed r) : Clean r := by
  have : r.tree = c'.tree := by simp [Repo.tree, h.commit]
  exact ⟨by rw [this, h.index], by rw [this, h.work]⟩

/-- Without changes nothing is left of the visits. -/
theorem own_clean (E : Env) (hF : ∀ n, E.F n = none) {body : Prog α} (hbody : ∀ s, (body s).2.repo = s.repo) :
    ∀ (l : List (Ref × RefObj)), (∀ x ∈ l, ∀ n, x.1 ≠ .tag n) → ∀ s : Machine, Clean s.repo → s.repo.commit.isSome →
      (E.ownObjs body l s).2.repo = s.repo
  | [], _, s, _, _ => hbody s
  | (ref, o) :: rest, ht, s, hs, hc => by
    rw [ownObjs_cons]
    cases href : s.repo.refs ref with
    | none => rw [(C60_refused E (.inl href)).1]
    | some c' =>
      cases hh : s.repo.head with
      | detached c => rw [(C60_refused E (.inr ⟨c, hh⟩)).1]
      | branch b =>
        obtain ⟨c, hc⟩ := Option.isSome_iff_exists.1 hc
        have hbc : s.repo.refs (.head b) = some c := by
          unfold Repo.commit at hc
          rw [hh] at hc
          exact hc
        have ih := own_clean E hF hbody rest fun x hx => ht x (.tail _ hx)
        have hcov : Covered s.repo := fun p h1 _ => by rw [hs.1]; exact h1
        have hpol : Polite b ref c' (E.ownObjs body rest) := by
          intro s1 h1 h2 h3 h4
          have htree : s1.repo.tree = c'.tree := by simp [Repo.tree, h2]
          have := ih s1 ⟨by rw [h3, htree], by rw [h4, htree]⟩ (by rw [h2]; rfl)
          rw [this]
          exact ⟨rfl, rfl, by rw [h2]; rfl, fun _ => rfl⟩
        have back : ∀ {s1 s2 : Machine} {stashed : Bool} {x : Except PyErr α} {r : Repo}, Entered s.repo b ref c' stashed s1.repo →
            E.ownObjs body rest s1 = (x, s2) → Back s.repo s2.repo r → r = s.repo := by
          intro s1 s2 stashed x r h1 h2 h3
          have h4 := ih s1 (entered_clean h1) (by rw [h1.commit]; rfl)
          rw [h2] at h4
          dsimp only at h4
          have hst := h3.stash.resolve_right fun h => unchanged_of_clean (entered_clean h1) (h4 ▸ h.1)
          have hidx := h3.index
          rw [unstaged_clean hs, ← hs.1] at hidx
          have hrefs := h3.refs
          rw [h4, h1.refs] at hrefs
          have h5 := h3.head
          have h6 := h3.work
          have h7 := hst.2
          cases r
          generalize s.repo = r0 at *
          cases r0
          simp only at *
          subst h5 h6 h7 hidx hrefs
          rfl
        have := visit_triple E hh hbc href hcov hpol s rfl
        generalize E.visit ref (E.ownObjs body rest) s = x at this ⊢
        obtain ⟨x, s'⟩ := x
        cases x with
        | ok a =>
          obtain ⟨s1, s2, stashed, h1, h2, h3⟩ := this
          exact back h1 h2 h3
        | error e =>
          rcases this with ⟨s1, s2, stashed, h1, h2, h3⟩ | ⟨-, ⟨n, e, h⟩ | ⟨n, h⟩⟩
          · exact back h1 h2 h3
          · simp [hF] at h
          · exact absurd h (ht (ref, o) (.head _) n)

/-- **C112**: blocks inside each other, however many and at whatever branches, that each have an object of their own: after them
everything is as it was, if the body leaves the repository as it is, no command fails and none of the refs is a tag. -/
theorem C112_own (E : Env) {r0 : Repo} {t : Nat} {b : Str} {c : Commit} {body : Prog α} {l : List (Ref × RefObj)} (hF : ∀ n, E.F n = none)
    (hbody : ∀ s, (body s).2.repo = s.repo) (hb : r0.head = .branch b) (hc : r0.refs (.head b) = some c) (hcov : Covered r0)
    (htag : ∀ x ∈ l, ∀ n, x.1 ≠ .tag n) :
    (E.ownObjs body l ⟨r0, t⟩).2.repo.head = r0.head ∧ (E.ownObjs body l ⟨r0, t⟩).2.repo.refs = r0.refs ∧
      (E.ownObjs body l ⟨r0, t⟩).2.repo.work = r0.work ∧ (E.ownObjs body l ⟨r0, t⟩).2.repo.stash = r0.stash := by
  cases l with
  | nil =>
    have := hbody ⟨r0, t⟩
    unfold Env.ownObjs
    rw [this]
    exact ⟨rfl, rfl, rfl, rfl⟩
  | cons x rest =>
    obtain ⟨ref, o⟩ := x
    rw [ownObjs_cons]
    cases href : r0.refs ref with
    | none => rw [(C60_refused (s := ⟨r0, t⟩) E (.inl href)).1]; exact ⟨rfl, rfl, rfl, rfl⟩
    | some c' =>
      have ih := own_clean E hF hbody rest fun x hx => htag x (.tail _ hx)
      have hpol : Polite b ref c' (E.ownObjs body rest) := by
        intro s1 h1 h2 h3 h4
        have htree : s1.repo.tree = c'.tree := by simp [Repo.tree, h2]
        have := ih s1 ⟨by rw [h3, htree], by rw [h4, htree]⟩ (by rw [h2]; rfl)
        rw [this]
        exact ⟨rfl, rfl, by rw [h2]; rfl, fun _ => rfl⟩
      have back : ∀ {s1 s2 : Machine} {stashed : Bool} {x : Except PyErr α} {r : Repo}, Entered r0 b ref c' stashed s1.repo →
          E.ownObjs body rest s1 = (x, s2) → Back r0 s2.repo r → r.head = r0.head ∧ r.refs = r0.refs ∧ r.work = r0.work ∧ r.stash = r0.stash := by
        intro s1 s2 stashed x r h1 h2 h3
        have h4 := ih s1 (entered_clean h1) (by rw [h1.commit]; rfl)
        rw [h2] at h4
        dsimp only at h4
        have hst := h3.stash.resolve_right fun h => unchanged_of_clean (entered_clean h1) (h4 ▸ h.1)
        exact ⟨h3.head, by rw [h3.refs, h4, h1.refs], h3.work, hst.2⟩
      have := visit_triple E hb hc href hcov hpol ⟨r0, t⟩ rfl
      generalize E.visit ref (E.ownObjs body rest) ⟨r0, t⟩ = x at this ⊢
      obtain ⟨x, s'⟩ := x
      cases x with
      | ok a =>
        obtain ⟨s1, s2, stashed, h1, h2, h3⟩ := this
        exact back h1 h2 h3
      | error e =>
        rcases this with ⟨s1, s2, stashed, h1, h2, h3⟩ | ⟨-, ⟨n, e, h⟩ | ⟨n, h⟩⟩
        · exact back h1 h2 h3
        · simp [hF] at h
        · exact absurd h (htag (ref, o) (.head _) n)

/-! ## All blocks have the same object -/

theorem stash_clean (E : Env) (hF : ∀ n, E.F n = none) {s : Machine} (hs : Clean s.repo) (hc : s.repo.commit.isSome) :
    E.stash true s = (.ok false, ⟨s.repo, s.tick + 1⟩) := by
  obtain ⟨c, hc⟩ := Option.isSome_iff_exists.1 hc
  unfold Env.stash Prog.cmd stashPush
  rw [hF, hc]
  simp only [unchanged_of_clean hs, if_false]

theorem enterObj_clean (E : Env) (hF : ∀ n, E.F n = none) {s : Machine} {n : Str} {c : Commit} (o : RefObj) (hs : Clean s.repo)
    (hh : s.repo.head = .branch n) (hc : s.repo.refs (.head n) = some c) :
    E.enterObj (.head n) (o, s) = (.ok (), ⟨some n, some false⟩, ⟨s.repo, s.tick + 1⟩) := by
  have hcommit : s.repo.commit.isSome := by rw [Repo.commit, hh]; dsimp only; rw [hc]; rfl
  unfold Env.enterObj OProg.bind OProg.lift activeBranch
  simp [hc, hh, OProg.set, OProg.get, OProg.pure, stash_clean E hF hs hcommit]

theorem exitObj_clean (E : Env) (hF : ∀ n, E.F n = none) {s : Machine} {n : Str} {c : Commit} (hs : Clean s.repo)
    (hh : s.repo.head = .branch n) (hc : s.repo.refs (.head n) = some c) :
    E.exitObj (.head n) (⟨some n, some false⟩, s) = (.ok (), ⟨some n, some false⟩, ⟨s.repo, s.tick + 1⟩) := by
  have hcommit : s.repo.commit.isSome := by rw [Repo.commit, hh]; dsimp only; rw [hc]; rfl
  unfold Env.exitObj OProg.bind OProg.lift
  simp [OProg.set, OProg.get, OProg.pure, stash_clean E hF hs hcommit]

theorem same_clean (E : Env) (hF : ∀ n, E.F n = none) {body : Prog α} (hbody : ∀ s, (body s).2.repo = s.repo) {n : Str} {c : Commit} :
    ∀ (k : Nat) (o : RefObj) (s : Machine), Clean s.repo → s.repo.head = .branch n → s.repo.refs (.head n) = some c →
      (E.sameObj (.head n) (.lift body) k (o, s)).2.2.repo = s.repo ∧
      (E.sameObj (.head n) (.lift body) k (o, s)).2.1 = if k = 0 then o else ⟨some n, some false⟩
  | 0, o, s, _, _, _ => by
    have := hbody s
    unfold Env.sameObj OProg.lift
    exact ⟨this, rfl⟩
  | k + 1, o, s, hs, hh, hc => by
    obtain ⟨h1, h2⟩ := same_clean E hF hbody k ⟨some n, some false⟩ ⟨s.repo, s.tick + 1⟩ hs hh hc
    unfold Env.sameObj Env.visitObj OProg.bind
    rw [enterObj_clean E hF o hs hh hc]
    dsimp only [OProg.finally_]
    generalize E.sameObj (.head n) (.lift body) k (⟨some n, some false⟩, ⟨s.repo, s.tick + 1⟩) = x at h1 h2 ⊢
    obtain ⟨x, o', m⟩ := x
    dsimp only at h1 h2 ⊢
    have : o' = ⟨some n, some false⟩ := by rw [h2]; split <;> rfl
    subst this
    rw [exitObj_clean E hF (h1 ▸ hs) (h1 ▸ hh) (h1 ▸ hc)]
    exact ⟨h1, by simp⟩

/-- **C112** fails when a block has the object of a block around it: then nothing is undone.  For every branch (also the one that is
checked out) and every number of blocks from two on, afterwards `HEAD` is at the visited branch, the files are those of that
branch, and the changes remain in the stash. -/
theorem C112_same_counterexample (E : Env) {r0 : Repo} {t : Nat} {b n : Str} {c c' : Commit} {body : Prog α} (k : Nat) (o : RefObj)
    (hF : ∀ n, E.F n = none) (hbody : ∀ s, (body s).2.repo = s.repo) (hb : r0.head = .branch b) (hc : r0.refs (.head b) = some c)
    (href : r0.refs (.head n) = some c') (hchanged : r0.changed true) :
    (E.sameObj (.head n) (.lift body) (k + 2) (o, ⟨r0, t⟩)).2.2.repo =
      { r0 with head := .branch n, index := c'.tree, work := c'.tree, stash := entryOf r0 :: r0.stash } := by
  obtain ⟨o', ho⟩ := enterObj_run E (.head n) o ⟨r0, t⟩
  have hent := enter_triple E hb hc href ⟨r0, t⟩ rfl
  rw [Env.sameObj, Env.visitObj, OProg.bind, ho]
  generalize E.enter (.head n) ⟨r0, t⟩ = x at hent ⊢
  obtain ⟨x, m⟩ := x
  cases x with
  | error e =>
    exfalso
    rcases hent.2 with ⟨n, e, h⟩ | ⟨n, h⟩
    · simp [hF] at h
    · simp at h
  | ok kept =>
    obtain ⟨-, he⟩ := hent
    have hs := entered_clean he
    have hrc : m.repo.refs (.head n) = some c' := by rw [he.refs]; exact href
    dsimp only [OProg.finally_]
    obtain ⟨h1, h2⟩ := same_clean E hF hbody (k + 1) ⟨some kept.1, some kept.2⟩ m hs he.head hrc
    generalize E.sameObj (.head n) (.lift body) (k + 1) (⟨some kept.1, some kept.2⟩, m) = y at h1 h2 ⊢
    obtain ⟨y, o2, m2⟩ := y
    dsimp only at h1 h2 ⊢
    rw [if_neg (by simp)] at h2
    subst h2
    rw [exitObj_clean E hF (h1 ▸ hs) (h1 ▸ he.head) (h1 ▸ hrc)]
    dsimp only
    rw [h1]
    have h3 := he.refs
    have h4 := he.head
    have h5 := he.index
    have h6 := he.work
    have h7 := he.stash
    rw [he.some.2 hchanged] at h7
    generalize m.repo = r at *
    cases r
    simp only at *
    subst h3 h4 h5 h6 h7
    rfl

/-! ## A case -/

-- C112_own, C112_same_counterexample: a body that does nothing, in a repository with changes, two blocks at the branch `d`
example : sampleRepo.head = .branch ['m'] ∧ sampleRepo.changed true ∧ (sampleRepo.refs (.head ['m'])).isSome ∧
    (sampleRepo.refs (.head ['d'])).isSome ∧ (∀ x ∈ [(Ref.head ['d'], (⟨none, none⟩ : RefObj)), (.head ['d'], ⟨none, none⟩)], ∀ n, x.1 ≠ .tag n) ∧
    ∀ s, ((Prog.pure () : Prog Unit) s).2.repo = s.repo :=
  ⟨rfl, sample_changed true, by simp [sampleRepo], by simp [sampleRepo], by simp, fun _ => rfl⟩

-- `HEAD` is not what it was
example (E : Env) (hF : ∀ n, E.F n = none) :
    ((E.sameObj (.head ['d']) (.lift (.pure ())) 2 (⟨none, none⟩, ⟨sampleRepo, 0⟩)).2.2.repo.head = .branch ['d']) := by
  rw [C112_same_counterexample E (b := ['m']) (c := .mk sampleTree none) (c' := .mk (fun _ => none) none) 0 _ hF (fun _ => rfl) rfl
    (by simp [sampleRepo]) (by simp [sampleRepo]) (sample_changed true)]

variable {α : Type}

theorem own_result (E : Env) (hF : ∀ n, E.F n = none) {body : Prog α} (hbody : ∀ s, (body s).2.repo = s.repo) :
    ∀ (l : List (Ref × RefObj)) (r0 : Repo) (t : Nat) (b : Str) (c : Commit), Covered r0 → r0.head = .branch b → r0.refs (.head b) = some c →
      (∀ x ∈ l, ∃ n, x.1 = .head n ∧ (r0.refs (.head n)).isSome) →
      ∃ s, (E.ownObjs body l ⟨r0, t⟩).1 = (body s).1 ∧ s.repo.refs = r0.refs ∧ s.repo.head = (l.getLast?.map fun x => match x.1 with
        | .head n | .remote n | .tag n => Head.branch n).getD r0.head
  | [], r0, t, _, _, _, _, _, _ => ⟨⟨r0, t⟩, rfl, rfl, rfl⟩
  | (ref, o) :: rest, r0, t, b, c, hcov, hb, hc, hl => by
    obtain ⟨n, hn, hv⟩ := hl _ (.head _)
    dsimp only at hn
    subst hn
    obtain ⟨c', hc'⟩ := Option.isSome_iff_exists.1 hv
    have htag : ∀ x ∈ rest, ∀ n, x.1 ≠ .tag n := by
      intro x hx n h
      obtain ⟨m, hm, -⟩ := hl x (.tail _ hx)
      rw [hm] at h
      simp at h
    have hpol : Polite b (.head n) c' (E.ownObjs body rest) := by
      intro s1 h1 h2 h3 h4
      have htree : s1.repo.tree = c'.tree := by simp [Repo.tree, h2]
      have := own_clean E hF hbody rest htag s1 ⟨by rw [h3, htree], by rw [h4, htree]⟩ (by rw [h2]; rfl)
      rw [this]
      exact ⟨rfl, rfl, by rw [h2]; rfl, fun _ => rfl⟩
    have main : ∃ s1 stashed, Entered r0 b (.head n) c' stashed s1.repo ∧ (E.visit (.head n) (E.ownObjs body rest) ⟨r0, t⟩).1 = (E.ownObjs body rest s1).1 := by
      have := visit_triple E hb hc hc' hcov hpol ⟨r0, t⟩ rfl
      generalize E.visit (.head n) (E.ownObjs body rest) ⟨r0, t⟩ = x at this ⊢
      obtain ⟨x, s'⟩ := x
      cases x with
      | ok a =>
        obtain ⟨s1, s2, stashed, h1, h2, h3⟩ := this
        exact ⟨s1, stashed, h1, by rw [h2]⟩
      | error e =>
        rcases this with ⟨s1, s2, stashed, h1, h2, h3⟩ | ⟨-, ⟨n, e, h⟩ | ⟨n, h⟩⟩
        · exact ⟨s1, stashed, h1, by rw [h2]⟩
        · simp [hF] at h
        · simp at h
    obtain ⟨s1, stashed, h1, h2⟩ := main
    rw [ownObjs_cons, h2]
    have hclean := entered_clean h1
    obtain ⟨s, hs1, hs2, hs3⟩ := own_result E hF hbody rest s1.repo s1.tick n c' (fun p h _ => by rw [hclean.1]; exact h) h1.head
      (by rw [h1.refs]; exact hc') (by rw [h1.refs]; exact fun x hx => hl x (.tail _ hx))
    refine ⟨s, hs1, hs2.trans h1.refs, hs3.trans ?_⟩
    rw [h1.head]
    cases rest with
    | nil => rfl
    | cons y ys => simp [List.getLast?_cons_cons]; cases hx : (y :: ys).getLast? with
      | none => simp at hx
      | some z => simp

/-- **C112**: and the body runs at the branch of the innermost block, and how it ends is how the whole ends. -/
theorem C112_own_body (E : Env) {r0 : Repo} {t : Nat} {b n : Str} {c : Commit} {body : Prog α} {l : List (Ref × RefObj)} {o : RefObj}
    (hF : ∀ n, E.F n = none) (hbody : ∀ s, (body s).2.repo = s.repo) (hb : r0.head = .branch b) (hc : r0.refs (.head b) = some c)
    (hcov : Covered r0) (hl : ∀ x ∈ l ++ [(.head n, o)], ∃ m, x.1 = .head m ∧ (r0.refs (.head m)).isSome) :
    ∃ s, s.repo.head = .branch n ∧ s.repo.refs = r0.refs ∧ (E.ownObjs body (l ++ [(.head n, o)]) ⟨r0, t⟩).1 = (body s).1 := by
  obtain ⟨s, h1, h2, h3⟩ := own_result E hF hbody _ r0 t b c hcov hb hc hl
  exact ⟨s, by simpa using h3, h2, h1⟩

/-- **C112**: leaving a block with an object that entered none is an `AttributeError`, but only after all changes were put away: what
`__exit__` leaves is what its stash leaves. -/
theorem C112_never_entered (E : Env) (ref : Ref) (st : Option Bool) (m : Machine) :
    E.exitObj ref (⟨none, st⟩, m) =
      (match (E.stash true m).1 with | .ok _ => .error .attributeError | .error e => .error e, ⟨none, st⟩, (E.stash true m).2) := by
  unfold Env.exitObj OProg.bind OProg.lift
  cases hs : E.stash true m with
  | mk y m2 => cases y with
    | error e => rfl
    | ok again => rfl

end Verif.Git
