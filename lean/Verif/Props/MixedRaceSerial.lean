import Verif.Props.MixedRace

/-!
# C156: visits and commits one after the other
-/

namespace Verif.Git.MixedRace

open VisitRace (Leads Conflicts)

variable {mess : Repo → Tree × Tree} {ref : Nat → Ref} {spec : Nat → File → Bool} {add : Nat → Bool}

/-- What holds between two processes. -/
structure Calm (b : Str) (w : Tree) (r : Repo) : Prop where
  head : r.head = .branch b
  work : r.work = w
  stash : r.stash = []
  covered : Covered r

/-- A visit without others in between -/
theorem visit_turn {s : VisitRace.State} {b : Str} {w : Tree} {c : Commit} {i : Nat} (h : Calm b w s.repo) (hs : s.stuck = false)
    (hp : s.pc i = .start) (hc : s.repo.refs (.head b) = some c) (href : (s.repo.refs (ref i)).isSome) (htag : ∀ n, ref i ≠ .tag n) :
    (VisitRace.run mess ref s (List.replicate 7 (i, false))).pc i = .returned ∧
    (VisitRace.run mess ref s (List.replicate 7 (i, false))).stuck = false ∧
    Calm b w (VisitRace.run mess ref s (List.replicate 7 (i, false))).repo ∧
    (VisitRace.run mess ref s (List.replicate 7 (i, false))).repo.refs = s.repo.refs := by
  have e : VisitRace.inTurn [i] = List.replicate 7 (i, false) := by simp [VisitRace.inTurn]
  obtain ⟨h1, h2, h3, h4, h5⟩ := VisitRace.run_inTurn (mess := mess) (ref := ref) (s := s) [i] (by simp) rfl hs (by simpa using hp) h.head hc
    (by simpa using href) (by simpa using htag) h.covered
  rw [e] at h1 h2 h3 h4 h5
  have h1 := h1 i List.mem_cons_self
  refine ⟨h1, (VisitRace.run_stuck 7 h1).trans hs, ⟨h2.trans h.head, h4.trans h.work, h5.trans h.stash, ?_⟩, h3⟩
  obtain ⟨c', hc'⟩ := Option.isSome_iff_exists.1 href
  obtain ⟨x, m, hv, -, hm⟩ := VisitRace.run_visit (mess := mess) (ref := ref) (s := s) rfl hs hp
  have hpol : Polite b (ref i) c' (Prog.pure ()) := fun s _ hh _ _ => ⟨rfl, rfl, by
    show s.repo.commit.isSome = true
    rw [hh]; rfl, fun _ => rfl⟩
  intro p hp _
  have ht : (VisitRace.run mess ref s (List.replicate 7 (i, false))).repo.tree = c.tree := by
    unfold Repo.tree Repo.commit; rw [h2, h.head]; dsimp only; rw [h3, hc]; rfl
  rw [ht] at hp
  have := C60_staged_counterexample ⟨fun _ => none, mess⟩ (t := 0) (fun _ => rfl) h.head hc hc' htag h.covered hpol hp
  rw [hv] at this
  rw [hm, this]
  exact hp

theorem run_conflict {s : CommitRace.State} (hs : s.stuck = false) (sched : List (Nat × Bool)) (h : (CommitRace.run mess spec s sched).stuck = true) :
    ∃ r', Conflicts 0 r' ∧ (CommitRace.run mess spec s sched).repo = { r' with index := (mess r').1, work := (mess r').2 } := by
  have : ∀ s : CommitRace.State, (s.stuck = true → ∃ r, Conflicts 0 r ∧ s.repo = { r with index := (mess r).1, work := (mess r).2 }) →
      (CommitRace.run mess spec s sched).stuck = true →
      ∃ r, Conflicts 0 r ∧ (CommitRace.run mess spec s sched).repo = { r with index := (mess r).1, work := (mess r).2 } := by
    clear h
    induction sched with
    | nil => exact fun s h => h
    | cons a rest ih => exact fun s hs => ih (CommitRace.step mess spec s a.1 a.2) (CommitRace.step_conflict hs a.1 a.2)
  exact this s (fun h => by rw [hs] at h; cases h) h

/-- A process that commits, without others in between, does what `Model/Git` says. -/
theorem commit_alone {s : CommitRace.State} {i : Nat} (hs : s.stuck = false) (hp : s.pc i = if add i then .adding else .start) :
    (CommitRace.run mess spec s (List.replicate 7 (i, false))).pc i = .ended
      ((if add i then Env.commitFromWorkingTree ⟨fun _ => none, mess⟩ (spec i) else Env.commit ⟨fun _ => none, mess⟩ (spec i)) ⟨s.repo, 0⟩).1 ∧
    (CommitRace.run mess spec s (List.replicate 7 (i, false))).repo =
      ((if add i then Env.commitFromWorkingTree ⟨fun _ => none, mess⟩ (spec i) else Env.commit ⟨fun _ => none, mess⟩ (spec i)) ⟨s.repo, 0⟩).2.repo := by
  cases ha : add i with
  | false =>
    rw [ha] at hp
    exact CommitRace.same_start (k := 1) (s := s) hs hp
  | true =>
    rw [ha] at hp
    have h0 : CommitRace.step mess spec s i false = { s.goto i .start with repo := indexAdd (spec i) s.repo } := by
      unfold CommitRace.step
      rw [hp]
      simp only [CommitRace.State.command, hs, Bool.or_self, Bool.false_eq_true, ↓reduceIte]
    have := CommitRace.same_start (mess := mess) (spec := spec) (i := i) (k := 0) (t := 1)
      (s := { s.goto i .start with repo := indexAdd (spec i) s.repo }) hs (by simp [CommitRace.State.goto])
    rw [show (7 : Nat) = 6 + 1 from rfl, List.replicate_succ, CommitRace.run, h0]
    exact this

/-- A commit without others in between -/
theorem commit_turn {s : CommitRace.State} {b : Str} {w : Tree} {c : Commit} {i : Nat} (h : Calm b w s.repo) (hs : s.stuck = false)
    (hp : s.pc i = if add i then .adding else .start) (hc : s.repo.refs (.head b) = some c) :
    ∃ d, (CommitRace.run mess spec s (List.replicate 7 (i, false))).pc i = .ended (.ok d) ∧
    (CommitRace.run mess spec s (List.replicate 7 (i, false))).stuck = false ∧
    Calm b w (CommitRace.run mess spec s (List.replicate 7 (i, false))).repo ∧
    (CommitRace.run mess spec s (List.replicate 7 (i, false))).repo.refs = onBranch s.repo.refs b d ∧
    d.parent = some c ∧ (∀ p, spec i p = false → d.tree p = c.tree p) ∧
    ∀ p, spec i p = true → (w p).isSome → (add i = true ∨ (c.tree p).isSome) → d.tree p = w p := by
  obtain ⟨e1, e2⟩ := commit_alone (mess := mess) (spec := spec) hs hp
  have key : ∃ (r1 : Repo) (t1 : Nat), (if add i then Env.commitFromWorkingTree ⟨fun _ => none, mess⟩ (spec i)
        else Env.commit ⟨fun _ => none, mess⟩ (spec i)) ⟨s.repo, 0⟩ = Env.commit ⟨fun _ => none, mess⟩ (spec i) ⟨r1, t1⟩ ∧
      r1.head = s.repo.head ∧ r1.refs = s.repo.refs ∧ r1.work = s.repo.work ∧ r1.stash = s.repo.stash ∧
      (add i = true → ∀ p, spec i p = true → (s.repo.work p).isSome → (r1.index p).isSome) := by
    cases ha : add i with
    | false => exact ⟨s.repo, 0, rfl, rfl, rfl, rfl, rfl, fun h => by cases h⟩
    | true =>
      refine ⟨indexAdd (spec i) s.repo, 1, ?_, rfl, rfl, rfl, rfl, fun _ p h1 h2 => ?_⟩
      · simp [Env.commitFromWorkingTree, Prog.bind, Prog.cmd]
      · simp [indexAdd, h1, h2]
  obtain ⟨r1, t1, e, k1, k2, k3, k4, k5⟩ := key
  rw [e] at e1 e2
  have hb1 := k1.trans h.head
  have hc1 : r1.refs (.head b) = some c := by rw [k2]; exact hc
  have hst : r1.changed false ∨ r1.stash = [] := .inr (k4.trans h.stash)
  obtain ⟨c1, c2, c3⟩ := commit_run ⟨fun _ => none, mess⟩ (t := t1) (spec := spec i) (fun _ => rfl) hb1 hc1 hst
  rw [c1] at e1
  have htree : r1.tree = c.tree := by simp [Repo.tree, Repo.commit, hb1, hc1]
  rw [← e2] at c2 c3
  refine ⟨_, e1, ?_, ⟨c2.head.trans hb1, c2.work.trans (k3.trans h.work), c2.stash.trans (k4.trans h.stash), ?_⟩, by rw [c3, k2], rfl,
    fun p hp => ?_, fun p h1 h2 h3 => ?_⟩
  · cases hx : (CommitRace.run mess spec s (List.replicate 7 (i, false))).stuck with
    | false => rfl
    | true =>
      obtain ⟨r', ⟨y, hy, -⟩, hr⟩ := run_conflict hs _ hx
      have : r'.stash = [] := by
        have := congrArg Repo.stash hr
        rw [c2.stash, k4, h.stash] at this
        exact this.symm
      rw [this] at hy; cases hy
  · intro p hp _
    have ht : (CommitRace.run mess spec s (List.replicate 7 (i, false))).repo.tree = picked (spec i) r1 := by
      unfold Repo.tree Repo.commit; rw [c2.head, hb1]; dsimp only; rw [c3, onBranch, if_pos rfl]; rfl
    rw [ht] at hp
    rw [c2.index]
    simp only [↓reduceIte]
    rw [if_pos hp]
    exact hp
  · show picked (spec i) r1 p = _
    simp [picked, hp, htree]
  · show picked (spec i) r1 p = _
    have : r1.tracked p = true := by
      unfold Repo.tracked
      rw [htree]
      rcases h3 with h3 | h3
      · simp [k5 h3 p h1 (h.work ▸ h2)]
      · simp [h3]
    simp [picked, h1, Repo.ours, this, k3, h.work, h2]

/-- One process after the other, each with all of its steps; no command fails. -/
def inTurn (ws : List Who) : List (Who × Bool) := ws.flatMap fun w => List.replicate 7 (w, false)

theorem run_append {s : State} (l l' : List (Who × Bool)) : run mess ref spec s (l ++ l') = run mess ref spec (run mess ref spec s l) l' := by
  induction l generalizing s with
  | nil => rfl
  | cons a rest ih => exact ih

/-- What processes that have no turn do: nothing. -/
theorem run_waits {s : State} {sched : List (Who × Bool)} (w : Who) (h : ∀ x ∈ sched, x.1 ≠ w) :
    (∀ i, w = .visitor i → (run mess ref spec s sched).visits i = s.visits i) ∧
    ∀ i, w = .committer i → (run mess ref spec s sched).commits i = s.commits i := by
  induction sched generalizing s with
  | nil => exact ⟨fun _ _ => rfl, fun _ _ => rfl⟩
  | cons a rest ih =>
    obtain ⟨h1, h2⟩ := ih (s := step mess ref spec s a.1 a.2) fun x hx => h x (List.mem_cons_of_mem _ hx)
    have ha := h a List.mem_cons_self
    refine ⟨fun i hi => (h1 i hi).trans ?_, fun i hi => (h2 i hi).trans ?_⟩
    · cases hw : a.1 with
      | visitor j => exact VisitRace.step_other fun hj => ha (by rw [hw, hi, hj])
      | committer j => rfl
    · cases hw : a.1 with
      | visitor j => rfl
      | committer j => exact CommitRace.step_other fun hj => ha (by rw [hw, hi, hj])

theorem run_inTurn {b : Str} {w : Tree} {c : Commit} (ws : List Who) (hnd : ws.Nodup) {s : State} (h : Calm b w s.repo) (hs : s.stuck = false)
    (hv : ∀ i, .visitor i ∈ ws → s.visits i = .start ∧ (s.repo.refs (ref i)).isSome ∧ ∀ n, ref i ≠ .tag n)
    (hk : ∀ i, .committer i ∈ ws → s.commits i = if add i then .adding else .start) (hc : s.repo.refs (.head b) = some c) :
    (∀ i, .visitor i ∈ ws → (run mess ref spec s (inTurn ws)).visits i = .returned) ∧
    (∀ i, .committer i ∈ ws → ∃ d e, (run mess ref spec s (inTurn ws)).commits i = .ended (.ok d) ∧ d.parent = some e ∧
      (∀ p, spec i p = false → d.tree p = e.tree p) ∧
      (∀ p, spec i p = true → (w p).isSome → (add i = true ∨ (e.tree p).isSome) → d.tree p = w p) ∧
      ∃ x, (run mess ref spec s (inTurn ws)).repo.refs (.head b) = some x ∧ Leads x d) ∧
    Calm b w (run mess ref spec s (inTurn ws)).repo ∧
    (∃ x, (run mess ref spec s (inTurn ws)).repo.refs (.head b) = some x ∧ Leads x c) ∧
    ∀ rf, rf ≠ .head b → (run mess ref spec s (inTurn ws)).repo.refs rf = s.repo.refs rf := by
  induction ws generalizing s c with
  | nil => exact ⟨fun i h => (by cases h), fun i h => (by cases h), h, ⟨c, hc, .refl c⟩, fun _ _ => rfl⟩
  | cons a ws ih =>
    obtain ⟨hna, hnd'⟩ := List.nodup_cons.1 hnd
    have hcons : inTurn (a :: ws) = List.replicate 7 (a, false) ++ inTurn ws := by simp [inTurn]
    rw [hcons]
    simp only [run_append]
    have hrest : ∀ x ∈ inTurn ws, x.1 ≠ a := fun x hx => by
      obtain ⟨k, hkk, hx⟩ := List.mem_flatMap.1 hx
      rw [(List.mem_replicate.1 hx).2]
      rintro rfl
      exact hna hkk
    have hself : ∀ w' ∈ ws, ∀ x ∈ List.replicate 7 (a, false), x.1 ≠ w' := fun w' hw' x hx => by
      rw [(List.mem_replicate.1 hx).2]
      rintro rfl
      exact hna hw'
    have hwait : ∀ w' ∈ ws, _ := fun w' hw' => run_waits (mess := mess) (ref := ref) (spec := spec) (s := s) w' (hself w' hw')
    cases a with
    | visitor i =>
      obtain ⟨v1, v2, v3⟩ := hv i List.mem_cons_self
      obtain ⟨h1, h2, h3, h4⟩ := visit_turn (mess := mess) (ref := ref) (s := s.visiting) h hs v1 hc v2 v3
      have e := (C156_visits (mess := mess) (ref := ref) (spec := spec) s (List.replicate 7 (i, false))).1
      rw [List.map_replicate] at e
      rw [← e] at h1 h2 h3 h4
      have hlast := (run_waits (mess := mess) (ref := ref) (spec := spec) (s := run mess ref spec s (List.replicate 7 (.visitor i, false))) _ hrest).1 i rfl
      generalize hs1 : run mess ref spec s (List.replicate 7 (.visitor i, false)) = s1 at *
      obtain ⟨g1, g2, g3, g4, g5⟩ := ih hnd' (s := s1) (c := c) h3 h2
        (fun j hj => ⟨((hwait _ hj).1 j rfl).trans (hv j (List.mem_cons_of_mem _ hj)).1, by
          rw [show s1.repo.refs = s.repo.refs from h4]; exact (hv j (List.mem_cons_of_mem _ hj)).2.1, (hv j (List.mem_cons_of_mem _ hj)).2.2⟩)
        (fun j hj => ((hwait _ hj).2 j rfl).trans (hk j (List.mem_cons_of_mem _ hj)))
        (by rw [show s1.repo.refs = s.repo.refs from h4]; exact hc)
      refine ⟨fun j hj => ?_, fun j hj => ?_, g3, g4, fun rf hrf => (g5 rf hrf).trans (congrFun h4 rf)⟩
      · rcases List.mem_cons.1 hj with hj | hj
        · cases hj
          exact hlast.trans h1
        · exact g1 j hj
      · rcases List.mem_cons.1 hj with hj | hj
        · cases hj
        · exact g2 j hj
    | committer i =>
      obtain ⟨d, h1, h2, h3, h4, h5, h6, h7⟩ := commit_turn (mess := mess) (spec := spec) (add := add) (s := s.committing) h hs
        (hk i List.mem_cons_self) hc
      have e := (C156_commits (mess := mess) (ref := ref) (spec := spec) s (List.replicate 7 (i, false))).1
      rw [List.map_replicate] at e
      rw [← e] at h1 h2 h3 h4
      have hlast := (run_waits (mess := mess) (ref := ref) (spec := spec) (s := run mess ref spec s (List.replicate 7 (.committer i, false))) _ hrest).2 i rfl
      generalize hs1 : run mess ref spec s (List.replicate 7 (.committer i, false)) = s1 at *
      have h4 : s1.repo.refs = onBranch s.repo.refs b d := h4
      obtain ⟨g1, g2, g3, ⟨x, g4, g4'⟩, g5⟩ := ih hnd' (s := s1) (c := d) h3 h2
        (fun j hj => ⟨((hwait _ hj).1 j rfl).trans (hv j (List.mem_cons_of_mem _ hj)).1, by
          rw [h4, onBranch]
          split
          · rfl
          · exact (hv j (List.mem_cons_of_mem _ hj)).2.1, (hv j (List.mem_cons_of_mem _ hj)).2.2⟩)
        (fun j hj => ((hwait _ hj).2 j rfl).trans (hk j (List.mem_cons_of_mem _ hj)))
        (by rw [h4, onBranch, if_pos rfl])
      have hdc : Leads d c := by
        obtain ⟨t, q⟩ := d
        cases h5
        exact .step (.refl c)
      refine ⟨fun j hj => ?_, fun j hj => ?_, g3, ⟨x, g4, CommitRace.leads_trans g4' hdc⟩, fun rf hrf => (g5 rf hrf).trans (by rw [h4, onBranch, if_neg hrf])⟩
      · rcases List.mem_cons.1 hj with hj | hj
        · cases hj
        · exact g1 j hj
      · rcases List.mem_cons.1 hj with hj | hj
        · cases hj
          exact ⟨d, c, hlast.trans h1, h5, h6, h7, x, g4, g4'⟩
        · exact g2 j hj

/-- **C156**: when processes visit refs and commit one after the other, nothing is in the stash, and no command fails, then all of them return;
each commit is on the branch where the user is and differs from its parent only at its path, where it has the files of the working directory;
the other refs, `HEAD`, the files in the working directory and the stash are as before. -/
theorem C156_serial_partial {r : Repo} {b : Str} {c : Commit} (ws : List Who) (hnd : ws.Nodup) (hb : r.head = .branch b)
    (hc : r.refs (.head b) = some c) (hst : r.stash = []) (hcov : Covered r)
    (href : ∀ i, .visitor i ∈ ws → (r.refs (ref i)).isSome ∧ ∀ n, ref i ≠ .tag n) :
    (∀ i, .visitor i ∈ ws → (run mess ref spec (State.init add r) (inTurn ws)).visits i = .returned) ∧
    (∀ i, .committer i ∈ ws → ∃ d e, (run mess ref spec (State.init add r) (inTurn ws)).commits i = .ended (.ok d) ∧ d.parent = some e ∧
      (∀ p, spec i p = false → d.tree p = e.tree p) ∧
      (∀ p, spec i p = true → (r.work p).isSome → (add i = true ∨ (e.tree p).isSome) → d.tree p = r.work p) ∧
      ∃ x, (run mess ref spec (State.init add r) (inTurn ws)).repo.refs (.head b) = some x ∧ Leads x d) ∧
    (run mess ref spec (State.init add r) (inTurn ws)).repo.head = .branch b ∧
    (run mess ref spec (State.init add r) (inTurn ws)).repo.work = r.work ∧
    (run mess ref spec (State.init add r) (inTurn ws)).repo.stash = [] ∧
    (∃ x, (run mess ref spec (State.init add r) (inTurn ws)).repo.refs (.head b) = some x ∧ Leads x c) ∧
    ∀ rf, rf ≠ .head b → (run mess ref spec (State.init add r) (inTurn ws)).repo.refs rf = r.refs rf := by
  obtain ⟨h1, h2, h3, h4, h5⟩ := run_inTurn (mess := mess) (ref := ref) (spec := spec) (add := add) (s := State.init add r) (w := r.work) ws hnd
    ⟨hb, rfl, hst, hcov⟩ rfl (fun i hi => ⟨rfl, href i hi⟩) (fun i _ => rfl) hc
  exact ⟨h1, h2, h3.head, h3.work, h3.stash, h4, h5⟩

/-- Not vacuous: the file `a` is changed, there are two branches, and nothing is in the stash. -/
example : ∃ (r : Repo) (c : Commit), r.head = .branch ['m'] ∧ r.refs (.head ['m']) = some c ∧ r.stash = [] ∧ Covered r ∧
    (r.refs (.head ['x'])).isSome ∧ r.work ['a'] = some [2] ∧ c.tree ['a'] = some [1] ∧
    [Who.visitor 0, .committer 0, .committer 1, .visitor 1].Nodup := by
  refine ⟨⟨fun _ => some (.mk (fun q => if q = ['a'] then some [1] else none) none), .branch ['m'], fun q => if q = ['a'] then some [1] else none,
    fun q => if q = ['a'] then some [2] else none, []⟩, .mk (fun q => if q = ['a'] then some [1] else none) none, rfl, rfl, rfl,
    fun p hp _ => hp, rfl, rfl, rfl, by decide⟩

end Verif.Git.MixedRace
