import Verif.Props.MixedRace

/-!
# C156: a change that is lost although nothing fails
-/

namespace Verif.Git.MixedRace

open VisitRace (Leads Committed Has Sound Staged Conflicts)

variable {mess : Repo → Tree × Tree} {ref : Nat → Ref} {spec : Nat → File → Bool} {add : Nat → Bool}

/-- The state as one process that visits a ref and two that commit see it. -/
structure Sees (s : State) (r : Repo) (v : VisitRace.Pc) (k l : CommitRace.Pc) : Prop where
  repo : s.repo = r
  stuck : s.stuck = false
  visit : s.visits 0 = v
  one : s.commits 0 = k
  two : s.commits 1 = l

theorem Sees.visiting {s : State} {r r' : Repo} {v v' : VisitRace.Pc} {k l : CommitRace.Pc} (h : Sees s r v k l)
    (hs : ∀ t : State, At t r v k → At (step mess ref spec t (.visitor 0) false) r' v' k) :
    Sees (step mess ref spec s (.visitor 0) false) r' v' k l := by
  obtain ⟨h1, h2, h3, h4⟩ := hs s ⟨h.repo, h.stuck, h.visit, h.one⟩
  exact ⟨h1, h2, h3, h4, h.two⟩

theorem Sees.first {s : State} {r r' : Repo} {v : VisitRace.Pc} {k k' l : CommitRace.Pc} (h : Sees s r v k l)
    (hs : ∀ t : State, At t r v k → At (step mess ref spec t (.committer 0) false) r' v k') :
    Sees (step mess ref spec s (.committer 0) false) r' v k' l := by
  obtain ⟨h1, h2, h3, h4⟩ := hs s ⟨h.repo, h.stuck, h.visit, h.one⟩
  exact ⟨h1, h2, h3, h4, (CommitRace.step_other (s := s.committing) (by simp)).trans h.two⟩

theorem Sees.goto {s : State} {r : Repo} {v : VisitRace.Pc} {k l l' : CommitRace.Pc} (h : Sees s r v k l)
    (hs : ∀ t : CommitRace.State, t.repo = r → t.pc 1 = l → CommitRace.step mess spec t 1 false = t.goto 1 l') :
    Sees (step mess ref spec s (.committer 1) false) r v k l' := by
  have e := hs s.committing h.repo h.two
  refine ⟨?_, ?_, h.visit, (CommitRace.step_other (s := s.committing) (by simp)).trans h.one, ?_⟩ <;> simp only [step, e]
  · exact h.repo
  · exact h.stuck
  · simp [CommitRace.State.goto]

theorem Sees.cmd {α : Type} {s : State} {r r' : Repo} {v : VisitRace.Pc} {k l : CommitRace.Pc} {ok : α → CommitRace.Pc}
    {error : PyErr → CommitRace.Pc} {a : α} (h : Sees s r v k l)
    (hs : ∀ t : CommitRace.State, t.repo = r → t.pc 1 = l → CommitRace.step mess spec t 1 false = t.command 1 false (.ok (a, r')) ok error) :
    Sees (step mess ref spec s (.committer 1) false) r' v k (ok a) := by
  have e := hs s.committing h.repo h.two
  have hst : s.committing.stuck = false := h.stuck
  have e' : s.committing.command 1 false (.ok (a, r')) ok error = { s.committing.goto 1 (ok a) with repo := r' } := by
    unfold CommitRace.State.command; simp [hst]
  rw [e'] at e
  refine ⟨?_, ?_, h.visit, (CommitRace.step_other (s := s.committing) (by simp)).trans h.one, ?_⟩ <;> simp only [step, e]
  · exact h.stuck
  · simp [CommitRace.State.goto]

theorem Sees.pop {s : State} {r r' : Repo} {v : VisitRace.Pc} {k : CommitRace.Pc} {res : Except PyErr Commit} (h : Sees s r v k (.popping res))
    (hp : stashPop mess 0 r = (.done, r')) : Sees (step mess ref spec s (.committer 1) false) r' v k (.ended res) := by
  have e : CommitRace.step mess spec s.committing 1 false = { s.committing.goto 1 (.ended res) with repo := r' } := by
    unfold CommitRace.step
    rw [show s.committing.pc 1 = .popping res from h.two]
    dsimp only
    unfold CommitRace.State.pop
    rw [show s.committing.stuck = false from h.stuck, show s.committing.repo = r from h.repo, hp]
    simp
  refine ⟨?_, ?_, h.visit, (CommitRace.step_other (s := s.committing) (by simp)).trans h.one, ?_⟩ <;> simp only [step, e]
  · exact h.stuck
  · simp [CommitRace.State.goto]

theorem At.vpopped {s : State} {r r' : Repo} {k : CommitRace.Pc} (h : At s r (.popping true true) k) (hp : stashPop mess 1 r = (.done, r')) :
    At (step mess ref spec s (.visitor 0) false) r' .returned k := by
  have e : VisitRace.step mess ref s.visiting 0 false = { s.visiting.goto 0 .returned with repo := r' } := by
    unfold VisitRace.step
    rw [show s.visiting.pc 0 = .popping true true from h.visit]
    simp only [↓reduceIte]
    unfold VisitRace.State.pop
    rw [show s.visiting.stuck = false from h.stuck, show s.visiting.repo = r from h.repo, hp]
    simp
  refine ⟨?_, ?_, ?_, h.commit⟩ <;> simp only [step, e]
  · exact h.stuck
  · simp [VisitRace.State.goto]

/-- The repository while this goes on: `c` is the commit of the branch. -/
def now (refs : Ref → Option Commit) (b : Str) (c : Commit) (t w : Tree) (st : List Entry) : Repo :=
  ⟨fun x => if x = .head b then some c else refs x, .branch b, t, w, st⟩

theorem now_commit {refs : Ref → Option Commit} {b : Str} {c : Commit} {t w : Tree} {st : List Entry} :
    (now refs b c t w st).commit = some c := by
  unfold Repo.commit now; simp

theorem now_tree {refs : Ref → Option Commit} {b : Str} {c : Commit} {t w : Tree} {st : List Entry} :
    (now refs b c t w st).tree = c.tree := by
  unfold Repo.tree; rw [now_commit]; rfl

/-- The files that are tracked. -/
def known (t w : Tree) : Tree := fun q => if (t q).isSome then w q else none

/-- The other files. -/
def extra (t w : Tree) : Tree := fun q => if (t q).isSome then none else w q

/-- The committed files and the other ones. -/
def clean (t w : Tree) : Tree := fun q => if (t q).isSome then t q else w q

theorem now_tracked {refs : Ref → Option Commit} {b : Str} {c : Commit} {t w : Tree} {st : List Entry} (hc : c.tree = t) (q : File) :
    (now refs b c t w st).tracked q = (t q).isSome := by
  unfold Repo.tracked; rw [now_tree, hc]; simp [now]

theorem now_push {refs : Ref → Option Commit} {b : Str} {c : Commit} {t w : Tree} {st : List Entry} (hc : c.tree = t) {p : File}
    (hp : (t p).isSome) (hw : w p ≠ t p) :
    stashPush false (now refs b c t w st) = .ok (true, now refs b c t (clean t w) (⟨t, t, known t w, fun _ => none⟩ :: st)) := by
  have hch : (now refs b c t w st).changed false := .inr (.inl ⟨p, by rw [now_tracked hc]; exact hp, hw⟩)
  rw [CommitRace.push_changed now_commit hch]
  have e1 : (now refs b c t w st).tree = t := now_tree.trans hc
  have e2 : (now refs b c t w st).ours = known t w := by
    funext q; unfold Repo.ours known; rw [now_tracked hc]; rfl
  simp only [e1, e2, now_tracked hc]
  rfl

theorem now_push_none {refs : Ref → Option Commit} {b : Str} {c : Commit} {t : Tree} {st : List Entry} (hc : c.tree = t) :
    stashPush false (now refs b c t t st) = .ok (false, now refs b c t t st) := by
  refine CommitRace.push_unchanged now_commit ?_
  unfold Repo.changed
  rw [now_tree, hc]
  simp [now]

theorem now_push_all {refs : Ref → Option Commit} {b : Str} {c : Commit} {t w : Tree} {st : List Entry} (hc : c.tree = t) {u : File}
    (hu : t u = none) (hw : (w u).isSome) :
    stashPush true (now refs b c t (clean t w) st) = .ok (true, now refs b c t t (⟨t, t, t, extra t w⟩ :: st)) := by
  have hch : (now refs b c t (clean t w) st).changed true := .inr (.inr ⟨rfl, u, by
    unfold Repo.others now; simp only [hu, Option.isSome_none, Bool.false_eq_true, ↓reduceIte, clean]
    intro h; rw [h] at hw; cases hw⟩)
  have e1 : (now refs b c t (clean t w) st).tree = t := now_tree.trans hc
  have e2 : (now refs b c t (clean t w) st).ours = t := by
    funext q; unfold Repo.ours; rw [now_tracked hc]; unfold now clean; dsimp only
    split
    · rfl
    · rename_i h; exact (by simpa using h : t q = none).symm
  have e3 : (now refs b c t (clean t w) st).others = extra t w := by
    funext q; unfold Repo.others extra now clean; dsimp only
    split <;> rfl
  unfold stashPush
  rw [now_commit]
  dsimp only
  rw [if_pos hch]
  simp only [e1, e2, e3, Bool.true_or, ↓reduceIte]
  rfl

theorem now_commits {refs : Ref → Option Commit} {b : Str} {c : Commit} {t w : Tree} {st : List Entry} :
    indexCommit (now refs b c t w st) = .ok (.mk t (some c), now refs b (.mk t (some c)) t w st) := by
  unfold indexCommit
  rw [now_commit]
  unfold now
  simp only [Except.ok.injEq, Prod.mk.injEq, true_and, Repo.mk.injEq, and_true]
  funext x
  split <;> rfl

theorem merge_same (a x : Option Bytes) : merge3 a a x = some x := by unfold merge3; simp

/-- The files that were not tracked come back. -/
theorem now_pop {refs : Ref → Option Commit} {b : Str} {c : Commit} {t w : Tree} {st : List Entry} :
    stashPop mess 0 (now refs b c t t (⟨t, t, t, extra t w⟩ :: st)) = (.done, now refs b c t (clean t w) st) := by
  have h1 : ∀ q, (t q).isSome = true → (extra t w q).isSome = false := fun q h => by unfold extra; rw [if_pos h]; rfl
  unfold stashPop now
  simp only [List.getElem?_cons_zero, merge_same, ne_eq, not_true_eq_false, and_false, exists_false, ↓reduceIte, reduceCtorEq, Option.getD_some]
  rw [if_neg (by rintro ⟨q, h, h'⟩; simp only [merge_same, Option.getD_some, ↓reduceIte] at h; rw [h1 q h] at h'; cases h')]
  simp only [List.eraseIdx_zero, List.tail_cons, Prod.mk.injEq, true_and, Repo.mk.injEq, and_true]
  refine ⟨funext fun q => by split <;> rfl, funext fun q => ?_⟩
  unfold clean extra
  split <;> rfl

/-- The change comes back, from below the top of the stash. -/
theorem now_pop_one {refs : Ref → Option Commit} {b : Str} {c : Commit} {t w : Tree} {e : Entry} :
    stashPop mess 1 (now refs b c t t [e, ⟨t, t, known t w, fun _ => none⟩]) = (.done, now refs b c t (known t w) [e]) := by
  unfold stashPop now
  simp only [List.getElem?_cons_succ, List.getElem?_cons_zero, merge_same, ne_eq, not_true_eq_false, and_false, exists_false, ↓reduceIte,
    reduceCtorEq, Option.getD_some, Option.isSome_none, Bool.false_eq_true]
  simp only [List.eraseIdx_cons_succ, List.eraseIdx_zero, List.tail_cons, Prod.mk.injEq, true_and, Repo.mk.injEq, and_true]
  refine ⟨funext fun q => ?_, funext fun q => ?_⟩
  · split
    · rfl
    · rename_i h; unfold known; rw [if_neg h]; exact (by simpa using h : t q = none).symm
  · have e : (if known t w q = t q then t q else known t w q) = known t w q := by
      split
      · rename_i h; exact h.symm
      · rfl
    rw [e]
    split
    · rfl
    · rename_i h; exact (by simpa using h : known t w q = none).symm


/-- Two processes commit, and one is in a block at the current branch in between; no command fails. -/
def between : List (Who × Bool) :=
  [(.committer 0, false), (.committer 0, false), (.committer 0, false), (.visitor 0, false), (.visitor 0, false), (.visitor 0, false),
   (.committer 0, false), (.committer 0, false), (.committer 0, false), (.visitor 0, false),
   (.committer 1, false), (.committer 1, false), (.committer 1, false), (.visitor 0, false), (.visitor 0, false),
   (.committer 1, false), (.committer 1, false), (.committer 1, false)]

theorem now_from {refs : Ref → Option Commit} {b : Str} {c : Commit} {t w : Tree} {x : Tree} {st : List Entry} {sp : File → Bool} {p : File}
    (hsp : sp p = true) (hp : (t p).isSome) (hq : ∀ q, q ≠ p → w q = t q) :
    CommitRace.fromStash sp (now refs b c t w (⟨t, t, t, x⟩ :: st)) = .ok ((), now refs b c t t (⟨t, t, t, x⟩ :: st)) := by
  unfold CommitRace.fromStash checkoutFrom now
  simp only [List.getElem?_cons_zero]
  rw [if_pos ⟨p, hsp, hp⟩]
  simp only [Except.ok.injEq, Prod.mk.injEq, true_and, Repo.mk.injEq, and_true]
  refine ⟨funext fun q => by split <;> rfl, funext fun q => ?_⟩
  by_cases h : q = p
  · subst h; simp [hsp, hp]
  · rw [hq q h]; split <;> rfl

/-- Taking unchanged files from the stash changes nothing, and if there are none that is passed over. -/
theorem now_from_same {refs : Ref → Option Commit} {b : Str} {c : Commit} {t : Tree} {x : Tree} {st : List Entry} {v : VisitRace.Pc} {s : State}
    (h : At s (now refs b c t t (⟨t, t, t, x⟩ :: st)) v .stashed) :
    At (step mess ref spec s (.committer 0) false) (now refs b c t t (⟨t, t, t, x⟩ :: st)) v .ready := by
  by_cases he : ∃ p, spec 0 p = true ∧ (t p).isSome
  · obtain ⟨p, h1, h2⟩ := he
    exact h.ccmd (a := ()) (ok := fun _ => .ready) (error := fun _ => .ready) (fun t' e1 e2 => by
      unfold CommitRace.step; rw [e2, e1]; dsimp only; rw [now_from h1 h2 (fun _ _ => rfl)])
  · have hf : CommitRace.fromStash (spec 0) (now refs b c t t (⟨t, t, t, x⟩ :: st)) = .error .gitError := by
      unfold CommitRace.fromStash checkoutFrom now
      simp only [List.getElem?_cons_zero]
      rw [if_neg he]
    exact h.cgoto (fun t' e1 e2 => by
      unfold CommitRace.step; rw [e2, e1]; dsimp only; rw [hf]
      unfold CommitRace.State.command
      split <;> rfl)

/-- **C156** fails even when no command fails, all processes return, nothing was in the stash, and only the current branch is visited: a change of
the user is lost.  The user has changed the file `p` and has a new file `u`.  One process commits any path, one is in a block at the current
branch, and one commits `p`.  When all have returned, the change is not in the working directory, not in the history of any ref, and not in
the stash. -/
theorem C156_lost_counterexample {r : Repo} {b : Str} {c : Commit} {p u : File} {v : Bytes} (hb : r.head = .branch b)
    (hc : r.refs (.head b) = some c) (hi : r.index = c.tree) (hp : (c.tree p).isSome) (hw : r.work p = some v) (hn : ¬ Committed r p v)
    (hq : ∀ q, q ≠ p → (c.tree q).isSome → r.work q = c.tree q) (hu : c.tree u = none) (hwu : (r.work u).isSome) (hst : r.stash = [])
    (h0 : ref 0 = .head b) (hsp : spec 1 p = true) (ha : ∀ i, add i = false) :
    (run mess ref spec (State.init add r) between).visits 0 = .returned ∧
    (∃ d, (run mess ref spec (State.init add r) between).commits 0 = .ended (.ok d)) ∧
    (∃ d, (run mess ref spec (State.init add r) between).commits 1 = .ended (.ok d)) ∧
    (run mess ref spec (State.init add r) between).stuck = false ∧ Has r p v ∧
    ¬ Has (run mess ref spec (State.init add r) between).repo p v := by
  have hv : c.tree p ≠ some v := fun h => hn ⟨_, c, c, hc, .refl c, h⟩
  have hwv : r.work p ≠ c.tree p := fun h => hv (h ▸ hw)
  obtain ⟨t, ht⟩ : ∃ t, t = c.tree := ⟨_, rfl⟩
  obtain ⟨w, hwe⟩ : ∃ w, w = r.work := ⟨_, rfl⟩
  have hr : r = now r.refs b c t w [] := by
    obtain ⟨refs, head, index, work, stash⟩ := r
    dsimp only at hb hc hi hst hwe
    subst hb hi hst hwe ht
    unfold now
    simp only [Repo.mk.injEq, and_true]
    funext x
    split
    · rename_i h; rw [h]; exact hc
    · rfl
  rw [← ht] at hp hq hu hwv hv
  rw [← hwe] at hw hq hwu hwv
  have hct := ht.symm
  have hclean : ∀ q, q ≠ p → known t w q = t q := fun q h => by
    unfold known
    split
    · rename_i h'; exact hq q h h'
    · rename_i h'; exact (by simpa using h' : t q = none).symm
  have s0 : Sees (State.init add r) (now r.refs b c t w []) .start .start .start :=
    ⟨hr, rfl, rfl, by simp [State.init, ha], by simp [State.init, ha]⟩
  have hstart : ∀ {c : Commit} {t w : Tree} {st : List Entry} {i : Nat} (t' : CommitRace.State), t'.repo = now r.refs b c t w st → t'.pc i = .start →
      CommitRace.step mess spec t' i false = t'.goto i (.known b) := fun t' e1 e2 => by
    unfold CommitRace.step; rw [e2, e1]; rfl
  have hknown : ∀ {c : Commit} {t w : Tree} {st : List Entry} {i : Nat} (t' : CommitRace.State), t'.repo = now r.refs b c t w st → t'.pc i = .known b →
      CommitRace.step mess spec t' i false = t'.goto i .valid := fun t' e1 e2 => by
    unfold CommitRace.step; rw [e2, e1]; simp [now]
  have s1 := s0.first (mess := mess) (ref := ref) (spec := spec) fun _ h => h.cgoto hstart
  have s2 := s1.first (mess := mess) (ref := ref) (spec := spec) fun _ h => h.cgoto hknown
  have s3 := s2.first (mess := mess) (ref := ref) (spec := spec) (r' := now r.refs b c t (clean t w) [⟨t, t, known t w, fun _ => none⟩]) (k' := .stashed)
    fun _ h => h.ccmd (a := true) (ok := fun _ => .stashed) (error := fun e => .ended (.error e)) (fun t' e1 e2 => by
      unfold CommitRace.step; rw [e2, e1]; dsimp only; rw [now_push hct hp hwv])
  have s4 := s3.visiting (mess := mess) (ref := ref) (spec := spec) fun _ h => h.vgoto (v' := .valid) (fun t' e1 e2 => by
    unfold VisitRace.step; rw [e2, e1, h0]; simp [now])
  have s5 := s4.visiting (mess := mess) (ref := ref) (spec := spec) fun _ h => h.vgoto (v' := .known b) (fun t' e1 e2 => by
    unfold VisitRace.step; rw [e2, e1]; rfl)
  have s6 := s5.visiting (mess := mess) (ref := ref) (spec := spec) fun _ h => h.vcmd (v' := .inside b true)
    (r' := now r.refs b c t t [⟨t, t, t, extra t w⟩, ⟨t, t, known t w, fun _ => none⟩]) (fun t' e1 e2 => by
    unfold VisitRace.step; rw [e2, e1]; dsimp only; rw [now_push_all hct hu hwu, h0]; simp only [VisitRace.after, ↓reduceIte])
  have s7 := s6.first (mess := mess) (ref := ref) (spec := spec) fun _ h => now_from_same h
  have s8 := s7.first (mess := mess) (ref := ref) (spec := spec)
    (r' := now r.refs b (.mk t (some c)) t t [⟨t, t, t, extra t w⟩, ⟨t, t, known t w, fun _ => none⟩]) (k' := .popping (.ok (.mk t (some c)))) fun _ h =>
    h.ccmd (a := .mk t (some c)) (ok := fun c => .popping (.ok c)) (error := fun e => .popping (.error e)) (fun t' e1 e2 => by
      unfold CommitRace.step; rw [e2, e1]; dsimp only; rw [now_commits])
  have s9 := s8.first (mess := mess) (ref := ref) (spec := spec) fun _ h => h.cpop now_pop
  have s10 := s9.visiting (mess := mess) (ref := ref) (spec := spec) fun _ h => h.vcmd (v' := .leaving b true true)
    (r' := now r.refs b (.mk t (some c)) t t [⟨t, t, t, extra t w⟩, ⟨t, t, known t w, fun _ => none⟩]) (fun t' e1 e2 => by
    unfold VisitRace.step; rw [e2, e1]; dsimp only; rw [now_push_all (c := .mk t (some c)) (t := t) rfl hu hwu]; rfl)
  have s11 := s10.goto (mess := mess) (ref := ref) (spec := spec) hstart
  have s12 := s11.goto (mess := mess) (ref := ref) (spec := spec) hknown
  have s13 := s12.cmd (mess := mess) (ref := ref) (spec := spec) (a := false) (ok := fun _ => .stashed) (error := fun e => .ended (.error e))
    (r' := now r.refs b (.mk t (some c)) t t [⟨t, t, t, extra t w⟩, ⟨t, t, known t w, fun _ => none⟩]) (fun t' e1 e2 => by
      unfold CommitRace.step; rw [e2, e1]; dsimp only; rw [now_push_none (c := .mk t (some c)) (t := t) rfl])
  have s14 := s13.visiting (mess := mess) (ref := ref) (spec := spec) fun _ h => h.vgoto (v' := .popping true true) (fun t' e1 e2 => by
    unfold VisitRace.step; rw [e2, h0]; simp)
  have s15 := s14.visiting (mess := mess) (ref := ref) (spec := spec) fun _ h => h.vpopped now_pop_one
  have s16 := s15.cmd (mess := mess) (ref := ref) (spec := spec) (a := ()) (ok := fun _ => .ready) (error := fun _ => .ready)
    (r' := now r.refs b (.mk t (some c)) t t [⟨t, t, t, extra t w⟩]) (fun t' e1 e2 => by
      unfold CommitRace.step; rw [e2, e1]; dsimp only; rw [now_from hsp hp hclean])
  have s17 := s16.cmd (mess := mess) (ref := ref) (spec := spec) (a := .mk t (some (.mk t (some c)))) (ok := fun c => .popping (.ok c))
    (error := fun e => .popping (.error e)) (r' := now r.refs b (.mk t (some (.mk t (some c)))) t t [⟨t, t, t, extra t w⟩]) (fun t' e1 e2 => by
      unfold CommitRace.step; rw [e2, e1]; dsimp only; rw [now_commits])
  have s18 := s17.pop (mess := mess) (ref := ref) (spec := spec) now_pop
  refine ⟨s18.visit, ⟨_, s18.one⟩, ⟨_, s18.two⟩, s18.stuck, .inl (hwe ▸ hw), ?_⟩
  have e : (run mess ref spec (State.init add r) between).repo = now r.refs b (.mk t (some (.mk t (some c)))) t (clean t w) [] := s18.repo
  rw [e]
  rintro (h1 | ⟨rf, x, d, h1, h2, h3⟩ | ⟨y, hy, -⟩)
  · have : (if (t p).isSome = true then t p else w p) = some v := h1
    rw [if_pos hp] at this
    exact hv this
  · have h1 : (if rf = .head b then some (Commit.mk t (some (.mk t (some c)))) else r.refs rf) = some x := h1
    split at h1
    · simp only [Option.some.injEq] at h1
      subst h1
      cases h2 with
      | refl => exact hv h3
      | step h2 =>
        cases h2 with
        | refl => exact hv h3
        | step h2 => exact hn ⟨_, c, d, hc, h2, h3⟩
    · exact hn ⟨rf, x, d, h1, h2, h3⟩
  · cases hy

/-- Not vacuous: the file `a` is changed, and the file `n` is new. -/
example : ∃ (r : Repo) (c : Commit), r.head = .branch ['m'] ∧ r.refs (.head ['m']) = some c ∧ r.index = c.tree ∧ (c.tree ['a']).isSome ∧
    r.work ['a'] = some [2] ∧ ¬ Committed r ['a'] [2] ∧ (∀ q, q ≠ ['a'] → (c.tree q).isSome → r.work q = c.tree q) ∧ c.tree ['n'] = none ∧
    (r.work ['n']).isSome ∧ r.stash = [] := by
  refine ⟨⟨fun _ => some (.mk (fun q => if q = ['a'] then some [1] else none) none), .branch ['m'], fun q => if q = ['a'] then some [1] else none,
    fun q => if q = ['a'] then some [2] else if q = ['n'] then some [] else none, []⟩, .mk (fun q => if q = ['a'] then some [1] else none) none, rfl,
    rfl, rfl, rfl, rfl, ?_, fun q hq h => by simp [hq, Commit.tree] at h, rfl, rfl, rfl⟩
  rintro ⟨rf, c, d, hc, hl, hd⟩
  simp only [Option.some.injEq] at hc
  subst hc
  cases hl
  simp [Commit.tree] at hd

end Verif.Git.MixedRace
