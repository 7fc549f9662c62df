import Verif.Model.MixedRace
import Verif.Props.CommitRace

/-!
# C156: visits and commits in the same repository from several processes
-/

namespace Verif.Git.MixedRace

open VisitRace (Leads Committed Has Sound Staged Conflicts)
open CommitRace (Extends)

variable {mess : Repo → Tree × Tree} {ref : Nat → Ref} {spec : Nat → File → Bool} {I : Bytes → Option Bytes → Prop}

/-! ## A step of one process -/

/-- What a step of a process does with the repository. -/
structure Effect (I : Bytes → Option Bytes → Prop) (spec : Nat → File → Bool) (r : Repo) (stuck : Bool) (r' : Repo) (stuck' : Bool) : Prop where
  ext : Extends r r'
  sound : Sound r'
  head : ∃ n, r'.head = .branch n
  frozen : stuck = true → r' = r ∧ stuck' = true
  kept : stuck = false → ∀ p b, (∀ i, spec i p = false) → Has r p b → Has r' p b ∨ (stuck' = true ∧ I b (r'.work p))

theorem visit_frozen {s : VisitRace.State} (hs : s.stuck = true) (i : Nat) (fail : Bool) :
    (VisitRace.step mess ref s i fail).repo = s.repo ∧ (VisitRace.step mess ref s i fail).stuck = true := by
  have hc : ∀ f, (s.command i fail f).repo = s.repo ∧ (s.command i fail f).stuck = true := by
    intro f
    unfold VisitRace.State.command
    rw [if_pos (by simp [hs])]
    exact ⟨rfl, hs⟩
  have hl : ∀ rf pc, (VisitRace.leave s i fail rf pc).repo = s.repo ∧ (VisitRace.leave s i fail rf pc).stuck = true := by
    intro rf pc
    unfold VisitRace.leave
    split
    · exact ⟨rfl, hs⟩
    · exact hc _
  unfold VisitRace.step
  split
  · exact ⟨rfl, hs⟩
  · exact ⟨rfl, hs⟩
  · exact hc _
  · exact hl _ _
  · exact hc _
  · split
    · exact ⟨rfl, hs⟩
    · exact hl _ _
  · split
    · unfold VisitRace.State.pop
      rw [if_pos (by simp [hs])]
      exact ⟨rfl, hs⟩
    · exact ⟨rfl, hs⟩
  · exact ⟨rfl, hs⟩
  · exact ⟨rfl, hs⟩

theorem commit_frozen {s : CommitRace.State} (hs : s.stuck = true) (i : Nat) (fail : Bool) :
    (CommitRace.step mess spec s i fail).repo = s.repo ∧ (CommitRace.step mess spec s i fail).stuck = true := by
  have hc : ∀ {α : Type} (f : Except PyErr (α × Repo)) (ok : α → CommitRace.Pc) (error : PyErr → CommitRace.Pc),
      (s.command i fail f ok error).repo = s.repo ∧ (s.command i fail f ok error).stuck = true := by
    intro α f ok error
    unfold CommitRace.State.command
    rw [if_pos (by simp [hs])]
    exact ⟨rfl, hs⟩
  unfold CommitRace.step
  split
  · exact hc _ _ _
  · exact ⟨rfl, hs⟩
  · exact ⟨rfl, hs⟩
  · exact hc _ _ _
  · exact hc _ _ _
  · exact hc _ _ _
  · exact hc _ _ _
  · unfold CommitRace.State.pop
    rw [if_pos (by simp [hs])]
    exact ⟨rfl, hs⟩
  · exact ⟨rfl, hs⟩

/-- Other processes do not matter for what a step does. -/
theorem visit_local {s : VisitRace.State} {f : Nat → VisitRace.Pc} (i : Nat) (hf : f i = s.pc i) (fail : Bool) :
    (VisitRace.step mess ref { s with pc := f } i fail).repo = (VisitRace.step mess ref s i fail).repo ∧
    (VisitRace.step mess ref { s with pc := f } i fail).stuck = (VisitRace.step mess ref s i fail).stuck ∧
    (VisitRace.step mess ref { s with pc := f } i fail).pc i = (VisitRace.step mess ref s i fail).pc i := by
  have hg : ∀ pc, ((VisitRace.State.goto { s with pc := f } i pc).pc i) = (s.goto i pc).pc i := fun pc => by simp [VisitRace.State.goto]
  have hc : ∀ g, (VisitRace.State.command { s with pc := f } i fail g).repo = (s.command i fail g).repo ∧
      (VisitRace.State.command { s with pc := f } i fail g).stuck = (s.command i fail g).stuck ∧
      (VisitRace.State.command { s with pc := f } i fail g).pc i = (s.command i fail g).pc i := by
    intro g
    unfold VisitRace.State.command
    dsimp only
    split
    · exact ⟨rfl, rfl, hg _⟩
    · split <;> exact ⟨rfl, rfl, hg _⟩
  have hl : ∀ rf pc, (VisitRace.leave { s with pc := f } i fail rf pc).repo = (VisitRace.leave s i fail rf pc).repo ∧
      (VisitRace.leave { s with pc := f } i fail rf pc).stuck = (VisitRace.leave s i fail rf pc).stuck ∧
      (VisitRace.leave { s with pc := f } i fail rf pc).pc i = (VisitRace.leave s i fail rf pc).pc i := by
    intro rf pc
    unfold VisitRace.leave
    split
    · exact ⟨rfl, rfl, hg _⟩
    · exact hc _
  have hp : ∀ k, (VisitRace.State.pop mess { s with pc := f } i fail k).repo = (s.pop mess i fail k).repo ∧
      (VisitRace.State.pop mess { s with pc := f } i fail k).stuck = (s.pop mess i fail k).stuck ∧
      (VisitRace.State.pop mess { s with pc := f } i fail k).pc i = (s.pop mess i fail k).pc i := by
    intro k
    unfold VisitRace.State.pop
    dsimp only
    split
    · exact ⟨rfl, rfl, hg _⟩
    · split <;> exact ⟨rfl, rfl, hg _⟩
  unfold VisitRace.step
  dsimp only
  rw [hf]
  cases s.pc i with
  | start => exact ⟨rfl, rfl, hg _⟩
  | valid => exact ⟨rfl, rfl, hg _⟩
  | known n => exact hc _
  | stashed n k => exact hl _ _
  | inside n k => exact hc _
  | leaving n k a =>
    dsimp only
    split
    · exact ⟨rfl, rfl, hg _⟩
    · exact hl _ _
  | popping k a =>
    dsimp only
    split
    · exact hp _
    · exact ⟨rfl, rfl, hg _⟩
  | returned => exact ⟨rfl, rfl, hf⟩
  | raised e => exact ⟨rfl, rfl, hf⟩

theorem pop_head {k : Nat} {r : Repo} : (stashPop mess k r).2.head = r.head := by
  unfold stashPop
  split
  · rfl
  · dsimp only
    repeat' split
    all_goals rfl

theorem visit_head {s : VisitRace.State} (h : ∃ n, s.repo.head = .branch n) (hr : ∀ i n, ref i ≠ .remote n) (i : Nat) (fail : Bool) :
    ∃ n, (VisitRace.step mess ref s i fail).repo.head = .branch n := by
  have hc : ∀ f, (∀ pc r, f = .ok (pc, r) → ∃ n, r.head = .branch n) → ∃ n, (s.command i fail f).repo.head = .branch n := by
    intro f hf
    unfold VisitRace.State.command
    split
    · exact h
    · split
      · exact hf _ _ rfl
      · exact h
  have hst : ∀ g : Bool × Repo → VisitRace.Pc × Repo, (∀ x, (g x).2 = x.2) →
      ∃ n, (s.command i fail (VisitRace.after g (stashPush true s.repo))).repo.head = .branch n := by
    intro g hg
    refine hc _ fun pc r he => ?_
    cases hx : stashPush true s.repo with
    | error e => rw [hx] at he; simp [VisitRace.after] at he
    | ok x =>
      rw [hx] at he
      simp only [VisitRace.after, Except.ok.injEq] at he
      have := hg x
      rw [he] at this
      dsimp only at this
      rw [this, (VisitRace.stash_spec (again := x.1) hx).head]
      exact h
  have hl : ∀ rf pc, (∀ n, rf ≠ .remote n) → ∃ n, (VisitRace.leave s i fail rf pc).repo.head = .branch n := by
    intro rf pc hrf
    unfold VisitRace.leave
    split
    · exact h
    · rename_i hnt
      refine hc _ fun pc r he => ?_
      cases hx : checkout rf s.repo with
      | error e => rw [hx] at he; simp [VisitRace.after] at he
      | ok x =>
        rw [hx] at he
        simp only [VisitRace.after, Except.ok.injEq, Prod.mk.injEq] at he
        obtain ⟨-, rfl⟩ := he
        unfold checkout at hx
        split at hx
        · cases hx
        · split at hx
          · cases hx
          · simp only [Except.ok.injEq] at hx
            cases rf with
            | head n => exact ⟨n, by rw [← hx]⟩
            | remote n => exact absurd rfl (hrf n)
            | tag n => exact absurd rfl (hnt n)
  unfold VisitRace.step
  split
  · exact h
  · exact h
  · exact hst _ fun x => rfl
  · exact hl _ _ (hr i)
  · exact hst _ fun x => rfl
  · split
    · exact h
    · exact hl _ _ fun n => by simp
  · split
    · unfold VisitRace.State.pop
      split
      · exact h
      · split <;> (rename_i r hp; have := congrArg (fun x => x.2.head) hp; dsimp only at this ⊢; rw [← this, pop_head]; exact h)
    · exact h
  · exact h
  · exact h

/-- What a step of a process that visits a ref does. -/
theorem visit_effect (hm : ∀ r p b, r.work p = some b → I b ((mess r).2 p)) {s : VisitRace.State} (hb : ∃ n, s.repo.head = .branch n)
    (hs : Sound s.repo) (hr : ∀ i n, ref i ≠ .remote n) (i : Nat) (fail : Bool)
    (hst : s.stuck = true ∨ Staged s.repo ∨ ¬ (s.pc i).began) :
    Effect I spec s.repo s.stuck (VisitRace.step mess ref s i fail).repo (VisitRace.step mess ref s i fail).stuck ∧
    ((s.stuck = true ∨ Staged s.repo) →
      (VisitRace.step mess ref s i fail).stuck = true ∨ Staged (VisitRace.step mess ref s i fail).repo) ∧
    ((VisitRace.step mess ref s i fail).stuck = true ∨ Staged (VisitRace.step mess ref s i fail).repo ∨
      ¬ ((VisitRace.step mess ref s i fail).pc i).began) := by
  have hgo : ∀ d : VisitRace.Pc, (s.stuck = true ∨ Staged s.repo ∨ ¬ d.began) →
      VisitRace.Inv I s.repo (VisitRace.step mess ref { s with pc := fun j => if j = i then s.pc i else d } i fail) := by
    intro d hd
    refine VisitRace.Inv.step (s := { s with pc := fun j => if j = i then s.pc i else d }) hm ⟨rfl, hs, ?_, fun p b h => .inl h⟩ i fail
    rcases hst with h | h | h
    · exact .inl h
    · exact .inr (.inl h)
    · rcases hd with h' | h' | h'
      · exact .inl h'
      · exact .inr (.inl h')
      · refine .inr (.inr fun j => ?_)
        dsimp only
        split
        · exact h
        · exact h'
  have hloc : ∀ d : VisitRace.Pc, _ := fun d =>
    visit_local (mess := mess) (ref := ref) (s := s) (f := fun j => if j = i then s.pc i else d) i (if_pos rfl) fail
  have hother : ∀ d : VisitRace.Pc, (VisitRace.step mess ref { s with pc := fun j => if j = i then s.pc i else d } i fail).pc (i + 1) = d := fun d => by
    rw [VisitRace.step_other (Nat.succ_ne_self i)]
    exact if_neg (Nat.succ_ne_self i)
  have h0 := hgo .start (.inr (.inr fun h => h))
  obtain ⟨e1, e2, e3⟩ := hloc .start
  refine ⟨⟨.of_eq (e1 ▸ h0.refs), e1 ▸ h0.sound, visit_head hb hr i fail, fun h => visit_frozen h i fail, fun _ p b _ h => ?_⟩, fun h => ?_, ?_⟩
  · rw [← e1, ← e2]; exact h0.kept p b h
  · have h1 := (hgo (.inside [] false) (h.imp (fun h => h) .inl)).staged
    obtain ⟨f1, f2, -⟩ := hloc (.inside [] false)
    rw [f1, f2] at h1
    rcases h1 with h1 | h1 | h1
    · exact .inl h1
    · exact .inr h1
    · have := h1 (i + 1)
      rw [hother] at this
      exact absurd trivial this
  · rcases h0.staged with h | h | h
    · exact .inl (e2 ▸ h)
    · exact .inr (.inl (e1 ▸ h))
    · exact .inr (.inr (e3 ▸ h i))

/-- The same process, forgetting what it has committed. -/
def forget : CommitRace.Pc → CommitRace.Pc
  | .popping (.ok _) => .popping (.error .gitError)
  | .ended (.ok _) => .ended (.error .gitError)
  | pc => pc

/-- Other processes do not matter for what a step does, nor does the commit that was made. -/
theorem commit_local {s : CommitRace.State} {f : Nat → CommitRace.Pc} (i : Nat) (hf : f i = forget (s.pc i)) (fail : Bool) :
    (CommitRace.step mess spec { s with pc := f } i fail).repo = (CommitRace.step mess spec s i fail).repo ∧
    (CommitRace.step mess spec { s with pc := f } i fail).stuck = (CommitRace.step mess spec s i fail).stuck ∧
    (((CommitRace.step mess spec { s with pc := f } i fail).pc i = (CommitRace.step mess spec s i fail).pc i ∧ (s.pc i).made = none) ∨
      (s.pc i).made ≠ none ∧ ¬ ((CommitRace.step mess spec s i fail).pc i).began ∧
      ((CommitRace.step mess spec s i fail).pc i).made = (s.pc i).made) := by
  have hg : ∀ pc, ((CommitRace.State.goto { s with pc := f } i pc).pc i) = (s.goto i pc).pc i := fun pc => by simp [CommitRace.State.goto]
  have hc : ∀ {α : Type} (g : Except PyErr (α × Repo)) (ok : α → CommitRace.Pc) (error : PyErr → CommitRace.Pc),
      (CommitRace.State.command { s with pc := f } i fail g ok error).repo = (s.command i fail g ok error).repo ∧
      (CommitRace.State.command { s with pc := f } i fail g ok error).stuck = (s.command i fail g ok error).stuck ∧
      (CommitRace.State.command { s with pc := f } i fail g ok error).pc i = (s.command i fail g ok error).pc i := by
    intro α g ok error
    unfold CommitRace.State.command
    dsimp only
    split
    · exact ⟨rfl, rfl, hg _⟩
    · split <;> exact ⟨rfl, rfl, hg _⟩
  have hp : ∀ pc pc', (CommitRace.State.pop mess { s with pc := f } i fail pc).repo = (s.pop mess i fail pc').repo ∧
      (CommitRace.State.pop mess { s with pc := f } i fail pc).stuck = (s.pop mess i fail pc').stuck := by
    intro pc pc'
    unfold CommitRace.State.pop
    dsimp only
    split
    · exact ⟨rfl, rfl⟩
    · split <;> exact ⟨rfl, rfl⟩
  have hpp : ∀ (s : CommitRace.State) pc, (s.pop mess i fail pc).pc i = pc := fun s pc => by
    rw [CommitRace.pop_pc, if_pos rfl]
  unfold CommitRace.step
  dsimp only
  rw [hf]
  cases hpc : s.pc i with
  | adding => exact ⟨(hc _ _ _).1, (hc _ _ _).2.1, .inl ⟨(hc _ _ _).2.2, rfl⟩⟩
  | start => exact ⟨rfl, rfl, .inl ⟨hg _, rfl⟩⟩
  | known n => exact ⟨rfl, rfl, .inl ⟨hg _, rfl⟩⟩
  | valid => exact ⟨(hc _ _ _).1, (hc _ _ _).2.1, .inl ⟨(hc _ _ _).2.2, rfl⟩⟩
  | stashed => exact ⟨(hc _ _ _).1, (hc _ _ _).2.1, .inl ⟨(hc _ _ _).2.2, rfl⟩⟩
  | ready => exact ⟨(hc _ _ _).1, (hc _ _ _).2.1, .inl ⟨(hc _ _ _).2.2, rfl⟩⟩
  | fresh => exact ⟨(hc _ _ _).1, (hc _ _ _).2.1, .inl ⟨(hc _ _ _).2.2, rfl⟩⟩
  | popping res =>
    cases res with
    | ok c =>
      refine ⟨(hp _ _).1, (hp _ _).2, .inr ⟨fun h => (by cases h), ?_, ?_⟩⟩
      · dsimp only; rw [hpp]; exact fun h => h
      · dsimp only; rw [hpp]; rfl
    | error e => exact ⟨(hp _ _).1, (hp _ _).2, .inl ⟨(hpp _ _).trans (hpp _ _).symm, rfl⟩⟩
  | ended res =>
    cases res with
    | ok c => exact ⟨rfl, rfl, .inr ⟨fun h => (by cases h), (by rw [hpc]; exact fun h => h), by rw [hpc]⟩⟩
    | error e => exact ⟨rfl, rfl, .inl ⟨hf.trans (by rw [hpc]; rfl), rfl⟩⟩

theorem forget_began (pc : CommitRace.Pc) : (forget pc).began ↔ pc.began := by
  unfold forget
  split <;> exact Iff.rfl

theorem forget_made (pc : CommitRace.Pc) : (forget pc).made = none := by
  unfold forget
  split
  · rfl
  · rfl
  · rename_i h1 h2
    cases pc with
    | popping res =>
      cases res with
      | ok c => exact absurd rfl (h1 c)
      | error e => rfl
    | ended res =>
      cases res with
      | ok c => exact absurd rfl (h2 c)
      | error e => rfl
    | _ => rfl

theorem held_of_has {r : Repo} {p : File} {b : Bytes} (ho : ∀ i, spec i p = false) (h : Has r p b) : CommitRace.Held spec p b r := by
  rcases h with h | h | ⟨e, he, h⟩
  · exact .inr (.inl ⟨h, fun _ _ => .inl ho⟩)
  · exact .inl h
  · obtain ⟨up, low, hl⟩ := List.append_of_mem he
    exact .inr (.inr ⟨up, e, low, hl, h, fun _ _ => .inl ho⟩)

/-- What a step of a process that commits does. -/
theorem commit_effect (hm : ∀ r p b, r.work p = some b → I b ((mess r).2 p)) {s : CommitRace.State} {n : Str} (hb : s.repo.head = .branch n)
    (hs : Sound s.repo) (i : Nat) (fail : Bool) (hst : s.stuck = true ∨ Staged s.repo ∨ ¬ (s.pc i).began) :
    Effect I spec s.repo s.stuck (CommitRace.step mess spec s i fail).repo (CommitRace.step mess spec s i fail).stuck ∧
    ((s.stuck = true ∨ Staged s.repo) →
      (CommitRace.step mess spec s i fail).stuck = true ∨ Staged (CommitRace.step mess spec s i fail).repo) ∧
    ((CommitRace.step mess spec s i fail).stuck = true ∨ Staged (CommitRace.step mess spec s i fail).repo ∨
      ¬ ((CommitRace.step mess spec s i fail).pc i).began) ∧
    (∀ c, ((CommitRace.step mess spec s i fail).pc i).made = some c → (s.pc i).made = some c ∨
      ∃ d, (CommitRace.step mess spec s i fail).repo.refs (.head n) = some d ∧ Leads d c) := by
  have hgo : ∀ d : CommitRace.Pc, d.made = none → (s.stuck = true ∨ Staged s.repo ∨ ¬ d.began) →
      CommitRace.Inv I spec n s.repo (CommitRace.step mess spec { s with pc := fun j => if j = i then forget (s.pc i) else d } i fail) := by
    intro d hdm hd
    refine CommitRace.Inv.step (s := { s with pc := fun j => if j = i then forget (s.pc i) else d }) hm
      ⟨hb, .of_eq rfl, hs, ?_, fun p b h => .inl h, fun j c hc => ?_⟩ i fail
    · rcases hst with h | h | h
      · exact .inl h
      · exact .inr (.inl h)
      · rcases hd with h' | h' | h'
        · exact .inl h'
        · exact .inr (.inl h')
        · refine .inr (.inr fun j => ?_)
          dsimp only
          split
          · rw [forget_began]; exact h
          · exact h'
    · dsimp only at hc
      split at hc
      · rw [forget_made] at hc; cases hc
      · rw [hdm] at hc; cases hc
  have hloc : ∀ d : CommitRace.Pc, _ := fun d =>
    commit_local (mess := mess) (spec := spec) (s := s) (f := fun j => if j = i then forget (s.pc i) else d) i (if_pos rfl) fail
  have hother : ∀ d : CommitRace.Pc,
      (CommitRace.step mess spec { s with pc := fun j => if j = i then forget (s.pc i) else d } i fail).pc (i + 1) = d := fun d => by
    rw [CommitRace.step_other (Nat.succ_ne_self i)]
    exact if_neg (Nat.succ_ne_self i)
  have h0 := hgo .start rfl (.inr (.inr fun h => h))
  obtain ⟨e1, e2, e3⟩ := hloc .start
  refine ⟨⟨e1 ▸ h0.ext, e1 ▸ h0.sound, ⟨n, e1 ▸ h0.head⟩, fun h => commit_frozen h i fail, fun _ p b ho h => ?_⟩, fun h => ?_, ?_, fun c hc => ?_⟩
  · rw [← e1, ← e2]; exact (h0.kept p b (held_of_has ho h)).imp CommitRace.Held.has (fun h => h)
  · have h1 := (hgo .ready rfl (h.imp (fun h => h) .inl)).staged
    obtain ⟨f1, f2, -⟩ := hloc .ready
    rw [f1, f2] at h1
    rcases h1 with h1 | h1 | h1
    · exact .inl h1
    · exact .inr h1
    · have := h1 (i + 1)
      rw [hother] at this
      exact absurd trivial this
  · rcases h0.staged with h | h | h
    · exact .inl (e2 ▸ h)
    · exact .inr (.inl (e1 ▸ h))
    · rcases e3 with e3 | e3
      · exact .inr (.inr (e3.1 ▸ h i))
      · exact .inr (.inr e3.2.1)
  · rcases e3 with e3 | e3
    · rw [← e3.1] at hc
      obtain ⟨d, hd, l⟩ := h0.made i c hc
      exact .inr ⟨d, e1 ▸ hd, l⟩
    · rw [e3.2.2] at hc
      exact .inl hc

/-! ## The invariant -/

/-- What holds in every state; `I b x`: what is said of a file `x` after a conflict if it had the content `b` before. -/
structure Inv (I : Bytes → Option Bytes → Prop) (spec : Nat → File → Bool) (r0 : Repo) (s : State) : Prop where
  head : ∃ n, s.repo.head = .branch n
  ext : Extends r0 s.repo
  sound : Sound s.repo
  staged : s.stuck = true ∨ Staged s.repo ∨ (∀ i, ¬ (s.visits i).began) ∧ ∀ i, ¬ (s.commits i).began
  kept : ∀ p b, (∀ i, spec i p = false) → Has r0 p b → Has s.repo p b ∨ (s.stuck = true ∧ I b (s.repo.work p))
  made : ∀ i c, (s.commits i).made = some c → ∃ n d, s.repo.refs (.head n) = some d ∧ Leads d c

variable {r0 : Repo} {s : State}

theorem Inv.effect (h : Inv I spec r0 s) {r' : Repo} {stuck' : Bool} (he : Effect I spec s.repo s.stuck r' stuck') :
    Extends r0 r' ∧ (∀ p b, (∀ i, spec i p = false) → Has r0 p b → Has r' p b ∨ (stuck' = true ∧ I b (r'.work p))) ∧
    ∀ i c, (s.commits i).made = some c → ∃ n d, r'.refs (.head n) = some d ∧ Leads d c := by
  refine ⟨h.ext.trans he.ext, fun p b ho hb => ?_, fun i c hc => ?_⟩
  · cases hs : s.stuck with
    | true =>
      obtain ⟨h1, h2⟩ := he.frozen hs
      rw [h1]
      exact (h.kept p b ho hb).imp (fun h => h) fun h => ⟨h2, h.2⟩
    | false =>
      rcases h.kept p b ho hb with h' | ⟨h', -⟩
      · exact he.kept hs p b ho h'
      · rw [hs] at h'; cases h'
  · obtain ⟨n, d, hd, l⟩ := h.made i c hc
    obtain ⟨d', hd', l'⟩ := he.ext _ d hd
    exact ⟨n, d', hd', CommitRace.leads_trans l' l⟩

theorem Inv.step (hm : ∀ r p b, r.work p = some b → I b ((mess r).2 p)) (hr : ∀ i n, ref i ≠ .remote n) (h : Inv I spec r0 s) (w : Who)
    (fail : Bool) : Inv I spec r0 (step mess ref spec s w fail) := by
  cases w with
  | visitor i =>
    obtain ⟨he, h1, h2⟩ := visit_effect (spec := spec) (s := s.visiting) hm h.head h.sound hr i fail (by
      rcases h.staged with h | h | h
      · exact .inl h
      · exact .inr (.inl h)
      · exact .inr (.inr (h.1 i)))
    obtain ⟨e1, e2, e3⟩ := h.effect he
    refine ⟨he.head, e1, he.sound, ?_, e2, e3⟩
    show _ ∨ _ ∨ _
    rcases h.staged with h3 | h3 | h3
    · exact (h1 (.inl h3)).imp (fun h => h) .inl
    · exact (h1 (.inr h3)).imp (fun h => h) .inl
    · rcases h2 with h2 | h2 | h2
      · exact .inl h2
      · exact .inr (.inl h2)
      · refine .inr (.inr ⟨fun j => ?_, h3.2⟩)
        by_cases hj : j = i
        · rw [hj]; exact h2
        · have : (MixedRace.step mess ref spec s (.visitor i) fail).visits j = s.visits j := VisitRace.step_other hj
          rw [this]; exact h3.1 j
  | committer i =>
    obtain ⟨n, hn⟩ := h.head
    obtain ⟨he, h1, h2, hmade⟩ := commit_effect (spec := spec) (s := s.committing) hm hn h.sound i fail (by
      rcases h.staged with h | h | h
      · exact .inl h
      · exact .inr (.inl h)
      · exact .inr (.inr (h.2 i)))
    obtain ⟨e1, e2, e3⟩ := h.effect he
    have hot : ∀ j, j ≠ i → (MixedRace.step mess ref spec s (.committer i) fail).commits j = s.commits j := fun j hj => CommitRace.step_other hj
    refine ⟨he.head, e1, he.sound, ?_, e2, fun j c hc => ?_⟩
    · show _ ∨ _ ∨ _
      rcases h.staged with h3 | h3 | h3
      · exact (h1 (.inl h3)).imp (fun h => h) .inl
      · exact (h1 (.inr h3)).imp (fun h => h) .inl
      · rcases h2 with h2 | h2 | h2
        · exact .inl h2
        · exact .inr (.inl h2)
        · refine .inr (.inr ⟨h3.1, fun j => ?_⟩)
          by_cases hj : j = i
          · rw [hj]; exact h2
          · rw [hot j hj]; exact h3.2 j
    · by_cases hj : j = i
      · subst hj
        rcases hmade c hc with h4 | ⟨d, hd, l⟩
        · exact e3 j c h4
        · exact ⟨n, d, hd, l⟩
      · rw [hot j hj] at hc
        exact e3 j c hc

theorem Inv.run (hm : ∀ r p b, r.work p = some b → I b ((mess r).2 p)) (hr : ∀ i n, ref i ≠ .remote n) (h : Inv I spec r0 s)
    (sched : List (Who × Bool)) : Inv I spec r0 (run mess ref spec s sched) := by
  induction sched generalizing s with
  | nil => exact h
  | cons a rest ih => exact ih (h.step hm hr a.1 a.2)

variable {add : Nat → Bool}

theorem inv_init {n : Str} (hn : r0.head = .branch n) (hs : Sound r0) : Inv I spec r0 (State.init add r0) := by
  refine ⟨⟨n, hn⟩, .of_eq rfl, hs, .inr (.inr ⟨fun i h => h, fun i h => ?_⟩), fun _ _ _ h => .inl h, fun i c h => ?_⟩
  · unfold State.init at h; dsimp only at h; split at h <;> exact h
  · unfold State.init at h; dsimp only at h; split at h <;> cases h

/-- **C156**: when processes visit branches and others commit at the same time, in whatever order their git commands run, and whichever of these
fail: each ref has the commit it had or a later one, `HEAD` is at a branch, and the commit of every process that returned is in the history
of some branch. -/
theorem C156_history_partial {n : Str} (hn : r0.head = .branch n) (hs : Sound r0) (hr : ∀ i n, ref i ≠ .remote n) (sched : List (Who × Bool)) :
    (∀ rf c, r0.refs rf = some c → ∃ d, (run mess ref spec (State.init add r0) sched).repo.refs rf = some d ∧ Leads d c) ∧
    (∃ m, (run mess ref spec (State.init add r0) sched).repo.head = .branch m) ∧
    ∀ i c, (run mess ref spec (State.init add r0) sched).commits i = .ended (.ok c) →
      ∃ m d, (run mess ref spec (State.init add r0) sched).repo.refs (.head m) = some d ∧ Leads d c := by
  have h := (inv_init (I := fun _ _ => True) (spec := spec) (add := add) hn hs).run (mess := mess) (fun _ _ _ _ => trivial) hr sched
  exact ⟨h.ext, h.head, fun i c hc => h.made i c (by rw [hc]; rfl)⟩

/-- **C156**: of a file that nobody commits, nothing that was in the working directory, in a commit or in the stash is lost when processes visit
branches and others commit at the same time; after a conflict it is within what the conflict left in the file. -/
theorem C156_others_partial {n : Str} {within : Bytes → Bytes → Prop}
    (hm : ∀ r p b, r.work p = some b → ∃ x, (mess r).2 p = some x ∧ within b x) (hn : r0.head = .branch n) (hs : Sound r0)
    (hr : ∀ i n, ref i ≠ .remote n) (sched : List (Who × Bool)) {p : File} {b : Bytes} (h : Has r0 p b) (ho : ∀ i, spec i p = false) :
    Has (run mess ref spec (State.init add r0) sched).repo p b ∨ (run mess ref spec (State.init add r0) sched).stuck = true ∧
      ∃ x, (run mess ref spec (State.init add r0) sched).repo.work p = some x ∧ within b x :=
  ((inv_init (I := fun b o => ∃ x, o = some x ∧ within b x) hn hs).run hm hr sched).kept p b ho h

theorem visit_left (i : Nat) (sched : List (Who × Bool)) (s : State) :
    ((run mess ref spec s sched).visits i).left ≤ (s.visits i).left - sched.countP fun x => x.1 == .visitor i := by
  induction sched generalizing s with
  | nil => exact Nat.le_refl _
  | cons a rest ih =>
    refine Nat.le_trans (ih (step mess ref spec s a.1 a.2)) ?_
    rw [List.countP_cons]
    by_cases ha : a.1 = .visitor i
    · have := VisitRace.step_left (mess := mess) (ref := ref) (s := s.visiting) i a.2
      have e : (step mess ref spec s a.1 a.2).visits i = (VisitRace.step mess ref s.visiting i a.2).pc i := by rw [ha]; rfl
      rw [e]
      simp only [ha, beq_self_eq_true, ↓reduceIte]
      have e' : s.visiting.pc i = s.visits i := rfl
      rw [e'] at this
      omega
    · have e : (step mess ref spec s a.1 a.2).visits i = s.visits i := by
        cases hw : a.1 with
        | visitor j => exact VisitRace.step_other fun h => ha (by rw [hw, h])
        | committer j => rfl
      rw [e]
      simp [ha]

theorem commit_left (i : Nat) (sched : List (Who × Bool)) (s : State) :
    ((run mess ref spec s sched).commits i).left ≤ (s.commits i).left - sched.countP fun x => x.1 == .committer i := by
  induction sched generalizing s with
  | nil => exact Nat.le_refl _
  | cons a rest ih =>
    refine Nat.le_trans (ih (step mess ref spec s a.1 a.2)) ?_
    rw [List.countP_cons]
    by_cases ha : a.1 = .committer i
    · have := CommitRace.step_left (mess := mess) (spec := spec) (s := s.committing) i a.2
      have e : (step mess ref spec s a.1 a.2).commits i = (CommitRace.step mess spec s.committing i a.2).pc i := by rw [ha]; rfl
      rw [e]
      simp only [ha, beq_self_eq_true, ↓reduceIte]
      have e' : s.committing.pc i = s.commits i := rfl
      rw [e'] at this
      omega
    · have e : (step mess ref spec s a.1 a.2).commits i = s.commits i := by
        cases hw : a.1 with
        | visitor j => rfl
        | committer j => exact CommitRace.step_other fun h => ha (by rw [hw, h])
      rw [e]
      simp [ha]

/-- **C156**: a process has ended after seven steps of its own, whatever the others do and whichever commands fail: nothing waits. -/
theorem C156_ends (r : Repo) (sched : List (Who × Bool)) (i : Nat) :
    (7 ≤ (sched.countP fun x => x.1 == .visitor i) → (run mess ref spec (State.init add r) sched).visits i = .returned ∨
      ∃ e, (run mess ref spec (State.init add r) sched).visits i = .raised e) ∧
    (7 ≤ (sched.countP fun x => x.1 == .committer i) → ∃ x, (run mess ref spec (State.init add r) sched).commits i = .ended x) := by
  refine ⟨fun h => ?_, fun h => ?_⟩
  · have := visit_left (mess := mess) (ref := ref) (spec := spec) i sched (State.init add r)
    have h7 : ((State.init add r).visits i).left = 7 := rfl
    rw [h7] at this
    generalize (run mess ref spec (State.init add r) sched).visits i = pc at this
    cases pc <;> simp [VisitRace.Pc.left] at this ⊢ <;> omega
  · have := commit_left (mess := mess) (ref := ref) (spec := spec) i sched (State.init add r)
    have h0 : ((State.init add r).commits i).left ≤ 7 := by
      unfold State.init; dsimp only; split <;> simp [CommitRace.Pc.left]
    have h2 : ((run mess ref spec (State.init add r) sched).commits i).left = 0 := by omega
    cases hp : (run mess ref spec (State.init add r) sched).commits i with
    | ended x => exact ⟨x, rfl⟩
    | _ => rw [hp] at h2; cases h2

/-! ## What goes wrong -/

/-- The state as one process that visits a ref and one that commits see it. -/
structure At (s : State) (r : Repo) (v : VisitRace.Pc) (k : CommitRace.Pc) : Prop where
  repo : s.repo = r
  stuck : s.stuck = false
  visit : s.visits 0 = v
  commit : s.commits 0 = k

theorem At.vgoto {s : State} {r : Repo} {v v' : VisitRace.Pc} {k : CommitRace.Pc} (h : At s r v k)
    (hs : ∀ t : VisitRace.State, t.repo = r → t.pc 0 = v → VisitRace.step mess ref t 0 false = t.goto 0 v') :
    At (step mess ref spec s (.visitor 0) false) r v' k := by
  have e := hs s.visiting h.repo h.visit
  refine ⟨?_, ?_, ?_, h.commit⟩ <;> simp only [step, e]
  · exact h.repo
  · exact h.stuck
  · simp [VisitRace.State.goto]

theorem At.vcmd {s : State} {r r' : Repo} {v v' : VisitRace.Pc} {k : CommitRace.Pc} (h : At s r v k)
    (hs : ∀ t : VisitRace.State, t.repo = r → t.pc 0 = v → VisitRace.step mess ref t 0 false = t.command 0 false (.ok (v', r'))) :
    At (step mess ref spec s (.visitor 0) false) r' v' k := by
  have e := hs s.visiting h.repo h.visit
  have hst : s.visiting.stuck = false := h.stuck
  have e' : s.visiting.command 0 false (.ok (v', r')) = { s.visiting.goto 0 v' with repo := r' } := by
    unfold VisitRace.State.command; simp [hst]
  rw [e'] at e
  refine ⟨?_, ?_, ?_, h.commit⟩ <;> simp only [step, e]
  · exact h.stuck
  · simp [VisitRace.State.goto]

theorem At.cgoto {s : State} {r : Repo} {v : VisitRace.Pc} {k k' : CommitRace.Pc} (h : At s r v k)
    (hs : ∀ t : CommitRace.State, t.repo = r → t.pc 0 = k → CommitRace.step mess spec t 0 false = t.goto 0 k') :
    At (step mess ref spec s (.committer 0) false) r v k' := by
  have e := hs s.committing h.repo h.commit
  refine ⟨?_, ?_, h.visit, ?_⟩ <;> simp only [step, e]
  · exact h.repo
  · exact h.stuck
  · simp [CommitRace.State.goto]

theorem At.ccmd {α : Type} {s : State} {r r' : Repo} {v : VisitRace.Pc} {k : CommitRace.Pc} {ok : α → CommitRace.Pc}
    {error : PyErr → CommitRace.Pc} {a : α} (h : At s r v k)
    (hs : ∀ t : CommitRace.State, t.repo = r → t.pc 0 = k → CommitRace.step mess spec t 0 false = t.command 0 false (.ok (a, r')) ok error) :
    At (step mess ref spec s (.committer 0) false) r' v (ok a) := by
  have e := hs s.committing h.repo h.commit
  have hst : s.committing.stuck = false := h.stuck
  have e' : s.committing.command 0 false (.ok (a, r')) ok error = { s.committing.goto 0 (ok a) with repo := r' } := by
    unfold CommitRace.State.command; simp [hst]
  rw [e'] at e
  refine ⟨?_, ?_, h.visit, ?_⟩ <;> simp only [step, e]
  · exact h.stuck
  · simp [CommitRace.State.goto]

theorem At.cpop {s : State} {r r' : Repo} {v : VisitRace.Pc} {res : Except PyErr Commit} (h : At s r v (.popping res))
    (hp : stashPop mess 0 r = (.done, r')) : At (step mess ref spec s (.committer 0) false) r' v (.ended res) := by
  have e : CommitRace.step mess spec s.committing 0 false = { s.committing.goto 0 (.ended res) with repo := r' } := by
    unfold CommitRace.step
    rw [show s.committing.pc 0 = .popping res from h.commit]
    dsimp only
    unfold CommitRace.State.pop
    rw [show s.committing.stuck = false from h.stuck, show s.committing.repo = r from h.repo, hp]
    simp
  refine ⟨?_, ?_, h.visit, ?_⟩ <;> simp only [step, e]
  · exact h.stuck
  · simp [CommitRace.State.goto]

theorem At.vpop {s : State} {r : Repo} {k : CommitRace.Pc} (h : At s r (.popping true false) k) (hst : r.stash = []) :
    At (step mess ref spec s (.visitor 0) false) r (.raised .gitError) k := by
  have hp : stashPop mess 0 r = (.kept, r) := by unfold stashPop; rw [hst]; rfl
  have hnc : ¬ Conflicts 0 r := by rintro ⟨e, he, -⟩; rw [hst] at he; cases he
  have e : VisitRace.step mess ref s.visiting 0 false = { s.visiting.goto 0 (.raised .gitError) with repo := r, stuck := false } := by
    unfold VisitRace.step
    rw [show s.visiting.pc 0 = .popping true false from h.visit]
    simp only [↓reduceIte, Bool.false_eq_true]
    unfold VisitRace.State.pop
    rw [show s.visiting.stuck = false from h.stuck, show s.visiting.repo = r from h.repo, hp]
    simp [hnc]
  refine ⟨?_, ?_, ?_, h.commit⟩ <;> simp only [step, e]
  · simp [VisitRace.State.goto]

/-- One process commits while another one is in its block; the first had looked at the branch before. -/
def within : List (Who × Bool) :=
  [(.committer 0, false), (.visitor 0, false), (.visitor 0, false), (.visitor 0, false), (.visitor 0, false),
   (.committer 0, false), (.committer 0, false), (.committer 0, false), (.committer 0, false), (.committer 0, false),
   (.visitor 0, false), (.visitor 0, false), (.visitor 0, false)]

/-- `HEAD` when this is checked out. -/
def headAt (c : Commit) : Ref → Head
  | .head n => .branch n
  | _ => .detached c

/-- The refs when this is checked out and then `c` is committed. -/
def refsAt (c : Commit) (rf : Ref) (refs : Ref → Option Commit) : Ref → Option Commit :=
  match rf with
  | .head n => fun x => if x = .head n then some c else refs x
  | _ => refs

theorem within_run {r : Repo} {b : Str} {c : Commit} {rf : Ref} {p : File} {v : Bytes} (hb : r.head = .branch b) (hc : r.refs (.head b) = some c)
    (hrf : r.refs rf = some c) (hne : rf ≠ .head b) (htag : ∀ n, rf ≠ .tag n) (hi : r.index = c.tree) (ht : (c.tree p).isSome)
    (hw : r.work p = some v) (hv : c.tree p ≠ some v) (hq : ∀ q, q ≠ p → r.work q = c.tree q) (hst : r.stash = [])
    (h0 : ref 0 = rf) (hsp : spec 0 p = true) (ha : add 0 = false) :
    At (run mess ref spec (State.init add r) within)
      { r with refs := refsAt (.mk r.work (some c)) rf r.refs, work := c.tree } (.raised .gitError) (.ended (.ok (.mk r.work (some c)))) := by
  obtain ⟨refs, head, index, w, stash⟩ := r
  dsimp only at hb hc hrf hi hw hq hst ⊢
  subst hb hi hst
  have hsome : (w p).isSome := by rw [hw]; rfl
  have hwn : ∀ q, c.tree q = none → w q = none := fun q h => by
    rw [hq q, h]
    rintro rfl
    rw [h] at ht; cases ht
  have s0 : At (State.init add ⟨refs, .branch b, c.tree, w, []⟩) ⟨refs, .branch b, c.tree, w, []⟩ .start .start :=
    ⟨rfl, rfl, rfl, by simp [State.init, ha]⟩
  have s1 := s0.cgoto (mess := mess) (ref := ref) (spec := spec) (k' := .known b) (fun t h1 h2 => by
    unfold CommitRace.step; rw [h2, h1])
  have s2 := s1.vgoto (mess := mess) (ref := ref) (spec := spec) (v' := .valid) (fun t h1 h2 => by
    unfold VisitRace.step; rw [h2, h1, h0]; simp [hrf])
  have s3 := s2.vgoto (mess := mess) (ref := ref) (spec := spec) (v' := .known b) (fun t h1 h2 => by
    unfold VisitRace.step; rw [h2, h1])
  have hpush : stashPush true ⟨refs, .branch b, c.tree, w, []⟩ =
      .ok (true, ⟨refs, .branch b, c.tree, c.tree, [⟨c.tree, c.tree, w, fun _ => none⟩]⟩) := by
    have hch : Repo.changed ⟨refs, .branch b, c.tree, w, []⟩ true := .inr (.inl ⟨p, by
      simp [Repo.tracked, ht], by dsimp only; rw [hw]; exact fun h => hv h.symm⟩)
    unfold stashPush
    simp only [Repo.commit, hc, hch, ↓reduceIte, Repo.tree, Bool.true_or, Except.ok.injEq, Prod.mk.injEq, true_and]
    congr 1
    congr 1
    congr 1
    · funext q
      simp only [Repo.ours, Repo.tracked, Repo.tree, Repo.commit, hc]
      split
      · rfl
      · rename_i h; exact (hwn q (by simpa using h)).symm
    · funext q
      simp only [Repo.others]
      split
      · rfl
      · rename_i h; exact hwn q (by simpa using h)
  have s4 := s3.vcmd (mess := mess) (ref := ref) (spec := spec) (v' := .stashed b true)
    (r' := ⟨refs, .branch b, c.tree, c.tree, [⟨c.tree, c.tree, w, fun _ => none⟩]⟩) (fun t h1 h2 => by
    unfold VisitRace.step; rw [h2, h1]; dsimp only; rw [hpush, h0]; simp only [VisitRace.after, if_neg hne])
  have hco : checkout rf ⟨refs, .branch b, c.tree, c.tree, [⟨c.tree, c.tree, w, fun _ => none⟩]⟩ =
      .ok ⟨refs, headAt c rf, c.tree, c.tree, [⟨c.tree, c.tree, w, fun _ => none⟩]⟩ := by
    have htr0 : ∀ i w' st, Repo.tree ⟨refs, .branch b, i, w', st⟩ = c.tree := fun i w' st => by
      unfold Repo.tree Repo.commit; simp only [hc]; rfl
    unfold checkout
    simp only [hrf, htr0, ne_eq, not_true_eq_false, false_and, exists_false, ↓reduceIte, Except.ok.injEq]
    cases rf <;> rfl
  have s5 := s4.vcmd (mess := mess) (ref := ref) (spec := spec) (v' := .inside b true)
    (r' := ⟨refs, headAt c rf, c.tree, c.tree, [⟨c.tree, c.tree, w, fun _ => none⟩]⟩) (fun t h1 h2 => by
    unfold VisitRace.step; rw [h2]; dsimp only; unfold VisitRace.leave; rw [h0, h1]
    cases rf with
    | tag n => exact absurd rfl (htag n)
    | head n => dsimp only; rw [hco]; rfl
    | remote n => dsimp only; rw [hco]; rfl)
  have s6 := s5.cgoto (mess := mess) (ref := ref) (spec := spec) (k' := .valid) (fun t h1 h2 => by
    unfold CommitRace.step; rw [h2, h1]; simp [hc])
  have hcm : ∀ i w' st, Repo.commit ⟨refs, headAt c rf, i, w', st⟩ = some c := by
    intro i w' st
    unfold Repo.commit headAt
    cases rf with
    | head n => exact hrf
    | _ => rfl
  have htr : ∀ i w' st, Repo.tree ⟨refs, headAt c rf, i, w', st⟩ = c.tree := fun i w' st => by
    unfold Repo.tree; rw [hcm]; rfl
  have s7 := s6.ccmd (mess := mess) (ref := ref) (spec := spec) (a := false) (ok := fun _ => .stashed) (error := fun e => .ended (.error e))
    (r' := ⟨refs, headAt c rf, c.tree, c.tree, [⟨c.tree, c.tree, w, fun _ => none⟩]⟩) (fun t h1 h2 => by
    unfold CommitRace.step; rw [h2, h1]; dsimp only
    rw [CommitRace.push_unchanged (hcm _ _ _)]
    unfold Repo.changed
    rw [htr]
    simp)
  have hfrom : CommitRace.fromStash (spec 0) ⟨refs, headAt c rf, c.tree, c.tree, [⟨c.tree, c.tree, w, fun _ => none⟩]⟩ =
      .ok ((), ⟨refs, headAt c rf, w, w, [⟨c.tree, c.tree, w, fun _ => none⟩]⟩) := by
    have hx : (fun q => if (spec 0 q && (w q).isSome) = true then w q else c.tree q) = w := by
      funext q
      by_cases h : q = p
      · subst h; simp [hsp, hsome]
      · rw [← hq q h]; simp
    unfold CommitRace.fromStash checkoutFrom
    simp only [List.getElem?_cons_zero]
    rw [if_pos ⟨p, hsp, hsome⟩]
    simp only [hx]
  have s8 := s7.ccmd (mess := mess) (ref := ref) (spec := spec) (a := ()) (ok := fun _ => .ready) (error := fun _ => .ready)
    (r' := ⟨refs, headAt c rf, w, w, [⟨c.tree, c.tree, w, fun _ => none⟩]⟩) (fun t h1 h2 => by
    unfold CommitRace.step; rw [h2, h1]; dsimp only; rw [hfrom])
  have hcommit : indexCommit ⟨refs, headAt c rf, w, w, [⟨c.tree, c.tree, w, fun _ => none⟩]⟩ =
      .ok (.mk w (some c), ⟨refsAt (.mk w (some c)) rf refs, headAt (.mk w (some c)) rf, w, w, [⟨c.tree, c.tree, w, fun _ => none⟩]⟩) := by
    unfold indexCommit
    simp only [hcm]
    cases rf with
    | head n => rfl
    | remote n => rfl
    | tag n => rfl
  have s9 := s8.ccmd (mess := mess) (ref := ref) (spec := spec) (a := .mk w (some c)) (ok := fun c => .popping (.ok c))
    (error := fun e => .popping (.error e)) (r' := ⟨refsAt (.mk w (some c)) rf refs, headAt (.mk w (some c)) rf, w, w, [⟨c.tree, c.tree, w, fun _ => none⟩]⟩)
    (fun t h1 h2 => by
    unfold CommitRace.step; rw [h2, h1]; dsimp only; rw [hcommit])
  have hm : ∀ q, merge3 (c.tree q) (w q) (w q) = some (w q) := fun q => by
    unfold merge3
    split
    · rfl
    · simp
  have hpop : stashPop mess 0 ⟨refsAt (.mk w (some c)) rf refs, headAt (.mk w (some c)) rf, w, w, [⟨c.tree, c.tree, w, fun _ => none⟩]⟩ =
      (.done, ⟨refsAt (.mk w (some c)) rf refs, headAt (.mk w (some c)) rf, w, w, []⟩) := by
    unfold stashPop
    simp [hm]
    funext q
    split
    · rfl
    · rename_i h; exact (by simpa using h : w q = none).symm
  have s10 := s9.cpop (ref := ref) (spec := spec) hpop
  have hcm' : ∀ i w' st, Repo.commit ⟨refsAt (.mk w (some c)) rf refs, headAt (.mk w (some c)) rf, i, w', st⟩ = some (.mk w (some c)) := by
    intro i w' st
    unfold Repo.commit headAt refsAt
    cases rf with
    | head n => simp
    | _ => rfl
  have htr' : ∀ i w' st, Repo.tree ⟨refsAt (.mk w (some c)) rf refs, headAt (.mk w (some c)) rf, i, w', st⟩ = w := fun i w' st => by
    unfold Repo.tree; rw [hcm']; rfl
  have hpush2 : stashPush true ⟨refsAt (.mk w (some c)) rf refs, headAt (.mk w (some c)) rf, w, w, []⟩ =
      .ok (false, ⟨refsAt (.mk w (some c)) rf refs, headAt (.mk w (some c)) rf, w, w, []⟩) := by
    unfold stashPush
    rw [hcm']
    dsimp only
    rw [if_neg]
    unfold Repo.changed
    rw [htr']
    simp [Repo.others]
  have s11 := s10.vcmd (mess := mess) (ref := ref) (spec := spec) (v' := .leaving b true false)
    (r' := ⟨refsAt (.mk w (some c)) rf refs, headAt (.mk w (some c)) rf, w, w, []⟩) (fun t h1 h2 => by
    unfold VisitRace.step; rw [h2, h1]; dsimp only; rw [hpush2]; rfl)
  have hcb : refsAt (.mk w (some c)) rf refs (.head b) = some c := by
    unfold refsAt
    cases rf with
    | head n =>
      dsimp only
      rw [if_neg fun h => hne h.symm, hc]
    | _ => exact hc
  have hco2 : checkout (.head b) ⟨refsAt (.mk w (some c)) rf refs, headAt (.mk w (some c)) rf, w, w, []⟩ =
      .ok ⟨refsAt (.mk w (some c)) rf refs, .branch b, c.tree, c.tree, []⟩ := by
    unfold checkout
    simp only [hcb, htr', and_self, not_true_eq_false, and_false, exists_false, ↓reduceIte, Except.ok.injEq]
    congr 1 <;>
    · funext q
      split
      · assumption
      · rfl
  have s12 := s11.vcmd (mess := mess) (ref := ref) (spec := spec) (v' := .popping true false)
    (r' := ⟨refsAt (.mk w (some c)) rf refs, .branch b, c.tree, c.tree, []⟩) (fun t h1 h2 => by
    unfold VisitRace.step; rw [h2, h0]; dsimp only; rw [if_neg (Ne.symm hne)]; unfold VisitRace.leave; rw [h1]; dsimp only; rw [hco2]; rfl)
  exact s12.vpop (mess := mess) (ref := ref) (spec := spec) rfl

/-- **C156** fails when a branch of a remote is visited: the commit that a process makes while another one is in its block is in no branch when
both have ended, and the change of the user is lost: it is not in the working directory, not in the history of any ref, and not in the stash,
although the commit was returned as made. -/
theorem C156_detached_counterexample {r : Repo} {b x : Str} {c : Commit} {p : File} {v : Bytes} (hb : r.head = .branch b)
    (hc : r.refs (.head b) = some c) (hx : r.refs (.remote x) = some c) (hi : r.index = c.tree) (ht : (c.tree p).isSome)
    (hw : r.work p = some v) (hn : ¬ Committed r p v) (hq : ∀ q, q ≠ p → r.work q = c.tree q) (hst : r.stash = [])
    (h0 : ref 0 = .remote x) (hsp : spec 0 p = true) (ha : add 0 = false) :
    ∃ d, (run mess ref spec (State.init add r) within).commits 0 = .ended (.ok d) ∧ d.tree p = some v ∧
      (∀ rf e, (run mess ref spec (State.init add r) within).repo.refs rf = some e → ¬ Leads e d) ∧ Has r p v ∧
      ¬ Has (run mess ref spec (State.init add r) within).repo p v := by
  have hv : c.tree p ≠ some v := fun h => hn ⟨_, c, c, hc, .refl c, h⟩
  have h := within_run (mess := mess) (add := add) hb hc hx (by simp) (by simp) hi ht hw hv hq hst h0 hsp ha
  refine ⟨_, h.commit, hw, fun rf e he l => ?_, .inl hw, ?_⟩
  · rw [h.repo] at he
    exact hn ⟨rf, e, _, he, l, hw⟩
  · rw [h.repo]
    rintro (h1 | h1 | ⟨e, he, -⟩)
    · exact hv h1
    · exact hn h1
    · dsimp only at he; rw [hst] at he; cases he

/-- **C156** fails when another branch is visited: what one process commits while another one is in its block goes to the branch that this one
visits, and not to the one where the user is before and afterwards; the change is no longer in the working directory, and leaving the block
raises an exception. -/
theorem C156_branch_counterexample {r : Repo} {b x : Str} {c : Commit} {p : File} {v : Bytes} (hb : r.head = .branch b)
    (hc : r.refs (.head b) = some c) (hx : r.refs (.head x) = some c) (hxb : x ≠ b) (hi : r.index = c.tree) (ht : (c.tree p).isSome)
    (hw : r.work p = some v) (hv : c.tree p ≠ some v) (hq : ∀ q, q ≠ p → r.work q = c.tree q) (hst : r.stash = [])
    (h0 : ref 0 = .head x) (hsp : spec 0 p = true) (ha : add 0 = false) :
    ∃ d, (run mess ref spec (State.init add r) within).commits 0 = .ended (.ok d) ∧ d.tree p = some v ∧
      (run mess ref spec (State.init add r) within).repo.refs (.head x) = some d ∧
      (run mess ref spec (State.init add r) within).repo.refs (.head b) = some c ∧
      (run mess ref spec (State.init add r) within).repo.head = .branch b ∧
      (run mess ref spec (State.init add r) within).repo.work p ≠ some v ∧
      (run mess ref spec (State.init add r) within).visits 0 = .raised .gitError := by
  have h := within_run (mess := mess) (add := add) hb hc hx (by simpa using hxb) (by simp) hi ht hw hv hq hst h0 hsp ha
  refine ⟨_, h.commit, hw, ?_, ?_, ?_, ?_, h.visit⟩
  · rw [h.repo]; simp [refsAt]
  · rw [h.repo]; simp [refsAt, hc, Ne.symm hxb]
  · rw [h.repo]; exact hb
  · rw [h.repo]; exact hv


/-- Not vacuous: the file `a` is changed, and there are the branches `m` and `x` and the branch `x` of a remote. -/
example : ∃ (r : Repo) (c : Commit), r.head = .branch ['m'] ∧ r.refs (.head ['m']) = some c ∧ r.refs (.head ['x']) = some c ∧
    r.refs (.remote ['x']) = some c ∧ r.index = c.tree ∧ (c.tree ['a']).isSome ∧ r.work ['a'] = some [2] ∧ ¬ Committed r ['a'] [2] ∧
    (∀ q, q ≠ ['a'] → r.work q = c.tree q) ∧ r.stash = [] ∧ Sound r := by
  refine ⟨⟨fun _ => some (.mk (fun q => if q = ['a'] then some [1] else none) none), .branch ['m'], fun q => if q = ['a'] then some [1] else none,
    fun q => if q = ['a'] then some [2] else none, []⟩, .mk (fun q => if q = ['a'] then some [1] else none) none, rfl, rfl, rfl, rfl, rfl,
    rfl, rfl, ?_, fun q hq => by simp [hq, Commit.tree], rfl, ⟨fun c hc => ⟨.head ['m'], hc⟩, fun e he => by cases he⟩⟩
  rintro ⟨rf, c, d, hc, hl, hd⟩
  simp only [Option.some.injEq] at hc
  subst hc
  cases hl
  simp [Commit.tree] at hd

/-! ## Only visits, or only commits -/

/-- **C156**: when nobody commits, this is C149. -/
theorem C156_visits (s : State) (sched : List (Nat × Bool)) :
    (run mess ref spec s (sched.map fun x => (.visitor x.1, x.2))).visiting = VisitRace.run mess ref s.visiting sched ∧
    (run mess ref spec s (sched.map fun x => (.visitor x.1, x.2))).commits = s.commits := by
  induction sched generalizing s with
  | nil => exact ⟨rfl, rfl⟩
  | cons a rest ih => exact ih (step mess ref spec s (.visitor a.1) a.2)

/-- **C156**: when nobody visits a ref, this is C150. -/
theorem C156_commits (s : State) (sched : List (Nat × Bool)) :
    (run mess ref spec s (sched.map fun x => (.committer x.1, x.2))).committing = CommitRace.run mess spec s.committing sched ∧
    (run mess ref spec s (sched.map fun x => (.committer x.1, x.2))).visits = s.visits := by
  induction sched generalizing s with
  | nil => exact ⟨rfl, rfl⟩
  | cons a rest ih => exact ih (step mess ref spec s (.committer a.1) a.2)

end Verif.Git.MixedRace
