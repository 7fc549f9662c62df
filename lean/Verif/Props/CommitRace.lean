import Verif.Model.CommitRace
import Verif.Props.VisitRace

/-!
# C150: commits to the same repository from several processes
-/

namespace Verif.Git.CommitRace

open VisitRace (Leads Committed Has Sound Staged Conflicts)

/-! ## Commands -/

theorem leads_trans {a b c : Commit} (h : Leads a b) (h' : Leads b c) : Leads a c := by
  induction h with
  | refl => exact h'
  | step _ ih => exact .step (ih h')

/-- Refs have the commits they had, or later ones. -/
def Extends (r r' : Repo) : Prop := ∀ ref c, r.refs ref = some c → ∃ d, r'.refs ref = some d ∧ Leads d c

theorem Extends.of_eq {r r' : Repo} (h : r'.refs = r.refs) : Extends r r' := fun _ c hc => ⟨c, by rw [h]; exact hc, .refl c⟩

theorem Extends.trans {a b c : Repo} (h : Extends a b) (h' : Extends b c) : Extends a c := fun ref x hx => by
  obtain ⟨y, hy, l⟩ := h ref x hx
  obtain ⟨z, hz, l'⟩ := h' ref y hy
  exact ⟨z, hz, leads_trans l' l⟩

theorem Extends.committed {r r' : Repo} (h : Extends r r') {p : File} {b : Bytes} (hc : Committed r p b) : Committed r' p b := by
  obtain ⟨ref, c, d, h1, h2, h3⟩ := hc
  obtain ⟨c', h4, h5⟩ := h ref c h1
  exact ⟨ref, c', d, h4, leads_trans h5 h2, h3⟩

/-- `e` may be checked out over the content `b` of `p`, or nobody does that. -/
def Fine (spec : Nat → File → Bool) (p : File) (b : Bytes) (e : Entry) : Prop :=
  (∀ i, spec i p = false) ∨ e.work p = none ∨ e.work p = some b

/-- The content is committed, in the working directory, or in an entry of the stash; those that could replace it are above. -/
def Held (spec : Nat → File → Bool) (p : File) (b : Bytes) (r : Repo) : Prop :=
  Committed r p b ∨ (r.work p = some b ∧ ∀ e ∈ r.stash, Fine spec p b e) ∨
    ∃ up e low, r.stash = up ++ e :: low ∧ (e.work p = some b ∨ e.untracked p = some b) ∧ ∀ e ∈ low, Fine spec p b e

theorem Held.has {spec : Nat → File → Bool} {p : File} {b : Bytes} {r : Repo} (h : Held spec p b r) : Has r p b := by
  rcases h with h | h | ⟨up, e, low, h, h', -⟩
  · exact .inr (.inl h)
  · exact .inl h.1
  · exact .inr (.inr ⟨e, by rw [h]; simp, h'⟩)

variable {spec : Nat → File → Bool} {p : File} {b : Bytes} {mess : Repo → Tree × Tree}

/-- What every command keeps. -/
structure Keeps (spec : Nat → File → Bool) (r r' : Repo) : Prop where
  head : r'.head = r.head
  ext : Extends r r'
  sound : Sound r → Sound r'
  held : ∀ p b, Held spec p b r → Held spec p b r'

theorem push_cases {r r' : Repo} {k : Bool} (h : stashPush false r = .ok (k, r')) :
    r' = { r with
      index := r.tree
      work := fun p => if r.tracked p then r.tree p else r.work p
      stash := ⟨r.tree, r.index, r.ours, fun _ => none⟩ :: r.stash } ∨ (¬ r.changed false ∧ r' = r) := by
  unfold stashPush at h
  split at h
  · cases h
  · split at h
    · simp only [Except.ok.injEq, Prod.mk.injEq, Bool.false_or, Bool.false_eq_true, ↓reduceIte] at h
      exact .inl h.2.symm
    · rename_i hc
      simp only [Except.ok.injEq, Prod.mk.injEq] at h
      exact .inr ⟨hc, h.2.symm⟩

theorem push_keep {r r' : Repo} {k : Bool} (h : stashPush false r = .ok (k, r')) (hs : Sound r) : Keeps spec r r' ∧ Staged r' := by
  rcases push_cases h with rfl | ⟨hc, rfl⟩
  · refine ⟨⟨rfl, .of_eq rfl, fun _ => ⟨hs.head, fun e he p b hb => ?_⟩, fun p b hb => ?_⟩, fun p b hb => .inr (hs.tree hb)⟩
    · rcases List.mem_cons.1 he with rfl | he
      · exact hs.tree hb
      · exact hs.based e he p b hb
    · rcases hb with hb | ⟨hb, hf⟩ | ⟨up, e, low, h1, h2, h3⟩
      · exact .inl hb
      · cases ht : r.tracked p with
        | true => exact .inr (.inr ⟨[], _, r.stash, rfl, .inl (by simp only [Repo.ours, ht, ↓reduceIte]; exact hb), hf⟩)
        | false =>
          refine .inr (.inl ⟨by simp only [ht, Bool.false_eq_true, ↓reduceIte]; exact hb, fun e he => ?_⟩)
          rcases List.mem_cons.1 he with rfl | he
          · exact .inr (.inl (by simp only [Repo.ours, ht, Bool.false_eq_true, ↓reduceIte]))
          · exact hf e he
      · exact .inr (.inr ⟨_ :: up, e, low, by dsimp only; rw [h1]; rfl, h2, h3⟩)
  · refine ⟨⟨rfl, .of_eq rfl, fun h => h, fun _ _ h => h⟩, fun p b hb => .inr (hs.tree ?_)⟩
    rw [← hb]
    exact Decidable.byContradiction fun hn => hc (.inl ⟨p, fun h => hn h.symm⟩)

theorem from_cases {i : Nat} {r r' : Repo} (h : fromStash (spec i) r = .ok ((), r')) : ∃ e rest, r.stash = e :: rest ∧ r' = { r with
    index := fun p => if spec i p && (e.work p).isSome then e.work p else r.index p
    work := fun p => if spec i p && (e.work p).isSome then e.work p else r.work p } := by
  unfold fromStash checkoutFrom at h
  cases hs : r.stash with
  | nil => rw [hs] at h; cases h
  | cons e rest =>
    rw [hs] at h
    simp only [List.getElem?_cons_zero] at h
    split at h
    · rename_i r'' hr
      split at hr
      · simp only [Except.ok.injEq] at hr
        simp only [Except.ok.injEq, Prod.mk.injEq, true_and] at h
        exact ⟨e, rest, rfl, by rw [← h, ← hr]⟩
      · cases hr
    · cases h

theorem from_keep {i : Nat} {r r' : Repo} (h : fromStash (spec i) r = .ok ((), r')) : Keeps spec r r' ∧ (Staged r → Staged r') := by
  obtain ⟨e, rest, hs, rfl⟩ := from_cases h
  refine ⟨⟨rfl, .of_eq rfl, fun h => ⟨h.head, h.based⟩, fun p b hb => ?_⟩, fun hst p b hb => ?_⟩
  · rcases hb with hb | ⟨hb, hf⟩ | hb
    · exact .inl hb
    · refine .inr (.inl ⟨?_, hf⟩)
      dsimp only
      rcases hf e (by rw [hs]; simp) with h | h | h
      · rw [h i]; exact hb
      · rw [h]; simpa using hb
      · rw [h]; simp [hb]
    · exact .inr (.inr hb)
  · dsimp only at hb ⊢
    split
    · rename_i h
      rw [if_pos h] at hb
      exact .inl hb
    · rename_i h
      rw [if_neg h] at hb
      exact hst p b hb

theorem commit_cases {n : Str} {r r' : Repo} {c : Commit} (hn : r.head = .branch n) (h : indexCommit r = .ok (c, r')) :
    c = .mk r.index (r.refs (.head n)) ∧ r' = { r with refs := fun ref => if ref = .head n then some c else r.refs ref } := by
  unfold indexCommit Repo.commit at h
  rw [hn] at h
  simp only [Except.ok.injEq, Prod.mk.injEq] at h
  obtain ⟨h1, h2⟩ := h
  exact ⟨h1.symm, by rw [← h2, ← h1, hn]⟩

theorem commit_keep {n : Str} {r r' : Repo} {c : Commit} (hn : r.head = .branch n) (h : indexCommit r = .ok (c, r')) :
    Keeps spec r r' ∧ (Staged r → Staged r') ∧ r'.refs (.head n) = some c := by
  obtain ⟨hc, rfl⟩ := commit_cases hn h
  have hx : Extends r { r with refs := fun ref => if ref = .head n then some c else r.refs ref } := by
    intro ref d hd
    dsimp only
    split
    · rename_i he
      subst he
      refine ⟨c, rfl, ?_⟩
      rw [hc, hd]
      exact .step (.refl d)
    · exact ⟨d, hd, .refl d⟩
  refine ⟨⟨rfl, hx, fun hs => ⟨fun d hd => ⟨.head n, ?_⟩, fun e he p b hb => hx.committed (hs.based e he p b hb)⟩, fun p b hb => ?_⟩, fun hst p b hb => ?_, by simp⟩
  · unfold Repo.commit at hd
    rw [show Repo.head _ = r.head from rfl, hn] at hd
    exact hd
  · rcases hb with hb | hb | hb
    · exact .inl (hx.committed hb)
    · exact .inr (.inl hb)
    · exact .inr (.inr hb)
  · rcases hst p b hb with h | h
    · exact .inl h
    · exact .inr (hx.committed h)

theorem add_keep {i : Nat} {r : Repo} : Keeps spec r (indexAdd (spec i) r) ∧ (Staged r → Staged (indexAdd (spec i) r)) := by
  refine ⟨⟨rfl, .of_eq rfl, fun h => ⟨h.head, h.based⟩, fun p b hb => hb⟩, fun hst p b hb => ?_⟩
  unfold indexAdd at hb ⊢
  dsimp only at hb ⊢
  split at hb
  · exact .inl hb
  · exact hst p b hb

theorem pop_keep {r r' : Repo} {x : Popped} (h : stashPop mess 0 r = (x, r')) (hs : Sound r) (hst : Staged r) :
    (Conflicts 0 r → x = .kept ∧ r' = { r with index := (mess r).1, work := (mess r).2 }) ∧ (¬ Conflicts 0 r → Keeps spec r r' ∧ Staged r') := by
  have hk := VisitRace.pop_keep h hs hst
  refine ⟨fun hc => ⟨?_, hk.2.2.1 hc⟩, fun hc => ⟨⟨?_, .of_eq hk.1, fun _ => hk.2.1, fun p b hb => ?_⟩, (hk.2.2.2 hc).1⟩⟩
  · obtain ⟨e, he, hn, hq⟩ := hc
    unfold stashPop at h
    rw [he] at h
    dsimp only at h
    rw [if_neg hn, if_pos hq, Prod.mk.injEq] at h
    exact h.1.symm
  · unfold stashPop at h
    split at h
    · rw [Prod.mk.injEq] at h; rw [← h.2]
    · dsimp only at h
      repeat' split at h
      all_goals rw [Prod.mk.injEq] at h; rw [← h.2]
  · unfold stashPop at h
    split at h
    · rw [Prod.mk.injEq] at h; rw [← h.2]; exact hb
    · rename_i e he
      dsimp only at h
      have hem : e ∈ r.stash := List.mem_of_getElem? he
      obtain ⟨rest, hrest⟩ : ∃ rest, r.stash = e :: rest := by
        cases hx : r.stash with
        | nil => rw [hx] at he; cases he
        | cons a l => rw [hx] at he; simp only [List.getElem?_cons_zero, Option.some.injEq] at he; exact ⟨l, by rw [he]⟩
      split at h
      · rw [Prod.mk.injEq] at h; rw [← h.2]; exact hb
      · rename_i hg
        split at h
        · rename_i hm
          exact absurd ⟨e, he, hg, hm⟩ hc
        · rename_i hm
          have hm' : ∀ p, merge3 (e.base p) (r.index p) (e.work p) = some ((merge3 (e.base p) (r.index p) (e.work p)).getD none) := by
            intro p
            cases hp : merge3 (e.base p) (r.index p) (e.work p) with
            | none => exact absurd ⟨p, hp⟩ hm
            | some y => rfl
          obtain ⟨-, h2, h3, h4⟩ := VisitRace.restored_keep (new := fun p => (merge3 (e.base p) (r.index p) (e.work p)).getD none) hs hst hem hm' (by
            intro p hp
            refine Decidable.byContradiction fun hx => hg ⟨p, ?_, hx⟩
            rw [hm' p]; simpa using hp)
          split at h
          · simp only [Prod.mk.injEq] at h
            obtain ⟨-, rfl⟩ := h
            rcases hb with hb | ⟨hb, hf⟩ | hb
            · exact .inl hb
            · rcases h2 p b hb with h | h
              · exact .inr (.inl ⟨h, hf⟩)
              · exact .inl h
            · exact .inr (.inr hb)
          · rename_i hu
            simp only [Prod.mk.injEq] at h
            obtain ⟨-, rfl⟩ := h
            have hl : r.stash.eraseIdx 0 = rest := by rw [hrest]; rfl
            rcases hb with hb | ⟨hb, hf⟩ | ⟨up, e', low, h5, h6, h7⟩
            · exact .inl hb
            · rcases h2 p b hb with h | h
              · exact .inr (.inl ⟨h, fun e' he' => hf e' (by rw [hrest]; exact List.mem_cons_of_mem _ (by rw [hl] at he'; exact he'))⟩)
              · exact .inl h
            · cases up with
              | cons a up =>
                rw [hrest, List.cons_append, List.cons.injEq] at h5
                exact .inr (.inr ⟨up, e', low, by dsimp only; rw [hl]; exact h5.2, h6, h7⟩)
              | nil =>
                rw [hrest, List.nil_append, List.cons.injEq] at h5
                obtain ⟨rfl, rfl⟩ := h5
                rcases h6 with h6 | h6
                · rcases h3 p b h6 with h | h
                  · exact .inr (.inl ⟨h, fun e' he' => h7 e' (by rw [hl] at he'; exact he')⟩)
                  · exact .inl h
                · rcases h4 p b h6 with h | ⟨y, -, h⟩
                  · exact .inr (.inl ⟨h, fun e' he' => h7 e' (by rw [hl] at he'; exact he')⟩)
                  · exact absurd ⟨p, by rw [h]; rfl, by rw [h6]; rfl⟩ hu

/-! ## The invariant -/

/-- The process has stashed, and has not yet tried to bring that back. -/
def Pc.began : Pc → Prop
  | .stashed | .ready | .popping _ => True
  | _ => False

/-- The commit that the process has made -/
def Pc.made : Pc → Option Commit
  | .popping (.ok c) | .ended (.ok c) => some c
  | _ => none

/-- What holds in every state; `I b x`: what is said of a file `x` after a conflict if it had the content `b` before. -/
structure Inv (I : Bytes → Option Bytes → Prop) (spec : Nat → File → Bool) (n : Str) (r0 : Repo) (s : State) : Prop where
  head : s.repo.head = .branch n
  ext : Extends r0 s.repo
  sound : Sound s.repo
  staged : s.stuck = true ∨ Staged s.repo ∨ ∀ i, ¬ (s.pc i).began
  kept : ∀ p b, Held spec p b r0 → Held spec p b s.repo ∨ (s.stuck = true ∧ I b (s.repo.work p))
  made : ∀ i c, (s.pc i).made = some c → ∃ d, s.repo.refs (.head n) = some d ∧ Leads d c

variable {I : Bytes → Option Bytes → Prop} {n : Str} {r0 : Repo} {s : State}

theorem Inv.to (h : Inv I spec n r0 s) {i : Nat} {pc : Pc} (hp : pc.began → s.stuck = true ∨ Staged s.repo)
    (hm : ∀ c, pc.made = some c → (s.pc i).made = some c) : Inv I spec n r0 (s.goto i pc) := by
  refine ⟨h.head, h.ext, h.sound, ?_, h.kept, fun j c hc => ?_⟩
  · by_cases hb : pc.began
    · rcases hp hb with h1 | h1
      · exact .inl h1
      · exact .inr (.inl h1)
    · rcases h.staged with h1 | h1 | h1
      · exact .inl h1
      · exact .inr (.inl h1)
      · refine .inr (.inr fun j => ?_)
        simp only [State.goto]
        split
        · exact hb
        · exact h1 j
  · simp only [State.goto] at hc
    split at hc
    · rename_i e
      exact h.made i c (hm c hc)
    · exact h.made j c hc

theorem Inv.write (h : Inv I spec n r0 s) {i : Nat} {pc : Pc} {r : Repo} (hs : s.stuck = false) (h1 : Keeps spec s.repo r)
    (h2 : Staged r ∨ (∀ i, ¬ (s.pc i).began) ∧ ¬ pc.began)
    (hm : ∀ c, pc.made = some c → (s.pc i).made = some c ∨ r.refs (.head n) = some c) : Inv I spec n r0 { s.goto i pc with repo := r } := by
  have hmade : ∀ c, (∃ d, s.repo.refs (.head n) = some d ∧ Leads d c) → ∃ d, r.refs (.head n) = some d ∧ Leads d c := by
    rintro c ⟨d, hd, l⟩
    obtain ⟨d', hd', l'⟩ := h1.ext _ d hd
    exact ⟨d', hd', leads_trans l' l⟩
  refine ⟨h1.head.trans h.head, h.ext.trans h1.ext, h1.sound h.sound, ?_, fun p b hb => .inl ?_, fun j c hc => ?_⟩
  · rcases h2 with h2 | ⟨h2, h3⟩
    · exact .inr (.inl h2)
    · refine .inr (.inr fun j => ?_)
      simp only [State.goto]
      split
      · exact h3
      · exact h2 j
  · rcases h.kept p b hb with h5 | ⟨h5, -⟩
    · exact h1.held p b h5
    · rw [hs] at h5; cases h5
  · simp only [State.goto] at hc
    split at hc
    · rcases hm c hc with hm | hm
      · exact hmade c (h.made i c hm)
      · exact ⟨c, hm, .refl c⟩
    · exact hmade c (h.made j c hc)

theorem Inv.command {α : Type} (h : Inv I spec n r0 s) {i : Nat} {fail : Bool} {f : Except PyErr (α × Repo)} {ok : α → Pc} {error : PyErr → Pc}
    (he : ∀ e, ((error e).began → s.stuck = true ∨ Staged s.repo) ∧ (error e).made = none)
    (hf : s.stuck = false → ∀ a r, f = .ok (a, r) → Keeps spec s.repo r ∧ (Staged r ∨ (∀ i, ¬ (s.pc i).began) ∧ ¬ (ok a).began) ∧
      ∀ c, (ok a).made = some c → r.refs (.head n) = some c) :
    Inv I spec n r0 (s.command i fail f ok error) := by
  have hto : ∀ e, Inv I spec n r0 (s.goto i (error e)) := fun e => h.to (he e).1 (fun c hc => by rw [(he e).2] at hc; cases hc)
  unfold State.command
  split
  · exact hto _
  · rename_i hs
    have hs : s.stuck = false := by
      cases hx : s.stuck
      · rfl
      · simp [hx] at hs
    split
    · obtain ⟨h1, h2, h3⟩ := hf hs _ _ rfl
      exact h.write hs h1 h2 fun c hc => .inr (h3 c hc)
    · exact hto _

theorem Inv.pop (hm : ∀ r p b, r.work p = some b → I b ((mess r).2 p)) (h : Inv I spec n r0 s) {i : Nat} {fail : Bool} {res : Except PyErr Commit}
    (hpc : s.pc i = .popping res) : Inv I spec n r0 (s.pop mess i fail (.ended res)) := by
  have hmd : ∀ c, (Pc.ended res).made = some c → (s.pc i).made = some c := by
    intro c hc
    rw [hpc]
    cases res with
    | ok d => exact hc
    | error e => cases hc
  unfold State.pop
  split
  · exact h.to (fun hp => hp.elim) hmd
  · rename_i hs
    have hs : s.stuck = false := by
      cases hx : s.stuck
      · rfl
      · simp [hx] at hs
    have hst : Staged s.repo := by
      rcases h.staged with h1 | h1 | h1
      · rw [hs] at h1; cases h1
      · exact h1
      · exact absurd (show (s.pc i).began by rw [hpc]; trivial) (h1 i)
    split
    · rename_i r hp
      obtain ⟨h3, h4⟩ := pop_keep (spec := spec) hp h.sound hst
      by_cases hc : Conflicts 0 s.repo
      · have := (h3 hc).1; cases this
      · obtain ⟨h5, h6⟩ := h4 hc
        exact h.write hs h5 (.inl h6) fun c hc => .inl (hmd c hc)
    · rename_i r hp
      obtain ⟨h3, h4⟩ := pop_keep (spec := spec) hp h.sound hst
      by_cases hc : Conflicts 0 s.repo
      · have h3 := (h3 hc).2
        subst h3
        have hw := (h.to (i := i) (pc := .ended res) (fun hp => hp.elim) hmd).made
        refine ⟨h.head, h.ext, ⟨h.sound.head, h.sound.based⟩, .inl (by simpa using hc), fun p b hb => ?_, hw⟩
        rcases h.kept p b hb with h5 | ⟨h5, -⟩
        · rcases h5 with h5 | h5 | h5
          · exact .inl (.inl h5)
          · exact .inr ⟨by simpa using hc, hm _ p b h5.1⟩
          · exact .inl (.inr (.inr h5))
        · rw [hs] at h5; cases h5
      · obtain ⟨h5, h6⟩ := h4 hc
        have := h.write (i := i) (pc := .ended res) hs h5 (.inl h6) fun c hc => .inl (hmd c hc)
        have e : @decide (Conflicts 0 s.repo) (Classical.propDecidable _) = s.stuck := by rw [hs]; simpa using hc
        rw [e]
        exact this

theorem Inv.step (hm : ∀ r p b, r.work p = some b → I b ((mess r).2 p)) (h : Inv I spec n r0 s) (i : Nat) (fail : Bool) :
    Inv I spec n r0 (step mess spec s i fail) := by
  have hold : (s.pc i).began → s.stuck = true ∨ Staged s.repo := fun hb => by
    rcases h.staged with h1 | h1 | h1
    · exact .inl h1
    · exact .inr h1
    · exact absurd hb (h1 i)
  have hnot : s.stuck = false → ∀ {r : Repo} {pc : Pc}, (Staged s.repo → Staged r) → ¬ pc.began →
      Staged r ∨ (∀ i, ¬ (s.pc i).began) ∧ ¬ pc.began := fun hs r pc h1 h2 => by
    rcases h.staged with h3 | h3 | h3
    · rw [hs] at h3; cases h3
    · exact .inl (h1 h3)
    · exact .inr ⟨h3, h2⟩
  have hyes : s.stuck = false → (s.pc i).began → Staged s.repo := fun hs hb => by
    rcases hold hb with h | h
    · rw [hs] at h; cases h
    · exact h
  unfold CommitRace.step
  split
  · refine h.command (fun e => ⟨fun hp => hp.elim, rfl⟩) fun hs a r hf => ?_
    simp only [Except.ok.injEq, Prod.mk.injEq] at hf
    obtain ⟨-, rfl⟩ := hf
    exact ⟨add_keep.1, hnot hs add_keep.2 (fun h => h), fun c hc => by cases hc⟩
  · rw [h.head]
    exact h.to (fun hp => hp.elim) (fun c hc => by cases hc)
  · split
    · exact h.to (fun hp => hp.elim) (fun c hc => by cases hc)
    · exact h.to (fun hp => hp.elim) (fun c hc => by cases hc)
  · refine h.command (fun e => ⟨fun hp => hp.elim, rfl⟩) fun hs a r hf => ?_
    obtain ⟨h1, h2⟩ := push_keep (spec := spec) hf h.sound
    exact ⟨h1, .inl h2, fun c hc => by cases hc⟩
  · rename_i hpc
    have hb : (s.pc i).began := by rw [hpc]; trivial
    refine h.command (fun e => ⟨fun _ => hold hb, rfl⟩) fun hs a r hf => ?_
    obtain ⟨h1, h2⟩ := from_keep (spec := spec) hf
    exact ⟨h1, .inl (h2 (hyes hs hb)), fun c hc => by cases hc⟩
  · rename_i hpc
    have hb : (s.pc i).began := by rw [hpc]; trivial
    refine h.command (fun e => ⟨fun _ => hold hb, rfl⟩) fun hs a r hf => ?_
    obtain ⟨h1, h2, h3⟩ := commit_keep (spec := spec) h.head hf
    refine ⟨h1, .inl (h2 (hyes hs hb)), fun c hc => ?_⟩
    simp only [Pc.made, Option.some.injEq] at hc
    rw [h3, hc]
  · refine h.command (fun e => ⟨fun hp => hp.elim, rfl⟩) fun hs a r hf => ?_
    obtain ⟨h1, h2, h3⟩ := commit_keep (spec := spec) h.head hf
    refine ⟨h1, hnot hs h2 (fun h => h), fun c hc => ?_⟩
    simp only [Pc.made, Option.some.injEq] at hc
    rw [h3, hc]
  · rename_i res hpc
    exact h.pop hm hpc
  · exact h

theorem Inv.run (hm : ∀ r p b, r.work p = some b → I b ((mess r).2 p)) (h : Inv I spec n r0 s) (sched : List (Nat × Bool)) :
    Inv I spec n r0 (run mess spec s sched) := by
  induction sched generalizing s with
  | nil => exact h
  | cons a rest ih => exact ih (h.step hm a.1 a.2)

theorem inv_init {add : Nat → Bool} (hn : r0.head = .branch n) (hs : Sound r0) : Inv I spec n r0 (State.init add r0) := by
  have hpc : ∀ i, ((State.init add r0).pc i).began → False := fun i h => by
    unfold State.init at h; dsimp only at h; split at h <;> exact h
  refine ⟨hn, .of_eq rfl, hs, .inr (.inr hpc), fun _ _ h => .inl h, fun i c h => ?_⟩
  unfold State.init at h; dsimp only at h; split at h <;> cases h

variable {add : Nat → Bool}

/-- **C150**: whichever processes commit to the repository at the same time, in whatever order their git commands run, and whichever of these
fail: what was in a file of the working directory is then still in that file, in a commit or in the stash; after a conflict, within what
the conflict left in the file.  That is so if the entries that were in the stash before do not have other contents of the file, or if
nobody commits it. -/
theorem C150_kept_partial {within : Bytes → Bytes → Prop}
    (hm : ∀ r p b, r.work p = some b → ∃ x, (mess r).2 p = some x ∧ within b x) (hn : r0.head = .branch n) (hs : Sound r0)
    (sched : List (Nat × Bool)) {p : File} {b : Bytes} (h : r0.work p = some b)
    (ho : ∀ i, spec i p = true → ∀ e ∈ r0.stash, e.work p = none ∨ e.work p = some b) :
    Has (run mess spec (State.init add r0) sched).repo p b ∨ (run mess spec (State.init add r0) sched).stuck = true ∧
      ∃ x, (run mess spec (State.init add r0) sched).repo.work p = some x ∧ within b x := by
  refine (((inv_init (I := fun b o => ∃ x, o = some x ∧ within b x) hn hs).run hm sched).kept p b (.inr (.inl ⟨h, fun e he => ?_⟩))).imp
    Held.has (fun h => h)
  by_cases hx : ∃ i, spec i p = true
  · obtain ⟨i, hi⟩ := hx
    exact .inr (ho i hi e he)
  · refine .inl fun i => ?_
    cases hi : spec i p with
    | false => rfl
    | true => exact absurd ⟨i, hi⟩ hx

/-- **C150**: of a file that nobody commits, nothing that was in the working directory, in a commit or in the stash is lost. -/
theorem C150_others_partial {within : Bytes → Bytes → Prop}
    (hm : ∀ r p b, r.work p = some b → ∃ x, (mess r).2 p = some x ∧ within b x) (hn : r0.head = .branch n) (hs : Sound r0)
    (sched : List (Nat × Bool)) {p : File} {b : Bytes} (h : Has r0 p b) (ho : ∀ i, spec i p = false) :
    Has (run mess spec (State.init add r0) sched).repo p b ∨ (run mess spec (State.init add r0) sched).stuck = true ∧
      ∃ x, (run mess spec (State.init add r0) sched).repo.work p = some x ∧ within b x := by
  refine (((inv_init (I := fun b o => ∃ x, o = some x ∧ within b x) hn hs).run hm sched).kept p b ?_).imp Held.has (fun h => h)
  rcases h with h | h | ⟨e, he, h⟩
  · exact .inr (.inl ⟨h, fun _ _ => .inl ho⟩)
  · exact .inl h
  · obtain ⟨up, low, hl⟩ := List.append_of_mem he
    exact .inr (.inr ⟨up, e, low, hl, h, fun _ _ => .inl ho⟩)

theorem leads_linear {a b c : Commit} (h : Leads a b) (h' : Leads a c) : Leads b c ∨ Leads c b := by
  induction h with
  | refl => exact .inl h'
  | step h ih =>
    cases h' with
    | refl => exact .inr (.step h)
    | step h' => exact ih h'

/-- **C150**: no commit is lost: each ref has the commit it had or a later one, the commit of every process that returned is in the history of
the branch, and of the commits of two processes one is an ancestor of the other. -/
theorem C150_history (hn : r0.head = .branch n) (hs : Sound r0) (sched : List (Nat × Bool)) :
    (run mess spec (State.init add r0) sched).repo.head = .branch n ∧
    (∀ ref c, r0.refs ref = some c → ∃ d, (run mess spec (State.init add r0) sched).repo.refs ref = some d ∧ Leads d c) ∧
    (∀ i c, (run mess spec (State.init add r0) sched).pc i = .ended (.ok c) →
      ∃ d, (run mess spec (State.init add r0) sched).repo.refs (.head n) = some d ∧ Leads d c) ∧
    ∀ i j c d, (run mess spec (State.init add r0) sched).pc i = .ended (.ok c) → (run mess spec (State.init add r0) sched).pc j = .ended (.ok d) →
      Leads c d ∨ Leads d c := by
  have h := (inv_init (I := fun _ _ => True) (spec := spec) (add := add) hn hs).run (mess := mess) (fun _ _ _ _ => trivial) sched
  refine ⟨h.head, h.ext, fun i c hc => h.made i c (by rw [hc]; rfl), fun i j c d hc hd => ?_⟩
  obtain ⟨x, hx, lx⟩ := h.made i c (by rw [hc]; rfl)
  obtain ⟨y, hy, ly⟩ := h.made j d (by rw [hd]; rfl)
  rw [hx, Option.some.injEq] at hy
  subst hy
  exact leads_linear lx ly


theorem step_conflict (h : s.stuck = true → ∃ r, Conflicts 0 r ∧ s.repo = { r with index := (mess r).1, work := (mess r).2 }) (i : Nat) (fail : Bool)
    (hs : (step mess spec s i fail).stuck = true) :
    ∃ r, Conflicts 0 r ∧ (step mess spec s i fail).repo = { r with index := (mess r).1, work := (mess r).2 } := by
  have hgo : ∀ pc, (s.goto i pc).stuck = true →
      ∃ r, Conflicts 0 r ∧ (s.goto i pc).repo = { r with index := (mess r).1, work := (mess r).2 } := fun pc hs => h hs
  have hcmd : ∀ {α : Type} (f : Except PyErr (α × Repo)) (ok : α → Pc) (error : PyErr → Pc), (s.command i fail f ok error).stuck = true →
      ∃ r, Conflicts 0 r ∧ (s.command i fail f ok error).repo = { r with index := (mess r).1, work := (mess r).2 } := by
    intro α f ok error hs
    unfold State.command at hs ⊢
    split
    · rename_i hx
      rw [if_pos hx] at hs
      exact h hs
    · rename_i hx
      rw [if_neg hx] at hs
      have hk : s.stuck = true := by split at hs <;> exact hs
      rw [hk] at hx
      simp at hx
  have hpop : ∀ pc, (s.pop mess i fail pc).stuck = true →
      ∃ r, Conflicts 0 r ∧ (s.pop mess i fail pc).repo = { r with index := (mess r).1, work := (mess r).2 } := by
    intro pc hs
    unfold State.pop at hs ⊢
    split
    · rename_i hx
      rw [if_pos hx] at hs
      exact h hs
    · rename_i hx
      rw [if_neg hx] at hs
      have hk : s.stuck = false := by cases hk : s.stuck <;> simp [hk] at hx ⊢
      rcases hp : stashPop mess 0 s.repo with ⟨o, r⟩
      rw [hp] at hs
      cases o with
      | done => dsimp only at hs; rw [show (s.goto i pc).stuck = s.stuck from rfl, hk] at hs; cases hs
      | kept =>
        dsimp only at hs ⊢
        have hc : Conflicts 0 s.repo := by simpa using hs
        refine ⟨s.repo, hc, ?_⟩
        obtain ⟨e, he, hn, hq⟩ := hc
        unfold stashPop at hp
        rw [he] at hp
        dsimp only at hp
        rw [if_neg hn, if_pos hq, Prod.mk.injEq] at hp
        exact hp.2.symm
  revert hs
  unfold step
  split
  · exact hcmd _ _ _
  · exact hgo _
  · exact hgo _
  · exact hcmd _ _ _
  · exact hcmd _ _ _
  · exact hcmd _ _ _
  · exact hcmd _ _ _
  · exact hpop _
  · exact h

/-- **C150**: git is in conflict only after an entry that could not be merged, and from then on nothing but what that left changes. -/
theorem C150_conflict (r : Repo) (sched : List (Nat × Bool)) (h : (run mess spec (State.init add r) sched).stuck = true) :
    ∃ r', Conflicts 0 r' ∧ (run mess spec (State.init add r) sched).repo = { r' with index := (mess r').1, work := (mess r').2 } := by
  have : ∀ s, (s.stuck = true → ∃ r, Conflicts 0 r ∧ s.repo = { r with index := (mess r).1, work := (mess r).2 }) →
      (run mess spec s sched).stuck = true →
      ∃ r, Conflicts 0 r ∧ (run mess spec s sched).repo = { r with index := (mess r).1, work := (mess r).2 } := by
    clear h
    induction sched with
    | nil => exact fun s h => h
    | cons a rest ih => exact fun s hs => ih (step mess spec s a.1 a.2) (step_conflict hs a.1 a.2)
  exact this _ (fun h => by cases h) h

/-! ## One process -/

theorem run_done {i : Nat} {x : Except PyErr Commit} (h : s.pc i = .ended x) (k : Nat) : run mess spec s (List.replicate k (i, false)) = s := by
  induction k with
  | zero => rfl
  | succ k ih =>
    rw [List.replicate_succ, run]
    have : step mess spec s i false = s := by unfold step; rw [h]
    rw [this]; exact ih

/-- The process is alone from here on, and ends as the program does. -/
def Same (mess : Repo → Tree × Tree) (spec : Nat → File → Bool) (i k : Nat) (s : State) (m : Except PyErr Commit × Machine) : Prop :=
  (run mess spec s (List.replicate k (i, false))).pc i = .ended m.1 ∧ (run mess spec s (List.replicate k (i, false))).repo = m.2.repo

theorem same_ended {i k t : Nat} {x : Except PyErr Commit} (h : s.pc i = .ended x) : Same mess spec i k s (x, ⟨s.repo, t⟩) := by
  unfold Same
  rw [run_done h]
  exact ⟨h, rfl⟩

/-- The last step -/
theorem same_popping {i k t : Nat} {x : Except PyErr Commit} (hs : s.stuck = false) (h : s.pc i = .popping x) :
    Same mess spec i (k + 1) s (x, (ignoring (Env.pop ⟨fun _ => none, mess⟩ 0) ⟨s.repo, t⟩).2) ∧
    (ignoring (Env.pop ⟨fun _ => none, mess⟩ 0) ⟨s.repo, t⟩).1 = .ok () := by
  unfold Same
  rw [List.replicate_succ, run]
  have hstep : step mess spec s i false = s.pop mess i false (.ended x) := by unfold step; rw [h]
  rw [hstep]
  unfold State.pop ignoring Env.pop Prog.catch_
  simp only [hs, Bool.or_self, Bool.false_eq_true, ↓reduceIte]
  rcases hx : stashPop mess 0 s.repo with ⟨o, r⟩
  cases o with
  | done =>
    refine ⟨?_, rfl⟩
    dsimp only
    rw [run_done (x := x) (by simp [State.goto])]
    exact ⟨by simp [State.goto], rfl⟩
  | kept =>
    refine ⟨?_, rfl⟩
    dsimp only
    rw [run_done (x := x) (by simp [State.goto])]
    exact ⟨by simp [State.goto], rfl⟩

/-- A step that does not change the repository -/
theorem same_goto {i k : Nat} {pc : Pc} {m : Except PyErr Commit × Machine} (h : step mess spec s i false = s.goto i pc)
    (hn : Same mess spec i k (s.goto i pc) m) : Same mess spec i (k + 1) s m := by
  unfold Same at hn ⊢
  rw [List.replicate_succ, run, h]
  exact hn

/-- The commit and what comes after -/
theorem same_ready {i k t : Nat} (hs : s.stuck = false) (h : s.pc i = .ready) :
    Same mess spec i (k + 2) s (Prog.finally_ (Prog.cmd ⟨fun _ => none, mess⟩ indexCommit) (ignoring (Env.pop ⟨fun _ => none, mess⟩ 0)) ⟨s.repo, t⟩) := by
  have hstep : step mess spec s i false = s.command i false (indexCommit s.repo) (fun c => .popping (.ok c)) fun e => .popping (.error e) := by
    unfold step; rw [h]
  simp only [State.command, hs, Bool.or_self, Bool.false_eq_true, ↓reduceIte] at hstep
  unfold Prog.finally_ Prog.cmd
  dsimp only
  cases hc : indexCommit s.repo with
  | error e =>
    rw [hc] at hstep
    dsimp only at hstep ⊢
    obtain ⟨h1, h2⟩ := same_popping (mess := mess) (spec := spec) (s := s.goto i (.popping (.error e))) (i := i) (x := .error e) (k := k) (t := t + 1) hs (by simp [State.goto])
    rcases hx : ignoring (Env.pop ⟨fun _ => none, mess⟩ 0) ⟨(s.goto i (.popping (.error e))).repo, t + 1⟩ with ⟨y, m⟩
    rw [hx] at h1 h2
    dsimp only at h1 h2
    subst h2
    rw [show (s.goto i (.popping (.error e))).repo = s.repo from rfl] at hx
    rw [hx]
    exact same_goto hstep h1
  | ok x =>
    obtain ⟨c, r⟩ := x
    rw [hc] at hstep
    dsimp only at hstep ⊢
    generalize hs' : ({ s.goto i (.popping (.ok c)) with repo := r } : State) = s' at hstep
    have hr : s'.repo = r := by rw [← hs']
    obtain ⟨h1, h2⟩ := same_popping (mess := mess) (spec := spec) (s := s') (i := i) (x := .ok c) (k := k) (t := t + 1) (by rw [← hs']; exact hs)
      (by rw [← hs']; simp [State.goto])
    rw [hr] at h1 h2
    rcases hx : ignoring (Env.pop ⟨fun _ => none, mess⟩ 0) ⟨r, t + 1⟩ with ⟨y, m⟩
    rw [hx] at h1 h2
    dsimp only at h1 h2
    subst h2
    unfold Same at h1 ⊢
    rw [List.replicate_succ, run, hstep]
    exact h1

theorem same_stashed {i k t : Nat} (hs : s.stuck = false) (h : s.pc i = .stashed) :
    Same mess spec i (k + 3) s (Prog.finally_
      (Prog.bind (ignoring (Prog.cmd ⟨fun _ => none, mess⟩ fun r => match checkoutFrom 0 (spec i) r with
        | .ok r => .ok ((), r)
        | .error e => .error e)) fun _ => Prog.cmd ⟨fun _ => none, mess⟩ indexCommit)
      (ignoring (Env.pop ⟨fun _ => none, mess⟩ 0)) ⟨s.repo, t⟩) := by
  have hstep : step mess spec s i false = s.command i false (fromStash (spec i) s.repo) (fun _ => .ready) fun _ => .ready := by
    unfold step; rw [h]
  simp only [State.command, hs, Bool.or_self, Bool.false_eq_true, ↓reduceIte, fromStash] at hstep
  have key : ∀ r t', (step mess spec s i false = { s.goto i .ready with repo := r }) →
      Same mess spec i (k + 3) s (Prog.finally_ (Prog.cmd ⟨fun _ => none, mess⟩ indexCommit) (ignoring (Env.pop ⟨fun _ => none, mess⟩ 0)) ⟨r, t'⟩) := by
    intro r t' hr
    generalize hs' : ({ s.goto i .ready with repo := r } : State) = s' at hr
    have hr' : s'.repo = r := by rw [← hs']
    have := same_ready (mess := mess) (spec := spec) (s := s') (i := i) (k := k) (t := t') (by rw [← hs']; exact hs) (by rw [← hs']; simp [State.goto])
    rw [hr'] at this
    unfold Same at this ⊢
    rw [List.replicate_succ, run, hr]
    exact this
  cases hc : checkoutFrom 0 (spec i) s.repo with
  | error e =>
    rw [hc] at hstep
    have he : e = .gitError := by
      unfold checkoutFrom at hc
      split at hc
      · cases hc; rfl
      · split at hc
        · cases hc
        · cases hc; rfl
    subst he
    have := key s.repo (t + 1) hstep
    simp only [Prog.finally_, Prog.bind, ignoring, Prog.catch_, Prog.cmd, hc, ↓reduceIte, Prog.pure] at this ⊢
    exact this
  | ok r =>
    rw [hc] at hstep
    have := key r (t + 1) hstep
    simp only [Prog.finally_, Prog.bind, ignoring, Prog.catch_, Prog.cmd, hc] at this ⊢
    exact this

theorem same_start {i k t : Nat} (hs : s.stuck = false) (h : s.pc i = .start) :
    Same mess spec i (k + 6) s (Env.commit ⟨fun _ => none, mess⟩ (spec i) ⟨s.repo, t⟩) := by
  unfold Env.commit
  simp only [Prog.bind, activeBranch]
  have h1 : step mess spec s i false = s.goto i (match s.repo.head with
    | .branch n => .known n
    | .detached _ => .ended (.error .typeError)) := by unfold step; rw [h]; cases s.repo.head <;> rfl
  cases hh : s.repo.head with
  | detached c =>
    rw [hh] at h1
    dsimp only at h1 ⊢
    exact same_goto h1 (same_ended (s := s.goto i (.ended (.error .typeError))) (t := t) (by simp [State.goto]))
  | branch n =>
    rw [hh] at h1
    dsimp only at h1 ⊢
    refine same_goto h1 ?_
    generalize hs1 : s.goto i (.known n) = s1
    have r1 : s1.repo = s.repo := by rw [← hs1]; rfl
    have k1 : s1.stuck = false := by rw [← hs1]; exact hs
    have p1 : s1.pc i = .known n := by rw [← hs1]; simp [State.goto]
    have h2 : step mess spec s1 i false = s1.goto i (if (s.repo.refs (.head n)).isSome then .valid else .fresh) := by
      unfold step; rw [p1, ← r1]
    refine same_goto h2 ?_
    cases hv : (s.repo.refs (.head n)).isSome with
    | false =>
      simp only [Bool.false_eq_true, ↓reduceIte]
      generalize hs2 : s1.goto i .fresh = s2
      have r2 : s2.repo = s.repo := by rw [← hs2]; exact r1
      have k2 : s2.stuck = false := by rw [← hs2]; exact k1
      have p2 : s2.pc i = .fresh := by rw [← hs2]; simp [State.goto]
      have h3 : step mess spec s2 i false = s2.command i false (indexCommit s.repo) (fun c => .ended (.ok c)) fun e => .ended (.error e) := by
        unfold step; rw [p2, r2]
      simp only [State.command, k2, Bool.or_self, Bool.false_eq_true, ↓reduceIte] at h3
      unfold Prog.cmd
      dsimp only
      cases hc : indexCommit s.repo with
      | error e =>
        rw [hc] at h3
        dsimp only at h3 ⊢
        have := same_ended (mess := mess) (spec := spec) (s := s2.goto i (.ended (.error e))) (i := i) (k := k + 3) (t := t + 1) (x := .error e) (by simp [State.goto])
        rw [show (s2.goto i (.ended (.error e))).repo = s2.repo from rfl, r2] at this
        exact same_goto h3 this
      | ok x =>
        rw [hc] at h3
        dsimp only at h3 ⊢
        unfold Same
        rw [List.replicate_succ, run, h3, run_done (x := .ok x.1) (by simp [State.goto])]
        exact ⟨by simp [State.goto], rfl⟩
    | true =>
      simp only [↓reduceIte]
      generalize hs2 : s1.goto i .valid = s2
      have r2 : s2.repo = s.repo := by rw [← hs2]; exact r1
      have k2 : s2.stuck = false := by rw [← hs2]; exact k1
      have p2 : s2.pc i = .valid := by rw [← hs2]; simp [State.goto]
      have h3 : step mess spec s2 i false = s2.command i false (stashPush false s.repo) (fun _ => .stashed) fun e => .ended (.error e) := by
        unfold step; rw [p2, r2]
      simp only [State.command, k2, Bool.or_self, Bool.false_eq_true, ↓reduceIte] at h3
      unfold Prog.bind Env.stash
      conv => arg 6; unfold Prog.cmd
      dsimp only
      cases hc : stashPush false s.repo with
      | error e =>
        rw [hc] at h3
        dsimp only at h3 ⊢
        have := same_ended (mess := mess) (spec := spec) (s := s2.goto i (.ended (.error e))) (i := i) (k := k + 3) (t := t + 1) (x := .error e) (by simp [State.goto])
        rw [show (s2.goto i (.ended (.error e))).repo = s2.repo from rfl, r2] at this
        exact same_goto h3 this
      | ok x =>
        rw [hc] at h3
        dsimp only at h3 ⊢
        generalize hs3 : ({ s2.goto i .stashed with repo := x.2 } : State) = s3 at h3
        have r3 : s3.repo = x.2 := by rw [← hs3]
        have := same_stashed (mess := mess) (spec := spec) (s := s3) (i := i) (k := k) (t := t + 1) (by rw [← hs3]; exact k2) (by rw [← hs3]; simp [State.goto])
        rw [r3] at this
        unfold Same at this ⊢
        rw [List.replicate_succ, run, h3]
        exact this

/-- **C150**: a process without others ends as `commit` or `commit_from_working_tree` do in `Model/Git`. -/
theorem C150_alone (r : Repo) (i : Nat) : ∃ x m,
    (if add i then Env.commitFromWorkingTree ⟨fun _ => none, mess⟩ (spec i) else Env.commit ⟨fun _ => none, mess⟩ (spec i)) ⟨r, 0⟩ = (x, m) ∧
    (run mess spec (State.init add r) (List.replicate 7 (i, false))).pc i = .ended x ∧
    (run mess spec (State.init add r) (List.replicate 7 (i, false))).repo = m.repo := by
  refine ⟨_, _, rfl, ?_⟩
  cases ha : add i with
  | false =>
    exact same_start (k := 1) (s := State.init add r) rfl (by simp [State.init, ha])
  | true =>
    have h0 : step mess spec (State.init add r) i false = { (State.init add r).goto i .start with repo := indexAdd (spec i) r } := by
      unfold step
      rw [show (State.init add r).pc i = .adding by simp [State.init, ha]]
      simp only [State.command, State.init, Bool.or_self, Bool.false_eq_true, ↓reduceIte]
    have := same_start (mess := mess) (spec := spec) (i := i) (k := 0) (t := 1) (s := { (State.init add r).goto i .start with repo := indexAdd (spec i) r }) rfl (by simp [State.goto])
    rw [show (7 : Nat) = 6 + 1 from rfl, List.replicate_succ, run, h0]
    exact this

/-! ## Everybody ends -/

/-- Steps that the process still makes, at most. -/
def Pc.left : Pc → Nat
  | .adding => 7
  | .start => 6
  | .known _ => 5
  | .valid => 4
  | .stashed => 3
  | .ready => 2
  | .fresh => 1
  | .popping _ => 1
  | .ended _ => 0

theorem command_pc {α : Type} {i : Nat} {fail : Bool} {f : Except PyErr (α × Repo)} {ok : α → Pc} {error : PyErr → Pc} (j : Nat) :
    (s.command i fail f ok error).pc j = s.pc j ∧ j ≠ i ∨ j = i ∧ ((∃ a, (s.command i fail f ok error).pc j = ok a) ∨ ∃ e, (s.command i fail f ok error).pc j = error e) := by
  by_cases hj : j = i
  · refine .inr ⟨hj, ?_⟩
    unfold State.command
    split
    · exact .inr ⟨.gitError, by simp [State.goto, hj]⟩
    · split
      · rename_i a r
        exact .inl ⟨a, by simp [State.goto, hj]⟩
      · rename_i e
        exact .inr ⟨e, by simp [State.goto, hj]⟩
  · refine .inl ⟨?_, hj⟩
    unfold State.command
    split
    · simp [State.goto, hj]
    · split <;> simp [State.goto, hj]

theorem pop_pc {i : Nat} {fail : Bool} {pc : Pc} (j : Nat) : (s.pop mess i fail pc).pc j = if j = i then pc else s.pc j := by
  unfold State.pop
  split
  · rfl
  · split <;> rfl

theorem command_left {α : Type} {i k : Nat} {fail : Bool} {f : Except PyErr (α × Repo)} {ok : α → Pc} {error : PyErr → Pc}
    (ho : ∀ a, (ok a).left ≤ k) (he : ∀ e, (error e).left ≤ k) : ((s.command i fail f ok error).pc i).left ≤ k := by
  rcases command_pc (s := s) (i := i) (fail := fail) (f := f) (ok := ok) (error := error) i with ⟨-, h⟩ | ⟨-, ⟨a, h⟩ | ⟨e, h⟩⟩
  · exact absurd rfl h
  · rw [h]; exact ho a
  · rw [h]; exact he e

theorem step_left (i : Nat) (fail : Bool) : ((step mess spec s i fail).pc i).left ≤ (s.pc i).left - 1 := by
  unfold step
  split
  all_goals rename_i hpc
  all_goals rw [hpc]
  · exact command_left (fun _ => Nat.le_refl _) (fun _ => Nat.zero_le _)
  · simp only [State.goto, ↓reduceIte]
    split <;> simp [Pc.left]
  · simp only [State.goto, ↓reduceIte]
    split <;> simp [Pc.left]
  · exact command_left (fun _ => Nat.le_refl _) (fun _ => Nat.zero_le _)
  · exact command_left (fun _ => Nat.le_refl _) (fun _ => Nat.le_refl _)
  · exact command_left (fun _ => Nat.le_refl _) (fun _ => Nat.le_refl _)
  · exact command_left (fun _ => Nat.le_refl _) (fun _ => Nat.le_refl _)
  · rw [pop_pc, if_pos rfl]; exact Nat.le_refl _
  · exact Nat.le_refl _

theorem command_other {α : Type} {i j : Nat} {fail : Bool} {f : Except PyErr (α × Repo)} {ok : α → Pc} {error : PyErr → Pc} (h : j ≠ i) :
    (s.command i fail f ok error).pc j = s.pc j := by
  rcases command_pc (s := s) (i := i) (fail := fail) (f := f) (ok := ok) (error := error) j with ⟨h', -⟩ | ⟨h', -⟩
  · exact h'
  · exact absurd h' h

theorem step_other {i j : Nat} {fail : Bool} (h : j ≠ i) : (step mess spec s i fail).pc j = s.pc j := by
  unfold step
  split
  · exact command_other h
  · simp [State.goto, h]
  · simp [State.goto, h]
  · exact command_other h
  · exact command_other h
  · exact command_other h
  · exact command_other h
  · rw [pop_pc, if_neg h]
  · rfl

/-- **C150**: a process ends after at most seven steps of its own, whatever the others do and whichever commands fail. -/
theorem C150_ends (r : Repo) (i : Nat) (sched : List (Nat × Bool)) (h : 7 ≤ sched.countP fun x => x.1 == i) :
    ∃ x, (run mess spec (State.init add r) sched).pc i = .ended x := by
  have key : ∀ (sched : List (Nat × Bool)) (s : State), ((run mess spec s sched).pc i).left ≤ (s.pc i).left - sched.countP fun x => x.1 == i := by
    intro sched
    induction sched with
    | nil => intro s; exact Nat.le_refl _
    | cons a rest ih =>
      intro s
      refine Nat.le_trans (ih (step mess spec s a.1 a.2)) ?_
      rw [List.countP_cons]
      by_cases ha : a.1 = i
      · have := step_left (mess := mess) (spec := spec) (s := s) a.1 a.2
        rw [ha] at this ⊢
        simp only [beq_self_eq_true, ↓reduceIte]
        omega
      · rw [step_other (fun h => ha h.symm)]
        simp [ha]
  have h0 : ((State.init add r).pc i).left ≤ 7 := by
    unfold State.init; dsimp only; split <;> simp [Pc.left]
  have := key sched (State.init add r)
  have h2 : ((run mess spec (State.init add r) sched).pc i).left = 0 := by omega
  cases hp : (run mess spec (State.init add r) sched).pc i with
  | ended x => exact ⟨x, rfl⟩
  | _ => rw [hp] at h2; cases h2

/-! ## What goes wrong -/

/-- The state as two processes see it. -/
structure At (s : State) (i j : Nat) (r : Repo) (p q : Pc) : Prop where
  repo : s.repo = r
  stuck : s.stuck = false
  one : s.pc i = p
  two : s.pc j = q

theorem At.swap {i j : Nat} {r : Repo} {p q : Pc} (h : At s i j r p q) : At s j i r q p := ⟨h.repo, h.stuck, h.two, h.one⟩

theorem At.goto {i j : Nat} {r : Repo} {p q p' : Pc} (h : At s i j r p q) (hij : i ≠ j) (hs : step mess spec s i false = s.goto i p') :
    At (step mess spec s i false) i j r p' q := by
  rw [hs]
  exact ⟨h.repo, h.stuck, by simp [State.goto], by simpa [State.goto, hij.symm] using h.two⟩

theorem At.ok {α : Type} {i j : Nat} {r r' : Repo} {p q : Pc} {f : Except PyErr (α × Repo)} {ok : α → Pc} {error : PyErr → Pc} {a : α}
    (h : At s i j r p q) (hij : i ≠ j) (hs : step mess spec s i false = s.command i false f ok error) (hf : f = .ok (a, r')) :
    At (step mess spec s i false) i j r' (ok a) q := by
  rw [hs, hf]
  unfold State.command
  simp only [h.stuck, Bool.or_self, Bool.false_eq_true, ↓reduceIte]
  exact ⟨rfl, h.stuck, by simp [State.goto], by simpa [State.goto, hij.symm] using h.two⟩

theorem At.error {α : Type} {i j : Nat} {r : Repo} {p q : Pc} {f : Except PyErr (α × Repo)} {ok : α → Pc} {error : PyErr → Pc} {e : PyErr}
    (h : At s i j r p q) (hij : i ≠ j) (hs : step mess spec s i false = s.command i false f ok error) (hf : f = .error e) :
    At (step mess spec s i false) i j r (error e) q := by
  rw [hs, hf]
  unfold State.command
  simp only [h.stuck, Bool.or_self, Bool.false_eq_true, ↓reduceIte]
  exact ⟨h.repo, h.stuck, by simp [State.goto], by simpa [State.goto, hij.symm] using h.two⟩

/-- Up to the stash -/
theorem At.begin {i j : Nat} {r r' : Repo} {q : Pc} {c : Commit} {k : Bool} (h : At s i j r .start q) (hij : i ≠ j) (hh : r.head = .branch n)
    (hc : r.refs (.head n) = some c) (hp : stashPush false r = .ok (k, r')) :
    At (step mess spec (step mess spec (step mess spec s i false) i false) i false) i j r' .stashed q := by
  have a1 := h.goto (mess := mess) (spec := spec) (p' := .known n) hij (by unfold step; rw [h.one]; dsimp only; rw [h.repo, hh])
  generalize step mess spec s i false = s1 at a1
  have a2 := a1.goto (mess := mess) (spec := spec) (p' := .valid) hij (by
    unfold step; rw [a1.one]; dsimp only; rw [a1.repo, hc]; rfl)
  generalize step mess spec s1 i false = s2 at a2
  exact a2.ok (ok := fun _ => .stashed) (error := fun e => .ended (.error e)) hij (by unfold step; rw [a2.one]) (by rw [a2.repo, hp])

theorem At.pop {i j : Nat} {r r' : Repo} {q : Pc} {res : Except PyErr Commit} (h : At s i j r (.popping res) q) (hij : i ≠ j)
    (hp : stashPop mess 0 r = (.done, r')) : At (step mess spec s i false) i j r' (.ended res) q := by
  have : step mess spec s i false = { s.goto i (.ended res) with repo := r' } := by
    unfold step
    rw [h.one]
    simp only [State.pop, h.stuck, Bool.or_self, Bool.false_eq_true, ↓reduceIte, h.repo, hp]
  rw [this]
  exact ⟨rfl, h.stuck, by simp [State.goto], by simpa [State.goto, hij.symm] using h.two⟩

theorem push_changed {r : Repo} {c : Commit} (hc : r.commit = some c) (h : r.changed false) : stashPush false r = .ok (true, { r with
    index := r.tree
    work := fun p => if r.tracked p then r.tree p else r.work p
    stash := ⟨r.tree, r.index, r.ours, fun _ => none⟩ :: r.stash }) := by
  unfold stashPush
  rw [hc]
  dsimp only
  rw [if_pos h]
  rfl

theorem push_unchanged {r : Repo} {c : Commit} (hc : r.commit = some c) (h : ¬ r.changed false) : stashPush false r = .ok (false, r) := by
  unfold stashPush
  rw [hc]
  dsimp only
  rw [if_neg h]

/-- The two processes stash, check out what they commit, and one of them commits. -/
def mixed : List (Nat × Bool) :=
  [(0, false), (0, false), (0, false), (1, false), (1, false), (1, false), (0, false), (1, false), (0, false), (0, false)]

/-- **C150**: what one process commits may be in the commit of another one, though it is not at the path that this one commits. -/
theorem C150_mixed_counterexample {r : Repo} {c : Commit} (hb : r.head = .branch n) (hc : r.refs (.head n) = some c) (h0 : spec 0 p = false)
    (h1 : spec 1 p = true) (ht : r.tracked p = true) (hw : r.work p = some b) (hne : c.tree p ≠ some b) (ha : ∀ i, add i = false) :
    ∃ d, (run mess spec (State.init add r) mixed).pc 0 = .ended (.ok d) ∧ d.parent = some c ∧ d.tree p = some b ∧ c.tree p ≠ some b ∧ spec 0 p = false := by
  have n01 : (0 : Nat) ≠ 1 := by decide
  have hrc : r.commit = some c := by unfold Repo.commit; rw [hb]; exact hc
  have hrt : r.tree = c.tree := by unfold Repo.tree; rw [hrc]; rfl
  have hch : r.changed false := by
    by_cases hi : r.index p = r.tree p
    · refine .inr (.inl ⟨p, ht, fun h => hne ?_⟩)
      rw [← hrt, ← hi, ← h, hw]
    · exact .inl ⟨p, hi⟩
  have e1 := push_changed hrc hch
  have a0 : At (State.init add r) 0 1 r .start .start := ⟨rfl, rfl, by simp [State.init, ha], by simp [State.init, ha]⟩
  have a1 := a0.begin (mess := mess) (spec := spec) n01 hb hc e1
  generalize hr1 : ({ r with
    index := r.tree
    work := fun p => if r.tracked p then r.tree p else r.work p
    stash := ⟨r.tree, r.index, r.ours, fun _ => none⟩ :: r.stash } : Repo) = r1 at a1
  have r1c : r1.commit = some c := by rw [← hr1]; exact hrc
  have r1t : r1.tree = r.tree := by rw [← hr1]; rfl
  have r1h : r1.head = .branch n := by rw [← hr1]; exact hb
  have r1f : r1.refs = r.refs := by rw [← hr1]
  have r1n : ¬ r1.changed false := by
    rintro (⟨q, hq⟩ | ⟨q, hq, hq'⟩ | ⟨hq, -⟩)
    · rw [r1t] at hq
      rw [← hr1] at hq
      exact hq rfl
    · unfold Repo.tracked at hq
      rw [r1t] at hq
      rw [← hr1] at hq hq'
      dsimp only at hq hq'
      have : r.tracked q = true := by
        unfold Repo.tracked
        cases hx : (r.tree q).isSome <;> simp [hx] at hq ⊢
      rw [if_pos this] at hq'
      exact hq' rfl
    · cases hq
  generalize hs1 : step mess spec (step mess spec (step mess spec (State.init add r) 0 false) 0 false) 0 false = s1 at a1
  have a2 := a1.swap.begin (mess := mess) (spec := spec) n01.symm r1h (by rw [r1f]; exact hc) (push_unchanged r1c r1n)
  generalize hs2 : step mess spec (step mess spec (step mess spec s1 1 false) 1 false) 1 false = s2 at a2
  have a2 := a2.swap
  -- the first checks out its files
  obtain ⟨r2, a3, r2s, r2h, r2f⟩ : ∃ r2, At (step mess spec s2 0 false) 0 1 r2 .ready .stashed ∧ r2.stash = r1.stash ∧ r2.head = r1.head ∧
      r2.refs = r1.refs := by
    have hst : step mess spec s2 0 false = s2.command 0 false (fromStash (spec 0) s2.repo) (fun _ => .ready) fun _ => .ready := by
      unfold step; rw [a2.one]
    cases hf : fromStash (spec 0) s2.repo with
    | error e => exact ⟨r1, a2.error n01 hst hf, rfl, rfl, rfl⟩
    | ok x =>
      have hf' := hf
      rw [a2.repo] at hf'
      obtain ⟨e, rest, -, hx⟩ := from_cases (spec := spec) (i := 0) (r' := x.2) hf'
      refine ⟨x.2, a2.ok (a := x.1) n01 hst hf, by rw [hx], by rw [hx], by rw [hx]⟩
  generalize hs3 : step mess spec s2 0 false = s3 at a3
  -- and the second one
  have a3 := a3.swap
  have hs : r2.stash = ⟨r.tree, r.index, r.ours, fun _ => none⟩ :: r.stash := by rw [r2s, ← hr1]
  have ho : r.ours p = some b := by unfold Repo.ours; rw [if_pos ht, hw]
  obtain ⟨r3, e3⟩ : ∃ r3, fromStash (spec 1) r2 = .ok ((), r3) := by
    unfold fromStash checkoutFrom
    rw [hs]
    simp only [List.getElem?_cons_zero]
    rw [if_pos ⟨p, h1, by rw [ho]; rfl⟩]
    exact ⟨_, rfl⟩
  have a4 := a3.ok (mess := mess) (spec := spec) (ok := fun _ => .ready) (error := fun _ => .ready) n01.symm (by unfold step; rw [a3.one]) (by rw [a3.repo, e3])
  obtain ⟨e, rest, hx, hr3⟩ := from_cases e3
  rw [hs, List.cons.injEq] at hx
  have hi3 : r3.index p = some b := by
    rw [hr3, ← hx.1]
    simp [h1, ho]
  have h3h : r3.head = .branch n := by rw [hr3]; exact r2h.trans r1h
  have h3f : r3.refs (.head n) = some c := by rw [hr3]; dsimp only; rw [r2f, r1f]; exact hc
  generalize hs4 : step mess spec s3 1 false = s4 at a4
  have a4 := a4.swap
  -- the first commits
  have a5 := a4.ok (mess := mess) (spec := spec) (f := indexCommit r3) (ok := fun c => .popping (.ok c)) (error := fun e => .popping (.error e))
    (a := .mk r3.index (some c)) (r' := { r3 with refs := fun ref => if ref = .head n then some (.mk r3.index (some c)) else r3.refs ref }) n01
    (by unfold step; rw [a4.one]; dsimp only; rw [a4.repo])
    (by unfold indexCommit Repo.commit; rw [h3h]; simp only [h3f])
  generalize hs5 : step mess spec s4 0 false = s5 at a5
  refine ⟨.mk r3.index (some c), ?_, rfl, hi3, hne, h0⟩
  have : run mess spec (State.init add r) mixed = step mess spec s5 0 false := by
    rw [← hs5, ← hs4, ← hs3, ← hs2, ← hs1]; rfl
  rw [this]
  unfold step
  rw [a5.one]
  dsimp only
  rw [pop_pc, if_pos rfl]

/-- A repository with one file. -/
def only (x : UInt8) : Tree := fun p => if p = ['b'] then some [x] else none

/-- The file was changed and put aside, and changed again. -/
def aside : Repo where
  refs ref := if ref = .head ['m'] then some (.mk (only 1) none) else none
  head := .branch ['m']
  index := only 1
  work := only 3
  stash := [⟨only 1, only 1, only 9, fun _ => none⟩]

/-- Both stash, the first one ends, and then the second one. -/
def late : List (Nat × Bool) :=
  [(0, false), (0, false), (0, false), (1, false), (1, false), (1, false), (0, false), (0, false), (0, false), (1, false), (1, false), (1, false)]

/-- The repository with one file, in a later state. -/
def oneFile (c : Commit) (i w : UInt8) (st : List Entry) : Repo where
  refs ref := if ref = .head ['m'] then some c else none
  head := .branch ['m']
  index := only i
  work := only w
  stash := st

theorem only_ne {x y : UInt8} (h : x ≠ y) : only x ['b'] ≠ only y ['b'] := by
  simp [only, h]

theorem oneFile_commit {c : Commit} {i w : UInt8} {st : List Entry} : (oneFile c i w st).commit = some c := by
  simp [oneFile, Repo.commit]

theorem oneFile_tree {c : Commit} {x i w : UInt8} {st : List Entry} (h : c.tree = only x) : (oneFile c i w st).tree = only x := by
  unfold Repo.tree; rw [oneFile_commit]; exact h

theorem oneFile_pop {c : Commit} {x y : UInt8} {st : List Entry} :
    stashPop mess 0 (oneFile c x x (⟨only x, only x, only y, fun _ => none⟩ :: st)) = (.done, oneFile c x y st) := by
  unfold stashPop oneFile
  simp only [List.getElem?_cons_zero, merge3, ↓reduceIte, Option.getD_some, ne_eq, not_true_eq_false, and_false, exists_false,
    reduceCtorEq, Option.isSome_none, Bool.false_eq_true, List.eraseIdx_zero, List.tail_cons, Prod.mk.injEq, Repo.mk.injEq, true_and, and_true]
  refine ⟨?_, ?_⟩
  · funext q
    by_cases hq : q = ['b'] <;> simp [only, hq]
  · funext q
    by_cases hq : q = ['b']
    · simp only [only, hq, ↓reduceIte, Option.some.injEq, List.cons.injEq, and_true]
      by_cases hxy : y = x <;> simp [hxy]
    · simp [only, hq]

/-- The entry and the repository have made the same change. -/
theorem oneFile_pop_same {c : Commit} {x y : UInt8} {st : List Entry} :
    stashPop mess 0 (oneFile c y y (⟨only x, only x, only y, fun _ => none⟩ :: st)) = (.done, oneFile c y y st) := by
  have hm : ∀ q, merge3 (only x q) (only y q) (only y q) = some (only y q) := by
    intro q
    unfold merge3
    split
    · rfl
    · split
      · rfl
      · rename_i h
        exact absurd rfl h
  unfold stashPop oneFile
  simp only [List.getElem?_cons_zero, hm, ↓reduceIte, Option.getD_some, ne_eq, not_true_eq_false, and_false, exists_false,
    reduceCtorEq, Option.isSome_none, Bool.false_eq_true, List.eraseIdx_zero, List.tail_cons, Prod.mk.injEq, Repo.mk.injEq, true_and, and_true]
  refine ⟨?_, ?_⟩
  · funext q
    by_cases hq : q = ['b'] <;> simp [only, hq]
  · funext q
    by_cases hq : q = ['b'] <;> simp [only, hq]

/-- **C150**: the file was changed twice, the first change is in an older entry of the stash, and the second one is in the working directory.
One process commits another path, and one commits this file.  Then the first change is committed and the second one is lost. -/
theorem C150_overwritten_counterexample (h0 : spec 0 = fun q => q == ['a']) (h1 : spec 1 = fun q => q == ['b']) (ha : ∀ i, add i = false) :
    aside.work ['b'] = some [3] ∧ (∃ c, (run mess spec (State.init add aside) late).pc 0 = .ended (.ok c)) ∧
    (∃ c, (run mess spec (State.init add aside) late).pc 1 = .ended (.ok c) ∧ c.tree ['b'] = some [9]) ∧
    (run mess spec (State.init add aside) late).stuck = false ∧ ¬ Has (run mess spec (State.init add aside) late).repo ['b'] [3] := by
  have n01 : (0 : Nat) ≠ 1 := by decide
  let c0 : Commit := .mk (only 1) none
  let old : Entry := ⟨only 1, only 1, only 9, fun _ => none⟩
  let e1 : Entry := ⟨only 1, only 1, only 3, fun _ => none⟩
  have hA : aside = oneFile c0 1 3 [old] := rfl
  have hch : aside.changed false := by
    refine .inr (.inl ⟨['b'], ?_, ?_⟩)
    · rw [hA]; unfold Repo.tracked; rw [oneFile_tree (x := 1) rfl]; simp [only]
    · rw [hA]; exact only_ne (by decide)
  have p1 : stashPush false aside = .ok (true, oneFile c0 1 1 [e1, old]) := by
    rw [push_changed (c := c0) (by rw [hA]; exact oneFile_commit) hch]
    have ht : aside.tree = only 1 := by rw [hA]; exact oneFile_tree rfl
    have hk : ∀ q, aside.tracked q = (only 1 q).isSome := by
      intro q; unfold Repo.tracked; rw [ht]; simp [aside]
    have hw : (fun q => if aside.tracked q then aside.tree q else aside.work q) = only 1 := by
      funext q
      rw [hk, ht]
      by_cases hq : q = ['b'] <;> simp [only, hq, aside]
    have ho : aside.ours = only 3 := by
      funext q
      unfold Repo.ours
      rw [hk]
      by_cases hq : q = ['b'] <;> simp [only, hq, aside]
    rw [hw, ho, ht]
    rfl
  have p2 : stashPush false (oneFile c0 1 1 [e1, old]) = .ok (false, oneFile c0 1 1 [e1, old]) := by
    refine push_unchanged oneFile_commit ?_
    rintro (⟨q, hq⟩ | ⟨q, -, hq⟩ | ⟨hq, -⟩)
    · rw [oneFile_tree (x := 1) rfl] at hq; exact hq rfl
    · exact hq rfl
    · cases hq
  have a0 : At (State.init add aside) 0 1 aside .start .start := ⟨rfl, rfl, by simp [State.init, ha], by simp [State.init, ha]⟩
  have a1 := a0.begin (mess := mess) (spec := spec) (n := ['m']) (c := c0) n01 rfl rfl p1
  generalize hs1 : step mess spec (step mess spec (step mess spec (State.init add aside) 0 false) 0 false) 0 false = s1 at a1
  have a2 := a1.swap.begin (mess := mess) (spec := spec) (n := ['m']) (c := c0) n01.symm rfl rfl p2
  generalize hs2 : step mess spec (step mess spec (step mess spec s1 1 false) 1 false) 1 false = s2 at a2
  have a2 := a2.swap
  -- the first one: there is nothing at its path
  have a3 := a2.error (mess := mess) (spec := spec) (ok := fun _ => .ready) (error := fun _ => .ready) (e := .gitError) n01
    (by unfold step; rw [a2.one]) (by
      rw [a2.repo, h0]
      unfold fromStash checkoutFrom oneFile
      simp only [List.getElem?_cons_zero]
      rw [if_neg]
      rintro ⟨q, hq, hq'⟩
      have hq : q = ['a'] := by simpa using hq
      subst hq
      simp [e1, only] at hq')
  generalize hs3 : step mess spec s2 0 false = s3 at a3
  have hcommit : ∀ c x w st, indexCommit (oneFile c x w st) = .ok (.mk (only x) (some c), oneFile (.mk (only x) (some c)) x w st) := by
    intro c x w st
    unfold indexCommit
    rw [oneFile_commit]
    simp only [oneFile, Except.ok.injEq, Prod.mk.injEq, true_and, Repo.mk.injEq, and_true]
    funext ref
    split <;> rfl
  have a4 := a3.ok (mess := mess) (spec := spec) (ok := fun c => .popping (.ok c)) (error := fun e => .popping (.error e)) n01
    (by unfold step; rw [a3.one]) (by rw [a3.repo, hcommit])
  generalize hs4 : step mess spec s3 0 false = s4 at a4
  have a5 := a4.pop (mess := mess) (spec := spec) n01 oneFile_pop
  generalize hs5 : step mess spec s4 0 false = s5 at a5
  -- the second one
  have a5 := a5.swap
  have a6 := a5.ok (mess := mess) (spec := spec) (ok := fun _ => .ready) (error := fun _ => .ready) (a := ())
    (r' := oneFile (.mk (only 1) (some c0)) 9 9 [old]) n01.symm
    (by unfold step; rw [a5.one]) (by
      rw [a5.repo, h1]
      unfold fromStash checkoutFrom oneFile
      simp only [List.getElem?_cons_zero]
      rw [if_pos ⟨['b'], by simp, by simp [old, only]⟩]
      simp only [Except.ok.injEq, Prod.mk.injEq, Repo.mk.injEq, true_and, and_true]
      refine ⟨?_, ?_⟩
      all_goals
        funext q
        by_cases hq : q = ['b'] <;> simp [only, hq, old])
  generalize hs6 : step mess spec s5 1 false = s6 at a6
  have a7 := a6.ok (mess := mess) (spec := spec) (ok := fun c => .popping (.ok c)) (error := fun e => .popping (.error e)) n01.symm
    (by unfold step; rw [a6.one]) (by rw [a6.repo, hcommit])
  generalize hs7 : step mess spec s6 1 false = s7 at a7
  have a8 := a7.pop (mess := mess) (spec := spec) n01.symm oneFile_pop_same
  have : run mess spec (State.init add aside) late = step mess spec s7 1 false := by
    rw [← hs7, ← hs6, ← hs5, ← hs4, ← hs3, ← hs2, ← hs1]; rfl
  rw [this]
  refine ⟨rfl, ⟨_, a8.two⟩, ⟨_, a8.one, rfl⟩, a8.stuck, ?_⟩
  rw [a8.repo]
  rintro (h | ⟨ref, c, d, h, l, hd⟩ | ⟨e, he, -⟩)
  · simp [oneFile, only] at h
  · simp only [oneFile] at h
    split at h
    · simp only [Option.some.injEq] at h
      subst h
      cases l with
      | refl => simp [Commit.tree, only] at hd
      | step l =>
        cases l with
        | refl => simp [Commit.tree, only] at hd
        | step l =>
          change Leads (.mk (only 1) none) d at l
          cases l
          simp [Commit.tree, only] at hd
    · cases h
  · cases he

/-! ## A case -/

-- C150_kept_partial, C150_history: a changed file, and nothing in the stash
example : Sound sampleRepo ∧ sampleRepo.head = .branch ['m'] ∧ sampleRepo.work ['a'] = some [2] ∧ ∀ e ∈ sampleRepo.stash, e.work ['a'] = none := by
  refine ⟨⟨fun c hc => ⟨.head ['m'], hc⟩, fun e he => ?_⟩, rfl, ?_, fun e he => ?_⟩
  · simp [sampleRepo] at he
  · simp [sampleRepo]
  · simp [sampleRepo] at he

-- C150_kept_partial, C150_others_partial: an older entry, for a file that nobody commits
example : Sound aside ∧ aside.head = .branch ['m'] ∧ Has aside ['b'] [9] ∧ Has aside ['b'] [3] := by
  refine ⟨⟨fun c hc => ⟨.head ['m'], hc⟩, fun e he p b hb => ⟨.head ['m'], _, _, rfl, .refl _, ?_⟩⟩, rfl, .inr (.inr ⟨_, List.mem_cons_self, .inl rfl⟩), .inl rfl⟩
  simp only [aside, List.mem_singleton] at he
  subst he
  exact hb

-- C150_mixed_counterexample
example : sampleRepo.tracked ['a'] = true ∧ sampleRepo.work ['a'] = some [2] ∧ (∃ c, sampleRepo.refs (.head ['m']) = some c ∧ c.tree ['a'] ≠ some [2]) := by
  refine ⟨?_, by simp [sampleRepo], _, rfl, ?_⟩
  · unfold Repo.tracked; rw [sample_tree]; simp [sampleTree]
  · simp [sampleTree, Commit.tree]

/-- **C150**: a git command that fails changes nothing in the repository, and what comes after it is the exception of git, except that failing
to take the files from the stash and to pop it are passed over: a failure to commit pops the stash first and is then raised. -/
theorem C150_failing (s : State) (i : Nat) :
    (step mess spec s i true).repo = s.repo ∧ (step mess spec s i true).stuck = s.stuck ∧
    (s.pc i = .adding ∨ s.pc i = .valid ∨ s.pc i = .fresh → (step mess spec s i true).pc i = .ended (.error .gitError)) ∧
    (s.pc i = .stashed → (step mess spec s i true).pc i = .ready) ∧
    (s.pc i = .ready → (step mess spec s i true).pc i = .popping (.error .gitError)) ∧
    (∀ x, s.pc i = .popping x → ∀ fail, (step mess spec s i fail).pc i = .ended x) := by
  refine ⟨?_, ?_, ?_, ?_, ?_, ?_⟩
  · unfold step; split <;> simp [State.command, State.pop, State.goto]
  · unfold step; split <;> simp [State.command, State.pop, State.goto]
  · rintro (h | h | h) <;> simp [step, h, State.command, State.goto]
  · intro h; simp [step, h, State.command, State.goto]
  · intro h; simp [step, h, State.command, State.goto]
  · intro x h fail
    simp only [step, h, State.pop]
    split
    · simp [State.goto]
    · split <;> simp [State.goto]

end Verif.Git.CommitRace
