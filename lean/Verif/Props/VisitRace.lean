import Verif.Model.VisitRace
import Verif.Props.Git

/-!
# C149: visiting refs of the same repository from several processes
-/

namespace Verif.Git.VisitRace

/-! ## Nothing is lost -/

/-- The second commit is the first one or one of its ancestors. -/
inductive Leads : Commit → Commit → Prop where
  | refl (c : Commit) : Leads c c
  | step {c d : Commit} {t : Tree} (h : Leads c d) : Leads (.mk t (some c)) d

/-- A ref has a commit, or an ancestor of it, in which this is the content of the file. -/
def Committed (r : Repo) (p : File) (b : Bytes) : Prop := ∃ ref c d, r.refs ref = some c ∧ Leads c d ∧ d.tree p = some b

/-- This content of the file is in the working directory, in a commit, or in the stash. -/
def Has (r : Repo) (p : File) (b : Bytes) : Prop :=
  r.work p = some b ∨ Committed r p b ∨ ∃ e ∈ r.stash, e.work p = some b ∨ e.untracked p = some b

/-- `HEAD` is at the commit of a ref, and so are those that the stash entries were made on, or at least their files. -/
structure Sound (r : Repo) : Prop where
  head : ∀ c, r.commit = some c → ∃ ref, r.refs ref = some c
  based : ∀ e ∈ r.stash, ∀ p b, e.base p = some b → Committed r p b

/-- What is in the index is in the working directory or committed. -/
def Staged (r : Repo) : Prop := ∀ p b, r.index p = some b → r.work p = some b ∨ Committed r p b

theorem committed_refs {r r' : Repo} (h : r'.refs = r.refs) {p : File} {b : Bytes} : Committed r' p b ↔ Committed r p b := by
  unfold Committed; rw [h]

theorem Sound.tree {r : Repo} (h : Sound r) {p : File} {b : Bytes} (ht : r.tree p = some b) : Committed r p b := by
  unfold Repo.tree at ht
  cases hc : r.commit with
  | none => rw [hc] at ht; cases ht
  | some c =>
    rw [hc] at ht
    obtain ⟨ref, hr⟩ := h.head c hc
    exact ⟨ref, c, c, hr, .refl c, ht⟩

theorem stash_spec {r r' : Repo} {again : Bool} (h : stashPush true r = .ok (again, r')) : Stashed r again r' := by
  unfold stashPush at h
  split at h
  · simp at h
  · split at h
    · rename_i hc
      simp only [Except.ok.injEq, Prod.mk.injEq] at h
      obtain ⟨rfl, rfl⟩ := h
      refine ⟨by simp [hc], rfl, rfl, rfl, ?_, rfl⟩
      funext p
      simp
    · rename_i hc
      simp only [Except.ok.injEq, Prod.mk.injEq] at h
      obtain ⟨rfl, rfl⟩ := h
      exact ⟨by simp [hc], rfl, rfl, (unchanged_clean hc).1, (unchanged_clean hc).2, rfl⟩

theorem stash_keep {r r' : Repo} {again : Bool} (h : stashPush true r = .ok (again, r')) (hs : Sound r) :
    r'.refs = r.refs ∧ Sound r' ∧ Staged r' ∧ ∀ p b, Has r p b → Has r' p b := by
  have h := stash_spec h
  have hc : ∀ {p b}, Committed r' p b ↔ Committed r p b := committed_refs h.refs
  refine ⟨h.refs, ⟨fun c hc' => ?_, fun e he p b hb => ?_⟩, fun p b hb => ?_, fun p b hb => ?_⟩
  · rw [h.refs]; exact hs.head c (h.commit ▸ hc')
  · rw [hc]
    rw [h.stash, List.mem_append] at he
    rcases he with he | he
    · cases again with
      | false => simp at he
      | true =>
        simp only [↓reduceIte, List.mem_singleton] at he
        subst he
        exact hs.tree hb
    · exact hs.based e he p b hb
  · right
    rw [hc]
    rw [h.index] at hb
    exact hs.tree hb
  · rcases hb with hb | hb | ⟨e, he, hb⟩
    · cases again with
      | true =>
        have := entry_work r p
        rw [hb] at this
        refine .inr (.inr ⟨entryOf r, by rw [h.stash]; simp, ?_⟩)
        split at this
        · exact .inl this
        · exact .inr this
      | false =>
        have hn : ¬ r.changed true := fun hc => by have := h.some.2 hc; cases this
        refine .inr (.inl (hc.2 (hs.tree ?_)))
        rw [← (unchanged_clean hn).2]; exact hb
    · exact .inr (.inl (hc.2 hb))
    · exact .inr (.inr ⟨e, by rw [h.stash]; exact List.mem_append_right _ he, hb⟩)

theorem checkout_keep {r r' : Repo} {ref : Ref} (h : checkout ref r = .ok r') (hs : Sound r) :
    r'.refs = r.refs ∧ Sound r' ∧ (Staged r → Staged r') ∧ ∀ p b, Has r p b → Has r' p b := by
  unfold checkout at h
  split at h
  · cases h
  · rename_i c hc
    split at h
    · cases h
    · rename_i hg
      simp only [Except.ok.injEq] at h
      subst h
      have hg : ∀ p, r.tree p ≠ c.tree p → r.index p = r.tree p ∧ r.work p = r.tree p := fun p hp =>
        Decidable.byContradiction fun hx => hg ⟨p, hp, hx⟩
      refine ⟨rfl, ⟨fun c' hc' => ?_, hs.based⟩, fun hst p b hb => ?_, fun p b hb => ?_⟩
      · cases ref with
        | head n => exact ⟨.head n, hc'⟩
        | remote n =>
          simp only [Repo.commit, Option.some.injEq] at hc'
          subst hc'
          exact ⟨.remote n, hc⟩
        | tag n =>
          simp only [Repo.commit, Option.some.injEq] at hc'
          subst hc'
          exact ⟨.tag n, hc⟩
      · by_cases e : r.tree p = c.tree p
        · simp only [e, ↓reduceIte] at hb ⊢
          exact hst p b hb
        · simp only [e, ↓reduceIte] at hb ⊢
          exact .inl hb
      · rcases hb with hb | hb | hb
        · by_cases e : r.tree p = c.tree p
          · left; simp only [e, ↓reduceIte]; exact hb
          · exact .inr (.inl (hs.tree ((hg p e).2 ▸ hb)))
        · exact .inr (.inl hb)
        · exact .inr (.inr hb)

theorem mem_eraseIdx_or {α : Type} {l : List α} {k : Nat} {e x : α} (hk : l[k]? = some e) (hx : x ∈ l) : x = e ∨ x ∈ l.eraseIdx k := by
  induction l generalizing k with
  | nil => cases hx
  | cons a l ih =>
    cases k with
    | zero =>
      simp only [List.getElem?_cons_zero, Option.some.injEq] at hk
      subst hk
      rcases List.mem_cons.1 hx with h | h
      · exact .inl h
      · exact .inr h
    | succ k =>
      rw [List.getElem?_cons_succ] at hk
      rcases List.mem_cons.1 hx with h | h
      · right; rw [h]; exact List.mem_cons_self
      · rcases ih hk h with h | h
        · exact .inl h
        · exact .inr (List.mem_cons_of_mem _ h)

theorem merge_cases {base ours theirs new : Option Bytes} (h : merge3 base ours theirs = some new) :
    (base = ours ∧ new = theirs) ∨ (base = theirs ∧ new = ours) ∨ (ours = theirs ∧ new = ours) := by
  unfold merge3 at h
  split at h
  · left; exact ⟨by assumption, by simpa using h.symm⟩
  · split at h
    · right; left; exact ⟨by assumption, by simpa using h.symm⟩
    · split at h
      · right; right; exact ⟨by assumption, by simpa using h.symm⟩
      · cases h

/-- The working directory after `git stash pop`. -/
noncomputable def restored (r : Repo) (e : Entry) (new : Tree) : Tree := fun p =>
  let work := open Classical in if new p = r.index p then r.work p else new p
  if work.isSome then work else e.untracked p

/-- The index after `git stash pop`. -/
def indexed (r : Repo) (new : Tree) : Tree := fun p => if (r.index p).isSome then r.index p else new p

theorem restored_keep {r : Repo} {e : Entry} {new : Tree} (hs : Sound r) (hst : Staged r) (hem : e ∈ r.stash)
    (hm : ∀ p, merge3 (e.base p) (r.index p) (e.work p) = some (new p)) (hsame : ∀ p, new p ≠ r.index p → r.work p = r.index p) :
    (∀ p b, indexed r new p = some b → restored r e new p = some b ∨ Committed r p b) ∧
    (∀ p b, r.work p = some b → restored r e new p = some b ∨ Committed r p b) ∧
    (∀ p b, e.work p = some b → restored r e new p = some b ∨ Committed r p b) ∧
    (∀ p b, e.untracked p = some b → restored r e new p = some b ∨ ∃ y, restored r e new p = some y ∧
      (if new p = r.index p then r.work p else new p) = some y) := by
  have hw : ∀ p b, (if new p = r.index p then r.work p else new p) = some b → restored r e new p = some b := by
    intro p b h
    simp only [restored]
    have : (open Classical in if new p = r.index p then r.work p else new p) = some b := h
    rw [this]; rfl
  have hbase : ∀ p b, r.index p = some b → new p ≠ r.index p → Committed r p b := by
    intro p b hi hp
    rcases merge_cases (hm p) with ⟨h2, -⟩ | ⟨-, h2⟩ | ⟨-, h2⟩
    · exact hs.based e hem p b (by rw [h2, hi])
    · exact absurd h2 hp
    · exact absurd h2 hp
  refine ⟨fun p b hb => ?_, fun p b hb => ?_, fun p b hb => ?_, fun p b hb => ?_⟩
  · unfold indexed at hb
    by_cases hp : new p = r.index p
    · rw [hp] at hb
      have hb : r.index p = some b := by split at hb <;> exact hb
      rcases hst p b hb with h | h
      · exact .inl (hw p b (by rw [if_pos hp, h]))
      · exact .inr h
    · split at hb
      · exact .inr (hbase p b hb hp)
      · exact .inl (hw p b (by rw [if_neg hp, hb]))
  · by_cases hp : new p = r.index p
    · exact .inl (hw p b (by rw [if_pos hp, hb]))
    · exact .inr (hbase p b (by rw [← hsame p hp, hb]) hp)
  · rcases merge_cases (hm p) with ⟨h2, h3⟩ | ⟨h2, -⟩ | ⟨h2, h3⟩
    · by_cases hp : new p = r.index p
      · exact .inr (hs.based e hem p b (by rw [h2, ← hp, h3, hb]))
      · exact .inl (hw p b (by rw [if_neg hp, h3, hb]))
    · exact .inr (hs.based e hem p b (by rw [h2, hb]))
    · rcases hst p b (by rw [h2, hb]) with h4 | h4
      · exact .inl (hw p b (by rw [if_pos h3, h4]))
      · exact .inr h4
  · cases h : (if new p = r.index p then r.work p else new p) with
    | some y => exact .inr ⟨y, hw p y h, rfl⟩
    | none =>
      left
      simp only [restored]
      have : (open Classical in if new p = r.index p then r.work p else new p) = none := by
        rw [← h]
      rw [this]; exact hb

theorem pop_keep {mess : Repo → Tree × Tree} {k : Nat} {r r' : Repo} {x : Popped} (h : stashPop mess k r = (x, r')) (hs : Sound r)
    (hst : Staged r) : r'.refs = r.refs ∧ Sound r' ∧
    (Conflicts k r → r' = { r with index := (mess r).1, work := (mess r).2 }) ∧
    (¬ Conflicts k r → Staged r' ∧ ∀ p b, Has r p b → Has r' p b) := by
  unfold stashPop at h
  split at h
  · rename_i hk
    simp only [Prod.mk.injEq] at h
    obtain ⟨-, rfl⟩ := h
    refine ⟨rfl, hs, ?_, fun _ => ⟨hst, fun _ _ h => h⟩⟩
    rintro ⟨e, he, -⟩
    rw [hk] at he; cases he
  · rename_i e hk
    dsimp only at h
    have hem : e ∈ r.stash := List.mem_of_getElem? hk
    split at h
    · rename_i hg
      simp only [Prod.mk.injEq] at h
      obtain ⟨-, rfl⟩ := h
      refine ⟨rfl, hs, ?_, fun _ => ⟨hst, fun _ _ h => h⟩⟩
      rintro ⟨e', he, hn, -⟩
      rw [hk, Option.some.injEq] at he
      subst he
      exact absurd hg hn
    · rename_i hg
      split at h
      · rename_i hm
        simp only [Prod.mk.injEq] at h
        obtain ⟨-, rfl⟩ := h
        refine ⟨rfl, ⟨hs.head, hs.based⟩, fun _ => rfl, fun hn => ?_⟩
        exact absurd ⟨e, hk, hg, hm⟩ hn
      · rename_i hm
        have hm' : ∀ p, merge3 (e.base p) (r.index p) (e.work p) = some ((merge3 (e.base p) (r.index p) (e.work p)).getD none) := by
          intro p
          cases hp : merge3 (e.base p) (r.index p) (e.work p) with
          | none => exact absurd ⟨p, hp⟩ hm
          | some y => rfl
        obtain ⟨h1, h2, h3, h4⟩ := restored_keep (new := fun p => (merge3 (e.base p) (r.index p) (e.work p)).getD none) hs hst hem hm' (by
          intro p hp
          refine Decidable.byContradiction fun hx => hg ⟨p, ?_, hx⟩
          rw [hm' p]; simpa using hp)
        have hnc : ¬ Conflicts k r := by
          rintro ⟨e', he, -, p, hp⟩
          rw [hk, Option.some.injEq] at he
          subst he
          exact hm ⟨p, hp⟩
        split at h
        · simp only [Prod.mk.injEq] at h
          obtain ⟨-, rfl⟩ := h
          refine ⟨rfl, ⟨hs.head, hs.based⟩, fun h => absurd h hnc, fun _ => ⟨h1, fun p b hb => ?_⟩⟩
          rcases hb with hb | hb | hb
          · rcases h2 p b hb with h | h
            · exact .inl h
            · exact .inr (.inl h)
          · exact .inr (.inl hb)
          · exact .inr (.inr hb)
        · rename_i hu
          simp only [Prod.mk.injEq] at h
          obtain ⟨-, rfl⟩ := h
          refine ⟨rfl, ⟨hs.head, fun e' he' => hs.based e' ((List.eraseIdx_sublist _ _).subset he')⟩, fun h => absurd h hnc,
            fun _ => ⟨h1, fun p b hb => ?_⟩⟩
          rcases hb with hb | hb | ⟨e', he', hb⟩
          · rcases h2 p b hb with h | h
            · exact .inl h
            · exact .inr (.inl h)
          · exact .inr (.inl hb)
          · rcases mem_eraseIdx_or hk he' with rfl | he'
            · rcases hb with hb | hb
              · rcases h3 p b hb with h | h
                · exact .inl h
                · exact .inr (.inl h)
              · rcases h4 p b hb with h | ⟨y, -, h⟩
                · exact .inl h
                · exact absurd ⟨p, by rw [h]; rfl, by rw [hb]; rfl⟩ hu
            · exact .inr (.inr ⟨e', he', hb⟩)


/-! ## The invariant -/

/-- The process has stashed, and has not yet tried to bring that back. -/
def Pc.began : Pc → Prop
  | .stashed _ _ | .inside _ _ | .leaving _ _ _ | .popping _ _ => True
  | _ => False

/-- What holds in every state; `I b x`: what is said of a file `x` after a conflict if it had the content `b` before. -/
structure Inv (I : Bytes → Option Bytes → Prop) (r0 : Repo) (s : State) : Prop where
  refs : s.repo.refs = r0.refs
  sound : Sound s.repo
  staged : s.stuck = true ∨ Staged s.repo ∨ ∀ i, ¬ (s.pc i).began
  kept : ∀ p b, Has r0 p b → Has s.repo p b ∨ (s.stuck = true ∧ I b (s.repo.work p))

variable {I : Bytes → Option Bytes → Prop} {r0 : Repo} {s : State} {mess : Repo → Tree × Tree} {ref : Nat → Ref}

theorem Inv.to (h : Inv I r0 s) {i : Nat} {pc : Pc} (hp : pc.began → s.stuck = true ∨ Staged s.repo) : Inv I r0 (s.goto i pc) := by
  refine ⟨h.refs, h.sound, ?_, h.kept⟩
  by_cases hb : pc.began
  · rcases hp hb with h1 | h1
    · exact .inl h1
    · exact .inr (.inl h1)
  · rcases h.staged with h1 | h1 | h1
    · exact .inl h1
    · exact .inr (.inl h1)
    · refine .inr (.inr fun j => ?_)
      simp only [State.goto]
      split
      · exact hb
      · exact h1 j

theorem Inv.write (h : Inv I r0 s) {i : Nat} {pc : Pc} {r : Repo} (hs : s.stuck = false) (h1 : r.refs = s.repo.refs) (h2 : Sound r)
    (h3 : Staged r) (h4 : ∀ p b, Has s.repo p b → Has r p b) : Inv I r0 { s.goto i pc with repo := r } := by
  refine ⟨h1.trans h.refs, h2, .inr (.inl h3), fun p b hb => .inl ?_⟩
  rcases h.kept p b hb with h5 | ⟨h5, -⟩
  · exact h4 p b h5
  · rw [hs] at h5; cases h5

theorem Inv.command (h : Inv I r0 s) {i : Nat} {fail : Bool} {f : Except PyErr (Pc × Repo)}
    (hf : s.stuck = false → ∀ pc r, f = .ok (pc, r) → r.refs = s.repo.refs ∧ Sound r ∧ Staged r ∧ ∀ p b, Has s.repo p b → Has r p b) :
    Inv I r0 (s.command i fail f) := by
  unfold State.command
  split
  · exact h.to (fun hp => hp.elim)
  · rename_i hs
    have hs : s.stuck = false := by
      cases hx : s.stuck
      · rfl
      · simp [hx] at hs
    split
    · obtain ⟨h1, h2, h3, h4⟩ := hf hs _ _ rfl
      exact h.write hs h1 h2 h3 h4
    · exact h.to (fun hp => hp.elim)

theorem Inv.leave (h : Inv I r0 s) {i : Nat} {fail : Bool} {rf : Ref} {pc : Pc} (hb : (s.pc i).began) : Inv I r0 (leave s i fail rf pc) := by
  unfold VisitRace.leave
  split
  · exact h.to (fun hp => hp.elim)
  · refine h.command fun hs pc' r hf => ?_
    have hst : Staged s.repo := by
      rcases h.staged with h1 | h1 | h1
      · rw [hs] at h1; cases h1
      · exact h1
      · exact absurd hb (h1 i)
    cases hc : checkout rf s.repo with
    | error e => rw [hc] at hf; simp [after] at hf
    | ok r' =>
      rw [hc] at hf
      simp only [after, Except.ok.injEq, Prod.mk.injEq] at hf
      obtain ⟨-, rfl⟩ := hf
      obtain ⟨h1, h2, h3, h4⟩ := checkout_keep hc h.sound
      exact ⟨h1, h2, h3 hst, h4⟩

theorem Inv.stash (h : Inv I r0 s) {i : Nat} {fail : Bool} {f : Bool × Repo → Pc × Repo} (hf : ∀ x, (f x).2 = x.2) :
    Inv I r0 (s.command i fail (after f (stashPush true s.repo))) := by
  refine h.command fun _ pc r he => ?_
  cases hc : stashPush true s.repo with
  | error e => rw [hc] at he; simp [after] at he
  | ok x =>
    rw [hc] at he
    simp only [after, Except.ok.injEq] at he
    have := hf x
    rw [he] at this
    dsimp only at this
    subst this
    exact stash_keep (again := x.1) hc h.sound

theorem Inv.pop (hm : ∀ r p b, r.work p = some b → I b ((mess r).2 p)) (h : Inv I r0 s) {i : Nat} {fail : Bool} {k : Nat}
    (hb : (s.pc i).began) : Inv I r0 (s.pop mess i fail k) := by
  unfold State.pop
  split
  · exact h.to (fun hp => hp.elim)
  · rename_i hs
    have hs : s.stuck = false := by
      cases hx : s.stuck
      · rfl
      · simp [hx] at hs
    have hst : Staged s.repo := by
      rcases h.staged with h1 | h1 | h1
      · rw [hs] at h1; cases h1
      · exact h1
      · exact absurd hb (h1 i)
    split
    · rename_i r hp
      obtain ⟨h1, h2, h3, h4⟩ := pop_keep hp h.sound hst
      by_cases hc : Conflicts k s.repo
      · exfalso
        obtain ⟨e, he, hn, hq⟩ := hc
        unfold stashPop at hp
        rw [he] at hp
        dsimp only at hp
        rw [if_neg hn, if_pos hq] at hp
        simp at hp
      · obtain ⟨h5, h6⟩ := h4 hc
        exact h.write hs h1 h2 h5 h6
    · rename_i r hp
      obtain ⟨h1, h2, h3, h4⟩ := pop_keep hp h.sound hst
      by_cases hc : Conflicts k s.repo
      · have h3 := h3 hc
        subst h3
        refine ⟨h.refs, h2, .inl (by simpa using hc), fun p b hb => ?_⟩
        rcases h.kept p b hb with h5 | ⟨h5, -⟩
        · rcases h5 with h5 | h5 | h5
          · exact .inr ⟨by simpa using hc, hm _ p b h5⟩
          · exact .inl (.inr (.inl h5))
          · exact .inl (.inr (.inr h5))
        · rw [hs] at h5; cases h5
      · obtain ⟨h5, h6⟩ := h4 hc
        refine ⟨h1.trans h.refs, h2, .inr (.inl h5), fun p b hb => .inl ?_⟩
        rcases h.kept p b hb with h7 | ⟨h7, -⟩
        · exact h6 p b h7
        · rw [hs] at h7; cases h7

theorem Inv.step (hm : ∀ r p b, r.work p = some b → I b ((mess r).2 p)) (h : Inv I r0 s) (i : Nat) (fail : Bool) :
    Inv I r0 (step mess ref s i fail) := by
  have hold : (s.pc i).began → s.stuck = true ∨ Staged s.repo := fun hb => by
    rcases h.staged with h1 | h1 | h1
    · exact .inl h1
    · exact .inr h1
    · exact absurd hb (h1 i)
  unfold VisitRace.step
  split
  · refine h.to fun hp => ?_
    split at hp <;> exact hp.elim
  · refine h.to fun hp => ?_
    split at hp <;> exact hp.elim
  · exact h.stash fun x => rfl
  · rename_i n kept e
    exact h.leave (by rw [e]; trivial)
  · exact h.stash fun x => rfl
  · rename_i n kept again e
    split
    · exact h.to fun _ => hold (by rw [e]; trivial)
    · exact h.leave (by rw [e]; trivial)
  · rename_i kept again e
    split
    · exact h.pop hm (by rw [e]; trivial)
    · exact h.to (fun hp => hp.elim)
  · exact h
  · exact h

theorem Inv.run (hm : ∀ r p b, r.work p = some b → I b ((mess r).2 p)) (h : Inv I r0 s) (sched : List (Nat × Bool)) :
    Inv I r0 (run mess ref s sched) := by
  induction sched generalizing s with
  | nil => exact h
  | cons a rest ih => exact ih (h.step hm a.1 a.2)

theorem inv_init (hs : Sound r0) : Inv I r0 (State.init r0) :=
  ⟨rfl, hs, .inr (.inr fun _ h => h.elim), fun _ _ h => .inl h⟩

/-- **C149**: whichever processes visit refs of the repository at the same time, in whatever order their git commands run, and whichever of
these fail: what was in a file of the working directory, in a commit or in the stash is then still in that file, in a commit or in the
stash; after a conflict of two entries, within what the conflict left in the file (`within b x`; between the marks of a conflict the
content of the working directory is complete). -/
theorem C149_kept_partial {within : Bytes → Bytes → Prop}
    (hm : ∀ r p b, r.work p = some b → ∃ x, (mess r).2 p = some x ∧ within b x) (hs : Sound r0) (sched : List (Nat × Bool))
    {p : File} {b : Bytes} (h : Has r0 p b) :
    Has (run mess ref (State.init r0) sched).repo p b ∨
      (run mess ref (State.init r0) sched).stuck = true ∧ ∃ x, (run mess ref (State.init r0) sched).repo.work p = some x ∧ within b x :=
  ((inv_init (I := fun b o => ∃ x, o = some x ∧ within b x) hs).run hm sched).kept p b h

/-- **C149**: the refs stay as they are, and `HEAD` is at one of them. -/
theorem C149_refs (hs : Sound r0) (sched : List (Nat × Bool)) : (run mess ref (State.init r0) sched).repo.refs = r0.refs ∧
    ∀ c, (run mess ref (State.init r0) sched).repo.commit = some c → ∃ x, r0.refs x = some c := by
  have := (inv_init (I := fun _ _ => True) hs).run (ref := ref) (mess := mess) (fun _ _ _ _ => trivial) sched
  exact ⟨this.refs, fun c hc => by rw [← this.refs]; exact this.sound.head c hc⟩

theorem step_conflict (h : s.stuck = true → ∃ k r, Conflicts k r ∧ s.repo = { r with index := (mess r).1, work := (mess r).2 }) (i : Nat) (fail : Bool)
    (hs : (step mess ref s i fail).stuck = true) :
    ∃ k r, Conflicts k r ∧ (step mess ref s i fail).repo = { r with index := (mess r).1, work := (mess r).2 } := by
  have hgo : ∀ pc, (s.goto i pc).stuck = true →
      ∃ k r, Conflicts k r ∧ (s.goto i pc).repo = { r with index := (mess r).1, work := (mess r).2 } := fun pc hs => h hs
  have hcmd : ∀ f, (s.command i fail f).stuck = true →
      ∃ k r, Conflicts k r ∧ (s.command i fail f).repo = { r with index := (mess r).1, work := (mess r).2 } := by
    intro f hs
    unfold State.command at hs ⊢
    split
    · rename_i hx
      rw [if_pos hx] at hs
      exact h hs
    · rename_i hx
      rw [if_neg hx] at hs
      have hk : s.stuck = true := by split at hs <;> exact hs
      rw [hk] at hx
      simp at hx
  have hleave : ∀ rf pc, (leave s i fail rf pc).stuck = true →
      ∃ k r, Conflicts k r ∧ (leave s i fail rf pc).repo = { r with index := (mess r).1, work := (mess r).2 } := by
    intro rf pc hs
    cases rf with
    | tag n => exact hgo _ hs
    | head n => exact hcmd _ hs
    | remote n => exact hcmd _ hs
  have hpop : ∀ k, (s.pop mess i fail k).stuck = true →
      ∃ k' r, Conflicts k' r ∧ (s.pop mess i fail k).repo = { r with index := (mess r).1, work := (mess r).2 } := by
    intro k hs
    unfold State.pop at hs ⊢
    split
    · rename_i hx
      rw [if_pos hx] at hs
      exact h hs
    · rename_i hx
      rw [if_neg hx] at hs
      have hk : s.stuck = false := by cases hk : s.stuck <;> simp [hk] at hx ⊢
      rcases hp : stashPop mess k s.repo with ⟨o, r⟩
      rw [hp] at hs
      cases o with
      | done => dsimp only at hs; rw [show (s.goto i .returned).stuck = s.stuck from rfl, hk] at hs; cases hs
      | kept =>
        dsimp only at hs ⊢
        have hc : Conflicts k s.repo := by simpa using hs
        refine ⟨k, s.repo, hc, ?_⟩
        obtain ⟨e, he, hn, hq⟩ := hc
        unfold stashPop at hp
        rw [he] at hp
        dsimp only at hp
        rw [if_neg hn, if_pos hq, Prod.mk.injEq] at hp
        exact hp.2.symm
  revert hs
  unfold step
  split
  · exact hgo _
  · exact hgo _
  · exact hcmd _
  · exact hleave _ _
  · exact hcmd _
  · split
    · exact hgo _
    · exact hleave _ _
  · split
    · exact hpop _
    · exact hgo _
  · exact h
  · exact h

/-- **C149**: git is in conflict only after an entry that could not be merged, and from then on nothing but what that left changes. -/
theorem C149_conflict (r : Repo) (sched : List (Nat × Bool)) (h : (run mess ref (State.init r) sched).stuck = true) :
    ∃ k r', Conflicts k r' ∧ (run mess ref (State.init r) sched).repo = { r' with index := (mess r').1, work := (mess r').2 } := by
  have : ∀ s, (s.stuck = true → ∃ k r, Conflicts k r ∧ s.repo = { r with index := (mess r).1, work := (mess r).2 }) →
      (run mess ref s sched).stuck = true →
      ∃ k r, Conflicts k r ∧ (run mess ref s sched).repo = { r with index := (mess r).1, work := (mess r).2 } := by
    clear h
    induction sched with
    | nil => exact fun s h => h
    | cons a rest ih => exact fun s hs => ih (step mess ref s a.1 a.2) (step_conflict hs a.1 a.2)
  exact this _ (fun h => by cases h) h

/-! ## One process -/

/-- How a process ends. -/
def ending : Except PyErr Unit → Pc
  | .ok _ => .returned
  | .error e => .raised e

theorem step_done {i : Nat} {fail : Bool} {x : Except PyErr Unit} (h : s.pc i = ending x) : step mess ref s i fail = s := by
  unfold step
  cases x <;> rw [h] <;> rfl

theorem run_done {i : Nat} {x : Except PyErr Unit} (h : s.pc i = ending x) (k : Nat) : run mess ref s (List.replicate k (i, false)) = s := by
  induction k with
  | zero => rfl
  | succ k ih => rw [List.replicate_succ, run, step_done h]; exact ih

/-- The last two steps -/
theorem run_popping {i : Nat} {kept again : Bool} (hs : s.stuck = false) (hp : s.pc i = .popping kept again) (k t : Nat) (k' : k ≥ 1) :
    ∃ x s', (if kept then Env.pop ⟨fun _ => none, mess⟩ (if again then 1 else 0) else Prog.pure ()) ⟨s.repo, t⟩ = (x, s') ∧
      (run mess ref s (List.replicate k (i, false))).pc i = ending x ∧ (run mess ref s (List.replicate k (i, false))).repo = s'.repo := by
  obtain ⟨k, rfl⟩ : ∃ j, k = j + 1 := ⟨k - 1, by omega⟩
  rw [List.replicate_succ, run]
  have hstep : step mess ref s i false = if kept then s.pop mess i false (if again then 1 else 0) else s.goto i .returned := by
    unfold step; rw [hp]
  cases kept with
  | false =>
    simp only [Bool.false_eq_true, ↓reduceIte] at hstep ⊢
    refine ⟨.ok (), ⟨s.repo, t⟩, rfl, ?_⟩
    have he : (step mess ref s i false).pc i = ending (.ok ()) := by rw [hstep]; simp [State.goto, ending]
    rw [run_done he, hstep]
    exact ⟨by simp [State.goto, ending], rfl⟩
  | true =>
    simp only [↓reduceIte] at hstep ⊢
    unfold State.pop at hstep
    simp only [hs, Bool.or_self, Bool.false_eq_true, ↓reduceIte] at hstep
    unfold Env.pop
    dsimp only
    generalize (if again = true then 1 else 0) = j at hstep ⊢
    rcases hx : stashPop mess j s.repo with ⟨o, r⟩
    rw [hx] at hstep
    cases o with
    | done =>
      dsimp only at hstep ⊢
      refine ⟨_, _, rfl, ?_⟩
      have he : (step mess ref s i false).pc i = ending (.ok ()) := by rw [hstep]; simp [State.goto, ending]
      rw [run_done he, hstep]
      exact ⟨by simp [State.goto, ending], rfl⟩
    | kept =>
      dsimp only at hstep ⊢
      refine ⟨_, _, rfl, ?_⟩
      have he : (step mess ref s i false).pc i = ending (.error .gitError) := by rw [hstep]; simp [State.goto, ending]
      rw [run_done he, hstep]
      exact ⟨by simp [State.goto, ending], rfl⟩

/-- A command of one process, and what comes next. -/
theorem run_command {α : Type} {i : Nat} {f : Repo → Except PyErr (α × Repo)} {pc : α → Pc} {k t : Nat} {m : α → Prog Unit} (hs : s.stuck = false)
    (hstep : step mess ref s i false = s.command i false (after (fun x => (pc x.1, x.2)) (f s.repo)))
    (hnext : ∀ a s' t, s'.stuck = false → s'.pc i = pc a → ∃ x m', m a ⟨s'.repo, t⟩ = (x, m') ∧
      (run mess ref s' (List.replicate k (i, false))).pc i = ending x ∧ (run mess ref s' (List.replicate k (i, false))).repo = m'.repo) :
    ∃ x m', Prog.bind (Prog.cmd ⟨fun _ => none, mess⟩ f) m ⟨s.repo, t⟩ = (x, m') ∧
      (run mess ref s (List.replicate (k + 1) (i, false))).pc i = ending x ∧
      (run mess ref s (List.replicate (k + 1) (i, false))).repo = m'.repo := by
  rw [List.replicate_succ, run]
  simp only [State.command, hs, Bool.or_self, Bool.false_eq_true, ↓reduceIte] at hstep
  simp only [Prog.bind, Prog.cmd]
  cases hf : f s.repo with
  | error e =>
    rw [hf] at hstep
    simp only [after] at hstep
    refine ⟨_, _, rfl, ?_⟩
    have he : (step mess ref s i false).pc i = ending (.error e) := by rw [hstep]; simp [State.goto, ending]
    rw [run_done he, hstep]
    exact ⟨by simp [State.goto, ending], rfl⟩
  | ok x =>
    rw [hf] at hstep
    simp only [after] at hstep
    rw [hstep]
    exact hnext x.1 { s.goto i (pc x.1) with repo := x.2 } _ hs (by simp [State.goto])

theorem run_leave {i : Nat} {rf : Ref} {pc : Pc} {k t : Nat} {m : Prog Unit} (hs : s.stuck = false)
    (hstep : step mess ref s i false = leave s i false rf pc)
    (hnext : ∀ s' t, s'.stuck = false → s'.pc i = pc → ∃ x m', m ⟨s'.repo, t⟩ = (x, m') ∧
      (run mess ref s' (List.replicate k (i, false))).pc i = ending x ∧ (run mess ref s' (List.replicate k (i, false))).repo = m'.repo) :
    ∃ x m', Prog.bind (Env.checkout ⟨fun _ => none, mess⟩ rf) (fun _ => m) ⟨s.repo, t⟩ = (x, m') ∧
      (run mess ref s (List.replicate (k + 1) (i, false))).pc i = ending x ∧
      (run mess ref s (List.replicate (k + 1) (i, false))).repo = m'.repo := by
  have key : ∀ rf' : Ref, step mess ref s i false = s.command i false (after (fun r => (pc, r)) (checkout rf' s.repo)) →
      ∃ x m', Prog.bind (Prog.cmd ⟨fun _ => none, mess⟩ fun r => match Git.checkout rf' r with
        | .ok r => .ok ((), r)
        | .error e => .error e) (fun _ => m) ⟨s.repo, t⟩ = (x, m') ∧
      (run mess ref s (List.replicate (k + 1) (i, false))).pc i = ending x ∧
      (run mess ref s (List.replicate (k + 1) (i, false))).repo = m'.repo := by
    intro rf' h
    refine run_command (pc := fun _ => pc) hs ?_ (fun _ s' t h1 h2 => hnext s' t h1 h2)
    rw [h]
    cases Git.checkout rf' s.repo <;> rfl
  cases rf with
  | tag n =>
    rw [List.replicate_succ, run]
    refine ⟨_, _, rfl, ?_⟩
    have he : (step mess ref s i false).pc i = ending (.error .attributeError) := by rw [hstep]; simp [leave, State.goto, ending]
    rw [run_done he, hstep]
    exact ⟨by simp [leave, State.goto, ending], by simp [leave, State.goto]⟩
  | head n => exact key _ hstep
  | remote n => exact key _ hstep

theorem run_exit {i : Nat} {n : Str} {kept : Bool} (hs : s.stuck = false) (hp : s.pc i = .inside n kept) (k t : Nat) :
    ∃ x m', Env.exit ⟨fun _ => none, mess⟩ (ref i) n kept ⟨s.repo, t⟩ = (x, m') ∧
      (run mess ref s (List.replicate (k + 3) (i, false))).pc i = ending x ∧
      (run mess ref s (List.replicate (k + 3) (i, false))).repo = m'.repo := by
  unfold Env.exit Env.stash
  refine run_command (pc := fun again => .leaving n kept again) hs (by unfold step; rw [hp]) fun again s' t h1 h2 => ?_
  by_cases hr : Ref.head n = ref i
  · rw [if_pos hr]
    have hstep : step mess ref s' i false = s'.goto i (.popping kept again) := by
      unfold step; rw [h2]; dsimp only; rw [if_pos hr]
    rw [List.replicate_succ, run, hstep]
    exact run_popping (s := s'.goto i (.popping kept again)) h1 (by simp [State.goto]) _ t (by omega)
  · rw [if_neg hr]
    refine run_leave (pc := .popping kept again) h1 ?_ fun s'' t h3 h4 => run_popping h3 h4 _ t (by omega)
    unfold step; rw [h2]; dsimp only; rw [if_neg hr]

theorem bind_assoc {α β γ : Type} (m : Prog α) (f : α → Prog β) (g : β → Prog γ) :
    Prog.bind (Prog.bind m f) g = Prog.bind m fun a => Prog.bind (f a) g := by
  funext s
  simp only [Prog.bind]
  rcases m s with ⟨x, s'⟩
  cases x <;> rfl

theorem finally_pure (f : Prog Unit) : Prog.finally_ (Prog.pure ()) f = f := by
  funext s
  simp only [Prog.finally_, Prog.pure]
  rcases h : f s with ⟨x, s'⟩
  cases x <;> rfl

theorem run_visit {r : Repo} {i : Nat} (h0r : s.repo = r) (h0k : s.stuck = false) (h0p : s.pc i = .start) :
    ∃ x m, Env.visit ⟨fun _ => none, mess⟩ (ref i) (Prog.pure ()) ⟨r, 0⟩ = (x, m) ∧
    (run mess ref s (List.replicate 7 (i, false))).pc i = ending x ∧
    (run mess ref s (List.replicate 7 (i, false))).repo = m.repo := by
  have h0 : step mess ref s i false =
      s.goto i (if (r.refs (ref i)).isSome then .valid else .raised .nameError) := by unfold step; rw [h0p, h0r]
  rw [show (7 : Nat) = 6 + 1 from rfl, List.replicate_succ, run, h0]
  unfold Env.visit Env.enter
  simp only [finally_pure]
  rw [bind_assoc]
  simp only [Prog.bind]
  by_cases hv : (r.refs (ref i)).isSome = true
  · simp only [hv, ↓reduceIte]
    generalize hs1 : s.goto i .valid = s1
    have hr1 : s1.repo = r := by rw [← hs1]; exact h0r
    have hk1 : s1.stuck = false := by rw [← hs1]; exact h0k
    have hp1 : s1.pc i = .valid := by rw [← hs1]; simp [State.goto]
    rw [show (6 : Nat) = 5 + 1 from rfl, List.replicate_succ, run]
    have h1 : step mess ref s1 i false = s1.goto i (match r.head with
      | .branch n => .known n
      | .detached _ => .raised .typeError) := by unfold step; rw [hp1, hr1]; cases r.head <;> rfl
    simp only [Prog.bind]
    unfold activeBranch
    dsimp only
    cases hh : r.head with
    | detached c =>
      rw [hh] at h1
      dsimp only at h1 ⊢
      refine ⟨_, _, rfl, ?_⟩
      have he : (step mess ref s1 i false).pc i = ending (.error .typeError) := by rw [h1]; simp [State.goto, ending]
      rw [run_done he, h1]
      exact ⟨by simp [State.goto, ending], hr1⟩
    | branch n =>
      rw [hh] at h1
      dsimp only at h1 ⊢
      rw [h1]
      generalize hs2 : s1.goto i (.known n) = s2
      have hr2 : s2.repo = r := by rw [← hs2, ← hr1]; rfl
      have hk2 : s2.stuck = false := by rw [← hs2]; exact hk1
      have hp2 : s2.pc i = .known n := by rw [← hs2]; simp [State.goto]
      have key := run_command (mess := mess) (ref := ref) (k := 4) (t := 0) (i := i) (f := stashPush true)
        (pc := fun kept => if ref i = .head n then .inside n kept else .stashed n kept)
        (m := fun stashed => if ref i = .head n then Env.exit ⟨fun _ => none, mess⟩ (ref i) n stashed
          else Prog.bind (Env.checkout ⟨fun _ => none, mess⟩ (ref i)) fun _ => Env.exit ⟨fun _ => none, mess⟩ (ref i) n stashed)
        hk2 (by unfold step; rw [hp2]) (fun kept s' t h3 h4 => by
          by_cases hr : ref i = .head n
          · simp only [hr, ↓reduceIte] at h4 ⊢
            rw [← hr]
            exact run_exit h3 h4 1 t
          · simp only [hr, ↓reduceIte] at h4 ⊢
            refine run_leave (pc := .inside n kept) h3 (by unfold step; rw [h4]) fun s'' t h5 h6 => run_exit h5 h6 0 t)
      rw [hr2] at key
      obtain ⟨x, m', h5, h6⟩ := key
      refine ⟨x, m', ?_, h6⟩
      rw [← h5]
      simp only [Prog.bind, Env.stash, Prog.cmd]
      cases stashPush true r with
      | error e => rfl
      | ok y =>
        dsimp only
        by_cases hr : ref i = .head n
        · simp only [hr, ↓reduceIte, Prog.pure]
        · simp only [hr, ↓reduceIte, Prog.bind, Prog.pure]
          rcases Env.checkout ⟨fun _ => none, mess⟩ (ref i) ⟨y.2, 0 + 1⟩ with ⟨o, m2⟩
          cases o <;> rfl
  · simp only [hv]
    refine ⟨_, _, rfl, ?_⟩
    have he : (s.goto i (.raised .nameError)).pc i = ending (.error .nameError) := by simp [State.goto, ending]
    simp only [Bool.false_eq_true, ↓reduceIte]
    rw [run_done he]
    exact ⟨by simp [State.goto, ending], h0r⟩

/-- **C149**: a process that is alone does what one process does (`Env.visit`, for which see C60), when no command fails. -/
theorem C149_alone (r : Repo) (i : Nat) : ∃ x m, Env.visit ⟨fun _ => none, mess⟩ (ref i) (Prog.pure ()) ⟨r, 0⟩ = (x, m) ∧
    (run mess ref (State.init r) (List.replicate 7 (i, false))).pc i = ending x ∧
    (run mess ref (State.init r) (List.replicate 7 (i, false))).repo = m.repo := run_visit rfl rfl rfl

/-! ## It ends -/

/-- The steps that are left at most. -/
def Pc.left : Pc → Nat
  | .start => 7
  | .valid => 6
  | .known _ => 5
  | .stashed _ _ => 4
  | .inside _ _ => 3
  | .leaving _ _ _ => 2
  | .popping _ _ => 1
  | .returned | .raised _ => 0

theorem goto_left {i : Nat} {pc : Pc} : ((s.goto i pc).pc i) = pc := by simp [State.goto]

theorem command_left {i k : Nat} {fail : Bool} {f : Except PyErr (Pc × Repo)} (hf : ∀ pc r, f = .ok (pc, r) → pc.left ≤ k) :
    ((s.command i fail f).pc i).left ≤ k := by
  unfold State.command
  split
  · rw [goto_left]; exact Nat.zero_le _
  · split
    · dsimp only; rw [goto_left]; exact hf _ _ rfl
    · rw [goto_left]; exact Nat.zero_le _

theorem after_left {α : Type} {k : Nat} {g : α → Pc × Repo} {x : Except PyErr α} (h : ∀ a, (g a).1.left ≤ k) :
    ∀ pc r, after g x = .ok (pc, r) → pc.left ≤ k := by
  intro pc r he
  cases x with
  | error e => simp [after] at he
  | ok a =>
    simp only [after, Except.ok.injEq] at he
    have := h a
    rw [he] at this
    exact this

theorem leave_left {i k : Nat} {fail : Bool} {rf : Ref} {pc : Pc} (h : pc.left ≤ k) : ((leave s i fail rf pc).pc i).left ≤ k := by
  unfold leave
  split
  · rw [goto_left]; exact Nat.zero_le _
  · exact command_left (after_left fun _ => h)

theorem pop_left {i k : Nat} {fail : Bool} : ((s.pop mess i fail k).pc i).left = 0 := by
  unfold State.pop
  split
  · rw [goto_left]; rfl
  · split <;> (dsimp only; rw [goto_left]; rfl)

theorem step_left (i : Nat) (fail : Bool) : ((step mess ref s i fail).pc i).left ≤ (s.pc i).left - 1 := by
  unfold step
  split <;> rename_i e
  · rw [e, goto_left]; split <;> simp [Pc.left]
  · rw [e, goto_left]; split <;> simp [Pc.left]
  · rw [e]; exact command_left (after_left fun a => by dsimp only; split <;> simp [Pc.left])
  · rw [e]; exact leave_left (by simp [Pc.left])
  · rw [e]; exact command_left (after_left fun a => by simp [Pc.left])
  · rw [e]; split
    · rw [goto_left]; simp [Pc.left]
    · exact leave_left (by simp [Pc.left])
  · rw [e]; split
    · rw [pop_left]; exact Nat.zero_le _
    · rw [goto_left]; simp [Pc.left]
  · rw [e]; simp [Pc.left]
  · rw [e]; simp [Pc.left]

theorem goto_other {i j : Nat} {pc : Pc} (h : j ≠ i) : (s.goto i pc).pc j = s.pc j := by simp [State.goto, h]

theorem command_other {i j : Nat} {fail : Bool} {f : Except PyErr (Pc × Repo)} (h : j ≠ i) : (s.command i fail f).pc j = s.pc j := by
  unfold State.command
  split
  · exact goto_other h
  · split <;> exact goto_other h

theorem step_other {i j : Nat} {fail : Bool} (h : j ≠ i) : (step mess ref s i fail).pc j = s.pc j := by
  have hl : ∀ rf pc, (leave s i fail rf pc).pc j = s.pc j := by
    intro rf pc
    unfold leave
    split
    · exact goto_other h
    · exact command_other h
  unfold step
  split
  · exact goto_other h
  · exact goto_other h
  · exact command_other h
  · exact hl _ _
  · exact command_other h
  · split
    · exact goto_other h
    · exact hl _ _
  · split
    · unfold State.pop
      split
      · exact goto_other h
      · split <;> exact goto_other h
    · exact goto_other h
  · rfl
  · rfl

theorem run_left (i : Nat) (sched : List (Nat × Bool)) :
    ((run mess ref s sched).pc i).left ≤ (s.pc i).left - sched.countP fun x => x.1 == i := by
  induction sched generalizing s with
  | nil => simp [run]
  | cons a rest ih =>
    refine Nat.le_trans (ih (s := step mess ref s a.1 a.2)) ?_
    rw [List.countP_cons]
    by_cases h : a.1 = i
    · have := step_left (mess := mess) (ref := ref) (s := s) i a.2
      rw [h]
      simp only [beq_self_eq_true, ↓reduceIte]
      omega
    · rw [step_other (Ne.symm h)]
      simp [h]

/-- **C149**: a process that makes seven steps has returned or raised, whatever the others do: nothing waits. -/
theorem C149_ends (r : Repo) (i : Nat) (sched : List (Nat × Bool)) (h : 7 ≤ sched.countP fun x => x.1 == i) :
    (run mess ref (State.init r) sched).pc i = .returned ∨ ∃ e, (run mess ref (State.init r) sched).pc i = .raised e := by
  have := run_left (mess := mess) (ref := ref) (s := State.init r) i sched
  have h7 : ((State.init r).pc i).left = 7 := rfl
  rw [h7] at this
  generalize (run mess ref (State.init r) sched).pc i = pc at this
  cases pc <;> simp [Pc.left] at this ⊢ <;> omega

/-! ## One after the other -/

theorem step_stuck (i : Nat) (fail : Bool) : (step mess ref s i fail).stuck = s.stuck ∨ ∃ e, (step mess ref s i fail).pc i = .raised e := by
  have hc : ∀ f, (s.command i fail f).stuck = s.stuck := by
    intro f
    unfold State.command
    split
    · rfl
    · split <;> rfl
  have hl : ∀ rf pc, (leave s i fail rf pc).stuck = s.stuck := by
    intro rf pc
    unfold leave
    split
    · rfl
    · exact hc _
  unfold step
  split
  · exact .inl rfl
  · exact .inl rfl
  · exact .inl (hc _)
  · exact .inl (hl _ _)
  · exact .inl (hc _)
  · split
    · exact .inl rfl
    · exact .inl (hl _ _)
  · split
    · unfold State.pop
      split
      · exact .inl rfl
      · split
        · exact .inl rfl
        · exact .inr ⟨.gitError, by simp [State.goto]⟩
    · exact .inl rfl
  · exact .inl rfl
  · exact .inl rfl

theorem run_stuck {i : Nat} (k : Nat) (h : (run mess ref s (List.replicate k (i, false))).pc i = .returned) :
    (run mess ref s (List.replicate k (i, false))).stuck = s.stuck := by
  induction k generalizing s with
  | zero => rfl
  | succ k ih =>
    rw [List.replicate_succ, run] at h ⊢
    rcases step_stuck (mess := mess) (ref := ref) (s := s) i false with h1 | ⟨e, h1⟩
    · rw [ih h, h1]
    · rw [run_done (x := .error e) h1] at h
      rw [h1] at h; cases h

theorem run_other {j : Nat} {sched : List (Nat × Bool)} (h : ∀ x ∈ sched, x.1 ≠ j) : (run mess ref s sched).pc j = s.pc j := by
  induction sched generalizing s with
  | nil => rfl
  | cons a rest ih =>
    rw [run, ih fun x hx => h x (List.mem_cons_of_mem _ hx)]
    exact step_other (Ne.symm (h a List.mem_cons_self))

theorem run_append (l l' : List (Nat × Bool)) : run mess ref s (l ++ l') = run mess ref (run mess ref s l) l' := by
  induction l generalizing s with
  | nil => rfl
  | cons a rest ih => exact ih

/-- One after the other. -/
def inTurn (is : List Nat) : List (Nat × Bool) := is.flatMap fun i => List.replicate 7 (i, false)

theorem run_inTurn {b : Str} {c : Commit} (is : List Nat) (hnd : is.Nodup) {r : Repo} (h0r : s.repo = r) (h0k : s.stuck = false)
    (h0p : ∀ i ∈ is, s.pc i = .start) (hb : r.head = .branch b) (hc : r.refs (.head b) = some c)
    (href : ∀ i ∈ is, (r.refs (ref i)).isSome) (htag : ∀ i ∈ is, ∀ n, ref i ≠ .tag n) (hcov : Covered r) :
    (∀ i ∈ is, (run mess ref s (inTurn is)).pc i = .returned) ∧ (run mess ref s (inTurn is)).repo.head = r.head ∧
      (run mess ref s (inTurn is)).repo.refs = r.refs ∧ (run mess ref s (inTurn is)).repo.work = r.work ∧
      (run mess ref s (inTurn is)).repo.stash = r.stash := by
  induction is generalizing s r with
  | nil => exact ⟨by simp, by rw [← h0r]; rfl, by rw [← h0r]; rfl, by rw [← h0r]; rfl, by rw [← h0r]; rfl⟩
  | cons i is ih =>
    have hcons : inTurn (i :: is) = List.replicate 7 (i, false) ++ inTurn is := by simp [inTurn]
    rw [hcons]
    simp only [run_append]
    obtain ⟨x, m, hv, h1, h2⟩ := run_visit (mess := mess) (ref := ref) h0r h0k (h0p i List.mem_cons_self)
    obtain ⟨c', hc'⟩ := Option.isSome_iff_exists.1 (href i List.mem_cons_self)
    have hpol : Polite b (ref i) c' (Prog.pure ()) := fun s _ hh _ _ => ⟨rfl, rfl, by
      show s.repo.commit.isSome = true
      rw [hh]; rfl, fun _ => rfl⟩
    obtain ⟨t, t', h2', h3, h4, h5, h6, h7, h8, h9, h10⟩ := C60_restored_partial ⟨fun _ => none, mess⟩ (t := 0) (fun _ => rfl) hb hc hc'
      (htag i List.mem_cons_self) hcov hpol
    have hi : ∀ p, (c.tree p).isSome → m.repo.index p = c.tree p := fun p hp => by
      have := C60_staged_counterexample ⟨fun _ => none, mess⟩ (t := 0) (fun _ => rfl) hb hc hc' (htag i List.mem_cons_self) hcov hpol hp
      rw [hv] at this
      exact this
    rw [hv] at h6 h7 h8 h9 h10
    simp only [Prog.pure, Prod.mk.injEq] at h6
    obtain ⟨rfl, rfl⟩ := h6
    dsimp only at h7 h8 h9 h10
    have hrefs : m.repo.refs = r.refs := h8.trans h2'
    have htc : t.repo.commit = some c' := by
      unfold Repo.commit
      rw [h3, h2']
      cases hr : ref i with
      | head n => rw [hr] at hc'; exact hc'
      | remote n => rfl
      | tag n => rfl
    have htcl : Clean t.repo := by
      have : t.repo.tree = c'.tree := by unfold Repo.tree; rw [htc]; rfl
      exact ⟨by rw [h4, this], by rw [h5, this]⟩
    have hstash : m.repo.stash = r.stash := by
      rcases h10 with ⟨-, h⟩ | ⟨h, -⟩
      · exact h
      · exfalso
        rcases h with ⟨p, hp⟩ | ⟨p, -, hp⟩ | ⟨-, p, hp⟩
        · exact hp (by rw [htcl.1])
        · exact hp (by rw [htcl.1, htcl.2])
        · apply hp
          unfold Repo.others
          rw [htcl.1, htcl.2]
          cases t.repo.tree p <;> simp
    have hk1 := run_stuck (mess := mess) (ref := ref) (s := s) 7 h1
    have hp1 : ∀ j ∈ is, (run mess ref s (List.replicate 7 (i, false))).pc j = .start := fun j hj => by
      rw [run_other fun x hx => by
        rw [(List.mem_replicate.1 hx).2]
        rintro rfl
        exact (List.nodup_cons.1 hnd).1 hj]
      exact h0p j (List.mem_cons_of_mem _ hj)
    generalize run mess ref s (List.replicate 7 (i, false)) = s1 at h1 h2 hk1 hp1
    have hmc : m.repo.commit = some c := by unfold Repo.commit; rw [h7, hb]; dsimp only; rw [hrefs]; exact hc
    obtain ⟨g1, g2, g3, g4, g5⟩ := ih (List.nodup_cons.1 hnd).2 h2 (hk1.trans h0k) hp1 (h7.trans hb) (by rw [hrefs]; exact hc)
      (fun j hj => by rw [hrefs]; exact href j (List.mem_cons_of_mem _ hj)) (fun j hj => htag j (List.mem_cons_of_mem _ hj))
      (fun p hp _ => by
        have : m.repo.tree = c.tree := by unfold Repo.tree; rw [hmc]; rfl
        rw [this] at hp
        rw [hi p hp]
        exact hp)
    refine ⟨fun j hj => ?_, g2.trans h7, g3.trans hrefs, g4.trans h9, g5.trans hstash⟩
    rcases List.mem_cons.1 hj with rfl | hj
    · rw [run_other fun x hx => ?_]
      · exact h1
      · obtain ⟨k, hk, hx⟩ := List.mem_flatMap.1 hx
        rw [(List.mem_replicate.1 hx).2]
        rintro rfl
        exact (List.nodup_cons.1 hnd).1 hk
    · exact g1 j hj

/-- **C149**: when processes visit refs one after the other and no command fails, all of them return, and the branch, the files in the
working directory, the refs and the stash are as before. -/
theorem C149_serial_partial {b : Str} {c : Commit} (is : List Nat) (hnd : is.Nodup) {r : Repo} (hb : r.head = .branch b) (hc : r.refs (.head b) = some c)
    (href : ∀ i ∈ is, (r.refs (ref i)).isSome) (htag : ∀ i ∈ is, ∀ n, ref i ≠ .tag n) (hcov : Covered r) :
    (∀ i ∈ is, (run mess ref (State.init r) (inTurn is)).pc i = .returned) ∧ (run mess ref (State.init r) (inTurn is)).repo.head = r.head ∧
      (run mess ref (State.init r) (inTurn is)).repo.refs = r.refs ∧ (run mess ref (State.init r) (inTurn is)).repo.work = r.work ∧
      (run mess ref (State.init r) (inTurn is)).repo.stash = r.stash :=
  run_inTurn is hnd rfl rfl (fun _ _ => rfl) hb hc href htag hcov

/-! ## Two processes -/

/-- Two processes visit the branch `x`: the first is in its block when the second begins, and leaves it before the second does. -/
def overlap : List (Nat × Bool) :=
  [(0, false), (0, false), (0, false), (0, false), (1, false), (1, false), (1, false), (0, false), (0, false), (0, false)]

/-- The second one leaves its block. -/
def rest : List (Nat × Bool) := [(1, false), (1, false), (1, false)]

/-- Where two processes are. -/
structure At (s : State) (i j : Nat) (r : Repo) (p q : Pc) : Prop where
  repo : s.repo = r
  stuck : s.stuck = false
  one : s.pc i = p
  two : s.pc j = q

theorem At.swap {i j : Nat} {r : Repo} {p q : Pc} (h : At s i j r p q) : At s j i r q p := ⟨h.repo, h.stuck, h.two, h.one⟩

theorem At.goto {i j : Nat} {r : Repo} {p q p' : Pc} (h : At s i j r p q) (hij : i ≠ j) (hs : step mess ref s i false = s.goto i p') :
    At (step mess ref s i false) i j r p' q := by
  rw [hs]
  exact ⟨h.repo, h.stuck, goto_left, by rw [goto_other (Ne.symm hij)]; exact h.two⟩

theorem At.cmd {i j : Nat} {r r' : Repo} {p q p' : Pc} {f : Except PyErr (Pc × Repo)} (h : At s i j r p q) (hij : i ≠ j)
    (hs : step mess ref s i false = s.command i false f) (hf : f = .ok (p', r')) : At (step mess ref s i false) i j r' p' q := by
  rw [hs, hf]
  simp only [State.command, h.stuck, Bool.or_self, Bool.false_eq_true, ↓reduceIte]
  refine ⟨rfl, h.stuck, goto_left, ?_⟩
  exact (goto_other (Ne.symm hij)).trans h.two

variable {i j : Nat} {r : Repo} {q : Pc}

theorem At.begin {c : Commit} {n : Str} (h : At s i j r .start q) (hij : i ≠ j) (hr : r.refs (ref i) = some c) (hh : r.head = .branch n) :
    At (step mess ref (step mess ref s i false) i false) i j r (.known n) q := by
  have h1 : At (step mess ref s i false) i j r .valid q := h.goto hij (by unfold step; rw [h.one, h.repo, hr]; rfl)
  exact h1.goto hij (by
    generalize step mess ref s i false = s' at h1 ⊢
    unfold step; rw [h1.one, h1.repo, hh])

theorem stash_clean {c : Commit} (h : Clean r) (hc : r.commit = some c) : stashPush true r = .ok (false, r) := by
  unfold stashPush
  rw [hc]
  dsimp only
  rw [if_neg]
  rintro (⟨p, hp⟩ | ⟨p, -, hp⟩ | ⟨-, p, hp⟩)
  · exact hp (by rw [h.1])
  · exact hp (by rw [h.1, h.2])
  · apply hp
    unfold Repo.others
    rw [h.1, h.2]
    cases r.tree p <;> simp

theorem stash_changed {c : Commit} (h : r.work ≠ r.tree) (hc : r.commit = some c) :
    ∃ r', stashPush true r = .ok (true, r') ∧ Stashed r true r' := by
  cases hx : stashPush true r with
  | error e =>
    unfold stashPush at hx
    rw [hc] at hx
    dsimp only at hx
    split at hx <;> cases hx
  | ok y =>
    have hst := stash_spec (again := y.1) (r' := y.2) hx
    have : y.1 = true := by
      refine hst.some.2 (Classical.byContradiction fun hn => h (unchanged_clean hn).2)
    refine ⟨y.2, by rw [← this], this ▸ hst⟩

/-- **C149** fails when visits overlap: it is false that everything is as before when all have returned.  When two processes visit the same
other branch, and the second begins while the first is in its block and leaves after it, then the second has the files of the first branch
in its block, with the changes of the user; and when both have returned, these changes are no longer in the working directory: they are in
the stash, and nothing is left to bring them back. -/
theorem C149_together_counterexample {b x : Str} {c c' : Commit} (hb : r.head = .branch b) (hc : r.refs (.head b) = some c)
    (hx : r.refs (.head x) = some c') (hne : x ≠ b) (hcov : Covered r) (hw : r.work ≠ r.tree) (h0 : ref 0 = .head x) (h1 : ref 1 = .head x) :
    ((run mess ref (State.init r) overlap).pc 0 = .returned ∧ (run mess ref (State.init r) overlap).pc 1 = .inside x false ∧
      (run mess ref (State.init r) overlap).repo.head = .branch b ∧ (run mess ref (State.init r) overlap).repo.work = r.work) ∧
    ((run mess ref (State.init r) (overlap ++ rest)).pc 0 = .returned ∧ (run mess ref (State.init r) (overlap ++ rest)).pc 1 = .returned ∧
      (run mess ref (State.init r) (overlap ++ rest)).repo.head = .branch b ∧
      (run mess ref (State.init r) (overlap ++ rest)).repo.work = c.tree ∧
      ∃ e, (run mess ref (State.init r) (overlap ++ rest)).repo.stash = e :: r.stash ∧
        ∀ p, (if (e.work p).isSome then e.work p else e.untracked p) = r.work p) := by
  have hrc : r.commit = some c := by unfold Repo.commit; rw [hb]; exact hc
  have hrt : r.tree = c.tree := by unfold Repo.tree; rw [hrc]; rfl
  have n01 : (0 : Nat) ≠ 1 := by decide
  have hxb : Ref.head x ≠ Ref.head b := fun h => hne (Ref.head.inj h)
  -- the first enters
  have a0 : At (State.init r) 0 1 r .start .start := ⟨rfl, rfl, rfl, rfl⟩
  have a2 := a0.begin (mess := mess) (ref := ref) n01 (by rw [h0]; exact hx) hb
  generalize hs2 : step mess ref (step mess ref (State.init r) 0 false) 0 false = s2 at a2
  obtain ⟨r1, e1, t1⟩ := stash_changed hw hrc
  have a3 := a2.cmd (mess := mess) (ref := ref) (p' := .stashed b true) (r' := r1) n01 (by unfold step; rw [a2.one]) (by rw [a2.repo, e1]; simp [after, h0, hne])
  generalize hs3 : step mess ref s2 0 false = s3 at a3
  have hr1x : r1.refs (.head x) = some c' := by rw [t1.refs]; exact hx
  have k1 := checkout_clean t1.clean hr1x
  generalize hr2 : ({ r1 with head := headOf (.head x) c', index := c'.tree, work := c'.tree } : Repo) = r2 at k1
  have a4 := a3.cmd (mess := mess) (ref := ref) (p' := .inside b true) (r' := r2) n01 (by
      unfold step; rw [a3.one]; dsimp only; rw [h0]; rfl) (by rw [a3.repo, k1]; rfl)
  generalize hs4 : step mess ref s3 0 false = s4 at a4
  have hr2h : r2.head = .branch x := by rw [← hr2]; rfl
  have hr2r : r2.refs = r.refs := by rw [← hr2]; exact t1.refs
  have hr2c : r2.commit = some c' := by unfold Repo.commit; rw [hr2h]; dsimp only; rw [hr2r]; exact hx
  have hr2cl : Clean r2 := by
    have : r2.tree = c'.tree := by unfold Repo.tree; rw [hr2c]; rfl
    refine ⟨?_, ?_⟩ <;> rw [this, ← hr2]
  -- the second enters
  have a6 := a4.swap.begin (mess := mess) (ref := ref) n01.symm (by rw [h1, hr2r]; exact hx) hr2h
  generalize hs6 : step mess ref (step mess ref s4 1 false) 1 false = s6 at a6
  have a7 := a6.cmd (mess := mess) (ref := ref) (p' := .inside x false) (r' := r2) n01.symm (by unfold step; rw [a6.one])
    (by rw [a6.repo, stash_clean hr2cl hr2c]; simp [after, h1])
  generalize hs7 : step mess ref s6 1 false = s7 at a7
  -- the first leaves
  have a7 := a7.swap
  have a8 := a7.cmd (mess := mess) (ref := ref) (p' := .leaving b true false) (r' := r2) n01 (by unfold step; rw [a7.one])
    (by rw [a7.repo, stash_clean hr2cl hr2c]; rfl)
  generalize hs8 : step mess ref s7 0 false = s8 at a8
  have k2 := checkout_clean hr2cl (show r2.refs (.head b) = some c by rw [hr2r]; exact hc)
  generalize hr3 : ({ r2 with head := headOf (.head b) c, index := c.tree, work := c.tree } : Repo) = r3 at k2
  have a9 := a8.cmd (mess := mess) (ref := ref) (p' := .popping true false) (r' := r3) n01 (by
      unfold step; rw [a8.one]; dsimp only; rw [if_neg (by rw [h0]; exact fun h => hxb h.symm)]; rfl) (by rw [a8.repo, k2]; rfl)
  generalize hs9 : step mess ref s8 0 false = s9 at a9
  have hr3h : r3.head = .branch b := by rw [← hr3]; rfl
  have hr3r : r3.refs = r.refs := by rw [← hr3]; exact hr2r
  have hr3c : r3.commit = some c := by unfold Repo.commit; rw [hr3h]; dsimp only; rw [hr3r]; exact hc
  have hr3t : r3.tree = c.tree := by unfold Repo.tree; rw [hr3c]; rfl
  have hr3s : r3.stash = entryOf r :: r.stash := by rw [← hr3, ← hr2]; exact t1.stash
  have hr3cl : Clean r3 := by refine ⟨?_, ?_⟩ <;> rw [hr3t, ← hr3]
  have k3 := pop_clean (mess := mess) (k := 0) hr3cl (hr3t.trans hrt.symm) hcov (by rw [hr3s]; rfl)
  generalize hr4 : ({ r3 with index := unstaged r, work := r.work, stash := r3.stash.eraseIdx 0 } : Repo) = r4 at k3
  have a10 : At (step mess ref s9 0 false) 0 1 r4 .returned (.inside x false) := by
    have : step mess ref s9 0 false = { s9.goto 0 .returned with repo := r4 } := by
      unfold step
      rw [a9.one]
      simp only [↓reduceIte, Bool.false_eq_true, State.pop, a9.stuck, Bool.or_self, a9.repo, k3]
    rw [this]
    exact ⟨rfl, a9.stuck, by simp [State.goto], by simpa [State.goto] using a9.two⟩
  have ho : run mess ref (State.init r) overlap = step mess ref s9 0 false := by
    rw [← hs9, ← hs8, ← hs7, ← hs6, ← hs4, ← hs3, ← hs2]; rfl
  have ho' : run mess ref (State.init r) (overlap ++ rest) =
      step mess ref (step mess ref (step mess ref (step mess ref s9 0 false) 1 false) 1 false) 1 false := by
    rw [← hs9, ← hs8, ← hs7, ← hs6, ← hs4, ← hs3, ← hs2]; rfl
  rw [ho, ho']
  generalize step mess ref s9 0 false = s10 at a10
  have hr4w : r4.work = r.work := by rw [← hr4]
  have hr4h : r4.head = .branch b := by rw [← hr4]; exact hr3h
  have hr4c : r4.commit = some c := by rw [← hr4]; exact hr3c
  have hr4t : r4.tree = c.tree := by unfold Repo.tree; rw [hr4c]; rfl
  have hr4s : r4.stash = r.stash := by rw [← hr4]; dsimp only; rw [hr3s]; rfl
  refine ⟨⟨a10.one, a10.two, by rw [a10.repo, hr4h], by rw [a10.repo, hr4w]⟩, ?_⟩
  -- the second leaves
  have a10 := a10.swap
  obtain ⟨r5, e5, t5⟩ := stash_changed (r := r4) (by rw [hr4w, hr4t, ← hrt]; exact hw) hr4c
  have a11 := a10.cmd (mess := mess) (ref := ref) (p' := .leaving x false true) (r' := r5) n01.symm (by unfold step; rw [a10.one])
    (by rw [a10.repo, e5]; rfl)
  generalize step mess ref s10 1 false = s11 at a11
  have a12 := a11.goto (mess := mess) (ref := ref) (p' := .popping false true) n01.symm (by
    unfold step; rw [a11.one]; dsimp only; rw [if_pos h1.symm])
  generalize step mess ref s11 1 false = s12 at a12
  have a13 := a12.goto (mess := mess) (ref := ref) (p' := .returned) n01.symm (by unfold step; rw [a12.one]; rfl)
  refine ⟨a13.two, a13.one, by rw [a13.repo, t5.head, hr4h], by rw [a13.repo, t5.work, hr4t], entryOf r4, ?_, fun p => ?_⟩
  · rw [a13.repo, t5.stash, hr4s]; rfl
  · rw [entry_work, hr4w]

/-! ## A case -/

-- C149_kept_partial, C149_refs: a changed file and one that git does not know
example : Sound sampleRepo ∧ Has sampleRepo ['a'] [2] ∧ Has sampleRepo ['n'] [3] ∧ Has sampleRepo ['a'] [1] := by
  refine ⟨⟨fun c hc => ⟨.head ['m'], hc⟩, fun e he => ?_⟩, .inl ?_, .inl ?_, .inr (.inl ⟨.head ['m'], .mk sampleTree none, _, ?_, .refl _, ?_⟩)⟩
  · simp [sampleRepo] at he
  all_goals simp [sampleRepo, sampleTree, Commit.tree]

-- what a conflict leaves may have the content of the working directory between its marks
example : ∃ mess : Repo → Tree × Tree, ∀ r p b, r.work p = some b → ∃ x, (mess r).2 p = some x ∧ b <:+: x :=
  ⟨fun r => (r.index, fun p => (r.work p).map fun b => [60, 60] ++ b ++ [62, 62]), fun r p b h => ⟨[60, 60] ++ b ++ [62, 62], by simp [h], [60, 60], [62, 62], rfl⟩⟩

-- C149_conflict: two entries that change a file to something else
example : Conflicts 0 ⟨fun _ => none, .branch ['m'], fun _ => some [2], fun _ => some [2], [⟨fun _ => some [1], fun _ => some [1], fun _ => some [3], fun _ => none⟩]⟩ :=
  ⟨_, rfl, fun ⟨_, _, h⟩ => h rfl, ['a'], by simp [merge3]⟩

-- C149_together_counterexample
example : ∃ c c', sampleRepo.head = .branch ['m'] ∧ sampleRepo.refs (.head ['m']) = some c ∧ sampleRepo.refs (.head ['d']) = some c' ∧
    (['d'] : Str) ≠ ['m'] ∧ Covered sampleRepo ∧ sampleRepo.work ≠ sampleRepo.tree := by
  refine ⟨_, _, rfl, rfl, rfl, by decide, fun p h _ => ?_, fun h => ?_⟩
  · rw [sample_tree] at h; exact h
  · have := congrFun h ['n']
    rw [sample_tree] at this
    simp [sampleRepo, sampleTree] at this

-- C149_serial_partial: both visit the other branch
example : (∀ i ∈ [0, 1], (sampleRepo.refs ((fun _ => .head ['d'] : Nat → Ref) i)).isSome) ∧ ([0, 1] : List Nat).Nodup :=
  ⟨fun _ _ => rfl, by decide⟩

/-- **C149**: a command of git that fails changes nothing in the repository, and the process that ran it raises, whatever it was about to do. -/
theorem C149_failing (mess : Repo → Tree × Tree) (ref : Nat → Ref) (s : State) (i : Nat) :
    (step mess ref s i true).repo = s.repo ∧ (step mess ref s i true).stuck = s.stuck ∧
    (∀ n, s.pc i = .known n → (step mess ref s i true).pc i = .raised .gitError) ∧
    (∀ n kept, s.pc i = .stashed n kept → (∀ t, ref i ≠ .tag t) → (step mess ref s i true).pc i = .raised .gitError) ∧
    (∀ n kept, s.pc i = .inside n kept → (step mess ref s i true).pc i = .raised .gitError) ∧
    (∀ n kept again, s.pc i = .leaving n kept again → ref i ≠ .head n → (step mess ref s i true).pc i = .raised .gitError) ∧
    (∀ again, s.pc i = .popping true again → (step mess ref s i true).pc i = .raised .gitError) := by
  refine ⟨?_, ?_, ?_, ?_, ?_, ?_, ?_⟩
  · unfold step; split <;> (try split) <;> simp [State.command, State.pop, leave, State.goto] <;> split <;> rfl
  · unfold step; split <;> (try split) <;> simp [State.command, State.pop, leave, State.goto] <;> split <;> rfl
  · intro n h; simp [step, h, State.command, State.goto]
  · intro n kept h ht
    cases e : ref i with
    | tag t => exact absurd e (ht t)
    | _ => simp [step, h, leave, e, State.command, State.goto]
  · intro n kept h; simp [step, h, State.command, State.goto]
  · intro n kept again h hr
    simp [step, h, Ne.symm hr, leave, State.command, State.goto]
  · intro again h; simp [step, h, State.pop, State.goto]

end Verif.Git.VisitRace
