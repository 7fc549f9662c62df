import Verif.Model.PackMemo
import Verif.Props.Release

/-!
# C152: what a package path remembers of the index, the site and the setup file
-/

namespace Verif.PackMemo
open Verif.Pep440

/-! ## The specification -/

/-- The path that looked. -/
def Event.obj : Event → Nat
  | .setup i _ | .index i _ _ | .token i _ | .uri i _ | .hub i _ _ _ => i

/-- What was looked at. -/
inductive Topic
  | setup
  | index
  | token
  | uri
  | hub
  deriving DecidableEq

def Event.topic : Event → Topic
  | .setup .. => .setup
  | .index .. => .index
  | .token .. => .token
  | .uri .. => .uri
  | .hub .. => .hub

/-- There was an answer that is to be kept. -/
def Event.Good : Event → Prop
  | .setup _ r => ∃ d, r = .ok d
  | .index _ _ r => ∃ x, r = .ok x
  | .token _ r => ∃ t, r = .ok t
  | .uri _ _ => False
  | .hub _ _ _ r => ∃ x, r = .ok x

/-- After an answer that is to be kept the same path does not ask for the same again (the latest first). -/
def AskedOnce (seen : List Event) : Prop := seen.Pairwise fun later earlier => earlier.Good → ¬ (later.topic = earlier.topic ∧ later.obj = earlier.obj)

/-! ## What the attributes are -/

structure Inv (s : State) : Prop where
  once : AskedOnce s.seen
  setup : ∀ i d, (s.objs i).setup = some d ↔ .setup i (.ok d) ∈ s.seen
  pypi : ∀ i x, (s.objs i).pypi = some x ↔ ∃ n, .index i n (.ok x) ∈ s.seen
  token : ∀ i t, (s.objs i).session = some (some t) ↔ .token i (.ok t) ∈ s.seen
  github : ∀ i x, (s.objs i).github = some x ↔ ∃ t u, .hub i t u (.ok x) ∈ s.seen
  named : ∀ i n r, .index i n r ∈ s.seen → ∃ d, (s.objs i).setup = some d ∧ d.name = n
  signed : ∀ i t u r, .hub i t u r ∈ s.seen → (s.objs i).session = some t

theorem Inv.init : Inv .init :=
  ⟨.nil, by simp [State.init, Obj.fresh], by simp [State.init, Obj.fresh], by simp [State.init, Obj.fresh], by simp [State.init, Obj.fresh], by simp [State.init],
    by simp [State.init]⟩

/-- What a call of a path may do. -/
structure Later (i : Nat) (s s' : State) : Prop where
  seen : ∃ new, s'.seen = new ++ s.seen ∧ ∀ e ∈ new, e.obj = i
  others : ∀ j, j ≠ i → s'.objs j = s.objs j
  setup : ∀ d, (s.objs i).setup = some d → (s'.objs i).setup = some d
  pypi : ∀ x, (s.objs i).pypi = some x → (s'.objs i).pypi = some x
  session : ∀ t, (s.objs i).session = some t → (s'.objs i).session = some t
  github : ∀ x, (s.objs i).github = some x → (s'.objs i).github = some x

theorem Later.refl (i : Nat) (s : State) : Later i s s :=
  ⟨⟨[], rfl, by simp⟩, fun _ _ => rfl, fun _ h => h, fun _ h => h, fun _ h => h, fun _ h => h⟩

theorem Later.trans {i : Nat} {s s' s'' : State} (h : Later i s s') (h' : Later i s' s'') : Later i s s'' := by
  obtain ⟨a, ha, ha'⟩ := h.seen
  obtain ⟨b, hb, hb'⟩ := h'.seen
  refine ⟨⟨b ++ a, by rw [hb, ha, List.append_assoc], fun e he => ?_⟩, fun j hj => (h'.others j hj).trans (h.others j hj), fun d hd => h'.setup d (h.setup d hd),
    fun x hx => h'.pypi x (h.pypi x hx), fun t ht => h'.session t (h.session t ht), fun x hx => h'.github x (h.github x hx)⟩
  rcases List.mem_append.1 he with he | he
  · exact hb' e he
  · exact ha' e he

/-- A call keeps the invariant. -/
def Keeps {α : Type} (i : Nat) (m : M α) : Prop := ∀ s, Inv s → Inv (m s).2 ∧ Later i s (m s).2

theorem Keeps.bind {α β : Type} {i : Nat} {m : M α} {f : α → M β} (hm : Keeps i m) (hf : ∀ a, Keeps i (f a)) : Keeps i (M.bind m f) := by
  intro s hs
  obtain ⟨h1, h2⟩ := hm s hs
  unfold M.bind
  generalize m s = o at h1 h2
  obtain ⟨o, s'⟩ := o
  cases o with
  | error e => exact ⟨h1, h2⟩
  | ok a =>
    obtain ⟨h3, h4⟩ := hf a s' h1
    exact ⟨h3, h2.trans h4⟩

theorem Keeps.lift {α : Type} (i : Nat) (r : Except PErr α) : Keeps i (M.lift r) := by
  intro s hs
  unfold M.lift
  cases r <;> exact ⟨hs, .refl i s⟩

theorem Keeps.fail {α : Type} (i : Nat) (e : BErr) : Keeps i (M.fail e : M α) := fun s hs => ⟨hs, .refl i s⟩

theorem Keeps.pure {α : Type} (i : Nat) (a : α) : Keeps i (M.pure a) := fun s hs => ⟨hs, .refl i s⟩

/-- Something is looked at, and there is nothing to keep. -/
theorem Inv.saw {s : State} (hs : Inv s) {e : Event} (hnot : ¬ e.Good) (hnew : ∀ e' ∈ s.seen, e'.Good → ¬ (e.topic = e'.topic ∧ e.obj = e'.obj))
    (hname : ∀ i n r, e = .index i n r → ∃ d, (s.objs i).setup = some d ∧ d.name = n)
    (hsign : ∀ i t u r, e = .hub i t u r → (s.objs i).session = some t) : Inv (s.saw e) where
  once := .cons hnew hs.once
  setup i d := by
    rw [show (s.saw e).objs = s.objs from rfl, hs.setup]
    refine ⟨fun h => List.mem_cons_of_mem _ h, fun h => (List.mem_cons.1 h).resolve_left ?_⟩
    rintro rfl; exact hnot ⟨_, rfl⟩
  pypi i x := by
    rw [show (s.saw e).objs = s.objs from rfl, hs.pypi]
    refine ⟨fun ⟨n, h⟩ => ⟨n, List.mem_cons_of_mem _ h⟩, fun ⟨n, h⟩ => ⟨n, (List.mem_cons.1 h).resolve_left ?_⟩⟩
    rintro rfl; exact hnot ⟨_, rfl⟩
  token i t := by
    rw [show (s.saw e).objs = s.objs from rfl, hs.token]
    refine ⟨fun h => List.mem_cons_of_mem _ h, fun h => (List.mem_cons.1 h).resolve_left ?_⟩
    rintro rfl; exact hnot ⟨_, rfl⟩
  github i x := by
    rw [show (s.saw e).objs = s.objs from rfl, hs.github]
    refine ⟨fun ⟨t, u, h⟩ => ⟨t, u, List.mem_cons_of_mem _ h⟩, fun ⟨t, u, h⟩ => ⟨t, u, (List.mem_cons.1 h).resolve_left ?_⟩⟩
    rintro rfl; exact hnot ⟨_, rfl⟩
  named i n r h := by
    rcases List.mem_cons.1 h with h | h
    · exact hname i n r h.symm
    · exact hs.named i n r h
  signed i t u r h := by
    rcases List.mem_cons.1 h with h | h
    · exact hsign i t u r h.symm
    · exact hs.signed i t u r h

theorem Later.saw {s : State} {i : Nat} {e : Event} (h : e.obj = i) : Later i s (s.saw e) :=
  ⟨⟨[e], rfl, by simpa using h⟩, fun _ _ => rfl, fun _ h => h, fun _ h => h, fun _ h => h, fun _ h => h⟩

theorem Later.keep {s : State} {i : Nat} {e : Event} {o : Obj} (h : e.obj = i) (h1 : ∀ d, (s.objs i).setup = some d → o.setup = some d)
    (h2 : ∀ d, (s.objs i).pypi = some d → o.pypi = some d) (h3 : ∀ d, (s.objs i).session = some d → o.session = some d)
    (h4 : ∀ d, (s.objs i).github = some d → o.github = some d) : Later i s ((s.saw e).set i o) := by
  refine ⟨⟨[e], rfl, by simpa using h⟩, fun j hj => by simp [State.set, State.saw, hj], ?_, ?_, ?_, ?_⟩ <;> (intro d hd; simp only [State.set, ↓reduceIte])
  · exact h1 d hd
  · exact h2 d hd
  · exact h3 d hd
  · exact h4 d hd

variable (E : Env)

theorem setupDist_keeps (i : Nat) : Keeps i (setupDist E i) := by
  intro s hs
  unfold setupDist
  cases h : (s.objs i).setup with
  | some d => exact ⟨hs, .refl i s⟩
  | none =>
    have hnew : ∀ r, ∀ e' ∈ s.seen, e'.Good → ¬ ((Event.setup i r).topic = e'.topic ∧ (Event.setup i r).obj = e'.obj) := by
      rintro r e' he hg ⟨h1, h2⟩
      cases e' <;> simp only [Event.topic, reduceCtorEq] at h1
      obtain ⟨d, rfl⟩ := hg
      simp only [Event.obj] at h2
      subst h2
      rw [← hs.setup, h] at he
      cases he
    dsimp only
    cases hr : E.setup s.now with
    | error e => exact ⟨hs.saw (by rintro ⟨d, hd⟩; cases hd) (hnew _) (by simp) (by simp), .saw rfl⟩
    | ok d =>
      refine ⟨⟨.cons (hnew _) hs.once, fun j d' => ?_, fun j x => ?_, fun j t => ?_, fun j x => ?_, fun j n r hm => ?_, fun j t u r hm => ?_⟩,
        .keep rfl (by rw [h]; simp) (fun _ h => h) (fun _ h => h) fun _ h => h⟩
      · by_cases hj : j = i
        · subst hj
          have := hs.setup j d'
          rw [h] at this
          simp only [State.set, State.saw, ↓reduceIte, List.mem_cons, ← this, Option.some.injEq, Event.setup.injEq, Except.ok.injEq, true_and, reduceCtorEq, or_false]
          exact ⟨Eq.symm, Eq.symm⟩
        · simp [State.set, State.saw, hj, hs.setup]
      · have := hs.pypi j x
        by_cases hj : j = i
        · subst hj; simpa [State.set, State.saw] using this
        · simpa [State.set, State.saw, hj] using this
      · have := hs.token j t
        by_cases hj : j = i
        · subst hj; simpa [State.set, State.saw] using this
        · simpa [State.set, State.saw, hj] using this
      · have := hs.github j x
        by_cases hj : j = i
        · subst hj; simpa [State.set, State.saw] using this
        · simpa [State.set, State.saw, hj] using this
      · have hm : Event.index j n r ∈ s.seen := by simpa [State.set, State.saw] using hm
        obtain ⟨d', h1, h2⟩ := hs.named j n r hm
        have hj : j ≠ i := by rintro rfl; rw [h] at h1; cases h1
        exact ⟨d', by simpa [State.set, State.saw, hj] using h1, h2⟩
      · have hm : Event.hub j t u r ∈ s.seen := by simpa [State.set, State.saw] using hm
        have := hs.signed j t u r hm
        by_cases hj : j = i
        · subst hj; simpa [State.set, State.saw] using this
        · simpa [State.set, State.saw, hj] using this

theorem askIndex_keeps {s : State} (hs : Inv s) {i : Nat} {d : Dist} (h : (s.objs i).pypi = none) (hd : (s.objs i).setup = some d) :
    Inv (askIndex E i d.name s).2 ∧ Later i s (askIndex E i d.name s).2 := by
  have hnew : ∀ r, ∀ e' ∈ s.seen, e'.Good → ¬ ((Event.index i d.name r).topic = e'.topic ∧ (Event.index i d.name r).obj = e'.obj) := by
    rintro r e' he hg ⟨h1, h2⟩
    cases e' <;> simp only [Event.topic, reduceCtorEq] at h1
    obtain ⟨x, rfl⟩ := hg
    simp only [Event.obj] at h2
    subst h2
    have := (hs.pypi i x).2 ⟨_, he⟩
    rw [h] at this
    cases this
  have hname : ∀ r, ∀ j n r', Event.index i d.name r = .index j n r' → ∃ d, (s.objs j).setup = some d ∧ d.name = n := by
    rintro r j n r' h
    injection h with h1 h2 h3
    subst h1 h2
    exact ⟨d, hd, rfl⟩
  unfold askIndex
  cases hr : E.index s.now with
  | raises e => exact ⟨hs.saw (by rintro ⟨d, hd⟩; cases hd) (hnew _) (hname _) (by simp), .saw rfl⟩
  | notOk => exact ⟨hs.saw (by rintro ⟨d, hd⟩; cases hd) (hnew _) (hname _) (by simp), .saw rfl⟩
  | ok x =>
    refine ⟨⟨.cons (hnew _) hs.once, fun j d' => ?_, fun j x' => ?_, fun j t => ?_, fun j x => ?_, fun j n r hm => ?_, fun j t u r hm => ?_⟩,
      .keep rfl (fun _ h => h) (by rw [h]; simp) (fun _ h => h) fun _ h => h⟩
    · have := hs.setup j d'
      by_cases hj : j = i
      · subst hj; simpa [State.set, State.saw] using this
      · simpa [State.set, State.saw, hj] using this
    · have := hs.pypi j x'
      by_cases hj : j = i
      · subst hj
        rw [h] at this
        simp only [State.set, State.saw, ↓reduceIte, List.mem_cons, exists_or, ← this, Option.some.injEq, Event.index.injEq, Reply.ok.injEq, true_and, reduceCtorEq, or_false,
          exists_eq_left]
        exact ⟨Eq.symm, Eq.symm⟩
      · simpa [State.set, State.saw, hj] using this
    · have := hs.token j t
      by_cases hj : j = i
      · subst hj; simpa [State.set, State.saw] using this
      · simpa [State.set, State.saw, hj] using this
    · have := hs.github j x
      by_cases hj : j = i
      · subst hj; simpa [State.set, State.saw] using this
      · simpa [State.set, State.saw, hj] using this
    · have : ∃ d', (s.objs j).setup = some d' ∧ d'.name = n := by
        rcases List.mem_cons.1 hm with hm | hm
        · exact hname _ j n r hm.symm
        · exact hs.named j n r hm
      by_cases hj : j = i
      · subst hj; simpa [State.set, State.saw] using this
      · simpa [State.set, State.saw, hj] using this
    · have hm : Event.hub j t u r ∈ s.seen := by simpa [State.set, State.saw] using hm
      have := hs.signed j t u r hm
      by_cases hj : j = i
      · subst hj; simpa [State.set, State.saw] using this
      · simpa [State.set, State.saw, hj] using this

/-- What `setup_dist` leaves. -/
theorem setupDist_ok {i : Nat} {s s' : State} {d : Dist} (h : setupDist E i s = (.ok d, s')) :
    (s'.objs i).setup = some d ∧ (s'.objs i).pypi = (s.objs i).pypi ∧ ∀ d', (s.objs i).setup = some d' → d' = d ∧ s' = s := by
  unfold setupDist at h
  cases hd : (s.objs i).setup with
  | some d' =>
    rw [hd] at h
    injection h with h1 h2
    injection h1 with h1
    subst h1 h2
    refine ⟨hd, rfl, fun d'' h => ?_⟩
    injection h with h
    exact ⟨h.symm, rfl⟩
  | none =>
    rw [hd] at h
    dsimp only at h
    split at h
    · injection h with h1; cases h1
    · injection h with h1 h2
      injection h1 with h1
      subst h1 h2
      exact ⟨by simp [State.set], by simp [State.set], by simp⟩

theorem pypiJson_keeps (i : Nat) : Keeps i (pypiJson E i) := by
  intro s hs
  unfold pypiJson
  cases h : (s.objs i).pypi with
  | some x => exact ⟨hs, .refl i s⟩
  | none =>
    obtain ⟨h1, h2⟩ := setupDist_keeps E i s hs
    dsimp only
    unfold M.bind
    have h3 := @setupDist_ok E i s
    generalize setupDist E i s = o at h1 h2 h3
    obtain ⟨o, s'⟩ := o
    cases o with
    | error e => exact ⟨h1, h2⟩
    | ok d =>
      obtain ⟨h3, h4, -⟩ := h3 rfl
      obtain ⟨h5, h6⟩ := askIndex_keeps E h1 (h4.trans h) h3
      exact ⟨h5, h2.trans h6⟩

theorem githubSession_keeps (i : Nat) : Keeps i (githubSession E i) := by
  intro s hs
  unfold githubSession
  cases h : (s.objs i).session with
  | some d => exact ⟨hs, .refl i s⟩
  | none =>
    have hnew : ∀ r, ∀ e' ∈ s.seen, e'.Good → ¬ ((Event.token i r).topic = e'.topic ∧ (Event.token i r).obj = e'.obj) := by
      rintro r e' he hg ⟨h1, h2⟩
      cases e' <;> simp only [Event.topic, reduceCtorEq] at h1
      obtain ⟨d, rfl⟩ := hg
      simp only [Event.obj] at h2
      subst h2
      rw [← hs.token, h] at he
      cases he
    have hhub : ∀ t u r, Event.hub i t u r ∉ s.seen := by
      intro t u r hm
      have := hs.signed i t u r hm
      rw [h] at this
      cases this
    dsimp only
    split
    · cases hr : E.token s.now with
      | error e => exact ⟨hs.saw (by rintro ⟨d, hd⟩; cases hd) (hnew _) (by simp) (by simp), .saw rfl⟩
      | ok t0 =>
        refine ⟨⟨.cons (hnew _) hs.once, fun j d' => ?_, fun j x => ?_, fun j t => ?_, fun j x => ?_, fun j n r hm => ?_, fun j t u r hm => ?_⟩,
          .keep rfl (fun _ h => h) (fun _ h => h) (by rw [h]; simp) fun _ h => h⟩
        · have := hs.setup j d'
          by_cases hj : j = i
          · subst hj; simpa [State.set, State.saw] using this
          · simpa [State.set, State.saw, hj] using this
        · have := hs.pypi j x
          by_cases hj : j = i
          · subst hj; simpa [State.set, State.saw] using this
          · simpa [State.set, State.saw, hj] using this
        · by_cases hj : j = i
          · subst hj
            have := hs.token j t
            rw [h] at this
            simp only [State.set, State.saw, ↓reduceIte, List.mem_cons, ← this, Option.some.injEq, Event.token.injEq, Except.ok.injEq, true_and, reduceCtorEq, or_false]
            exact ⟨Eq.symm, Eq.symm⟩
          · simp [State.set, State.saw, hj, hs.token]
        · have := hs.github j x
          by_cases hj : j = i
          · subst hj; simpa [State.set, State.saw] using this
          · simpa [State.set, State.saw, hj] using this
        · have hm : Event.index j n r ∈ s.seen := by simpa [State.set, State.saw] using hm
          have := hs.named j n r hm
          by_cases hj : j = i
          · subst hj; simpa [State.set, State.saw] using this
          · simpa [State.set, State.saw, hj] using this
        · have hm : Event.hub j t u r ∈ s.seen := by simpa [State.set, State.saw] using hm
          have hj : j ≠ i := by
            intro hj
            rw [hj] at hm
            exact hhub t u r hm
          have := hs.signed j t u r hm
          simpa [State.set, State.saw, hj] using this
    · refine ⟨⟨hs.once, fun j d' => ?_, fun j x => ?_, fun j t => ?_, fun j x => ?_, fun j n r hm => ?_, fun j t u r hm => ?_⟩,
        ⟨⟨[], rfl, by simp⟩, fun j hj => by simp [State.set, hj], ?_, ?_, ?_, ?_⟩⟩
      · have := hs.setup j d'
        by_cases hj : j = i
        · subst hj; simpa [State.set] using this
        · simpa [State.set, hj] using this
      · have := hs.pypi j x
        by_cases hj : j = i
        · subst hj; simpa [State.set] using this
        · simpa [State.set, hj] using this
      · have := hs.token j t
        by_cases hj : j = i
        · subst hj; rw [h] at this; simpa [State.set] using this
        · simpa [State.set, hj] using this
      · have := hs.github j x
        by_cases hj : j = i
        · subst hj; simpa [State.set] using this
        · simpa [State.set, hj] using this
      · have := hs.named j n r hm
        by_cases hj : j = i
        · subst hj; simpa [State.set] using this
        · simpa [State.set, hj] using this
      · have hj : j ≠ i := by rintro rfl; exact hhub t u r hm
        have := hs.signed j t u r hm
        simpa [State.set, hj] using this
      · intro d hd; simpa [State.set] using hd
      · intro d hd; simpa [State.set] using hd
      · intro d hd; rw [h] at hd; cases hd
      · intro d hd; simpa [State.set] using hd

theorem remoteUri_keeps (i : Nat) : Keeps i (remoteUri E i) := by
  intro s hs
  unfold remoteUri
  have hnew : ∀ r, ∀ e' ∈ s.seen, e'.Good → ¬ ((Event.uri i r).topic = e'.topic ∧ (Event.uri i r).obj = e'.obj) := by
    rintro r e' he hg ⟨h1, h2⟩
    cases e' <;> simp only [Event.topic, reduceCtorEq] at h1
    exact hg
  cases E.uri s.now with
  | error e => exact ⟨hs.saw (fun h => h) (hnew _) (by simp) (by simp), .saw rfl⟩
  | ok u => exact ⟨hs.saw (fun h => h) (hnew _) (by simp) (by simp), .saw rfl⟩

theorem askHub_keeps {s : State} (hs : Inv s) {i : Nat} {t : Option Str} (u : Str) (h : (s.objs i).github = none) (ht : (s.objs i).session = some t) :
    Inv (askHub E i t u s).2 ∧ Later i s (askHub E i t u s).2 := by
  have hnew : ∀ r, ∀ e' ∈ s.seen, e'.Good → ¬ ((Event.hub i t u r).topic = e'.topic ∧ (Event.hub i t u r).obj = e'.obj) := by
    rintro r e' he hg ⟨h1, h2⟩
    cases e' <;> simp only [Event.topic, reduceCtorEq] at h1
    obtain ⟨x, rfl⟩ := hg
    simp only [Event.obj] at h2
    subst h2
    have := (hs.github i x).2 ⟨_, _, he⟩
    rw [h] at this
    cases this
  have hsign : ∀ r, ∀ j t' u' r', Event.hub i t u r = .hub j t' u' r' → (s.objs j).session = some t' := by
    rintro r j t' u' r' h
    injection h with h1 h2 h3
    subst h1 h2
    exact ht
  unfold askHub
  cases hr : E.hub s.now with
  | raises e => exact ⟨hs.saw (by rintro ⟨d, hd⟩; cases hd) (hnew _) (by simp) (hsign _), .saw rfl⟩
  | notOk => exact ⟨hs.saw (by rintro ⟨d, hd⟩; cases hd) (hnew _) (by simp) (hsign _), .saw rfl⟩
  | ok x =>
    refine ⟨⟨.cons (hnew _) hs.once, fun j d' => ?_, fun j x' => ?_, fun j t => ?_, fun j x' => ?_, fun j n r hm => ?_, fun j t' u' r hm => ?_⟩,
      .keep rfl (fun _ h => h) (fun _ h => h) (fun _ h => h) (by rw [h]; simp)⟩
    · have := hs.setup j d'
      by_cases hj : j = i
      · subst hj; simpa [State.set, State.saw] using this
      · simpa [State.set, State.saw, hj] using this
    · have := hs.pypi j x'
      by_cases hj : j = i
      · subst hj; simpa [State.set, State.saw] using this
      · simpa [State.set, State.saw, hj] using this
    · have := hs.token j t
      by_cases hj : j = i
      · subst hj; simpa [State.set, State.saw] using this
      · simpa [State.set, State.saw, hj] using this
    · have := hs.github j x'
      by_cases hj : j = i
      · subst hj
        rw [h] at this
        simp only [State.set, State.saw, ↓reduceIte, List.mem_cons, exists_or, ← this, Option.some.injEq, Event.hub.injEq, Reply.ok.injEq, true_and, reduceCtorEq, or_false,
          exists_eq_left, exists_and_left]
        exact ⟨Eq.symm, Eq.symm⟩
      · simpa [State.set, State.saw, hj] using this
    · have hm : Event.index j n r ∈ s.seen := by simpa [State.set, State.saw] using hm
      have := hs.named j n r hm
      by_cases hj : j = i
      · subst hj; simpa [State.set, State.saw] using this
      · simpa [State.set, State.saw, hj] using this
    · have : (s.objs j).session = some t' := by
        rcases List.mem_cons.1 hm with hm | hm
        · exact hsign _ j t' u' r hm.symm
        · exact hs.signed j t' u' r hm
      by_cases hj : j = i
      · subst hj; simpa [State.set, State.saw] using this
      · simpa [State.set, State.saw, hj] using this

theorem githubSession_ok {i : Nat} {s s' : State} {t : Option Str} (h : githubSession E i s = (.ok t, s')) :
    (s'.objs i).session = some t ∧ (s'.objs i).github = (s.objs i).github := by
  unfold githubSession at h
  cases hd : (s.objs i).session with
  | some d' =>
    rw [hd] at h
    injection h with h1 h2
    injection h1 with h1
    subst h1 h2
    exact ⟨hd, rfl⟩
  | none =>
    rw [hd] at h
    dsimp only at h
    split at h
    · split at h
      · injection h with h1; cases h1
      · injection h with h1 h2
        injection h1 with h1
        subst h1 h2
        exact ⟨by simp [State.set], by simp [State.set]⟩
    · injection h with h1 h2
      injection h1 with h1
      subst h1 h2
      exact ⟨by simp [State.set], by simp [State.set]⟩

theorem remoteUri_objs (i : Nat) (s : State) : (remoteUri E i s).2.objs = s.objs := by
  unfold remoteUri
  cases E.uri s.now <;> rfl

theorem githubJson_keeps (i : Nat) : Keeps i (githubJson E i) := by
  intro s hs
  unfold githubJson
  cases h : (s.objs i).github with
  | some x => exact ⟨hs, .refl i s⟩
  | none =>
    obtain ⟨h1, h2⟩ := githubSession_keeps E i s hs
    dsimp only
    unfold M.bind
    have h3 := @githubSession_ok E i s
    generalize githubSession E i s = o at h1 h2 h3
    obtain ⟨o, s'⟩ := o
    cases o with
    | error e => exact ⟨h1, h2⟩
    | ok t =>
      obtain ⟨h3, h4⟩ := h3 rfl
      dsimp only at h1 h2 ⊢
      obtain ⟨h5, h6⟩ := remoteUri_keeps E i s' h1
      have h7 := remoteUri_objs E i s'
      generalize remoteUri E i s' = o at h5 h6 h7
      obtain ⟨o, s2⟩ := o
      cases o with
      | error e => exact ⟨h5, h2.trans h6⟩
      | ok u =>
        dsimp only at h5 h6 h7 ⊢
        obtain ⟨h8, h9⟩ := askHub_keeps E h5 u (by rw [h7]; exact h4.trans h) (by rw [h7]; exact h3)
        exact ⟨h8, (h2.trans h6).trans h9⟩

theorem latestPypi_keeps (i : Nat) : Keeps i (versionLatestPypi E i) := (pypiJson_keeps E i).bind fun _ => .lift i _

theorem latestReleased_keeps (i : Nat) : Keeps i (versionLatestReleased E i) := (pypiJson_keeps E i).bind fun _ => .lift i _

theorem versionRepo_keeps (i : Nat) : Keeps i (versionRepo E i) := (setupDist_keeps E i).bind fun _ => .lift i _

theorem versionNext_keeps (i : Nat) (n c : Word) : Keeps i (versionNext E i n c) := by
  refine (latestPypi_keeps E i).bind fun vlp => (latestReleased_keeps E i).bind fun vlr => ?_
  split
  · cases vlp with
    | some v => exact .lift i _
    | none => exact versionRepo_keeps E i
  · exact .lift i _

theorem bump_keeps (i : Nat) (n c : Word) (p : Bool) : Keeps i (bump E i n c p) := by
  refine (versionNext_keeps E i n c).bind fun nv => (latestReleased_keeps E i).bind fun vlr => ?_
  split
  · exact .fail i _
  · refine (versionRepo_keeps E i).bind fun r => ?_
    split
    · exact .fail i _
    · refine (setupDist_keeps E i).bind fun d => ?_
      split
      · exact .fail i _
      · exact .pure i _

theorem tagLatestGithub_keeps (i : Nat) : Keeps i (tagLatestGithub E i) := by
  refine (githubJson_keeps E i).bind fun x => ?_
  split
  · exact (setupDist_keeps E i).bind fun _ => .lift i _
  · exact .lift i _

theorem versionLatestGithub_keeps (i : Nat) : Keeps i (versionLatestGithub E i) := by
  unfold versionLatestGithub
  split
  · exact (setupDist_keeps E i).bind fun _ => (tagLatestGithub_keeps E i).bind fun _ => .lift i _
  · exact (tagLatestGithub_keeps E i).bind fun _ => .lift i _

theorem call_keeps {s : State} (hs : Inv s) (i : Nat) (c : Call) : Inv (call E s i c) ∧ Later i s (call E s i c) := by
  cases c with
  | pypiJson => exact pypiJson_keeps E i s hs
  | githubJson => exact githubJson_keeps E i s hs
  | latestPypi => exact latestPypi_keeps E i s hs
  | latestReleased => exact latestReleased_keeps E i s hs
  | repo => exact versionRepo_keeps E i s hs
  | next n c => exact versionNext_keeps E i n c s hs
  | bump n c p => exact bump_keeps E i n c p s hs
  | tagGithub => exact tagLatestGithub_keeps E i s hs
  | latestGithub => exact versionLatestGithub_keeps E i s hs

theorem Inv.run {s : State} (hs : Inv s) (cs : List (Nat × Call)) : Inv (run E s cs) := by
  induction cs generalizing s with
  | nil => exact hs
  | cons c cs ih => exact ih (call_keeps E hs c.1 c.2).1

theorem run_append (s : State) (as bs : List (Nat × Call)) : run E s (as ++ bs) = run E (run E s as) bs := by
  induction as generalizing s with
  | nil => rfl
  | cons a as ih => exact ih _

/-- What a path has it keeps. -/
theorem run_pypi {s : State} (hs : Inv s) (cs : List (Nat × Call)) {i : Nat} {x : Index} (h : (s.objs i).pypi = some x) : ((run E s cs).objs i).pypi = some x := by
  induction cs generalizing s with
  | nil => exact h
  | cons c cs ih =>
    obtain ⟨h1, h2⟩ := call_keeps E hs c.1 c.2
    refine ih h1 ?_
    by_cases hj : i = c.1
    · subst hj; exact h2.pypi x h
    · rw [h2.others i hj]; exact h

theorem run_apart {s : State} (hs : Inv s) (cs : List (Nat × Call)) {i : Nat} (h : ∀ c ∈ cs, c.1 ≠ i) : (run E s cs).objs i = s.objs i := by
  induction cs generalizing s with
  | nil => rfl
  | cons c cs ih =>
    obtain ⟨h1, h2⟩ := call_keeps E hs c.1 c.2
    refine (ih h1 fun c' hc => h c' (List.mem_cons_of_mem _ hc)).trans (h2.others i fun he => h c List.mem_cons_self he.symm)

/-! ## The claims -/

/-- **C152**: in every history of calls of any number of paths, once there was a good answer about the setup file, from the index, for the token or from the site,
the same path does not ask again. -/
theorem C152_once (cs : List (Nat × Call)) : AskedOnce (run E .init cs).seen := (Inv.init.run E cs).once

/-- **C152**: after a good reply of the index its contents are the answer, and nothing is looked at; as long as there was none the index is asked again for the name of
the package. -/
theorem C152_pypi (cs : List (Nat × Call)) (i : Nat) :
    (∀ n x, .index i n (.ok x) ∈ (run E .init cs).seen → pypiJson E i (run E .init cs) = (.ok (some x), run E .init cs)) ∧
    ((∀ n x, .index i n (.ok x) ∉ (run E .init cs).seen) → ∀ d, .setup i (.ok d) ∈ (run E .init cs).seen →
      (pypiJson E i (run E .init cs)).2.seen = .index i d.name (E.index (run E .init cs).seen.length) :: (run E .init cs).seen ∧
      (pypiJson E i (run E .init cs)).1 = match E.index (run E .init cs).seen.length with
        | .raises e => .error (.outside e)
        | .notOk => .ok none
        | .ok x => .ok (some x)) := by
  have hs := Inv.init.run E cs
  generalize run E .init cs = s at hs ⊢
  refine ⟨fun n x h => ?_, fun h d hd => ?_⟩
  · have := (hs.pypi i x).2 ⟨n, h⟩
    unfold pypiJson
    rw [this]
  · have h1 : (s.objs i).pypi = none := by
      cases hp : (s.objs i).pypi with
      | none => rfl
      | some x =>
        obtain ⟨n, hn⟩ := (hs.pypi i x).1 hp
        exact absurd hn (h n x)
    have h2 := (hs.setup i d).2 hd
    unfold pypiJson M.bind setupDist askIndex
    rw [h1, h2]
    dsimp only [State.now]
    cases E.index s.seen.length <;> exact ⟨rfl, rfl⟩

/-- **C152**: the same for the site, with the token of the session. -/
theorem C152_github (cs : List (Nat × Call)) (i : Nat) :
    (∀ t u x, .hub i t u (.ok x) ∈ (run E .init cs).seen → githubJson E i (run E .init cs) = (.ok (some x), run E .init cs)) ∧
    ((∀ t u x, .hub i t u (.ok x) ∉ (run E .init cs).seen) → ∀ t u, .token i (.ok t) ∈ (run E .init cs).seen → E.uri (run E .init cs).seen.length = .ok u →
      (githubJson E i (run E .init cs)).2.seen =
        .hub i (some t) u (E.hub ((run E .init cs).seen.length + 1)) :: .uri i (.ok u) :: (run E .init cs).seen ∧
      (githubJson E i (run E .init cs)).1 = match E.hub ((run E .init cs).seen.length + 1) with
        | .raises e => .error (.outside e)
        | .notOk => .ok none
        | .ok x => .ok (some x)) := by
  have hs := Inv.init.run E cs
  generalize run E .init cs = s at hs ⊢
  refine ⟨fun t u x h => ?_, fun h t u ht hu => ?_⟩
  · have := (hs.github i x).2 ⟨t, u, h⟩
    unfold githubJson
    rw [this]
  · have h1 : (s.objs i).github = none := by
      cases hp : (s.objs i).github with
      | none => rfl
      | some x =>
        obtain ⟨t, u, hn⟩ := (hs.github i x).1 hp
        exact absurd hn (h t u x)
    have h2 := (hs.token i t).2 ht
    unfold githubJson githubSession remoteUri askHub
    simp only [M.bind, h1, h2, State.now, hu]
    rw [show (s.saw (.uri i (.ok u))).seen.length = s.seen.length + 1 from rfl]
    cases E.hub (s.seen.length + 1) <;> exact ⟨rfl, rfl⟩

/-- **C152**: all requests to the index of one path are about the name that the setup file had when it was read, and all requests to the site have the token that there
was at first. -/
theorem C152_same (cs : List (Nat × Call)) (i : Nat) :
    (∀ n r n' r', .index i n r ∈ (run E .init cs).seen → .index i n' r' ∈ (run E .init cs).seen → n = n') ∧
    (∀ t u r t' u' r', .hub i t u r ∈ (run E .init cs).seen → .hub i t' u' r' ∈ (run E .init cs).seen → t = t') ∧
    (∀ n r, .index i n r ∈ (run E .init cs).seen → ∃ d, .setup i (.ok d) ∈ (run E .init cs).seen ∧ d.name = n) ∧
    (∀ t u r, .hub i (some t) u r ∈ (run E .init cs).seen → .token i (.ok t) ∈ (run E .init cs).seen) := by
  have hs := Inv.init.run E cs
  generalize run E .init cs = s at hs ⊢
  refine ⟨fun n r n' r' h h' => ?_, fun t u r t' u' r' h h' => ?_, fun n r h => ?_, fun t u r h => ?_⟩
  · obtain ⟨d, h1, rfl⟩ := hs.named i n r h
    obtain ⟨d', h2, rfl⟩ := hs.named i n' r' h'
    rw [h1] at h2
    injection h2 with h2
    rw [h2]
  · have h1 := hs.signed i t u r h
    rw [hs.signed i t' u' r' h'] at h1
    injection h1 with h1
    exact h1.symm
  · obtain ⟨d, h1, h2⟩ := hs.named i n r h
    exact ⟨d, (hs.setup i d).1 h1, h2⟩
  · exact (hs.token i t).1 (hs.signed i _ u r h)

/-- The replies as the model of one call has them. -/
def Reply.index? {α : Type} : Reply α → Option α
  | .ok a => some a
  | _ => none

/-- The outcome as the model of one call has it. -/
def result {α : Type} : Except PErr α → Except Err α
  | .ok a => .ok a
  | .error e => .error (.inside (.next e))

/-- `version_next` of the model of one call, with the comparison as here. -/
theorem versionNext_eq (parse : Str → Option Version) (s : Sources) (n c : Word) : Pep440.versionNext parse s n c =
    match latestPypi parse s.first with
    | .error e => .error e
    | .ok vlp => match latestReleased parse (if s.first.isSome then s.first else s.second) with
      | .error e => .error e
      | .ok vlr => if sameLatest vlp vlr then match vlp with
          | some v => match nextVersion v n c with
            | .ok w => .ok w
            | .error e => .error (.version e)
          | none => match parse s.repo with
            | some v => .ok v
            | none => .error .invalidVersion
        else .error .assertion := by
  unfold Pep440.versionNext
  cases latestPypi parse s.first with
  | error e => rfl
  | ok vlp =>
    cases latestReleased parse (if s.first.isSome then s.first else s.second) with
    | error e => rfl
    | ok vlr =>
      cases vlp with
      | none => cases vlr <;> rfl
      | some v => cases vlr with
        | none => rfl
        | some w =>
          show (if (!veq v w) = true then _ else _) = (if veq v w = true then _ else _)
          by_cases hv : veq v w = true
          · rw [hv, if_pos rfl]
            rfl
          · rw [if_neg hv, if_pos (by simpa using hv)]

/-- `version_next` when there was a good reply. -/
theorem versionNext_known {s : State} {i : Nat} {x : Index} (h : (s.objs i).pypi = some x) (second : Option Index) (repo : Str) (n c : Word) :
    versionNext E i n c s = (result (Pep440.versionNext E.parse ⟨some x, second, repo⟩ n c), s) := by
  rw [versionNext_eq]
  unfold versionNext versionLatestPypi versionLatestReleased pypiJson
  simp only [M.bind, h, Option.isSome_some, ↓reduceIte]
  cases hp : latestPypi E.parse (some x) with
  | error e => rfl
  | ok vlp =>
    simp only [M.lift, h]
    cases latestReleased E.parse (some x) with
    | error e => rfl
    | ok vlr =>
      dsimp only
      cases sameLatest vlp vlr with
      | false => rfl
      | true =>
        cases vlp with
        | some v =>
          simp only [↓reduceIte, M.lift]
          cases nextVersion v n c <;> rfl
        | none =>
          unfold latestPypi at hp
          split at hp <;> simp_all
          split at hp <;> simp at hp

/-- `pypi_json` when there was none, and the setup file is known. -/
theorem pypiJson_asks {s : State} {i : Nat} {d : Dist} (h : (s.objs i).pypi = none) (hd : (s.objs i).setup = some d) :
    pypiJson E i s = askIndex E i d.name s := by
  unfold pypiJson M.bind setupDist
  rw [h, hd]

/-- **C152**: `version_next` is the version that follows the first good reply that the path got, if there was one (C77 says that it is greater than all those that this
reply listed); otherwise it is that of the replies to its own requests. -/
theorem C152_next (cs : List (Nat × Call)) (i : Nat) (n c : Word) :
    (∀ m x, .index i m (.ok x) ∈ (run E .init cs).seen → ∀ second repo,
      versionNext E i n c (run E .init cs) = (result (Pep440.versionNext E.parse ⟨some x, second, repo⟩ n c), run E .init cs)) ∧
    ((∀ m x, .index i m (.ok x) ∉ (run E .init cs).seen) → ∀ d, .setup i (.ok d) ∈ (run E .init cs).seen →
      (∀ e, E.index (run E .init cs).seen.length ≠ .raises e) → (∀ e, E.index ((run E .init cs).seen.length + 1) ≠ .raises e) →
      (versionNext E i n c (run E .init cs)).1 = result (Pep440.versionNext E.parse
        ⟨(E.index (run E .init cs).seen.length).index?, (E.index ((run E .init cs).seen.length + 1)).index?, d.version⟩ n c)) := by
  have hs := Inv.init.run E cs
  generalize run E .init cs = s at hs ⊢
  refine ⟨fun m x h second repo => versionNext_known E ((hs.pypi i x).2 ⟨m, h⟩) second repo n c, fun h d hd h1 h2 => ?_⟩
  have hp : (s.objs i).pypi = none := by
    cases hp : (s.objs i).pypi with
    | none => rfl
    | some x =>
      obtain ⟨n, hn⟩ := (hs.pypi i x).1 hp
      exact absurd hn (h n x)
  have hd := (hs.setup i d).2 hd
  cases hr : E.index s.seen.length with
  | raises e => exact absurd hr (h1 e)
  | ok x =>
    -- as if it had been there before
    have hask : pypiJson E i s = (.ok (some x), (s.saw (.index i d.name (.ok x))).set i { s.objs i with pypi := some x }) := by
      rw [pypiJson_asks E hp hd]
      unfold askIndex State.now
      rw [hr]
    have hagain := versionNext_known E (s := (s.saw (.index i d.name (.ok x))).set i { s.objs i with pypi := some x }) (i := i) (x := x) (by simp [State.set])
      (E.index (s.seen.length + 1)).index? d.version n c
    have : versionNext E i n c s = versionNext E i n c ((s.saw (.index i d.name (.ok x))).set i { s.objs i with pypi := some x }) := by
      have hthen : pypiJson E i ((s.saw (.index i d.name (.ok x))).set i { s.objs i with pypi := some x }) =
          (.ok (some x), (s.saw (.index i d.name (.ok x))).set i { s.objs i with pypi := some x }) := by
        unfold pypiJson
        simp [State.set]
      unfold versionNext versionLatestPypi
      simp only [M.bind, hask, hthen]
    rw [this, hagain]
    rfl
  | notOk =>
    have hask : pypiJson E i s = (.ok none, s.saw (.index i d.name .notOk)) := by
      rw [pypiJson_asks E hp hd]
      unfold askIndex State.now
      rw [hr]
    have hthen : pypiJson E i (s.saw (.index i d.name .notOk)) = askIndex E i d.name (s.saw (.index i d.name .notOk)) := pypiJson_asks E hp hd
    rw [versionNext_eq]
    unfold versionNext versionLatestPypi versionLatestReleased
    simp only [M.bind, hask, latestPypi, M.lift, hthen, Reply.index?]
    unfold askIndex
    rw [show (s.saw (.index i d.name .notOk)).now = s.seen.length + 1 from rfl]
    cases hr2 : E.index (s.seen.length + 1) with
    | raises e => exact absurd hr2 (h2 e)
    | notOk =>
      simp only [latestReleased, Option.isSome_none, Bool.false_eq_true, ↓reduceIte, sameLatest, versionRepo, M.bind, M.lift]
      rw [show setupDist E i ((s.saw (.index i d.name .notOk)).saw (.index i d.name .notOk)) = (.ok d, (s.saw (.index i d.name .notOk)).saw (.index i d.name .notOk)) by
        unfold setupDist State.saw; rw [hd]]
      dsimp only
      cases E.parse d.version <;> rfl
    | ok x =>
      simp only [Option.isSome_none, Bool.false_eq_true, ↓reduceIte]
      cases hl : latestReleased E.parse (some x) with
      | error e => rfl
      | ok vlr =>
        dsimp only
        cases vlr with
        | some w => rfl
        | none =>
          unfold latestReleased at hl
          dsimp only at hl
          split at hl
          · cases hl
          · split at hl <;> simp at hl

/-- **C152**: what other paths do, also for the same package, makes no difference. -/
theorem C152_apart (cs ds : List (Nat × Call)) (i : Nat) (h : ∀ c ∈ ds, c.1 ≠ i) :
    (run E .init (cs ++ ds)).objs i = (run E .init cs).objs i := by
  rw [run_append]
  exact run_apart E (Inv.init.run E cs) ds h

/-- What is looked at is added. -/
theorem run_seen {s : State} (hs : Inv s) (cs : List (Nat × Call)) : s.seen.length ≤ (run E s cs).seen.length := by
  induction cs generalizing s with
  | nil => exact Nat.le_refl _
  | cons c cs ih =>
    obtain ⟨h1, h2⟩ := call_keeps E hs c.1 c.2
    obtain ⟨new, h3, -⟩ := h2.seen
    refine Nat.le_trans ?_ (ih h1)
    rw [h3, List.length_append]
    exact Nat.le_add_left _ _

/-- `version_next` of a new path. -/
theorem versionNext_new {s : State} {i : Nat} {d : Dist} {x : Index} (h : s.objs i = .fresh) (hd : E.setup s.now = .ok d) (hx : E.index (s.now + 1) = .ok x)
    (second : Option Index) (repo : Str) (n c : Word) :
    (versionNext E i n c s).1 = result (Pep440.versionNext E.parse ⟨some x, second, repo⟩ n c) := by
  have hask : ∃ s', pypiJson E i s = (.ok (some x), s') ∧ (s'.objs i).pypi = some x := by
    unfold pypiJson M.bind setupDist askIndex
    simp only [h, Obj.fresh, hd]
    rw [show ((s.saw (.setup i (.ok d))).set i { setup := some d, pypi := none, session := none, github := none }).now = s.now + 1 from rfl, hx]
    exact ⟨_, rfl, by simp [State.set]⟩
  obtain ⟨s', h1, h2⟩ := hask
  have hthen : pypiJson E i s' = (.ok (some x), s') := by
    unfold pypiJson
    rw [h2]
  have : versionNext E i n c s = versionNext E i n c s' := by
    unfold versionNext versionLatestPypi
    simp only [M.bind, h1, hthen]
  rw [this, versionNext_known E h2 second repo]

/-- The outcome of `bump` as the model of one call has it. -/
def ending : Except BErr Unit → Except Err Unit
  | .ok a => .ok a
  | .error e => .error (.inside e)

/-- **C152**: after a good reply of the index `bump` ends as for one that was released then (C135), and asks for nothing. -/
theorem C152_bump (cs : List (Nat × Call)) (i : Nat) (n c : Word) (p : Bool) (m : Str) (x : Index) (d : Dist)
    (hx : .index i m (.ok x) ∈ (run E .init cs).seen) (hd : .setup i (.ok d) ∈ (run E .init cs).seen) (second third : Option Index) :
    bump E i n c p (run E .init cs) =
      (ending (Pep440.bump E.parse ⟨some x, second, d.version⟩ third n c p d.name d.packages), run E .init cs) := by
  have hs := Inv.init.run E cs
  generalize run E .init cs = s at hs hx hd ⊢
  have hx := (hs.pypi i x).2 ⟨m, hx⟩
  have hd := (hs.setup i d).2 hd
  have hj : pypiJson E i s = (.ok (some x), s) := by
    unfold pypiJson
    rw [hx]
  have hset : setupDist E i s = (.ok d, s) := by
    unfold setupDist
    rw [hd]
  unfold bump Pep440.bump
  simp only [M.bind, versionNext_known E hx second d.version, Option.isSome_some, ↓reduceIte]
  cases Pep440.versionNext E.parse ⟨some x, second, d.version⟩ n c with
  | error e => rfl
  | ok nv =>
    simp only [result, versionLatestReleased, M.bind, hj, M.lift]
    cases latestReleased E.parse (some x) with
    | error e => rfl
    | ok vlr =>
      dsimp only
      by_cases hv : (vlr.any fun v => veq nv v) = true
      · rw [if_pos hv, if_pos hv]
        rfl
      · rw [if_neg hv, if_neg hv]
        simp only [versionRepo, M.bind, hset, M.lift]
        cases E.parse d.version with
        | none => rfl
        | some r =>
          dsimp only
          by_cases hr : veq nv r = true
          · rw [if_pos hr, if_pos hr]
            rfl
          · rw [if_neg hr, if_neg hr]
            simp only [M.bind, hset]
            by_cases hm : (p && !hasModule d.name d.packages) = true
            · rw [if_pos hm, if_pos hm]
              rfl
            · rw [if_neg hm, if_neg hm]
              rfl

/-- **C152**, and so there may be no next version although the index has a good reply: if it has none at the first of the two requests and one at the second, as when the
package is first released in between, it is an `AssertionError`. -/
theorem C152_appears_counterexample (cs : List (Nat × Call)) (i : Nat) (n c : Word) (d : Dist) (x : Index) (w : Version)
    (hnone : ∀ m x, .index i m (.ok x) ∉ (run E .init cs).seen) (hd : .setup i (.ok d) ∈ (run E .init cs).seen)
    (h1 : E.index (run E .init cs).seen.length = .notOk) (h2 : E.index ((run E .init cs).seen.length + 1) = .ok x)
    (hx : latestReleased E.parse (some x) = .ok (some w)) :
    (versionNext E i n c (run E .init cs)).1 = .error (.inside (.next .assertion)) := by
  rw [(C152_next E cs i n c).2 hnone d hd (by rw [h1]; simp) (by rw [h2]; simp), versionNext_eq, h1, h2]
  simp only [Reply.index?, latestPypi, Option.isSome_none, Bool.false_eq_true, ↓reduceIte, hx, sameLatest]
  rfl

/-- **C152**, and so the version that is proposed may have been released since: after one good reply the same version is proposed whatever happens and whatever the
index says by then, and `bump` does not find that it is released; a new path is told. -/
theorem C152_stale_counterexample (parse : Str → Option Version) (x : Index) (d : Dist) (n c : Word) (w : Version) (r : Str)
    (hw : Pep440.versionNext parse ⟨some x, none, []⟩ n c = .ok w) (hr : parse r = some w) :
    ∃ E : Env, E.parse = parse ∧ (∀ k, 2 ≤ k → E.index k = .ok ⟨r, r :: x.releases⟩) ∧ (∃ q ∈ r :: x.releases, parse q = some w) ∧
      (versionNext E 0 n c .init).1 = .ok w ∧
      (∀ cs, (versionNext E 0 n c (run E .init ((0, .next n c) :: cs))).1 = .ok w) ∧
      ∀ cs, (∀ call ∈ cs, call.1 ≠ 1) → ∀ second repo,
        (versionNext E 1 n c (run E .init ((0, .next n c) :: cs))).1 = result (Pep440.versionNext parse ⟨some ⟨r, r :: x.releases⟩, second, repo⟩ n c) := by
  let E : Env := ⟨parse, false, false, fun _ => .ok d, fun k => if k < 2 then .ok x else .ok ⟨r, r :: x.releases⟩, fun _ => .ok [], fun _ => .ok [], fun _ => .notOk⟩
  have hfirst : ∃ s, pypiJson E 0 .init = (.ok (some x), s) ∧ (s.objs 0).pypi = some x ∧ s.seen.length = 2 := ⟨_, rfl, rfl, rfl⟩
  obtain ⟨s, h1, h2, h3⟩ := hfirst
  have hthen : pypiJson E 0 s = (.ok (some x), s) := by
    unfold pypiJson
    rw [h2]
  have hnext : versionNext E 0 n c .init = versionNext E 0 n c s := by
    unfold versionNext versionLatestPypi
    simp only [M.bind, h1, hthen]
  have hvalue : versionNext E 0 n c s = (.ok w, s) := by
    rw [versionNext_known E h2 none [], show E.parse = parse from rfl, hw]
    rfl
  have hstate : call E .init 0 (.next n c) = s := by
    show (versionNext E 0 n c .init).2 = s
    rw [hnext, hvalue]
  have hinv : Inv s := by
    rw [← hstate]
    exact (call_keeps E Inv.init 0 _).1
  refine ⟨E, rfl, fun k hk => if_neg (by omega), ⟨r, List.mem_cons_self, hr⟩, by rw [hnext, hvalue], fun cs => ?_, fun cs hcs second repo => ?_⟩
  · show (versionNext E 0 n c (run E (call E .init 0 (.next n c)) cs)).1 = _
    rw [hstate, versionNext_known E (run_pypi E hinv cs h2) none [], show E.parse = parse from rfl, hw]
    rfl
  · show (versionNext E 1 n c (run E (call E .init 0 (.next n c)) cs)).1 = _
    rw [hstate]
    have hfresh : (run E s cs).objs 1 = .fresh := by
      rw [run_apart E hinv cs hcs, ← hstate, (call_keeps E Inv.init 0 (.next n c)).2.others 1 (by decide)]
      rfl
    have hlen := run_seen E hinv cs
    rw [h3] at hlen
    exact versionNext_new E hfresh (d := d) rfl (if_neg (by unfold State.now; omega)) second repo n c

/-! ## A case -/

-- C152_stale_counterexample: the version after `10`
example : Pep440.versionNext digits ⟨some ⟨lit "10", [lit "9", lit "10"]⟩, none, []⟩ .release .release = .ok ⟨0, [11], none, none, none, none⟩ ∧
    digits (lit "11") = some ⟨0, [11], none, none, none, none⟩ := by decide +kernel

/-- An index that has no package until the third time that something is looked at. -/
def sampleEnv : Env :=
  ⟨digits, true, false, fun _ => .ok ⟨lit "foo", lit "1", [lit "foo"]⟩, fun k => if k < 3 then .notOk else .ok ⟨lit "10", [lit "9", lit "10"]⟩, fun _ => .ok (lit "secret"),
    fun _ => .ok (lit "uri"), fun _ => .notOk⟩

-- C152_pypi, C152_next, C152_appears_counterexample: no reply yet, the setup file is known, the package appears between the next two
example : let s := run sampleEnv .init [(0, .pypiJson)]
    (∀ m x, .index 0 m (.ok x) ∉ s.seen) ∧ .setup 0 (.ok ⟨lit "foo", lit "1", [lit "foo"]⟩) ∈ s.seen ∧ s.seen.length = 2 ∧
      sampleEnv.index 2 = .notOk ∧ sampleEnv.index 3 = .ok ⟨lit "10", [lit "9", lit "10"]⟩ ∧
      latestReleased sampleEnv.parse (some ⟨lit "10", [lit "9", lit "10"]⟩) = .ok (some ⟨0, [10], none, none, none, none⟩) := by
  refine ⟨?_, List.mem_cons_of_mem _ List.mem_cons_self, rfl, rfl, rfl, by decide +kernel⟩
  intro m x h
  change _ ∈ [Event.index 0 (lit "foo") .notOk, .setup 0 (.ok ⟨lit "foo", lit "1", [lit "foo"]⟩)] at h
  simp at h

-- C152_pypi, C152_next, C152_bump: a good reply after two that were not
example : let s := run sampleEnv .init [(0, .pypiJson), (0, .pypiJson), (1, .githubJson), (0, .pypiJson)]
    .index 0 (lit "foo") (.ok ⟨lit "10", [lit "9", lit "10"]⟩) ∈ s.seen ∧ .setup 0 (.ok ⟨lit "foo", lit "1", [lit "foo"]⟩) ∈ s.seen ∧
      .hub 1 (some (lit "secret")) (lit "uri") .notOk ∈ s.seen := by
  have : (run sampleEnv .init [(0, .pypiJson), (0, .pypiJson), (1, .githubJson), (0, .pypiJson)]).seen =
      [.index 0 (lit "foo") (.ok ⟨lit "10", [lit "9", lit "10"]⟩), .hub 1 (some (lit "secret")) (lit "uri") .notOk, .uri 1 (.ok (lit "uri")), .token 1 (.ok (lit "secret")),
        .index 0 (lit "foo") .notOk, .index 0 (lit "foo") .notOk, .setup 0 (.ok ⟨lit "foo", lit "1", [lit "foo"]⟩)] := rfl
  simp only [this]
  simp

end Verif.PackMemo
