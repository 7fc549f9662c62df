import Verif.Lemmas.Classes
import Verif.Lemmas.Decide

/-!
# C104, C105: the classes of paths
-/

namespace Verif.Classes

/-! ## Programs that can be run -/

/-- An operation on classes that are there: a `class` statement looks attributes up in its bases and theirs. -/
def Op.Legal (w : World) : Op → Prop
  | .define b o _ => (∀ x ∈ b, x ∈ o) ∧ ∀ x ∈ o, x < w.length
  | .bind c | .weighCache c | .weighRemote c | .init c _ | .anchor c _ => c < w.length
  | .remoteNew r l c => r < w.length ∧ l < w.length ∧ c < w.length

/-- A history of operations on classes that are there. -/
def Legal (w : World) : List Op → Prop
  | [] => True
  | o :: os => o.Legal w ∧ Legal (step w o) os

/-- The worlds that programs get to. -/
inductive Reach : World → Prop
  | start : Reach []
  | step {w : World} {o : Op} : Reach w → o.Legal w → Reach (step w o)

theorem Reach.run {w : World} (h : Reach w) : ∀ {os : List Op}, Legal w os → Reach (run w os)
  | [], _ => h
  | o :: os, ⟨h1, h2⟩ => Reach.run (.step h h1) (os := os) h2

/-! ## The invariant -/

/-- Classes are looked up in older ones; a class that was bound is its own abstract class and has subclasses of both flavours. -/
structure Sound (w : World) : Prop where
  order : ∀ c b o f, shape w c = some (b, o, f) → (∀ x ∈ b, x ∈ o) ∧ ∀ x ∈ o, x < c
  bound : ∀ c a, w.own c .abstract_ = some a → a = c ∧ ∀ f, ∃ k, w.own c (.of f) = some k ∧ k ∈ w.subclasses c ∧
    (w.flavour c = none → w.flavour k = some f)
  unbound : ∀ c f, w.own c .abstract_ = none → w.own c (.of f) = none

/-- More classes, with nothing set. -/
theorem Sound.append {w : World} (h : Sound w) (k : Class) (ho : (∀ x ∈ k.bases, x ∈ k.order) ∧ ∀ x ∈ k.order, x < w.length)
    (hown : ∀ a, a = .abstract_ ∨ (∃ f, a = .of f) → k.own a = none) : Sound (w ++ [k]) := by
  have hsub : ∀ {c j}, j ∈ w.subclasses c → j ∈ World.subclasses (w ++ [k]) c := by
    intro c j hj
    rw [subclasses_append]
    exact List.mem_append_left _ hj
  have hcase : ∀ c, c < w.length ∨ c = w.length ∨ (w ++ [k]).length ≤ c := by
    intro c; simp only [List.length_append, List.length_singleton]; omega
  refine ⟨?_, ?_, ?_⟩
  · intro c b o f hs
    rcases hcase c with hc | rfl | hc
    · rw [shape_append hc] at hs; exact h.order c b o f hs
    · rw [shape_last] at hs; cases hs; exact ho
    · simp [shape, List.getElem?_eq_none hc] at hs
  · intro c a hown'
    rcases hcase c with hc | rfl | hc
    · rw [own_append hc] at hown'
      obtain ⟨h1, h2⟩ := h.bound c a hown'
      refine ⟨h1, fun f => ?_⟩
      obtain ⟨j, h3, h4, h5⟩ := h2 f
      refine ⟨j, by rw [own_append hc, h3], hsub h4, ?_⟩
      rw [flavour_shape, flavour_shape, shape_append hc, shape_append (subclasses_lt h4), ← flavour_shape, ← flavour_shape]
      exact h5
    · rw [own_last, hown _ (.inl rfl)] at hown'; simp at hown'
    · rw [own_beyond hc] at hown'; simp at hown'
  · intro c f hown'
    rcases hcase c with hc | rfl | hc
    · rw [own_append hc] at hown' ⊢; exact h.unbound c f hown'
    · rw [own_last, hown _ (.inr ⟨f, rfl⟩)]
    · exact own_beyond hc _

/-- Other attributes do not matter. -/
theorem Sound.set {w : World} (h : Sound w) (c : Cls) {a : Slot} (v : Option Nat) (ha : a ≠ .abstract_) (ha' : ∀ f, a ≠ .of f) :
    Sound (w.set c a v) := by
  have hown : ∀ b, (w.set c a v).own b .abstract_ = w.own b .abstract_ := fun b => by
    rw [own_set, if_neg (fun hc => ha hc.2.1.symm)]
  have hown' : ∀ b f, (w.set c a v).own b (.of f) = w.own b (.of f) := fun b f => by
    rw [own_set, if_neg (fun hc => ha' f hc.2.1.symm)]
  have hsub : ∀ b, (w.set c a v).subclasses b = w.subclasses b := fun b => by
    rw [subclasses_shape, subclasses_shape]; simp
  refine ⟨?_, ?_, ?_⟩
  · intro b; simp only [shape_set]; exact h.order b
  · intro b x; simp only [hown, hown', hsub, flavour_shape, shape_set]
    simpa only [flavour_shape] using h.bound b x
  · intro b f; simp only [hown, hown']; exact h.unbound b f

theorem shape_lt {w : World} {c : Cls} (h : c < w.length) : ∃ b o f, shape w c = some (b, o, f) := by
  unfold shape
  rw [List.getElem?_eq_getElem h]
  exact ⟨_, _, _, rfl⟩

theorem derive_eq {w : World} {c : Cls} {b o : List Cls} {f' : Option Flavour} (h : shape w c = some (b, o, f')) (f : Flavour) :
    derive w c f = ⟨[c], c :: o, some (f'.getD f), fun _ => none⟩ := by
  have hf : w.flavour c = f' := by rw [flavour_shape, h]; rfl
  unfold derive
  rw [hf]
  unfold shape at h
  cases hc : w[c]? with
  | none => rw [hc] at h; simp at h
  | some k =>
    rw [hc] at h
    simp only [Option.map_some, Option.some.injEq, Prod.mk.injEq] at h
    dsimp only
    rw [h.2.1]

/-- One of the two steps of binding. -/
theorem ensure_spec {w : World} {c : Cls} {f : Flavour} {o : Option Cls} (hs : Sound w) (hc : c < w.length)
    (ho : ∀ k, o = some k → k ∈ w.subclasses c ∧ w.flavour k = some f) :
    Sound (ensure w c f o).2 ∧ ((ensure w c f o).2 = w ∨ o = none ∧ (ensure w c f o).2 = w ++ [derive w c f] ∧ (ensure w c f o).1 = w.length) ∧
    (ensure w c f o).1 ∈ World.subclasses (ensure w c f o).2 c ∧
    (w.flavour c = none → World.flavour (ensure w c f o).2 (ensure w c f o).1 = some f) := by
  cases o with
  | some k => exact ⟨hs, .inl rfl, (ho k rfl).1, fun _ => (ho k rfl).2⟩
  | none =>
    obtain ⟨b, od, f', hsh⟩ := shape_lt hc
    have hd := derive_eq hsh f
    refine ⟨?_, .inr ⟨rfl, rfl, rfl⟩, ?_, ?_⟩
    · refine hs.append _ ?_ (by intro a _; rw [hd])
      rw [hd]
      refine ⟨by simp, fun x hx => ?_⟩
      rcases List.mem_cons.1 hx with rfl | hx
      · exact hc
      · exact Nat.lt_trans ((hs.order c b od f' hsh).2 x hx) hc
    · show w.length ∈ World.subclasses (w ++ [derive w c f]) c
      rw [subclasses_append, hd]
      simp
    · intro hfc
      show World.flavour (w ++ [derive w c f]) w.length = some f
      rw [flavour_shape, shape_last, hd]
      rw [flavour_shape, hsh] at hfc
      simp only [Option.bind_some] at hfc
      simp [hfc]

/-- What `ensure` leaves alone. -/
theorem ensure_old {w : World} {c : Cls} {f : Flavour} {o : Option Cls} :
    w.length ≤ (ensure w c f o).2.length ∧ ∀ b, b < w.length → shape (ensure w c f o).2 b = shape w b ∧
      ∀ a, World.own (ensure w c f o).2 b a = w.own b a := by
  cases o with
  | some k => exact ⟨Nat.le_refl _, fun b _ => ⟨rfl, fun _ => rfl⟩⟩
  | none => exact ⟨by simp [ensure], fun b hb => ⟨shape_append hb _, fun a => own_append hb _ _⟩⟩

theorem ensure_subclasses {w : World} {c : Cls} {f : Flavour} {o : Option Cls} {b k : Cls} (h : k ∈ w.subclasses b) :
    k ∈ World.subclasses (ensure w c f o).2 b := by
  cases o with
  | some j => exact h
  | none =>
    show k ∈ World.subclasses (w ++ [derive w c f]) b
    rw [subclasses_append]
    exact List.mem_append_left _ h

/-- The classes that binding works with. -/
theorem bind_spec {w : World} {c : Cls} (hs : Sound w) (hc : c < w.length) :
    (∃ e, bind w c = (.error e, w)) ∨
    ∃ w' pos win, bind w c = (.ok (), ((w'.set c .abstract_ (some c)).set c (.of .posix) (some pos)).set c (.of .windows) (some win)) ∧
      Sound w' ∧ w.length ≤ w'.length ∧ (∀ b, b < w.length → shape w' b = shape w b ∧ ∀ a, w'.own b a = w.own b a) ∧
      pos ∈ w'.subclasses c ∧ win ∈ w'.subclasses c ∧
      (w.flavour c = none → w'.flavour pos = some .posix ∧ w'.flavour win = some .windows) := by
  unfold bind
  cases hg : getFlavours w c with
  | error e => exact .inl ⟨e, rfl⟩
  | ok r =>
    obtain ⟨p, q⟩ := r
    obtain ⟨h1, h2⟩ := flavoursLoop_found hg
    obtain ⟨s1, -, p1, f1⟩ := ensure_spec (f := .posix) (o := p) hs hc (fun k hk => by
      rcases h1 k hk with h | h
      · simp at h
      · exact h)
    obtain ⟨l1, o1⟩ := ensure_old (w := w) (c := c) (f := .posix) (o := p)
    have hq : ∀ k, q = some k → k ∈ World.subclasses (ensure w c .posix p).2 c ∧ World.flavour (ensure w c .posix p).2 k = some .windows := by
      intro k hk
      rcases h2 k hk with h | ⟨h, h'⟩
      · simp at h
      · refine ⟨ensure_subclasses h, ?_⟩
        rw [flavour_shape, (o1 k (subclasses_lt h)).1, ← flavour_shape, h']
    obtain ⟨s2, -, p2, f2⟩ := ensure_spec (f := .windows) (o := q) s1 (Nat.lt_of_lt_of_le hc l1) hq
    obtain ⟨l2, o2⟩ := ensure_old (w := (ensure w c .posix p).2) (c := c) (f := .windows) (o := q)
    refine .inr ⟨(ensure (ensure w c .posix p).2 c .windows q).2, (ensure w c .posix p).1, (ensure (ensure w c .posix p).2 c .windows q).1, rfl, s2, Nat.le_trans l1 l2, ?_, ensure_subclasses p1, p2, ?_⟩
    · intro b hb
      have hb' := Nat.lt_of_lt_of_le hb l1
      exact ⟨(o2 b hb').1.trans (o1 b hb).1, fun a => ((o2 b hb').2 a).trans ((o1 b hb).2 a)⟩
    · intro hf
      have hf' : World.flavour (ensure w c .posix p).2 c = none := by rw [flavour_shape, (o1 c hc).1, ← flavour_shape, hf]
      refine ⟨?_, f2 hf'⟩
      rw [flavour_shape, (o2 _ (subclasses_lt p1)).1, ← flavour_shape]
      exact f1 hf

@[simp] theorem subclasses_set (w : World) (c : Cls) (a : Slot) (v : Option Nat) (b : Cls) : (w.set c a v).subclasses b = w.subclasses b := by
  rw [subclasses_shape, subclasses_shape]; simp

@[simp] theorem flavour_set (w : World) (c : Cls) (a : Slot) (v : Option Nat) (b : Cls) : (w.set c a v).flavour b = w.flavour b := by
  rw [flavour_shape, flavour_shape, shape_set]

theorem Sound.bind {w : World} (hs : Sound w) {c : Cls} (hc : c < w.length) : Sound (bind w c).2 := by
  rcases bind_spec hs hc with ⟨e, h⟩ | ⟨w', pos, win, h, s, hl, hold, hp, hw, hf⟩
  · rw [h]; exact hs
  · rw [h]
    have hcl := Nat.lt_of_lt_of_le hc hl
    refine ⟨?_, ?_, ?_⟩
    · intro b; simp only [shape_set]; exact s.order b
    · intro b a hb
      simp only [own_set, subclasses_set, flavour_set, length_set] at hb ⊢
      by_cases hbc : c = b
      · subst hbc
        simp only [hcl, and_true, true_and, reduceCtorEq, and_false, if_false, if_true, Option.some.injEq] at hb ⊢
        refine ⟨hb.symm, fun f => ?_⟩
        cases f with
        | posix =>
          refine ⟨pos, by simp, hp, fun h => (hf ?_).1⟩
          rw [flavour_shape, (hold c hc).1, ← flavour_shape] at h; exact h
        | windows =>
          refine ⟨win, by simp, hw, fun h => (hf ?_).2⟩
          rw [flavour_shape, (hold c hc).1, ← flavour_shape] at h; exact h
      · simp only [hbc, false_and, if_false] at hb ⊢
        exact s.bound b a hb
    · intro b f hb
      simp only [own_set, length_set] at hb ⊢
      by_cases hbc : c = b
      · subst hbc
        simp [hcl] at hb
      · simp only [hbc, false_and, if_false] at hb ⊢
        exact s.unbound b f hb

theorem Sound.weighCache {w : World} (hs : Sound w) (c : Cls) : Sound (weighCache w c).2 := by
  unfold Classes.weighCache
  split
  · exact hs
  · exact hs.set _ _ (by simp) (by simp)

theorem Sound.weighRemote {w : World} (hs : Sound w) (c : Cls) : Sound (weighRemote w c).2 := by
  unfold Classes.weighRemote
  split
  · exact hs
  · split
    · exact hs.set _ _ (by simp) (by simp)
    · exact hs

/-- The world with the new class and the attributes that `_new` sets. -/
def wired (w : World) (r l c : Cls) : World :=
  ((((w ++ [fresh w r l c]).set l .remote (some w.length)).set l .cache (some c)).set c .remote (some w.length)).set c .local_ (some l)

theorem fresh_eq {w : World} {r l c : Cls} {b o : List Cls} {f : Option Flavour} (h : shape w r = some (b, o, f)) :
    fresh w r l c = ⟨[r], r :: o, f, fun a => if a = .local_ then some l else if a = .cache then some c else none⟩ := by
  have hf : w.flavour r = f := by rw [flavour_shape, h]; rfl
  unfold fresh
  rw [hf]
  unfold shape at h
  cases hc : w[r]? with
  | none => rw [hc] at h; simp at h
  | some k =>
    rw [hc] at h
    simp only [Option.map_some, Option.some.injEq, Prod.mk.injEq] at h
    dsimp only
    rw [h.2.1]

theorem Sound.wired {w : World} (hs : Sound w) {r l c : Cls} (hr : r < w.length) : Sound (wired w r l c) := by
  obtain ⟨b, o, f, h⟩ := shape_lt hr
  refine .set (.set (.set (.set (hs.append _ ?_ ?_) _ _ (by simp) (by simp)) _ _ (by simp) (by simp)) _ _ (by simp) (by simp)) _ _ (by simp) (by simp)
  · rw [fresh_eq h]
    refine ⟨by simp, fun x hx => ?_⟩
    rcases List.mem_cons.1 hx with rfl | hx
    · exact hr
    · exact Nat.lt_trans ((hs.order r b o f h).2 x hx) hr
  · rintro a (rfl | ⟨f, rfl⟩) <;> simp [fresh]

theorem remoteNew_eq (w : World) (r l c : Cls) : remoteNew w r l c =
    match weighRemote (wired w r l c) w.length with
    | (.error e, w) => (.error e, w)
    | (.ok _, w') =>
      match weighCache w' c with
      | (.error e, w) => (.error e, w)
      | (.ok _, w'') => (.ok w.length, w'') := rfl

theorem Sound.remoteNew {w : World} (hs : Sound w) {r l c : Cls} (hr : r < w.length) : Sound (remoteNew w r l c).2 := by
  rw [remoteNew_eq]
  have h1 := (hs.wired (l := l) (c := c) hr).weighRemote w.length
  generalize Classes.weighRemote (Classes.wired w r l c) w.length = x at h1
  obtain ⟨x, w'⟩ := x
  cases x with
  | error e => exact h1
  | ok _ =>
    dsimp only
    have h2 := h1.weighCache c
    generalize Classes.weighCache w' c = y at h2
    obtain ⟨y, w''⟩ := y
    cases y <;> exact h2

theorem Sound.step {w : World} (hs : Sound w) {o : Op} (ho : o.Legal w) : Sound (step w o) := by
  cases o with
  | define b o f => exact hs.append _ ho (fun _ _ => rfl)
  | bind c => exact hs.bind ho
  | remoteNew r l c => exact hs.remoteNew ho.1
  | init r a =>
    show Sound (init w r a).2
    unfold init
    split
    · exact hs
    · exact hs.set _ _ (by simp) (by simp)
  | anchor c p =>
    show Sound (match w.get c .abstract_ with | some a => w.set a .anchor (some p) | none => w)
    split
    · exact hs.set _ _ (by simp) (by simp)
    · exact hs
  | weighCache c => exact hs.weighCache c
  | weighRemote r => exact hs.weighRemote r

theorem Reach.sound {w : World} (h : Reach w) : Sound w := by
  induction h with
  | start => exact ⟨by simp [shape], by simp [World.own], by simp [World.own]⟩
  | step _ ho ih => exact ih.step ho

/-! ## The class of a new path -/

theorem own_lt {w : World} {c : Cls} {a : Slot} {v : Nat} (h : w.own c a = some v) : c < w.length := by
  rcases Nat.lt_or_ge c w.length with hc | hc
  · exact hc
  · rw [own_beyond hc] at h; simp at h

theorem get_of_own {w : World} {c : Cls} {a : Slot} {v : Nat} (h : w.own c a = some v) : w.get c a = some v := by
  obtain ⟨b, o, f, hs⟩ := shape_lt (own_lt h)
  rw [get_shape, hs]
  simp [h]

/-- The abstract class of a class: itself if it was bound, otherwise an older one that was. -/
theorem Sound.abstract_ {w : World} (hs : Sound w) {c a : Cls} (h : w.get c .abstract_ = some a) :
    w.own a .abstract_ = some a ∧ (a = c ∨ a < c ∧ w.own c .abstract_ = none) := by
  rw [get_shape] at h
  cases hsh : shape w c with
  | none => rw [hsh] at h; simp at h
  | some x =>
    obtain ⟨b, o, f⟩ := x
    rw [hsh] at h
    simp only [List.findSome?_cons] at h
    cases hc : w.own c .abstract_ with
    | some a' =>
      rw [hc] at h
      simp only [Option.some.injEq] at h
      subst h
      have := (hs.bound c a' hc).1
      subst this
      exact ⟨hc, .inl rfl⟩
    | none =>
      rw [hc] at h
      obtain ⟨x, hx, hx'⟩ := List.exists_of_findSome?_eq_some h
      have := (hs.bound x a hx').1
      subst this
      exact ⟨hx', .inr ⟨(hs.order c b o f hsh).2 _ hx, rfl⟩⟩

/-- **C104**: whatever classes were made and bound before, a path is made of the class that was asked for or of a direct subclass of it,
and its flavour is that of the operating system. -/
theorem C104_is_instance {w : World} (h : Reach w) (os : Flavour) {c k : Cls} (hn : newPath os w c = .ok k) :
    (k = c ∨ k ∈ w.subclasses c) ∧ w.flavour k = some os := by
  have hs := h.sound
  unfold newPath at hn
  cases ha : w.get c .abstract_ with
  | none => rw [ha] at hn; simp at hn
  | some a =>
    rw [ha] at hn
    dsimp only at hn
    by_cases hca : c = a
    · subst hca
      rw [if_pos rfl] at hn
      obtain ⟨-, h2⟩ := hs.bound c c ((hs.abstract_ ha).1)
      obtain ⟨j, h3, h4, h5⟩ := h2 os
      rw [get_of_own h3] at hn
      dsimp only at hn
      cases hf : w.flavour j with
      | none => rw [hf] at hn; simp at hn
      | some f =>
        rw [hf] at hn
        dsimp only at hn
        split at hn
        · next e => cases hn; subst e; exact ⟨.inr h4, hf⟩
        · simp at hn
    · rw [if_neg hca] at hn
      dsimp only at hn
      cases hf : w.flavour c with
      | none => rw [hf] at hn; simp at hn
      | some f =>
        rw [hf] at hn
        dsimp only at hn
        split at hn
        · next e => cases hn; subst e; exact ⟨.inl rfl, hf⟩
        · simp at hn

/-- **C104**: a class without a flavour of its own gives paths exactly if it was bound; otherwise it is an `AttributeError`. -/
theorem C104_bound_iff {w : World} (h : Reach w) (os : Flavour) {c : Cls} (hf : w.flavour c = none) :
    ((∃ k, newPath os w c = .ok k) ↔ w.own c .abstract_ ≠ none) ∧ (w.own c .abstract_ = none → newPath os w c = .error .attributeError) := by
  have hs := h.sound
  have key : w.own c .abstract_ = none → newPath os w c = .error .attributeError := by
    intro ho
    unfold newPath
    cases ha : w.get c .abstract_ with
    | none => rfl
    | some a =>
      obtain ⟨h1, h2⟩ := hs.abstract_ ha
      have hne : c ≠ a := by rintro rfl; rw [ho] at h1; simp at h1
      dsimp only
      rw [if_neg hne]
      dsimp only
      rw [hf]
  refine ⟨⟨?_, ?_⟩, key⟩
  · rintro ⟨k, hk⟩ ho
    rw [key ho] at hk
    simp at hk
  · intro ho
    obtain ⟨a, ha⟩ := Option.ne_none_iff_exists'.1 ho
    obtain ⟨rfl, h2⟩ := hs.bound c a ha
    obtain ⟨k, h3, h4, h5⟩ := h2 os
    refine ⟨k, ?_⟩
    unfold newPath
    rw [get_of_own ha]
    dsimp only
    rw [if_pos rfl, get_of_own h3]
    dsimp only
    rw [h5 hf]
    simp

/-- **C104**: a class with a flavour that was not bound itself, but is below one that was, gives paths of its own, on the operating
system of that flavour; on others it is a `NotImplementedError`. -/
theorem C104_concrete {w : World} (h : Reach w) (os f : Flavour) {c : Cls} (hf : w.flavour c = some f) (ho : w.own c .abstract_ = none)
    {a : Cls} (ha : w.get c .abstract_ = some a) : newPath os w c = if f = os then .ok c else .error .notImplementedError := by
  obtain ⟨h1, -⟩ := h.sound.abstract_ ha
  have hne : c ≠ a := by rintro rfl; rw [ho] at h1; simp at h1
  unfold newPath
  rw [ha]
  dsimp only
  rw [if_neg hne]
  dsimp only
  rw [hf]

/-- **C104**: binding raises exactly if some direct subclass has no flavour, and then it has done nothing. -/
theorem C104_bind_iff (w : World) (c : Cls) :
    ((bind w c).1 = .ok () ↔ ∀ k ∈ w.subclasses c, w.flavour k ≠ none) ∧
    ((bind w c).1 ≠ .ok () → bind w c = (.error .attributeError, w)) := by
  have key : ∀ (l : List Cls) (r : Option Cls × Option Cls),
      ((∀ k ∈ l, w.flavour k ≠ none) ∧ ∃ s, flavoursLoop w l r = .ok s) ∨
      ((¬ ∀ k ∈ l, w.flavour k ≠ none) ∧ flavoursLoop w l r = .error .attributeError) := by
    intro l
    induction l with
    | nil => intro r; exact .inl ⟨by simp, r, rfl⟩
    | cons k l ih =>
      rintro ⟨p, q⟩
      rw [flavoursLoop]
      cases hk : w.flavour k with
      | none => exact .inr ⟨fun h => h k List.mem_cons_self hk, rfl⟩
      | some f =>
        have he : (∀ j ∈ k :: l, w.flavour j ≠ none) ↔ ∀ j ∈ l, w.flavour j ≠ none := by simp [hk]
        rw [he]
        cases f <;> exact ih _
  unfold bind getFlavours
  rcases key (w.subclasses c) (none, none) with ⟨h1, s, h2⟩ | ⟨h1, h2⟩
  · rw [h2]
    exact ⟨⟨fun _ => h1, fun _ => rfl⟩, fun h => absurd rfl h⟩
  · rw [h2]
    exact ⟨⟨fun h => by simp at h, fun h => absurd h h1⟩, fun _ => rfl⟩

/-! ## The same class each time -/

/-- A class that was bound, with the classes of its paths. -/
structure Fixed (w : World) (c p q : Cls) : Prop where
  abstract_ : w.own c .abstract_ = some c
  posix : w.own c (.of .posix) = some p
  windows : w.own c (.of .windows) = some q
  found : getFlavours w c = .ok (some p, some q)

/-- The class of the paths on an operating system. -/
def pick (p q : Cls) : Flavour → Cls
  | .posix => p
  | .windows => q

/-- The operation makes no class directly below `c`. -/
def Op.Spares (c : Cls) : Op → Prop
  | .define b _ _ => c ∉ b
  | .remoteNew r _ _ => r ≠ c
  | _ => True

theorem Fixed.append {w : World} {c p q : Cls} (h : Fixed w c p q) (k : Class) (hk : c ∉ k.bases) : Fixed (w ++ [k]) c p q := by
  have hc := own_lt h.abstract_
  refine ⟨by rw [own_append hc, h.abstract_], by rw [own_append hc, h.posix], by rw [own_append hc, h.windows], ?_⟩
  rw [getFlavours_append, h.found]
  simp [hk]

theorem Fixed.set {w : World} {c p q : Cls} (h : Fixed w c p q) (b : Cls) (a : Slot) (v : Option Nat)
    (hd : b ≠ c ∨ (a ≠ .abstract_ ∧ ∀ f, a ≠ .of f)) : Fixed (w.set b a v) c p q := by
  have key : ∀ s, s = .abstract_ ∨ (∃ f, s = .of f) → (w.set b a v).own c s = w.own c s := by
    intro s hs
    rw [own_set, if_neg]
    rintro ⟨rfl, rfl, -⟩
    rcases hd with hd | ⟨h1, h2⟩
    · exact hd rfl
    · rcases hs with hs | ⟨f, hs⟩
      · exact h1 hs
      · exact h2 f hs
  exact ⟨by rw [key _ (.inl rfl), h.abstract_], by rw [key _ (.inr ⟨_, rfl⟩), h.posix], by rw [key _ (.inr ⟨_, rfl⟩), h.windows],
    by rw [getFlavours_set, h.found]⟩

theorem Fixed.ensure {w : World} {c p q : Cls} (h : Fixed w c p q) {b : Cls} (hb : b ≠ c) (f : Flavour) (o : Option Cls) :
    Fixed (ensure w b f o).2 c p q := by
  cases o with
  | some k => exact h
  | none =>
    refine h.append _ ?_
    show c ∉ [b]
    simpa using fun he => hb he.symm

/-- Binding, once more. -/
theorem bind_found {w : World} {c p q : Cls} (h : getFlavours w c = .ok (some p, some q)) :
    (bind w c).2 = ((w.set c .abstract_ (some c)).set c (.of .posix) (some p)).set c (.of .windows) (some q) := by
  unfold bind
  rw [h]
  rfl

theorem fixed_sets {w : World} {c p q : Cls} (hc : c < w.length) (h : getFlavours w c = .ok (some p, some q)) :
    Fixed (((w.set c .abstract_ (some c)).set c (.of .posix) (some p)).set c (.of .windows) (some q)) c p q := by
  refine ⟨?_, ?_, ?_, ?_⟩
  · simp [own_set, hc]
  · simp [own_set, hc]
  · simp [own_set, hc]
  · simp [h]

theorem Fixed.weighCache {w : World} {c p q : Cls} (h : Fixed w c p q) (b : Cls) : Fixed (weighCache w b).2 c p q := by
  unfold Classes.weighCache
  split
  · exact h
  · exact h.set _ _ _ (.inr ⟨by simp, by simp⟩)

theorem Fixed.weighRemote {w : World} {c p q : Cls} (h : Fixed w c p q) (b : Cls) : Fixed (weighRemote w b).2 c p q := by
  unfold Classes.weighRemote
  split
  · exact h
  · split
    · exact h.set _ _ _ (.inr ⟨by simp, by simp⟩)
    · exact h

theorem Fixed.step {w : World} {c p q : Cls} (h : Fixed w c p q) {o : Op} (ho : o.Spares c) : Fixed (step w o) c p q := by
  cases o with
  | define b o f => exact h.append _ ho
  | bind b =>
    by_cases hb : b = c
    · subst hb
      show Fixed (bind w b).2 b p q
      rw [bind_found h.found]
      exact fixed_sets (own_lt h.abstract_) h.found
    · show Fixed (bind w b).2 c p q
      unfold bind
      split
      · exact h
      · dsimp only
        exact (((((h.ensure hb _ _).ensure hb _ _).set _ _ _ (.inl hb)).set _ _ _ (.inl hb)).set _ _ _ (.inl hb))
  | remoteNew r l k =>
    show Fixed (remoteNew w r l k).2 c p q
    rw [remoteNew_eq]
    have h1 : Fixed (wired w r l k) c p q := by
      refine ((((h.append _ ?_).set _ _ _ (.inr ⟨by simp, by simp⟩)).set _ _ _ (.inr ⟨by simp, by simp⟩)).set _ _ _ (.inr ⟨by simp, by simp⟩)).set
        _ _ _ (.inr ⟨by simp, by simp⟩)
      show c ∉ [r]
      simpa using fun he => ho he.symm
    have h2 := h1.weighRemote w.length
    generalize Classes.weighRemote (wired w r l k) w.length = x at h2
    obtain ⟨x, w'⟩ := x
    cases x with
    | error e => exact h2
    | ok _ =>
      dsimp only
      have h3 := h2.weighCache k
      generalize Classes.weighCache w' k = y at h3
      obtain ⟨y, w''⟩ := y
      cases y <;> exact h3
  | init r a =>
    show Fixed (init w r a).2 c p q
    unfold init
    split
    · exact h
    · exact h.set _ _ _ (.inr ⟨by simp, by simp⟩)
  | anchor b p' =>
    show Fixed (match w.get b .abstract_ with | some a => w.set a .anchor (some p') | none => w) c p q
    split
    · exact h.set _ _ _ (.inr ⟨by simp, by simp⟩)
    · exact h
  | weighCache b => exact h.weighCache b
  | weighRemote r => exact h.weighRemote r

theorem Fixed.run {c p q : Cls} (os : List Op) : ∀ {w : World}, Fixed w c p q → (∀ o ∈ os, o.Spares c) → Fixed (run w os) c p q := by
  induction os with
  | nil => exact fun h _ => h
  | cons o os ih => exact fun h ho => ih (h.step (ho o List.mem_cons_self)) fun x hx => ho x (List.mem_cons_of_mem _ hx)

/-- A flavour that had to be made is the one that is found next time. -/
theorem ensure_posix {w : World} {c : Cls} {p q : Option Cls} (hf : w.flavour c = none)
    (h : getFlavours w c = .ok (p, q)) : getFlavours (ensure w c .posix p).2 c = .ok (some (ensure w c .posix p).1, q) := by
  cases p with
  | some k => exact h
  | none =>
    show getFlavours (w ++ [derive w c .posix]) c = .ok (some w.length, q)
    have hd : (derive w c .posix).bases = [c] ∧ (derive w c .posix).flavour = some .posix := ⟨rfl, by simp [derive, hf]⟩
    rw [getFlavours_append, h]
    dsimp only
    rw [if_pos (by simp [hd.1]), flavoursLoop, flavour_shape, shape_last, hd.2]
    rfl

theorem ensure_windows {w : World} {c : Cls} {p q : Option Cls} (hf : w.flavour c = none)
    (h : getFlavours w c = .ok (p, q)) : getFlavours (ensure w c .windows q).2 c = .ok (p, some (ensure w c .windows q).1) := by
  cases q with
  | some k => exact h
  | none =>
    show getFlavours (w ++ [derive w c .windows]) c = .ok (p, some w.length)
    have hd : (derive w c .windows).bases = [c] ∧ (derive w c .windows).flavour = some .windows := ⟨rfl, by simp [derive, hf]⟩
    rw [getFlavours_append, h]
    dsimp only
    rw [if_pos (by simp [hd.1]), flavoursLoop, flavour_shape, shape_last, hd.2]
    rfl

theorem bind_fixed {w : World} {c : Cls} (hc : c < w.length) (hf : w.flavour c = none) (h : (bind w c).1 = .ok ()) :
    ∃ p q, Fixed (bind w c).2 c p q := by
  unfold bind at h ⊢
  cases hg : getFlavours w c with
  | error e => rw [hg] at h; simp at h
  | ok r =>
    obtain ⟨p, q⟩ := r
    obtain ⟨l1, o1⟩ := ensure_old (w := w) (c := c) (f := .posix) (o := p)
    obtain ⟨l2, o2⟩ := ensure_old (w := (ensure w c .posix p).2) (c := c) (f := .windows) (o := q)
    have g1 := ensure_posix hf hg
    have hc1 := Nat.lt_of_lt_of_le hc l1
    have hf1 : World.flavour (ensure w c .posix p).2 c = none := by rw [flavour_shape, (o1 c hc).1, ← flavour_shape, hf]
    have g2 := ensure_windows hf1 g1
    exact ⟨_, _, fixed_sets (Nat.lt_of_lt_of_le hc1 l2) g2⟩

theorem Fixed.newPath {w : World} {c p q : Cls} (h : Fixed w c p q) (hw : Reach w) (hf : w.flavour c = none) (os : Flavour) :
    newPath os w c = .ok (pick p q os) := by
  obtain ⟨k, hk⟩ := (C104_bound_iff hw os hf).1.2 (by rw [h.abstract_]; simp)
  rw [hk]
  unfold Classes.newPath at hk
  rw [get_of_own h.abstract_] at hk
  dsimp only at hk
  rw [if_pos rfl] at hk
  cases os with
  | posix =>
    rw [get_of_own h.posix] at hk
    dsimp only at hk
    split at hk
    · simp at hk
    · split at hk
      · cases hk; rfl
      · simp at hk
  | windows =>
    rw [get_of_own h.windows] at hk
    dsimp only at hk
    split at hk
    · simp at hk
    · split at hk
      · cases hk; rfl
      · simp at hk

theorem shape_weighCache (w : World) (b c : Cls) : shape (weighCache w b).2 c = shape w c ∧ (weighCache w b).2.length = w.length := by
  unfold weighCache
  split
  · exact ⟨rfl, rfl⟩
  · simp

theorem shape_weighRemote (w : World) (b c : Cls) : shape (weighRemote w b).2 c = shape w c ∧ (weighRemote w b).2.length = w.length := by
  unfold weighRemote
  split
  · exact ⟨rfl, rfl⟩
  · split
    · simp
    · exact ⟨rfl, rfl⟩

/-- The bases and the flavour of a class never change. -/
theorem shape_old {w : World} (hs : Sound w) {o : Op} (ho : o.Legal w) {c : Cls} (hc : c < w.length) :
    shape (step w o) c = shape w c ∧ c < (step w o).length := by
  have app : ∀ k : Class, shape (w ++ [k]) c = shape w c := fun k => shape_append hc k
  cases o with
  | define b o f => exact ⟨app _, by simpa [step] using Nat.lt_succ_of_lt hc⟩
  | bind b =>
    show shape (bind w b).2 c = shape w c ∧ c < (bind w b).2.length
    rcases bind_spec hs ho with ⟨e, h⟩ | ⟨w', pos, win, h, -, hl, hold, -⟩
    · rw [h]; exact ⟨rfl, hc⟩
    · rw [h]
      simp only [shape_set, length_set]
      exact ⟨(hold c hc).1, Nat.lt_of_lt_of_le hc hl⟩
  | remoteNew r l k =>
    show shape (remoteNew w r l k).2 c = shape w c ∧ c < (remoteNew w r l k).2.length
    rw [remoteNew_eq]
    have h1 : shape (wired w r l k) c = shape w c ∧ c < (wired w r l k).length := by
      simp only [wired, shape_set, length_set, app, List.length_append, List.length_singleton, true_and]
      exact Nat.lt_succ_of_lt hc
    have h2 := shape_weighRemote (wired w r l k) w.length c
    generalize weighRemote (wired w r l k) w.length = x at h2
    obtain ⟨x, w'⟩ := x
    have h2' : shape w' c = shape w c ∧ c < w'.length := ⟨h2.1.trans h1.1, by have := h2.2; simp only at this; rw [this]; exact h1.2⟩
    cases x with
    | error e => exact h2'
    | ok _ =>
      dsimp only
      have h3 := shape_weighCache w' k c
      generalize weighCache w' k = y at h3
      obtain ⟨y, w''⟩ := y
      have h3' : shape w'' c = shape w c ∧ c < w''.length := ⟨h3.1.trans h2'.1, by have := h3.2; simp only at this; rw [this]; exact h2'.2⟩
      cases y <;> exact h3'
  | init r a =>
    show shape (init w r a).2 c = shape w c ∧ c < (init w r a).2.length
    unfold init
    split
    · exact ⟨rfl, hc⟩
    · simpa using hc
  | anchor b p' =>
    show shape (match w.get b .abstract_ with | some a => w.set a .anchor (some p') | none => w) c = shape w c ∧
      c < List.length (match w.get b .abstract_ with | some a => w.set a .anchor (some p') | none => w)
    split
    · simpa using hc
    · exact ⟨rfl, hc⟩
  | weighCache b => exact ⟨(shape_weighCache w b c).1, by show c < (weighCache w b).2.length; rw [(shape_weighCache w b c).2]; exact hc⟩
  | weighRemote b => exact ⟨(shape_weighRemote w b c).1, by show c < (weighRemote w b).2.length; rw [(shape_weighRemote w b c).2]; exact hc⟩

theorem shape_run {c : Cls} : ∀ {os : List Op} {w : World}, Reach w → Legal w os → c < w.length →
    shape (run w os) c = shape w c ∧ c < (run w os).length
  | [], _, _, _, hc => ⟨rfl, hc⟩
  | o :: os, w, hw, ⟨h1, h2⟩, hc => by
    obtain ⟨f1, l1⟩ := shape_old hw.sound h1 hc
    obtain ⟨f2, l2⟩ := shape_run (os := os) (.step hw h1) h2 l1
    exact ⟨f2.trans f1, l2⟩

/-- **C104**: once a class without a flavour was bound, the class of its paths stays the same, whatever is done with classes afterwards,
binding it again included, as long as no class is made directly below it. -/
theorem C104_same_class {w : World} (h : Reach w) {c : Cls} (hc : c < w.length) (hf : w.flavour c = none) (hb : (bind w c).1 = .ok ())
    {ops : List Op} (hl : Legal (bind w c).2 ops) (hs : ∀ o ∈ ops, o.Spares c) (os : Flavour) :
    ∃ k, newPath os (bind w c).2 c = .ok k ∧ newPath os (run (bind w c).2 ops) c = .ok k := by
  obtain ⟨p, q, hx⟩ := bind_fixed hc hf hb
  have hr : Reach (bind w c).2 := .step (o := .bind c) h hc
  obtain ⟨f1, l1⟩ := shape_old h.sound (o := .bind c) hc hc
  have f1' : (bind w c).2.flavour c = none := by
    have : shape (bind w c).2 c = shape w c := f1
    rw [flavour_shape, this, ← flavour_shape, hf]
  obtain ⟨f2, -⟩ := shape_run hr hl l1
  exact ⟨pick p q os, hx.newPath hr f1' os, (hx.run ops hs).newPath (hr.run hl) (by
    have : shape (run (bind w c).2 ops) c = shape (bind w c).2 c := f2
    rw [flavour_shape, this, ← flavour_shape, f1']) os⟩

theorem get_head {w : World} {c k : Cls} {b o : List Cls} {f f' : Option Flavour} {b' : List Cls} (hk : shape w k = some (b, c :: o, f))
    (hc : shape w c = some (b', o, f')) {a : Slot} (ha : w.own k a = none) : w.get k a = w.get c a := by
  rw [get_shape, get_shape, hk, hc]
  dsimp only
  rw [List.findSome?_cons, ha]

/-- **C104**: the classes that binding makes have every attribute of the class that was bound, anchors and the classes of locals, caches
and remotes included, at any time later, unless it was assigned to them themselves. -/
theorem C104_shares {w : World} (h : Reach w) {c : Cls} (hc : c < w.length) {ops : List Op} (hl : Legal (bind w c).2 ops) {k : Cls}
    (hk : w.length ≤ k) (hk' : k < (bind w c).2.length) {a : Slot} (ha : (run (bind w c).2 ops).own k a = none) :
    (run (bind w c).2 ops).get k a = (run (bind w c).2 ops).get c a := by
  have hr : Reach (bind w c).2 := .step (o := .bind c) h hc
  obtain ⟨b, o, f, hsh⟩ := shape_lt hc
  obtain ⟨f1, l1⟩ := shape_old h.sound (o := .bind c) hc hc
  have f1' : shape (bind w c).2 c = some (b, o, f) := f1.trans hsh
  have hmade : ∃ f', shape (bind w c).2 k = some ([c], c :: o, f') := by
    unfold bind at hk' ⊢
    cases hg : getFlavours w c with
    | error e => rw [hg] at hk'; exact absurd hk' (Nat.not_lt.2 hk)
    | ok r =>
      obtain ⟨p, q⟩ := r
      rw [hg] at hk'
      dsimp only at hk' ⊢
      simp only [length_set, shape_set] at hk' ⊢
      have e1 : shape (ensure w c .posix p).2 c = some (b, o, f) := by
        rw [((ensure_old (w := w) (c := c) (f := .posix) (o := p)).2 c hc).1, hsh]
      have m1 : ∀ k, w.length ≤ k → k < (ensure w c .posix p).2.length → ∃ f', shape (ensure w c .posix p).2 k = some ([c], c :: o, f') := by
        intro k h1 h2
        cases p with
        | some p => exact absurd h2 (Nat.not_lt.2 h1)
        | none =>
          have : k = w.length := Nat.le_antisymm (Nat.lt_succ_iff.1 (by simpa [ensure] using h2)) h1
          subst this
          exact ⟨some (f.getD .posix), by show shape (w ++ [derive w c .posix]) w.length = _; rw [shape_last, derive_eq hsh]⟩
      generalize hw1 : (ensure w c .posix p).2 = w1 at *
      by_cases hlt : k < w1.length
      · obtain ⟨f', h'⟩ := m1 k hk hlt
        exact ⟨f', by rw [((ensure_old (w := w1) (c := c) (f := .windows) (o := q)).2 k hlt).1, h']⟩
      · cases q with
        | some q => exact absurd hk' hlt
        | none =>
          have : k = w1.length := Nat.le_antisymm (Nat.lt_succ_iff.1 (by simpa [ensure] using hk')) (Nat.not_lt.1 hlt)
          subst this
          exact ⟨some (f.getD .windows), by show shape (w1 ++ [derive w1 c .windows]) w1.length = _; rw [shape_last, derive_eq e1]⟩
  obtain ⟨f', hm⟩ := hmade
  have g1 := (shape_run hr hl l1).1.trans f1'
  have g2 := (shape_run hr hl hk').1.trans hm
  exact get_head g2 g1 ha

/-- **C104**: a remote class without a flavour that was bound gives remotes of a direct subclass with the flavour of the system. -/
theorem C104_remote_partial {w : World} (h : Reach w) (os : Flavour) {c : Cls} (hf : w.flavour c = none) (hb : w.own c .abstract_ ≠ none) :
    ∃ k ∈ w.subclasses c, w.flavour k = some os ∧ newRemote os w c = .ok k := by
  obtain ⟨a, ha⟩ := Option.ne_none_iff_exists'.1 hb
  obtain ⟨rfl, h2⟩ := h.sound.bound c a ha
  obtain ⟨k, h3, h4, h5⟩ := h2 os
  refine ⟨k, h4, h5 hf, ?_⟩
  unfold newRemote
  rw [hf]
  dsimp only
  rw [get_of_own h3]

/-- **C104**: a remote class that has a flavour gives remotes of its own, on any operating system. -/
theorem C104_remote_concrete {w : World} (os : Flavour) {c : Cls} {f : Flavour} (hf : w.flavour c = some f) : newRemote os w c = .ok c := by
  unfold newRemote
  rw [hf]

/-! A class, its subclass which was not bound. -/

/-- Classes 0, 1, 2 are a class and its flavours; class 3 is below class 0. -/
def unboundSub : List Op := [.define [] [] none, .bind 0, .define [0] [0] none]

/-- **C104, disproved for remotes**: a remote class without a flavour that was not bound gives remotes which are not of that class, but
of the posix flavour of its parent.  A path of such a class is refused. -/
theorem C104_remote_counterexample : Legal [] unboundSub ∧ World.flavour (run [] unboundSub) 3 = none ∧
    newRemote .posix (run [] unboundSub) 3 = .ok 1 ∧ 1 ∉ World.subclasses (run [] unboundSub) 3 ∧
    newPath .posix (run [] unboundSub) 3 = .error .attributeError := by
  refine ⟨by simp [unboundSub, Legal, Op.Legal, step]; decide, ?_⟩
  decide

/-- **C104, disproved when a class is made below**: the same class gives paths of another class after a class with that flavour was made
below it and it was bound again. -/
theorem C104_same_class_counterexample :
    newPath .posix (run [] [.define [] [] none, .bind 0]) 0 = .ok 1 ∧
    newPath .posix (run [] [.define [] [] none, .bind 0, .define [0] [0] (some .posix)]) 0 = .ok 1 ∧
    newPath .posix (run [] [.define [] [] none, .bind 0, .define [0] [0] (some .posix), .bind 0]) 0 = .ok 3 := by decide

/-- **C104, disproved for classes with a flavour**: binding the posix class of a class, its class for windows has the posix flavour too,
and each time it is bound again there is another one.  On windows there are no paths of it. -/
theorem C104_flavoured_counterexample :
    World.flavour (run [] [.define [] [] none, .bind 0, .bind 1]) 4 = some .posix ∧
    World.own (run [] [.define [] [] none, .bind 0, .bind 1]) 1 (.of .windows) = some 4 ∧
    World.own (run [] [.define [] [] none, .bind 0, .bind 1, .bind 1]) 1 (.of .windows) = some 5 ∧
    newPath .windows (run [] [.define [] [] none, .bind 0, .bind 1]) 1 = .error .notImplementedError := by decide

/-- Not vacuous. -/
example : ∃ w, Reach w ∧ newPath .windows w 0 = .ok 2 ∧ newPath .posix w 3 = .error .attributeError ∧ newPath .posix w 1 = .ok 1 ∧
    (bind w 0).1 = .error .attributeError ∧ (bind w 3).1 = .ok () :=
  ⟨run [] unboundSub, Reach.run .start (by simp [unboundSub, Legal, Op.Legal, step]; decide), by decide⟩

/-! ## C105: a remote, its local and its cache -/

/-- The attributes by which classes know each other. -/
def Slot.link : Slot → Bool
  | .local_ | .cache | .remote => true
  | _ => false

/-- The six attributes that tie a remote, a local and a cache together. -/
structure Tied (w : World) (n l c : Cls) : Prop where
  remote_local : w.own n .local_ = some l
  remote_cache : w.own n .cache = some c
  local_remote : w.own l .remote = some n
  local_cache : w.own l .cache = some c
  cache_remote : w.own c .remote = some n
  cache_local : w.own c .local_ = some l

/-- The operation does not tie `x` to something else. -/
def Op.Keeps (x : Cls) : Op → Prop
  | .remoteNew _ l c => x ≠ l ∧ x ≠ c
  | _ => True

theorem link_set (w : World) {c : Cls} {a : Slot} (v : Option Nat) (x : Cls) {s : Slot} (hs : s.link = true) (h : a.link = false ∨ x ≠ c) :
    (w.set c a v).own x s = w.own x s := by
  rw [own_set, if_neg]
  rintro ⟨rfl, rfl, -⟩
  rcases h with h | h
  · rw [hs] at h; simp at h
  · exact h rfl

theorem link_weighCache (w : World) (b x : Cls) {s : Slot} (hs : s.link = true) : (weighCache w b).2.own x s = w.own x s := by
  unfold weighCache
  split
  · rfl
  · exact link_set _ _ _ hs (.inl rfl)

theorem link_weighRemote (w : World) (b x : Cls) {s : Slot} (hs : s.link = true) : (weighRemote w b).2.own x s = w.own x s := by
  unfold weighRemote
  split
  · rfl
  · split
    · exact link_set _ _ _ hs (.inl rfl)
    · rfl

theorem link_remoteNew (w : World) (r l c x : Cls) {s : Slot} (hs : s.link = true) : (remoteNew w r l c).2.own x s = (wired w r l c).own x s := by
  rw [remoteNew_eq]
  have h2 := link_weighRemote (wired w r l c) w.length x hs
  generalize weighRemote (wired w r l c) w.length = y at h2
  obtain ⟨y, w'⟩ := y
  cases y with
  | error e => exact h2
  | ok _ =>
    dsimp only
    have h3 := link_weighCache w' c x hs
    generalize weighCache w' c = z at h3
    obtain ⟨z, w''⟩ := z
    cases z <;> exact h3.trans h2

theorem link_step {w : World} (hs : Sound w) {o : Op} (ho : o.Legal w) {x : Cls} (hx : x < w.length) (hk : o.Keeps x) {s : Slot}
    (hl : s.link = true) : (step w o).own x s = w.own x s := by
  cases o with
  | define b o f => exact own_append hx _ _
  | bind b =>
    show (bind w b).2.own x s = w.own x s
    rcases bind_spec hs ho with ⟨e, h⟩ | ⟨w', pos, win, h, -, -, hold, -⟩
    · rw [h]
    · rw [h]
      dsimp only
      rw [link_set _ _ _ hl (.inl rfl), link_set _ _ _ hl (.inl rfl), link_set _ _ _ hl (.inl rfl)]
      exact (hold x hx).2 s
  | remoteNew r l c =>
    show (remoteNew w r l c).2.own x s = w.own x s
    rw [link_remoteNew _ _ _ _ _ hl]
    unfold wired
    rw [link_set _ _ _ hl (.inr hk.2), link_set _ _ _ hl (.inr hk.2), link_set _ _ _ hl (.inr hk.1), link_set _ _ _ hl (.inr hk.1),
      own_append hx]
  | init r a =>
    show (init w r a).2.own x s = w.own x s
    unfold init
    split
    · rfl
    · exact link_set _ _ _ hl (.inl rfl)
  | anchor b p =>
    show World.own (match w.get b .abstract_ with | some a => w.set a .anchor (some p) | none => w) x s = w.own x s
    split
    · exact link_set _ _ _ hl (.inl rfl)
    · rfl
  | weighCache b => exact link_weighCache w b x hl
  | weighRemote b => exact link_weighRemote w b x hl

theorem link_run {x : Cls} {s : Slot} (hl : s.link = true) : ∀ {os : List Op} {w : World}, Reach w → Legal w os → x < w.length →
    (∀ o ∈ os, o.Keeps x) → (run w os).own x s = w.own x s
  | [], _, _, _, _, _ => rfl
  | o :: os, w, hw, ⟨h1, h2⟩, hx, hk => by
    have a := link_run hl (os := os) (.step hw h1) h2 (shape_old hw.sound h1 hx).2 fun o ho => hk o (List.mem_cons_of_mem _ ho)
    exact a.trans (link_step hw.sound h1 hx (hk o List.mem_cons_self) hl)

theorem wired_tied {w : World} {r l c : Cls} (hl : l < w.length) (hc : c < w.length) (hne : l ≠ c) : Tied (wired w r l c) w.length l c := by
  have hl' : l < (w ++ [fresh w r l c]).length := by simpa using Nat.lt_succ_of_lt hl
  have hc' : c < (w ++ [fresh w r l c]).length := by simpa using Nat.lt_succ_of_lt hc
  have n1 : w.length ≠ l := (Nat.ne_of_lt hl).symm
  have n2 : w.length ≠ c := (Nat.ne_of_lt hc).symm
  have n3 : c ≠ l := hne.symm
  unfold wired
  constructor
  · simp [own_set, own_last, fresh]
  · simp [own_set, own_last, fresh]
  · rw [own_set, if_neg (by simp), own_set, if_neg (fun e => n3 e.1), own_set, if_neg (by simp), own_set, if_pos ⟨rfl, rfl, hl'⟩]
  · rw [own_set, if_neg (by simp), own_set, if_neg (by simp), own_set, if_pos ⟨rfl, rfl, by simpa using hl'⟩]
  · rw [own_set, if_neg (by simp), own_set, if_pos ⟨rfl, rfl, by simpa using hc'⟩]
  · rw [own_set, if_pos ⟨rfl, rfl, by simpa using hc'⟩]

/-- **C105**: the class that `_new` makes is new and right below the remote class it was called on, with its flavour; it, the local class
and the cache class know each other, and still do after anything that does not tie the local class, the cache class or it again. -/
theorem C105_tied_partial {w : World} (h : Reach w) {r l c n : Cls} (hr : r < w.length) (hl : l < w.length) (hc : c < w.length) (hne : l ≠ c)
    (hn : (remoteNew w r l c).1 = .ok n) {ops : List Op} (hlg : Legal (remoteNew w r l c).2 ops)
    (hk : ∀ o ∈ ops, o.Keeps n ∧ o.Keeps l ∧ o.Keeps c) :
    n = w.length ∧ n ∈ (run (remoteNew w r l c).2 ops).subclasses r ∧ (run (remoteNew w r l c).2 ops).flavour n = w.flavour r ∧
    Tied (run (remoteNew w r l c).2 ops) n l c := by
  have hn' : n = w.length := by
    rw [remoteNew_eq] at hn
    split at hn
    · simp at hn
    · split at hn
      · simp at hn
      · simpa using hn.symm
  subst hn'
  have hr' : Reach (remoteNew w r l c).2 := .step (o := .remoteNew r l c) h ⟨hr, hl, hc⟩
  have l1 : ∀ x, x < w.length → x < (remoteNew w r l c).2.length := fun x hx => (shape_old h.sound (o := .remoteNew r l c) ⟨hr, hl, hc⟩ hx).2
  obtain ⟨b, o, f, hsh⟩ := shape_lt hr
  have hshn : shape (remoteNew w r l c).2 w.length = some ([r], r :: o, f) := by
    have hw : shape (wired w r l c) w.length = some ([r], r :: o, f) := by
      simp only [wired, shape_set]
      rw [shape_last, fresh_eq hsh]
    rw [remoteNew_eq]
    have h2 := (shape_weighRemote (wired w r l c) w.length w.length).1
    generalize weighRemote (wired w r l c) w.length = y at h2
    obtain ⟨y, w'⟩ := y
    cases y with
    | error e => exact h2.trans hw
    | ok _ =>
      dsimp only
      have h3 := (shape_weighCache w' c w.length).1
      generalize weighCache w' c = z at h3
      obtain ⟨z, w''⟩ := z
      cases z <;> exact (h3.trans h2).trans hw
  have hnl : w.length < (remoteNew w r l c).2.length := by
    unfold shape at hshn
    cases hg : (remoteNew w r l c).2[w.length]? with
    | none => rw [hg] at hshn; simp at hshn
    | some k => exact (List.getElem?_eq_some_iff.1 hg).1
  have t := wired_tied (r := r) hl hc hne
  have hfin := (shape_run hr' hlg hnl).1.trans hshn
  refine ⟨rfl, ?_, ?_, ?_⟩
  · exact mem_subclasses.2 ⟨_, _, _, hfin, List.mem_cons_self⟩
  · rw [flavour_shape, hfin, flavour_shape, hsh]; rfl
  · have kn : ∀ s, s.link = true → (run (remoteNew w r l c).2 ops).own w.length s = (wired w r l c).own w.length s := fun s hs =>
      (link_run hs hr' hlg hnl fun o ho => (hk o ho).1).trans (link_remoteNew _ _ _ _ _ hs)
    have kl : ∀ s, s.link = true → (run (remoteNew w r l c).2 ops).own l s = (wired w r l c).own l s := fun s hs =>
      (link_run hs hr' hlg (l1 l hl) fun o ho => (hk o ho).2.1).trans (link_remoteNew _ _ _ _ _ hs)
    have kc : ∀ s, s.link = true → (run (remoteNew w r l c).2 ops).own c s = (wired w r l c).own c s := fun s hs =>
      (link_run hs hr' hlg (l1 c hc) fun o ho => (hk o ho).2.2).trans (link_remoteNew _ _ _ _ _ hs)
    exact ⟨by rw [kn _ rfl, t.1], by rw [kn _ rfl, t.2], by rw [kl _ rfl, t.3], by rw [kl _ rfl, t.4], by rw [kc _ rfl, t.5], by rw [kc _ rfl, t.6]⟩

/-- **C105**: no other class is tied to anything by it. -/
theorem C105_only {w : World} (h : Reach w) {r l c x : Cls} (hr : r < w.length) (hl : l < w.length) (hc : c < w.length) (hx : x < w.length)
    (hxl : x ≠ l) (hxc : x ≠ c) {s : Slot} (hs : s = .local_ ∨ s = .cache ∨ s = .remote) :
    (remoteNew w r l c).2.own x s = w.own x s :=
  link_step h.sound (o := .remoteNew r l c) ⟨hr, hl, hc⟩ hx ⟨hxl, hxc⟩ (by rcases hs with rfl | rfl | rfl <;> rfl)

theorem own_wired_other (w : World) (r l c x : Cls) {s : Slot} (hs : s.link = false) : (wired w r l c).own x s = w.own x s := by
  unfold wired
  have key : ∀ (w : World) (b : Cls) (a : Slot) (v : Option Nat), a.link = true → (w.set b a v).own x s = w.own x s := by
    intro w b a v ha
    rw [own_set, if_neg]
    rintro ⟨-, rfl, -⟩
    rw [hs] at ha; simp at ha
  rw [key _ _ _ _ rfl, key _ _ _ _ rfl, key _ _ _ _ rfl, key _ _ _ _ rfl]
  by_cases hx : x < w.length
  · exact own_append hx _ _
  · rw [own_beyond (Nat.not_lt.1 hx)]
    by_cases he : x = w.length
    · subst he
      rw [own_last]
      cases s <;> simp_all [fresh, Slot.link]
    · exact own_beyond (by simpa using Nat.succ_le_of_lt (Nat.lt_of_le_of_ne (Nat.not_lt.1 hx) (Ne.symm he))) _

/-- Every attribute that does not tie classes is looked up as in the class `_new` was called on. -/
theorem get_wired_new {w : World} {r l c : Cls} (hr : r < w.length) {s : Slot} (hs : s.link = false) :
    (wired w r l c).get w.length s = w.get r s := by
  obtain ⟨b, o, f, hsh⟩ := shape_lt hr
  have hw : shape (wired w r l c) w.length = some ([r], r :: o, f) := by
    simp only [wired, shape_set]
    rw [shape_last, fresh_eq hsh]
  rw [get_shape, hw, get_shape, hsh]
  dsimp only
  rw [List.findSome?_cons, own_wired_other _ _ _ _ _ hs, own_beyond (Nat.le_refl _)]
  dsimp only
  congr 1
  funext x
  exact own_wired_other _ _ _ _ _ hs

theorem get_wired_old {w : World} {r l c x : Cls} (hx : x < w.length) {s : Slot} (hs : s.link = false) :
    (wired w r l c).get x s = w.get x s := by
  rw [get_shape, get_shape]
  have hw : shape (wired w r l c) x = shape w x := by
    simp only [wired, shape_set]
    rw [shape_append hx]
  rw [hw]
  congr 1
  funext x
  simp only [own_wired_other _ _ _ _ _ hs]

/-- **C105**: what `_new` comes to. -/
theorem C105_outcome {w : World} {r l c : Cls} (hr : r < w.length) (hc : c < w.length) :
    (remoteNew w r l c).1 = if w.get r .cacheAnchor ≠ none then .error .foreign else if w.get c .abstract_ = none then .error .attributeError
      else .ok w.length := by
  rw [remoteNew_eq]
  unfold weighRemote
  rw [get_wired_new hr rfl]
  cases ha : w.get r .cacheAnchor with
  | some p =>
    have : (wired w r l c).own w.length .cacheAnchor = none := by rw [own_wired_other _ _ _ _ _ rfl, own_beyond (Nat.le_refl _)]
    dsimp only
    rw [this]
    simp
  | none =>
    dsimp only
    unfold weighCache
    rw [get_wired_old hc rfl]
    cases hb : w.get c .abstract_ with
    | none => simp
    | some a => simp

/-- **C105**: a remote class that is anchored to a cache cannot be the parent of another one: `_new` ends in the debugger, and by then the
local class and the cache class are tied to the remote that nobody gets. -/
theorem C105_anchored {w : World} {r l c : Cls} (hr : r < w.length) (hl : l < w.length) (hc : c < w.length) (hne : l ≠ c)
    (ha : w.get r .cacheAnchor ≠ none) : (remoteNew w r l c).1 = .error .foreign ∧ Tied (remoteNew w r l c).2 w.length l c := by
  have t := wired_tied (r := r) hl hc hne
  have k : ∀ x s, s.link = true → (remoteNew w r l c).2.own x s = (wired w r l c).own x s := fun x s hs => link_remoteNew _ _ _ _ _ hs
  exact ⟨by rw [C105_outcome hr hc, if_pos ha],
    ⟨by rw [k _ _ rfl, t.1], by rw [k _ _ rfl, t.2], by rw [k _ _ rfl, t.3], by rw [k _ _ rfl, t.4], by rw [k _ _ rfl, t.5], by rw [k _ _ rfl, t.6]⟩⟩

/-- **C105**: the new remote has no cache anchor, and the anchor of the abstract class of the cache is gone; no other anchor is touched. -/
theorem C105_weighed_partial {w : World} {r l c n : Cls} (hr : r < w.length) (hc : c < w.length)
    (hn : (remoteNew w r l c).1 = .ok n) : ∃ a, w.get c .abstract_ = some a ∧ (remoteNew w r l c).2.own a .anchor = none ∧
    (remoteNew w r l c).2.get n .cacheAnchor = none ∧ (∀ x, x ≠ a → (remoteNew w r l c).2.own x .anchor = w.own x .anchor) ∧
    ∀ x, (remoteNew w r l c).2.own x .cacheAnchor = w.own x .cacheAnchor := by
  have ho := C105_outcome (l := l) hr hc
  rw [hn] at ho
  cases hca : w.get r .cacheAnchor with
  | some p => rw [hca] at ho; simp at ho
  | none =>
    rw [hca] at ho
    simp only [ne_eq, not_true_eq_false, if_false] at ho
    cases ha : w.get c .abstract_ with
    | none => rw [ha] at ho; simp at ho
    | some a =>
      rw [ha] at ho
      have hn' : n = w.length := by simpa using ho
      subst hn'
      have e : (remoteNew w r l c).2 = (wired w r l c).set a .anchor none := by
        rw [remoteNew_eq]
        unfold weighRemote
        rw [get_wired_new hr rfl, hca]
        dsimp only
        unfold weighCache
        rw [get_wired_old hc rfl, ha]
      rw [e]
      refine ⟨a, rfl, ?_, ?_, ?_, ?_⟩
      · rw [own_set]
        split
        · rfl
        · next hx =>
          by_cases hal : a < (wired w r l c).length
          · exact absurd ⟨rfl, rfl, hal⟩ hx
          · exact own_beyond (Nat.not_lt.1 hal) _
      · rw [get_shape, shape_set]
        have := get_wired_new (l := l) (c := c) hr (s := .cacheAnchor) rfl
        rw [get_shape, hca] at this
        have hb : ∀ b, ((wired w r l c).set a .anchor none).own b .cacheAnchor = (wired w r l c).own b .cacheAnchor := fun b => by
          rw [own_set, if_neg (by simp)]
        simp only [hb]
        exact this
      · intro x hx
        rw [own_set, if_neg (fun e => hx e.1.symm), own_wired_other _ _ _ _ _ rfl]
      · intro x
        rw [own_set, if_neg (by simp), own_wired_other _ _ _ _ _ rfl]

/-! ## The api -/

theorem api_set {w : World} {b : Cls} {a : Slot} (v : Option Nat) (ha : a ≠ .api) (c : Cls) : (w.set b a v).own c .api = w.own c .api := by
  rw [own_set, if_neg (fun e => ha e.2.1.symm)]

/-- An api of a class itself is never replaced. -/
theorem api_step {w : World} (hs : Sound w) {o : Op} (ho : o.Legal w) {x : Cls} {v : Nat} (h : w.own x .api = some v) :
    (step w o).own x .api = some v := by
  have hx := own_lt h
  have wc : ∀ (w : World) b, (weighCache w b).2.own x .api = w.own x .api := by
    intro w b
    unfold weighCache
    split
    · rfl
    · exact api_set _ (by simp) _
  have wr : ∀ (w : World) b, (weighRemote w b).2.own x .api = w.own x .api := by
    intro w b
    unfold weighRemote
    split
    · rfl
    · split
      · exact api_set _ (by simp) _
      · rfl
  cases o with
  | define b o f => exact (own_append hx _ _).trans h
  | bind b =>
    show (bind w b).2.own x .api = some v
    rcases bind_spec hs ho with ⟨e, h'⟩ | ⟨w', pos, win, h', -, -, hold, -⟩
    · rw [h', h]
    · rw [h']
      dsimp only
      rw [api_set _ (by simp), api_set _ (by simp), api_set _ (by simp), (hold x hx).2, h]
  | remoteNew r l c =>
    show (remoteNew w r l c).2.own x .api = some v
    rw [remoteNew_eq]
    have h2 := wr (wired w r l c) w.length
    rw [own_wired_other _ _ _ _ _ rfl, h] at h2
    generalize weighRemote (wired w r l c) w.length = y at h2
    obtain ⟨y, w'⟩ := y
    cases y with
    | error e => exact h2
    | ok _ =>
      dsimp only
      have h3 := wc w' c
      generalize weighCache w' c = z at h3
      obtain ⟨z, w''⟩ := z
      cases z <;> exact h3.trans h2
  | init r a =>
    show (init w r a).2.own x .api = some v
    unfold init
    split
    · exact h
    · next hr =>
      rw [own_set, if_neg, h]
      rintro ⟨rfl, -, -⟩
      rw [get_of_own h] at hr
      simp at hr
  | anchor b p =>
    show World.own (match w.get b .abstract_ with | some a => w.set a .anchor (some p) | none => w) x .api = some v
    split
    · rw [api_set _ (by simp), h]
    · exact h
  | weighCache b => exact (wc w b).trans h
  | weighRemote b => exact (wr w b).trans h

theorem api_run {x : Cls} {v : Nat} : ∀ {os : List Op} {w : World}, Reach w → Legal w os → w.own x .api = some v → (run w os).own x .api = some v
  | [], _, _, _, h => h
  | _ :: os, _, hw, ⟨h1, h2⟩, h => api_run (os := os) (.step hw h1) h2 (api_step hw.sound h1 h)

/-- **C105**: `init` binds an api to a remote class exactly if no class it looks attributes up in has one; from then on, whatever is done,
the class has that api, and `init` of it or of any class below it is a `ValueError` that changes nothing. -/
theorem C105_api {w : World} (h : Reach w) {r : Cls} (hr : r < w.length) (v : Nat) :
    ((init w r v).1 = .ok () ↔ w.get r .api = none) ∧ (w.get r .api ≠ none → init w r v = (.error .valueError, w)) ∧
    (w.get r .api = none → ∀ ops, Legal (init w r v).2 ops → (run (init w r v).2 ops).get r .api = some v ∧
      ∀ k b o f u, shape (run (init w r v).2 ops) k = some (b, o, f) → k = r ∨ r ∈ o →
        init (run (init w r v).2 ops) k u = (.error .valueError, run (init w r v).2 ops)) := by
  refine ⟨?_, ?_, ?_⟩
  · unfold init
    cases w.get r .api <;> simp
  · intro hne
    unfold init
    cases hg : w.get r .api with
    | none => exact absurd hg hne
    | some _ => rfl
  · intro hg ops hl
    have hown : (init w r v).2.own r .api = some v := by
      unfold init
      rw [hg]
      dsimp only
      rw [own_set, if_pos ⟨rfl, rfl, hr⟩]
    have hfin := api_run (.step (o := .init r v) h hr) hl hown
    refine ⟨get_of_own hfin, ?_⟩
    intro k b o f u hk hrk
    have hmem : r ∈ k :: o := by
      rcases hrk with rfl | h
      · exact List.mem_cons_self
      · exact List.mem_cons_of_mem _ h
    have : (run (init w r v).2 ops).get k .api ≠ none := by
      rw [get_shape, hk]
      dsimp only
      intro hn
      have := List.findSome?_eq_none_iff.1 hn r hmem
      rw [show World.own (run (init w r v).2 ops) r .api = some v from hfin] at this
      simp at this
    show init (run (init w r v).2 ops) k u = _
    unfold init
    generalize hgg : (run _ ops).get k .api = g
    cases g with
    | none => exact absurd hgg this
    | some _ => rfl

/-! ### Cases -/

/-- A remote class, a local class and a cache class, the last two bound, and a remote made of them. -/
def three : List Op := [.define [] [] none, .define [] [] none, .define [] [] none, .bind 1, .bind 2, .remoteNew 0 1 2]

theorem three_legal : Legal [] three := by
  simp [three, Legal, Op.Legal]
  decide

/-- Not vacuous. -/
example : Reach (run [] three) ∧ Tied (run [] three) 7 1 2 ∧ World.get (run [] three) 5 .remote = some 7 :=
  ⟨Reach.run .start three_legal, ⟨by decide, by decide, by decide, by decide, by decide, by decide⟩, by decide⟩

/-- **C105, disproved for a local class that is used again**: a second remote with the same local class, and another cache class, takes
the local class away from the first remote and its cache, which still name it. -/
theorem C105_shared_counterexample :
    let w := run [] (three ++ [.define [] [] none, .bind 8, .remoteNew 0 1 8])
    World.own w 7 .local_ = some 1 ∧ World.own w 2 .local_ = some 1 ∧ World.own w 1 .remote = some 11 ∧ World.own w 1 .cache = some 8 := by decide

/-- **C105, disproved for the anchor of a cache that is below another one**: weighing removes the anchor of the class itself, and that of
its parent is found then. -/
theorem C105_inherited_counterexample :
    let w := run [] [.define [] [] none, .define [] [] none, .define [] [] none, .bind 2, .define [2] [2] none, .bind 5,
      .anchor 2 10, .anchor 5 11]
    World.get w 5 .anchor = some 11 ∧ (remoteNew w 0 1 5).1 = .ok 8 ∧ World.get (remoteNew w 0 1 5).2 5 .anchor = some 10 := by decide

/-- **C105, disproved for a cache class that was not bound**: it is the anchor of its parent that goes. -/
theorem C105_unbound_counterexample :
    let w := run [] [.define [] [] none, .define [] [] none, .define [] [] none, .bind 2, .define [2] [2] none, .anchor 2 10]
    World.get w 2 .anchor = some 10 ∧ (remoteNew w 0 1 5).1 = .ok 6 ∧ World.get (remoteNew w 0 1 5).2 2 .anchor = none := by decide

/-- **C105, disproved for a remote made from one that was initialised**: it cannot be initialised. -/
theorem C105_api_counterexample :
    let w := run [] (three ++ [.init 7 20, .remoteNew 7 1 2])
    World.get w 8 .api = some 20 ∧ (init w 8 21).1 = .error .valueError := by decide

/-- **C104**: a remote class without a flavour, where neither it nor a class above it was bound, gives no remotes: it is an
`AttributeError`. -/
theorem C104_remote_unbound {w : World} (os : Flavour) {c : Cls} {k : Class} (hk : w[c]? = some k) (hf : w.flavour c = none)
    (hb : ∀ b ∈ c :: k.order, w.own b (.of os) = none) : newRemote os w c = .error .attributeError := by
  have hg : w.get c (.of os) = none := by
    unfold World.get
    rw [hk]
    dsimp only
    exact List.findSome?_eq_none_iff.2 hb
  unfold newRemote
  rw [hf]
  dsimp only
  rw [hg]

-- C104_remote_unbound: a class that was just defined
example : newRemote .posix (run [] [.define [] [] none]) 0 = .error .attributeError := by decide

end Verif.Classes
