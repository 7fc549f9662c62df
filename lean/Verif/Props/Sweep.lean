import Verif.Model.Sweep
import Verif.Lemmas.Decide
import Verif.Lemmas.Str

/-!
# C99: local directories that the remote does not have
-/

namespace Verif.Sweep
open Verif.FS

variable {σ : Type} (W : World σ)

/-! ## Specification -/

/-- The state that a run has come to. -/
def Run.at_ : Run σ → At σ
  | .running a => a
  | .ended a => a
  | .raised _ a => a

/-- A list in another order. -/
def Arranges (W : World σ) : Prop := ∀ l d, d ∈ W.arrange l ↔ d ∈ l

/-- Refreshing a directory decides about caches in it and below it only. -/
def Local (W : World σ) : Prop := ∀ s d s' q, W.refresh s d = .ok s' → ¬ d <+: q → W.cached s' q = W.cached s q

/-! ## Lemmas -/

theorem keeps_self (d : Rel) : keeps d d = false := by
  simp [keeps]

theorem joinC_prefix : ∀ (d r : Rel), d ≠ [] → ∃ t, joinC '/' (d ++ r) = joinC '/' d ++ t
  | [], _, h => absurd rfl h
  | [w], [], _ => ⟨[], by simp [joinC]⟩
  | [w], x :: xs, _ => ⟨'/' :: joinC '/' (x :: xs), by simp [joinC]⟩
  | w :: v :: vs, r, _ => by
    obtain ⟨t, ht⟩ := joinC_prefix (v :: vs) r (by simp)
    refine ⟨t, ?_⟩
    simp only [List.cons_append] at ht ⊢
    simp only [joinC, ht, List.append_assoc, List.cons_append]

theorem posix_prefix {d q : Rel} (hd : d ≠ []) (h : d <+: q) : posix d <+: posix q := by
  obtain ⟨r, rfl⟩ := h
  obtain ⟨t, ht⟩ := joinC_prefix d r hd
  unfold posix
  rw [if_neg hd, if_neg (by simp [hd]), ht]
  exact List.prefix_append _ _

theorem keeps_below {d q : Rel} (hd : d ≠ []) (h : d <+: q) : keeps d q = false := by
  have := posix_prefix hd h
  simp only [keeps, Bool.not_eq_false']
  exact List.isPrefixOf_iff_prefix.2 this

/-- What one pass does. -/
theorem pass_facts : ∀ (ds : List Rel) (a : At σ), ∃ new : List Rel,
    (W.pass ds a).2.done = new ++ a.done ∧ (∀ d ∈ new, d ∈ ds) ∧
    ((W.pass ds a).1 = none → (W.pass ds a).2.dirs = a.dirs.filter fun ld => new.all fun d => keeps d ld) ∧
    (∀ ld, ld ∈ (W.pass ds a).2.dirs → ld ∈ a.dirs) ∧
    (new = [] → (∀ d ∈ ds, W.cached a.state d = false) ∧ W.pass ds a = (none, a))
  | [], a => ⟨[], rfl, by simp, (fun _ => (List.filter_eq_self.2 (by simp)).symm), fun _ h => h, fun _ => ⟨by simp, rfl⟩⟩
  | d :: ds, a => by
    unfold World.pass
    by_cases hc : W.cached a.state d = true
    · rw [if_pos hc]
      cases hr : W.refresh a.state d with
      | error e =>
        exact ⟨[d], rfl, by simp, by simp, fun _ h => h, by simp⟩
      | ok s =>
        obtain ⟨new, h1, h2, h3, h4, _⟩ := pass_facts ds ⟨s, a.dirs.filter (keeps d), d :: a.done⟩
        refine ⟨new ++ [d], by simp [h1], ?_, ?_, ?_, by simp⟩
        · intro x hx
          rcases List.mem_append.1 hx with hx | hx
          · exact List.mem_cons_of_mem _ (h2 x hx)
          · simp only [List.mem_singleton] at hx; simp [hx]
        · intro hn
          rw [h3 hn, List.filter_filter]
          congr 1
          funext ld
          simp [Bool.and_comm]
        · intro ld hl
          exact (List.mem_filter.1 (h4 ld hl)).1
    · rw [if_neg hc]
      obtain ⟨new, h1, h2, h3, h4, h5⟩ := pass_facts ds a
      refine ⟨new, h1, fun x hx => List.mem_cons_of_mem _ (h2 x hx), h3, h4, fun hn => ?_⟩
      obtain ⟨h6, h7⟩ := h5 hn
      refine ⟨?_, h7⟩
      intro x hx
      rcases List.mem_cons.1 hx with rfl | hx
      · simpa using hc
      · exact h6 x hx

variable {W}

theorem mem_old {dirs : List Rel} {d : Rel} : d ∈ W.old dirs ↔ d ∈ dirs ∧ d ∉ W.remote := by
  simp [World.old]

/-- A pass refreshes something, and then fewer directories are left, or has no effect, and then never will. -/
theorem pass_progress (harr : Arranges W) (a : At σ) :
    (∃ e, (W.pass (W.arrange (W.old a.dirs)) a).1 = some e) ∨
    ((W.pass (W.arrange (W.old a.dirs)) a).1 = none ∧ (W.pass (W.arrange (W.old a.dirs)) a).2.dirs.length < a.dirs.length) ∨
    (W.pass (W.arrange (W.old a.dirs)) a = (none, a) ∧ ∀ d ∈ W.old a.dirs, W.cached a.state d = false) := by
  obtain ⟨new, h1, h2, h3, h4, h5⟩ := pass_facts W (W.arrange (W.old a.dirs)) a
  cases he : (W.pass (W.arrange (W.old a.dirs)) a).1 with
  | some e => exact .inl ⟨e, rfl⟩
  | none =>
    right
    cases hnew : new with
    | nil =>
      obtain ⟨h6, h7⟩ := h5 hnew
      exact .inr ⟨h7, fun d hd => h6 d ((harr _ _).2 hd)⟩
    | cons d ds =>
      refine .inl ⟨rfl, ?_⟩
      rw [h3 he]
      have hd : d ∈ a.dirs := (mem_old.1 ((harr _ _).1 (h2 d (by simp [hnew])))).1
      have := List.length_filter_lt_length_iff_exists (p := fun ld => new.all fun d => keeps d ld) (l := a.dirs)
      rw [this]
      exact ⟨d, hd, by simp [hnew, keeps_self]⟩

theorem loop_zero (a : At σ) : W.loop 0 a = if W.old a.dirs = [] then .ended a else .running a := rfl

/-! ## Theorems -/

/-- **A sweep that reaches directories none of which has a cache goes round forever.** -/
theorem C99_stuck (harr : Arranges W) (a : At σ) (hne : W.old a.dirs ≠ []) (hc : ∀ d ∈ W.old a.dirs, W.cached a.state d = false) :
    ∀ fuel, W.loop fuel a = .running a := by
  intro fuel
  induction fuel with
  | zero => rw [loop_zero, if_neg hne]
  | succ n ih =>
    have hp : W.pass (W.arrange (W.old a.dirs)) a = (none, a) := by
      have : ∀ ds : List Rel, (∀ d ∈ ds, W.cached a.state d = false) → W.pass ds a = (none, a) := by
        intro ds
        induction ds with
        | nil => intro _; rfl
        | cons d ds ih =>
          intro h
          unfold World.pass
          rw [if_neg (by simp [h d (by simp)])]
          exact ih fun x hx => h x (by simp [hx])
      exact this _ fun d hd => hc d ((harr _ _).1 hd)
    unfold World.loop
    rw [if_neg hne, hp]
    exact ih

/-- Going round as often as there are directories decides: the sweep has ended or raised by then, or it never ends and none of the
directories that are left has a cache. -/
theorem C99_decided (harr : Arranges W) (s : σ) (dirs : List Rel) (fuel : Nat) (hf : dirs.length ≤ fuel) :
    W.sweep fuel s dirs = W.sweep dirs.length s dirs ∧
    ∀ a, W.sweep dirs.length s dirs = .running a → W.old a.dirs ≠ [] ∧ ∀ d ∈ W.old a.dirs, W.cached a.state d = false := by
  have key : ∀ (n : Nat) (a : At σ), a.dirs.length ≤ n →
      (∀ fuel, n ≤ fuel → W.loop fuel a = W.loop n a) ∧
      ∀ b, W.loop n a = .running b → W.old b.dirs ≠ [] ∧ ∀ d ∈ W.old b.dirs, W.cached b.state d = false := by
    intro n
    induction n with
    | zero =>
      intro a ha
      have hd : a.dirs = [] := List.length_eq_zero_iff.1 (by omega)
      have ho : W.old a.dirs = [] := by rw [hd]; rfl
      have hl : ∀ fuel, W.loop fuel a = .ended a := by
        intro fuel
        cases fuel <;> unfold World.loop <;> rw [if_pos ho]
      refine ⟨fun fuel _ => by rw [hl, hl], ?_⟩
      intro b hb; rw [hl] at hb; cases hb
    | succ n ih =>
      intro a ha
      by_cases ho : W.old a.dirs = []
      · have hl : ∀ fuel, W.loop fuel a = .ended a := by
          intro fuel
          cases fuel <;> unfold World.loop <;> rw [if_pos ho]
        refine ⟨fun fuel _ => by rw [hl, hl], ?_⟩
        intro b hb; rw [hl] at hb; cases hb
      · rcases pass_progress harr a with ⟨e, h⟩ | ⟨h, hlt⟩ | ⟨_, hc⟩
        · have hl : ∀ fuel, W.loop (fuel + 1) a = .raised e (W.pass (W.arrange (W.old a.dirs)) a).2 := by
            intro fuel
            unfold World.loop
            rw [if_neg ho]
            generalize W.pass (W.arrange (W.old a.dirs)) a = r at h
            obtain ⟨r1, r2⟩ := r
            simp only at h
            subst h; rfl
          refine ⟨?_, ?_⟩
          · intro fuel hfu
            obtain ⟨k, rfl⟩ : ∃ k, fuel = k + 1 := ⟨fuel - 1, by omega⟩
            rw [hl, hl]
          · intro b hb; rw [hl] at hb; cases hb
        · have hl : ∀ fuel, W.loop (fuel + 1) a = W.loop fuel (W.pass (W.arrange (W.old a.dirs)) a).2 := by
            intro fuel
            conv => lhs; unfold World.loop
            rw [if_neg ho]
            generalize W.pass (W.arrange (W.old a.dirs)) a = r at h
            obtain ⟨r1, r2⟩ := r
            simp only at h
            subst h; rfl
          obtain ⟨i1, i2⟩ := ih (W.pass (W.arrange (W.old a.dirs)) a).2 (by omega)
          refine ⟨?_, ?_⟩
          · intro fuel hfu
            obtain ⟨k, rfl⟩ : ∃ k, fuel = k + 1 := ⟨fuel - 1, by omega⟩
            rw [hl, hl, i1 k (by omega)]
          · intro b hb
            rw [hl] at hb
            exact i2 b hb
        · have hl := C99_stuck harr a ho hc
          refine ⟨fun fuel _ => by rw [hl, hl], ?_⟩
          intro b hb; rw [hl] at hb; cases hb; exact ⟨ho, hc⟩
  obtain ⟨h1, h2⟩ := key dirs.length ⟨s, dirs, []⟩ (Nat.le_refl _)
  exact ⟨h1 fuel hf, h2⟩

/-- Whatever happens, only local directories that the remote does not have are refreshed, and `local_dirs` only shrinks. -/
theorem C99_only (harr : Arranges W) (s : σ) (dirs : List Rel) (fuel : Nat) :
    ∀ d ∈ (W.sweep fuel s dirs).at_.done, d ∈ dirs ∧ d ∉ W.remote := by
  have key : ∀ (n : Nat) (a : At σ), (∀ d ∈ a.dirs, d ∈ dirs) → (∀ d ∈ a.done, d ∈ dirs ∧ d ∉ W.remote) →
      ∀ d ∈ (W.loop n a).at_.done, d ∈ dirs ∧ d ∉ W.remote := by
    intro n
    induction n with
    | zero =>
      intro a _ h2
      rw [loop_zero]
      split <;> exact h2
    | succ n ih =>
      intro a h1 h2
      unfold World.loop
      split
      · exact h2
      · obtain ⟨new, e1, e2, _, e4, _⟩ := pass_facts W (W.arrange (W.old a.dirs)) a
        have hd : ∀ d ∈ (W.pass (W.arrange (W.old a.dirs)) a).2.done, d ∈ dirs ∧ d ∉ W.remote := by
          intro d hd
          rw [e1] at hd
          rcases List.mem_append.1 hd with hd | hd
          · have := mem_old.1 ((harr _ _).1 (e2 d hd))
            exact ⟨h1 d this.1, this.2⟩
          · exact h2 d hd
        generalize W.pass (W.arrange (W.old a.dirs)) a = r at e4 hd
        obtain ⟨r1, r2⟩ := r
        cases r1 with
        | some e => exact hd
        | none => exact ih r2 (fun d hx => h1 d (e4 d hx)) hd
  exact key fuel _ (fun _ h => h) (by simp)

/-- When a sweep ends, each local directory that the remote does not have was refreshed, or its text begins with the text of one
that was. -/
theorem C99_all (s : σ) (dirs : List Rel) (fuel : Nat) (a : At σ) (h : W.sweep fuel s dirs = .ended a) :
    ∀ d ∈ dirs, d ∉ W.remote → ∃ r ∈ a.done, posix r <+: posix d := by
  have key : ∀ (n : Nat) (b : At σ), (∀ d ∈ dirs, d ∈ b.dirs ∨ ∃ r ∈ b.done, posix r <+: posix d) → W.loop n b = .ended a →
      ∀ d ∈ dirs, d ∉ W.remote → ∃ r ∈ a.done, posix r <+: posix d := by
    intro n
    have fin : ∀ b : At σ, (∀ d ∈ dirs, d ∈ b.dirs ∨ ∃ r ∈ b.done, posix r <+: posix d) → W.old b.dirs = [] →
        ∀ d ∈ dirs, d ∉ W.remote → ∃ r ∈ b.done, posix r <+: posix d := by
      intro b hb ho d hd hr
      rcases hb d hd with h | h
      · have : d ∈ W.old b.dirs := mem_old.2 ⟨h, hr⟩
        rw [ho] at this; cases this
      · exact h
    induction n with
    | zero =>
      intro b hb hl
      rw [loop_zero] at hl
      split at hl
      · rename_i ho; cases hl; exact fin a hb ho
      · cases hl
    | succ n ih =>
      intro b hb hl
      unfold World.loop at hl
      split at hl
      · rename_i ho; cases hl; exact fin a hb ho
      · obtain ⟨new, e1, _, e3, _, _⟩ := pass_facts W (W.arrange (W.old b.dirs)) b
        generalize W.pass (W.arrange (W.old b.dirs)) b = r at e1 e3 hl
        obtain ⟨r1, r2⟩ := r
        cases r1 with
        | some e => cases hl
        | none =>
          refine ih r2 ?_ hl
          intro d hd
          have e3 := e3 rfl
          simp only at e1 e3
          rcases hb d hd with h | ⟨r, h, h'⟩
          · by_cases hk : (new.all fun x => keeps x d) = true
            · left; rw [e3]; exact List.mem_filter.2 ⟨h, hk⟩
            · right
              simp only [List.all_eq_true] at hk
              have : ∃ x ∈ new, keeps x d = false := by
                by_cases hx : ∃ x ∈ new, keeps x d = false
                · exact hx
                · exfalso; apply hk; intro x hxn
                  cases hkx : keeps x d with
                  | true => rfl
                  | false => exact absurd ⟨x, hxn, hkx⟩ hx
              obtain ⟨x, hx, hxk⟩ := this
              refine ⟨x, by rw [e1]; exact List.mem_append_left _ hx, ?_⟩
              simp only [keeps, Bool.not_eq_false'] at hxk
              exact List.isPrefixOf_iff_prefix.1 hxk
          · right; exact ⟨r, by rw [e1]; exact List.mem_append_right _ h, h'⟩
  exact key fuel _ (fun d hd => .inl hd) h

/-- If all local directories that the remote does not have have a cache, going round once is enough, and each of them was refreshed
or is in one that was. -/
theorem C99_tracked (harr : Arranges W) (hl : Local W) (s : σ) (dirs : List Rel) (h0 : [] ∉ dirs)
    (hc : ∀ d ∈ dirs, d ∉ W.remote → W.cached s d = true) (fuel : Nat) (hf : 0 < fuel) :
    (∃ e a, W.sweep fuel s dirs = .raised e a) ∨
    ∃ a, W.sweep fuel s dirs = .ended a ∧ ∀ d ∈ dirs, d ∉ W.remote → ∃ r ∈ a.done, r <+: d := by
  have key : ∀ (ds : List Rel) (a : At σ), (∀ d ∈ ds, W.cached a.state d = true ∨ ∃ r ∈ a.done, r <+: d) →
      (W.pass ds a).1 = none → ∀ d, (d ∈ ds ∨ ∃ r ∈ a.done, r <+: d) → ∃ r ∈ (W.pass ds a).2.done, r <+: d := by
    intro ds
    induction ds with
    | nil =>
      intro a _ _ d hd
      rcases hd with hd | hd
      · cases hd
      · exact hd
    | cons x xs ih =>
      intro a ha hn d hd
      unfold World.pass at hn ⊢
      by_cases hx : W.cached a.state x = true
      · rw [if_pos hx] at hn ⊢
        cases hr : W.refresh a.state x with
        | error e => rw [hr] at hn; cases hn
        | ok s' =>
          rw [hr] at hn
          refine ih ⟨s', a.dirs.filter (keeps x), x :: a.done⟩ ?_ hn d ?_
          · intro q hq
            by_cases hxq : x <+: q
            · exact .inr ⟨x, by simp, hxq⟩
            · rcases ha q (by simp [hq]) with h | ⟨r, h, h'⟩
              · left; rw [← h]; exact hl _ _ _ _ hr hxq
              · exact .inr ⟨r, by simp [h], h'⟩
          · rcases hd with hd | ⟨r, h, h'⟩
            · rcases List.mem_cons.1 hd with rfl | hd
              · exact .inr ⟨d, by simp, List.prefix_rfl⟩
              · exact .inl hd
            · exact .inr ⟨r, by simp [h], h'⟩
      · rw [if_neg hx] at hn ⊢
        refine ih a (fun q hq => ha q (by simp [hq])) hn d ?_
        rcases hd with hd | hd
        · rcases List.mem_cons.1 hd with rfl | hd
          · rcases ha d (by simp) with h | h
            · exact absurd h hx
            · exact .inr h
          · exact .inl hd
        · exact .inr hd
  obtain ⟨n, rfl⟩ : ∃ n, fuel = n + 1 := ⟨fuel - 1, by omega⟩
  unfold World.sweep World.loop
  by_cases ho : W.old dirs = []
  · right
    rw [if_pos ho]
    refine ⟨_, rfl, ?_⟩
    intro d hd hr
    have : d ∈ W.old dirs := mem_old.2 ⟨hd, hr⟩
    rw [ho] at this; cases this
  · rw [if_neg ho]
    obtain ⟨new, e1, e2, e3, e4, _⟩ := pass_facts W (W.arrange (W.old dirs)) ⟨s, dirs, []⟩
    have k := key (W.arrange (W.old dirs)) ⟨s, dirs, []⟩ (by
      intro d hd
      have := mem_old.1 ((harr _ _).1 hd)
      exact .inl (hc d this.1 this.2))
    dsimp only at *
    generalize W.pass (W.arrange (W.old dirs)) ⟨s, dirs, []⟩ = r at e1 e3 e4 k
    obtain ⟨r1, r2⟩ := r
    cases r1 with
    | some e => exact .inl ⟨e, r2, rfl⟩
    | none =>
      right
      have e3 := e3 rfl
      have k := k rfl
      dsimp only at e1 e3 e4 k
      have hall : ∀ d ∈ dirs, d ∉ W.remote → ∃ r ∈ r2.done, r <+: d := fun d hd hr =>
        k d (.inl ((harr _ _).2 (mem_old.2 ⟨hd, hr⟩)))
      have hold : W.old r2.dirs = [] := by
        rw [List.eq_nil_iff_forall_not_mem]
        intro d hd
        obtain ⟨hd, hr⟩ := mem_old.1 hd
        rw [e3] at hd
        obtain ⟨hd, hk⟩ := List.mem_filter.1 hd
        obtain ⟨r, hrm, hp⟩ := hall d hd hr
        have hrn : r ∈ new := by rw [e1] at hrm; simpa using hrm
        have hr0 : r ≠ [] := by
          rintro rfl
          exact h0 (mem_old.1 ((harr _ _).1 (e2 _ hrn))).1
        simp only [List.all_eq_true] at hk
        have := hk r hrn
        rw [keeps_below hr0 hp] at this; cases this
      refine ⟨r2, ?_, hall⟩
      dsimp only
      cases n with
      | zero => rw [loop_zero, if_pos hold]
      | succ n => unfold World.loop; rw [if_pos hold]

/-! ## The order -/

theorem mem_place {p x : Rel} {l : List Rel} : x ∈ place p l ↔ x = p ∨ x ∈ l := by
  induction l with
  | nil => simp [place]
  | cons q qs ih =>
    unfold place
    split
    · simp only [List.mem_cons, ih]
      constructor
      · rintro (h | h | h)
        · exact .inr (.inl h)
        · exact .inl h
        · exact .inr (.inr h)
      · rintro (h | h | h)
        · exact .inr (.inl h)
        · exact .inl h
        · exact .inr (.inr h)
    · simp

theorem mem_byLength {x : Rel} {l : List Rel} : x ∈ byLength l ↔ x ∈ l := by
  induction l with
  | nil => simp [byLength]
  | cons p ps ih => simp [byLength, mem_place, ih]

theorem byLength_sorted (l : List Rel) : (byLength l).Pairwise fun p q => (posix p).length ≤ (posix q).length := by
  induction l with
  | nil => exact .nil
  | cons p ps ih =>
    unfold byLength
    generalize byLength ps = l at ih
    induction l with
    | nil => simp [place]
    | cons q qs ih' =>
      unfold place
      have h2 := List.pairwise_cons.1 ih
      split
      · rename_i hlt
        refine List.pairwise_cons.2 ⟨?_, ih' h2.2⟩
        intro x hx
        rcases mem_place.1 hx with rfl | hx
        · omega
        · exact h2.1 x hx
      · rename_i hlt
        refine List.pairwise_cons.2 ⟨?_, ih⟩
        intro x hx
        rcases List.mem_cons.1 hx with rfl | hx
        · omega
        · have := h2.1 x hx; omega

/-- Sorting by the length of the text puts everything once and, whatever the order was, each directory before all that is below it. -/
theorem C99_parents_first (l : List Rel) :
    (byLength l).Perm l ∧
    (byLength l).Pairwise fun p q => ¬ (q ≠ [] ∧ q <+: p ∧ q ≠ p) := by
  constructor
  · have hp : ∀ (p : Rel) (l : List Rel), (place p l).Perm (p :: l) := by
      intro p l
      induction l with
      | nil => exact .rfl
      | cons q qs ih =>
        unfold place
        split
        · exact (ih.cons q).trans (.swap p q qs)
        · exact .rfl
    induction l with
    | nil => exact .nil
    | cons p ps ih => exact (hp p _).trans (ih.cons p)
  · refine (byLength_sorted l).imp ?_
    rintro p q hle ⟨hq, ⟨t, rfl⟩, hne⟩
    have ht : t ≠ [] := by rintro rfl; simp at hne
    obtain ⟨x, xs, rfl⟩ := List.exists_cons_of_ne_nil ht
    have : (posix q).length < (posix (q ++ x :: xs)).length := by
      have hj : ∀ (q : Rel), q ≠ [] → (joinC '/' q).length < (joinC '/' (q ++ x :: xs)).length := by
        intro q
        induction q with
        | nil => intro h; exact absurd rfl h
        | cons w ws ih =>
          intro _
          cases ws with
          | nil => simp [joinC]
          | cons v vs =>
            have := ih (by simp)
            simp only [joinC, List.cons_append, List.length_append, List.length_cons] at this ⊢
            omega
      unfold posix
      rw [if_neg hq, if_neg (by simp)]
      exact hj q hq
    omega

/-! ## Where more would be false -/

/-- A world where directories have caches or not, and refreshing does nothing. -/
def still (cached : Rel → Bool) (remote : List Rel) : World Unit := ⟨fun _ => cached, fun _ _ => .ok (), byLength, remote⟩

theorem still_arranges (c : Rel → Bool) (r : List Rel) : Arranges (still c r) := fun _ _ => mem_byLength

theorem still_local (c : Rel → Bool) (r : List Rel) : Local (still c r) := fun _ _ _ _ _ _ => rfl

/-- **A local directory without a cache, which the remote does not have, keeps a recursive bootstrap from ever ending**; also if all
the other directories are as they should be. -/
theorem C99_untracked_counterexample :
    (∀ fuel, ∃ a, (still (fun _ => false) []).sweep fuel () [[lit "notes"]] = .running a) ∧
    (∀ fuel, ∃ a, (still (fun d => d != [lit "notes"]) [[lit "data"]]).sweep fuel () [[lit "data"], [lit "old"], [lit "notes"]] =
      .running a) := by
  constructor
  · intro fuel
    exact ⟨_, C99_stuck (still_arranges _ _) _ (by decide +kernel) (by intro d _; rfl) fuel⟩
  · intro fuel
    cases fuel with
    | zero => exact ⟨_, rfl⟩
    | succ n =>
      refine ⟨⟨(), [[lit "data"], [lit "notes"]], [[lit "old"]]⟩, ?_⟩
      have h1 : (still (fun d => d != [lit "notes"]) [[lit "data"]]).sweep (n + 1) () [[lit "data"], [lit "old"], [lit "notes"]] =
          (still (fun d => d != [lit "notes"]) [[lit "data"]]).loop n ⟨(), [[lit "data"], [lit "notes"]], [[lit "old"]]⟩ := by
        unfold World.sweep
        conv => lhs; unfold World.loop
        rw [if_neg (by decide +kernel)]
        have : (still (fun d => d != [lit "notes"]) [[lit "data"]]).pass
            ((still (fun d => d != [lit "notes"]) [[lit "data"]]).arrange
              ((still (fun d => d != [lit "notes"]) [[lit "data"]]).old [[lit "data"], [lit "old"], [lit "notes"]]))
            ⟨(), [[lit "data"], [lit "old"], [lit "notes"]], []⟩ = (none, ⟨(), [[lit "data"], [lit "notes"]], [[lit "old"]]⟩) := by
          rfl
        dsimp only
        rw [this]
      rw [h1]
      refine C99_stuck (still_arranges _ _) _ (by decide +kernel) ?_ n
      intro d hd
      have : d = [lit "notes"] := by
        have : d ∈ [[lit "notes"]] := by
          have h : (still (fun d => d != [lit "notes"]) [[lit "data"]]).old [[lit "data"], [lit "notes"]] = [[lit "notes"]] := by
            decide +kernel
          rw [← h]; exact hd
        simpa using this
      subst this; rfl

/-- **Texts are compared, not paths**: `ab` without a cache is taken to be in `a`, so that it is left out without a word. -/
theorem C99_prefix_counterexample :
    (still (fun d => d == [lit "a"]) []).sweep 1 () [[lit "a"], [lit "ab"]] = .ended ⟨(), [], [[lit "a"]]⟩ ∧
    (∃ a, (still (fun d => d == [lit "a"]) []).sweep 1 () [[lit "a"], [lit "b"]] = .running a) := by
  exact ⟨rfl, _, rfl⟩

/-- The hypotheses of `C99_tracked` hold of nested directories. -/
example : Arranges (still (fun _ => true) [[lit "data"]]) ∧ Local (still (fun _ => true) [[lit "data"]]) ∧
    (still (fun _ => true) [[lit "data"]]).sweep 1 () [[lit "x", lit "y"], [lit "data"], [lit "x"]] =
      .ended ⟨(), [[lit "data"]], [[lit "x", lit "y"], [lit "x"]]⟩ :=
  ⟨still_arranges _ _, still_local _ _, rfl⟩

/-- Directories whose texts are equally long are visited in the order in which the walk found them, so the order is settled. -/
theorem C99_order (l : List Rel) (n : Nat) :
    (byLength l).filter (fun p => (posix p).length == n) = l.filter (fun p => (posix p).length == n) := by
  have hp : ∀ (p : Rel) (l : List Rel),
      (place p l).filter (fun p => (posix p).length == n) = (p :: l).filter (fun p => (posix p).length == n) := by
    intro p l
    induction l with
    | nil => rfl
    | cons q qs ih =>
      unfold place
      split
      · rename_i hlt
        rw [List.filter_cons, ih, List.filter_cons, List.filter_cons, List.filter_cons]
        by_cases h1 : (posix p).length == n
        · have h2 : ((posix q).length == n) = false := by
            simp only [beq_iff_eq] at h1
            simp only [beq_eq_false_iff_ne]
            omega
          rw [h1, h2]
          simp
        · rw [Bool.not_eq_true] at h1
          rw [h1]
          simp
      · rfl
  induction l with
  | nil => rfl
  | cons p ps ih =>
    unfold byLength
    rw [hp, List.filter_cons, List.filter_cons, ih]

example : (byLength [[lit "b"], [lit "a", lit "c"], [lit "a"]]) = [[lit "b"], [lit "a"], [lit "a", lit "c"]] := by decide

end Verif.Sweep
