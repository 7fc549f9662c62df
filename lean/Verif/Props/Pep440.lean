import Verif.Lemmas.Decide
import Verif.Spec.Pep440

/-!
# C63, C64: the next version
-/

namespace Verif.Pep440

open Verif.Pep440.Spec

/-! ## The specification's order is a strict order -/

theorem labelLt_irrefl (l : List Seg) : ¬ LabelLt l l := by
  induction l with
  | nil => intro h; cases h
  | cons x xs ih =>
    intro h
    cases h with
    | num h => omega
    | text h => exact List.lt_irrefl _ h
    | tail h => exact ih h

theorem labelLt_trans {l m n : List Seg} (h : LabelLt l m) : LabelLt m n → LabelLt l n := by
  induction h generalizing n with
  | nil => intro h; cases h <;> exact .nil
  | num h => intro h'; cases h' with
    | num h' => exact .num (by omega)
    | tail h' => exact .num h
  | mixed => intro h'; cases h' with
    | num h' => exact .mixed
    | tail h' => exact .mixed
  | text h => intro h'; cases h' with
    | mixed => exact .mixed
    | text h' => exact .text (List.lt_trans h h')
    | tail h' => exact .text h
  | tail h ih => intro h'; cases h' with
    | num h' => exact .num h'
    | mixed => exact .mixed
    | text h' => exact .text h'
    | tail h' => exact .tail (ih h')

theorem lt_irrefl (v : Version) : ¬ Lt v v := by
  intro h
  have hd : ¬ DevLt v.dev v.dev := by cases v.dev <;> simp [DevLt]
  have hl : ¬ LocLt v.loc v.loc := by
    cases h : v.loc with
    | none => simp [LocLt]
    | some l => simp [LocLt, labelLt_irrefl]
  have hr : ¬ RelLt v.release v.release := by rintro ⟨i, hi, _⟩; omega
  unfold Lt at h
  simp only [Nat.lt_irrefl, false_or, true_and, hr, hd, hl, or_self, and_false] at h

theorem relLt_trans {r s t : List Nat} (h : RelLt r s) (h' : RelLt s t) : RelLt r t := by
  obtain ⟨i, hi, hi'⟩ := h
  obtain ⟨j, hj, hj'⟩ := h'
  rcases Nat.lt_trichotomy i j with hij | hij | hij
  · exact ⟨i, by rw [← hj' i hij]; exact hi, fun k hk => by rw [hi' k hk, hj' k (by omega)]⟩
  · subst hij; exact ⟨i, by omega, fun k hk => by rw [hi' k hk, hj' k hk]⟩
  · exact ⟨j, by rw [hi' j hij]; exact hj, fun k hk => by rw [hi' k (by omega), hj' k hk]⟩

theorem relLt_eq {r s t : List Nat} (h : RelLt r s) (h' : RelEq s t) : RelLt r t := by
  obtain ⟨i, hi, hi'⟩ := h
  exact ⟨i, by rw [← h' i]; exact hi, fun k hk => by rw [hi' k hk, h' k]⟩

theorem relEq_lt {r s t : List Nat} (h : RelEq r s) (h' : RelLt s t) : RelLt r t := by
  obtain ⟨i, hi, hi'⟩ := h'
  exact ⟨i, by rw [h i]; exact hi, fun k hk => by rw [h k, hi' k hk]⟩

theorem devLt_trans {a b c : Option Nat} (h : DevLt a b) (h' : DevLt b c) : DevLt a c := by
  cases a <;> cases b <;> cases c <;> simp_all [DevLt]; omega

theorem locLt_trans {a b c : Option (List Seg)} (h : LocLt a b) (h' : LocLt b c) : LocLt a c := by
  cases a <;> cases b <;> cases c <;> simp_all [LocLt]
  exact labelLt_trans h h'

theorem lt_trans {u v w : Version} (h : Lt u v) (h' : Lt v w) : Lt u w := by
  unfold Lt at *
  rcases h with h | ⟨e, h⟩ <;> rcases h' with h' | ⟨e', h'⟩ <;> (try (left; omega))
  right; refine ⟨by omega, ?_⟩
  rcases h with h | ⟨r, h⟩ <;> rcases h' with h' | ⟨r', h'⟩
  · exact .inl (relLt_trans h h')
  · exact .inl (relLt_eq h r')
  · exact .inl (relEq_lt r h')
  right; refine ⟨fun i => by rw [r i, r' i], ?_⟩
  rcases h with h | ⟨p, h⟩ <;> rcases h' with h' | ⟨p', h'⟩ <;> (try (left; omega))
  right; refine ⟨by omega, ?_⟩
  rcases h with h | ⟨q, h⟩ <;> rcases h' with h' | ⟨q', h'⟩ <;> (try (left; omega))
  right; refine ⟨by omega, ?_⟩
  rcases h with h | ⟨s, h⟩ <;> rcases h' with h' | ⟨s', h'⟩ <;> (try (left; omega))
  right; refine ⟨by omega, ?_⟩
  rcases h with h | ⟨d, h⟩ <;> rcases h' with h' | ⟨d', h'⟩
  · exact .inl (devLt_trans h h')
  · exact .inl (d' ▸ h)
  · exact .inl (d ▸ h')
  · exact .inr ⟨d.trans d', locLt_trans h h'⟩

/-! ## Bumping -/

theorem bumpLast_lt {r : List Nat} (h : r ≠ []) : RelLt r (bumpLast r) := by
  induction r with
  | nil => exact absurd rfl h
  | cons n ns ih =>
    cases ns with
    | nil => exact ⟨0, by simp [bumpLast], by omega⟩
    | cons m ms =>
      obtain ⟨i, hi, hj⟩ := ih (by simp)
      refine ⟨i + 1, by simpa [bumpLast] using hi, ?_⟩
      intro j hj'
      cases j with
      | zero => simp [bumpLast]
      | succ j => simpa [bumpLast] using hj j (by omega)

theorem bumpAt_lt {k : Nat} : ∀ {r s : List Nat}, bumpAt k r = some s → RelLt r s := by
  induction k with
  | zero =>
    intro r s h
    cases r with
    | nil => simp [bumpAt] at h
    | cons n ns =>
      simp only [bumpAt, Option.some.injEq] at h
      subst h
      exact ⟨0, by simp, by omega⟩
  | succ k ih =>
    intro r s h
    cases r with
    | nil => simp [bumpAt] at h
    | cons n ns =>
      simp only [bumpAt, Option.map_eq_some_iff] at h
      obtain ⟨t, ht, rfl⟩ := h
      obtain ⟨i, hi, hj⟩ := ih ht
      refine ⟨i + 1, by simpa using hi, ?_⟩
      intro j hj'
      cases j with
      | zero => simp
      | succ j => simpa using hj j (by omega)

/-- What a step on the release number does. -/
theorem consNext_component {d ver d' : Version} {c : Word} (hc : IsComponent c) (hr : d.release ≠ [])
    (h : consNext d ver c = .ok d') : d' = { d with release := d'.release } ∧ RelLt d.release d'.release := by
  rcases hc with rfl | rfl | rfl | rfl
  · simp only [consNext, Except.ok.injEq] at h
    subst h
    exact ⟨rfl, bumpLast_lt hr⟩
  all_goals
    simp only [consNext] at h
    split at h
    · rename_i r hb
      simp only [Except.ok.injEq] at h
      subst h
      exact ⟨rfl, bumpAt_lt hb⟩
    · simp at h

theorem lt_of_release {v w : Version} (he : v.epoch = w.epoch) (h : RelLt v.release w.release) : Lt v w :=
  .inr ⟨he, .inl h⟩

/-! ## C63 -/

/-- C63: whenever a next version is computed it is greater than the current one. -/
theorem C63_next_greater (v w : Version) (next comp : Word) (hr : v.release ≠ []) (hc : IsComponent comp)
    (h : nextVersion v next comp = .ok w) : Lt v w := by
  rw [nextVersion] at h
  cases hl : logic (currentState v) next comp with
  | none => rw [hl] at h; simp at h
  | some n =>
    rw [hl] at h
    dsimp only at h
    cases n with
    | two c k =>
      dsimp only at h
      have hck : c = comp ∧ (k = .dev ∨ k = .a ∨ k = .b ∨ k = .rc) := by
        cases next <;> simp only [logic] at hl <;> (repeat' split at hl) <;> simp at hl <;> simp [hl.1.symm, hl.2.symm]
      obtain ⟨rfl, hk⟩ := hck
      cases h1 : consNext ⟨v.epoch, v.release, none, none, none, none⟩ v c with
      | error e => rw [h1] at h; simp at h
      | ok d' =>
        rw [h1] at h
        dsimp only at h
        obtain ⟨e, hlt⟩ := consNext_component hc (d := ⟨v.epoch, v.release, none, none, none, none⟩) hr h1
        have he : v.epoch = d'.epoch := by rw [e]
        clear e
        rcases hk with rfl | rfl | rfl | rfl <;> simp only [consNext, Except.ok.injEq] at h <;> subst h <;>
          exact lt_of_release he hlt
    | trunc =>
      simp only [Except.ok.injEq] at h
      subst h
      have hs : currentState v = .dev ∨ currentState v = .a ∨ currentState v = .b ∨ currentState v = .rc := by
        cases next <;> simp only [logic] at hl <;> (repeat' split at hl) <;> simp at hl <;> assumption
      right; refine ⟨rfl, .inr ⟨fun _ => rfl, .inl ?_⟩⟩
      simp only [currentState] at hs
      split at hs
      · simp at hs
      · split at hs
        · simp at hs
        · rename_i hpost
          have hp : v.post = none := by simpa using hpost
          cases hpre : v.pre with
          | some x =>
            obtain ⟨k, m⟩ := x
            simp only [phase, hpre]
            cases k <;> simp [kind]
          | none =>
            rw [hpre] at hs
            cases hd : v.dev with
            | none => rw [hd] at hs; simp at hs
            | some m => simp [phase, hpre, hp, hd]
    | one k =>
      dsimp only at h
      by_cases hkc : IsComponent k
      · obtain ⟨e, hlt⟩ := consNext_component hkc (d := ⟨v.epoch, v.release, none, none, none, none⟩) hr h
        exact lt_of_release (by rw [e]) hlt
      · right; refine ⟨?_, .inr ⟨?_, ?_⟩⟩
        · cases k <;> simp [IsComponent, consNext] at h hkc <;> (try (subst h; rfl))
          split at h <;> simp at h
          subst h; rfl
        · intro i
          cases k <;> simp [IsComponent, consNext] at h hkc <;> (try (subst h; rfl))
          split at h <;> simp at h
          subst h; rfl
        · -- which current states lead to which single step
          have key : k = currentState v ∨
              (currentState v = .dev ∧ (k = .a ∨ k = .b ∨ k = .rc)) ∨
              (currentState v = .a ∧ k = .b) ∨ (currentState v = .b ∧ k = .rc) ∨
              (currentState v = .release ∧ k = .post) ∨ k = .loc := by
            revert hl hkc
            cases next <;> simp only [logic, IsComponent] <;> (repeat' split) <;> simp_all
          cases hloc : v.loc with
          | some l =>
            have hcs : currentState v = .loc := by simp [currentState, hloc]
            have hk : k = .loc := by rw [hcs] at key; simpa using key
            subst hk
            simp [consNext, hloc] at h
          | none =>
          cases hpost : v.post with
          | some p =>
            have hcs : currentState v = .post := by simp [currentState, hloc, hpost]
            rw [hcs] at key
            simp only [reduceCtorEq, false_and, false_or, or_false] at key
            rcases key with rfl | rfl
            · simp only [consNext, Except.ok.injEq] at h
              subst h
              cases hpre : v.pre with
              | some x => left; simp only [phase, hpre]; obtain ⟨q, m⟩ := x; cases q <;> simp [kind]
              | none =>
                right; refine ⟨by simp [phase, hpre, hpost], .inr ⟨by simp [phase, hpre, hpost], .inl ?_⟩⟩
                simp [postRank, hpost, vinc]
            · simp only [consNext, hloc, Except.ok.injEq] at h
              subst h
              exact .inr ⟨rfl, .inr ⟨rfl, .inr ⟨rfl, .inr ⟨rfl, by simp [LocLt, hloc]⟩⟩⟩⟩
          | none =>
          by_cases hk : k = .loc
          · subst hk
            simp only [consNext, hloc, Except.ok.injEq] at h
            subst h
            exact .inr ⟨rfl, .inr ⟨rfl, .inr ⟨rfl, .inr ⟨rfl, by simp [LocLt, hloc]⟩⟩⟩⟩
          cases hpre : v.pre with
          | some x =>
            obtain ⟨q, m⟩ := x
            have hcs : currentState v = q.word := by simp [currentState, hloc, hpost, hpre]
            rw [hcs] at key
            cases q <;> simp [Pre.word, hk] at key
            · rcases key with rfl | rfl <;> simp only [consNext, Except.ok.injEq] at h <;> subst h
              · right; exact ⟨by simp [phase, hpre], .inl (by simp [phase, hpre, vinc])⟩
              · left; simp [phase, hpre, kind]
            · rcases key with rfl | rfl <;> simp only [consNext, Except.ok.injEq] at h <;> subst h
              · right; exact ⟨by simp [phase, hpre], .inl (by simp [phase, hpre, vinc])⟩
              · left; simp [phase, hpre, kind]
            · subst key
              simp only [consNext, Except.ok.injEq] at h; subst h
              right; exact ⟨by simp [phase, hpre], .inl (by simp [phase, hpre, vinc])⟩
          | none =>
          cases hdev : v.dev with
          | some m =>
            have hcs : currentState v = .dev := by simp [currentState, hloc, hpost, hpre, hdev]
            rw [hcs] at key
            simp [hk] at key
            rcases key with rfl | rfl | rfl | rfl <;> simp only [consNext, Except.ok.injEq] at h <;> subst h
            · right; refine ⟨by simp [phase, hpre, hpost, hdev], .inr ⟨by simp [phase, hpre, hpost, hdev], .inr ⟨?_, .inl ?_⟩⟩⟩
              · simp [postRank, hpost]
              · simp [DevLt, hdev, vinc]
            all_goals left; simp [phase, hpre, hpost, hdev, kind]
          | none =>
            have hcs : currentState v = .release := by simp [currentState, hloc, hpost, hpre, hdev]
            rw [hcs] at key
            simp [hk] at key
            rcases key with rfl | rfl
            · exact absurd (.inl rfl) hkc
            · simp only [consNext, Except.ok.injEq] at h; subst h
              right; refine ⟨by simp [phase, hpre, hpost, hdev], .inr ⟨by simp [phase, hpre, hpost, hdev], .inl ?_⟩⟩
              simp [postRank, hpost]

/-- `1.0` with a suffix, for the examples. -/
def sample (pre : Option (Pre × Nat)) (post dev : Option Nat) : Version := ⟨0, [1, 0], pre, post, dev, none⟩

example : nextVersion (sample (some (.a, 1)) none none) .pre .release = .ok (sample (some (.b, 2)) none none) ∧
    (sample (some (.a, 1)) none none).release ≠ [] ∧ IsComponent .release := by
  exact ⟨by decide, by decide, .inl rfl⟩

/-- C63 needs the component to be one: with any other word in its position the result can be smaller. -/
theorem C63_component_counterexample :
    nextVersion (sample none none none) .a .dev = .ok (sample (some (.a, 0)) none (some 0)) ∧
    Lt (sample (some (.a, 0)) none (some 0)) (sample none none none) := by
  refine ⟨by decide, .inr ⟨rfl, .inr ⟨fun _ => rfl, .inl ?_⟩⟩⟩
  simp [phase, sample, kind]

/-! ## C64 -/

theorem stage_state (v : Version) (s : Nat) (h : stage v = some s) :
    (s = 0 ∧ currentState v = .dev ∧ v.pre = none) ∨ (∃ k n, v.pre = some (k, n) ∧ s = kind k ∧ currentState v = k.word) := by
  simp only [stage] at h
  split at h
  · simp at h
  · rename_i hn
    simp only [ne_eq, not_or, Decidable.not_not] at hn
    cases hp : v.pre with
    | some x =>
      obtain ⟨k, n⟩ := x
      rw [hp] at h
      simp only [Option.some.injEq] at h
      exact .inr ⟨k, n, rfl, h.symm, by simp [currentState, hn.1, hn.2, hp]⟩
    | none =>
      rw [hp] at h
      cases hd : v.dev with
      | none => rw [hd] at h; simp at h
      | some m =>
        rw [hd] at h
        simp at h
        exact .inl ⟨h.symm, by simp [currentState, hn.1, hn.2, hp, hd], rfl⟩

/-- C64: a version for a stage that was asked for is of that stage. -/
theorem C64_asked_for (v w : Version) (k : Pre) (comp : Word) (h : nextVersion v k.word comp = .ok w) :
    ∃ n, w.pre = some (k, n) := by
  have hcons : ∀ d w, consNext d v k.word = .ok w → ∃ n, w.pre = some (k, n) := by
    intro d w h
    cases k <;> simp only [Pre.word, consNext, Except.ok.injEq] at h <;> subst h <;> exact ⟨_, rfl⟩
  simp only [nextVersion] at h
  cases hl : logic (currentState v) k.word comp with
  | none => simp [hl] at h
  | some n =>
    rw [hl] at h
    have hn : n = .one k.word ∨ n = .two comp k.word := by
      generalize currentState v = c at hl
      cases k <;> cases c <;> simp [Pre.word, logic, later] at hl ⊢ <;> subst hl <;> simp
    rcases hn with rfl | rfl
    · exact hcons _ _ h
    · dsimp only at h
      split at h
      · exact hcons _ _ h
      · cases h

/-- C64: `pre` goes on to the next stage: a development version to `a`, `a` to `b`, and `b` and `rc` to `rc`; everything else
starts a new cycle with `a`. -/
theorem C64_pre_next (v w : Version) (comp : Word) (h : nextVersion v .pre comp = .ok w) :
    ∃ n, w.pre = some (match stage v with | some 1 => .b | some 2 => .rc | some 3 => .rc | _ => .a, n) := by
  have hcons : ∀ d (k : Pre) w, consNext d v k.word = .ok w → ∃ n, w.pre = some (k, n) := by
    intro d k w h
    cases k <;> simp only [Pre.word, consNext, Except.ok.injEq] at h <;> subst h <;> exact ⟨_, rfl⟩
  have two : ∀ d, (match consNext d v comp with | .ok d' => consNext d' v .a | .error e => .error e) = .ok w →
      ∃ n, w.pre = some (.a, n) := by
    intro d h
    split at h
    · exact hcons _ .a _ h
    · cases h
  obtain ⟨ep, rel, pre, post, dev, loc⟩ := v
  cases loc with
  | some l => exact two _ h
  | none =>
    cases post with
    | some n => exact two _ h
    | none =>
      cases pre with
      | some x =>
        obtain ⟨k, n⟩ := x
        cases k with
        | a => exact hcons _ .b _ h
        | b => exact hcons _ .rc _ h
        | rc => exact hcons _ .rc _ h
      | none =>
        cases dev with
        | some n => exact hcons _ .a _ h
        | none => exact two _ h

/-- C64: asking for an earlier stage than the current one is refused. -/
theorem C64_no_going_back (v : Version) (next comp : Word) (s t : Nat) (hs : stage v = some s)
    (ht : asked next = some t) (hlt : t < s) : nextVersion v next comp = .error .valueError := by
  have hlog : logic (currentState v) next comp = none := by
    rcases stage_state v s hs with ⟨rfl, -, -⟩ | ⟨k, n, -, rfl, hc⟩
    · omega
    · rw [hc]
      cases k <;> cases next <;> simp [asked, kind, Pre.word, logic, later] at ht hlt ⊢ <;> omega
  simp [nextVersion, hlog]

example : stage (sample (some (.rc, 1)) none none) = some 3 ∧ asked .b = some 2 := by decide

/-- C64: releasing drops every marker, and out of an unreleased version it keeps the release
number. -/
theorem C64_release_drops (v w : Version) (comp : Word) (h : nextVersion v .release comp = .ok w) :
    w.pre = none ∧ w.dev = none ∧ w.post = none ∧ w.loc = none ∧
    (stage v ≠ none → w.release = v.release) := by
  simp only [nextVersion] at h
  cases hl : logic (currentState v) .release comp with
  | none => rw [hl] at h; simp at h
  | some n =>
    rw [hl] at h
    simp only [logic] at hl
    split at hl
    · simp only [Option.some.injEq] at hl
      subst hl
      simp only [Except.ok.injEq] at h
      subst h
      exact ⟨rfl, rfl, rfl, rfl, fun _ => rfl⟩
    · rename_i hn
      simp only [Option.some.injEq] at hl
      subst hl
      simp only [consNext, Except.ok.injEq] at h
      subst h
      refine ⟨rfl, rfl, rfl, rfl, fun hs => absurd ?_ hn⟩
      obtain ⟨s, hs⟩ := Option.ne_none_iff_exists'.1 hs
      rcases stage_state v s hs with ⟨-, hc, -⟩ | ⟨k, n, -, -, hc⟩
      · exact .inl hc
      · rw [hc]; cases k <;> simp [Pre.word]

example : nextVersion (sample (some (.rc, 1)) none none) .release .release = .ok (sample none none none) := by decide

/-- C64 (part): the release number of an unreleased version stays as it is for every phase except
the explicit bumps of a component and, from a pre-release, the explicit request of a stage (full
claim: also for those, see the counterexample). -/
theorem C64_release_kept_partial (v w : Version) (next comp : Word) (hs : stage v ≠ none)
    (hn : next ≠ .major ∧ next ≠ .minor ∧ next ≠ .micro) (ha : asked next = none ∨ stage v = some 0)
    (h : nextVersion v next comp = .ok w) : w.release = v.release := by
  have hstate : currentState v = .dev ∨ ((currentState v = .a ∨ currentState v = .b ∨ currentState v = .rc) ∧ asked next = none) := by
    obtain ⟨s, hs⟩ := Option.ne_none_iff_exists'.1 hs
    rcases stage_state v s hs with ⟨-, hc, -⟩ | ⟨k, n, -, rfl, hc⟩
    · exact .inl hc
    · right
      refine ⟨by rw [hc]; cases k <;> simp [Pre.word], ?_⟩
      rcases ha with h | h
      · exact h
      · rw [hs] at h; cases k <;> simp [kind] at h
  simp only [nextVersion] at h
  rcases hstate with hc | ⟨hc | hc | hc, ha'⟩ <;> rw [hc] at h <;> cases next <;>
    simp [logic, asked, consNext] at * <;> (try (subst h; rfl))
  all_goals
    split at h <;> simp at h
    subst h; rfl

example : stage (sample none none (some 3)) = some 0 ∧
    nextVersion (sample none none (some 3)) .b .release = .ok (sample (some (.b, 0)) none none) := by decide

/-- C64 is false for an explicit stage out of a pre-release: going from the alpha to the beta of 1.0
gives the beta of 1.1 (and its number goes on counting). -/
theorem C64_stage_bumps_release_counterexample :
    nextVersion (sample (some (.a, 1)) none none) .b .release = .ok ⟨0, [1, 1], some (.b, 2), none, none, none⟩ := by decide

/-! ## C108: the parts of the next version -/

/-- The component at position `i` is one more, those before it are the same, those after it are zero. -/
def Bumped (i : Nat) (r s : List Nat) : Prop :=
  i < r.length ∧ s.length = r.length ∧ s.getD i 0 = r.getD i 0 + 1 ∧ (∀ j, j < i → s.getD j 0 = r.getD j 0) ∧
    ∀ j, i < j → s.getD j 0 = 0

/-- The position of a component of a release number. -/
def position (r : List Nat) : Word → Option Nat
  | .release => some (r.length - 1)
  | .major => some 0
  | .minor => some 1
  | .micro => some 2
  | _ => none

/-- The number after a number, if there is one, and otherwise zero. -/
def successor (o : Option Nat) : Option Nat := some (match o with | none => 0 | some n => n + 1)

/-- A bare version. -/
def bare (v : Version) (r : List Nat) : Version := ⟨v.epoch, r, none, none, none, none⟩

theorem bumpAt_bumped : ∀ {i : Nat} {r s : List Nat}, bumpAt i r = some s ↔ Bumped i r s := by
  intro i r
  induction i generalizing r with
  | zero =>
    intro s
    cases r with
    | nil => simp [bumpAt, Bumped]
    | cons n ns =>
      simp only [bumpAt, Option.some.injEq]
      constructor
      · rintro rfl
        refine ⟨by simp, by simp, by simp, fun j hj => absurd hj (by omega), fun j hj => ?_⟩
        cases j with
        | zero => omega
        | succ j =>
          simp only [List.getD_eq_getElem?_getD, List.getElem?_cons_succ, List.getElem?_map]
          cases ns[j]? <;> rfl
      · rintro ⟨-, h1, h2, -, h3⟩
        cases s with
        | nil => simp at h1
        | cons m ms =>
          simp at h2 h1
          rw [h2]
          congr 1
          apply List.ext_getElem
          · simp [h1]
          · intro j hj hj'
            have := h3 (j + 1) (by omega)
            simp [List.getD_eq_getElem?_getD, hj'] at this
            simp [this]
  | succ i ih =>
    intro s
    cases r with
    | nil => simp [bumpAt, Bumped]
    | cons n ns =>
      simp only [bumpAt, Option.map_eq_some_iff]
      constructor
      · rintro ⟨t, ht, rfl⟩
        obtain ⟨h1, h2, h3, h4, h5⟩ := ih.1 ht
        refine ⟨by simp; exact h1, by simp [h2], by simpa using h3, fun j hj => ?_, fun j hj => ?_⟩
        · cases j with
          | zero => rfl
          | succ j => simpa using h4 j (by omega)
        · cases j with
          | zero => omega
          | succ j => simpa using h5 j (by omega)
      · rintro ⟨h1, h2, h3, h4, h5⟩
        cases s with
        | nil => simp at h2
        | cons m ms =>
          have h0 := h4 0 (by omega)
          simp at h0
          refine ⟨ms, ih.2 ⟨by simpa using h1, by simpa using h2, by simpa using h3, fun j hj => ?_, fun j hj => ?_⟩, by rw [h0]⟩
          · simpa using h4 (j + 1) (by omega)
          · simpa using h5 (j + 1) (by omega)

theorem bumpLast_at : ∀ {r : List Nat}, r ≠ [] → bumpAt (r.length - 1) r = some (bumpLast r)
  | [], h => absurd rfl h
  | [n], _ => rfl
  | n :: m :: ns, _ => by
    have := bumpLast_at (r := m :: ns) (by simp)
    simp only [List.length_cons, Nat.add_sub_cancel] at this ⊢
    rw [bumpAt, this]
    rfl

theorem bumpAt_none : ∀ {i : Nat} {r : List Nat}, bumpAt i r = none ↔ r.length ≤ i := by
  intro i r
  induction i generalizing r with
  | zero => cases r <;> simp [bumpAt]
  | succ i ih => cases r <;> simp [bumpAt, ih]

/-- What `cons_next` does with a component. -/
theorem cons_component {c : Word} (hc : IsComponent c) {d v : Version} (hr : d.release ≠ []) :
    (∃ i s, position d.release c = some i ∧ Bumped i d.release s ∧ consNext d v c = .ok { d with release := s }) ∨
    (∃ i, position d.release c = some i ∧ d.release.length ≤ i ∧ consNext d v c = .error .indexError) := by
  rcases hc with rfl | rfl | rfl | rfl
  · exact .inl ⟨_, _, rfl, bumpAt_bumped.1 (bumpLast_at hr), rfl⟩
  all_goals
    unfold consNext
    dsimp only [position]
  · cases h : bumpAt 0 d.release with
    | none => exact .inr ⟨_, rfl, bumpAt_none.1 h, rfl⟩
    | some s => exact .inl ⟨_, s, rfl, bumpAt_bumped.1 h, rfl⟩
  · cases h : bumpAt 1 d.release with
    | none => exact .inr ⟨_, rfl, bumpAt_none.1 h, rfl⟩
    | some s => exact .inl ⟨_, s, rfl, bumpAt_bumped.1 h, rfl⟩
  · cases h : bumpAt 2 d.release with
    | none => exact .inr ⟨_, rfl, bumpAt_none.1 h, rfl⟩
    | some s => exact .inl ⟨_, s, rfl, bumpAt_bumped.1 h, rfl⟩

/-- Nothing of a version is unreleased exactly if its state is one of these. -/
theorem stage_none {v : Version} (h : stage v = none) :
    currentState v = .release ∨ currentState v = .post ∨ currentState v = .loc := by
  obtain ⟨ep, rel, pre, post, dev, loc⟩ := v
  cases loc <;> cases post <;> cases pre <;> cases dev <;> simp [stage, currentState] at h ⊢

/-- **C108**: asking for a component (or for a release of something released) bumps that component and drops everything else; if the
release number is too short for the component an `IndexError` is raised. -/
theorem C108_component (v : Version) (c comp : Word) (hr : v.release ≠ []) (hc : IsComponent c)
    (hs : c = .release → stage v = none) :
    (∃ i s, position v.release c = some i ∧ Bumped i v.release s ∧ nextVersion v c comp = .ok (bare v s)) ∨
    (∃ i, position v.release c = some i ∧ v.release.length ≤ i ∧ nextVersion v c comp = .error .indexError) := by
  have hl : logic (currentState v) c comp = some (.one c) := by
    rcases hc with rfl | rfl | rfl | rfl
    · rcases stage_none (hs rfl) with h | h | h <;> rw [h] <;> rfl
    all_goals rfl
  unfold nextVersion
  rw [hl]
  dsimp only
  exact cons_component (d := ⟨v.epoch, v.release, none, none, none, none⟩) hc hr

/-- **C108**: from something released, asking for a stage bumps the component that is given, and numbers the stage after the number that
the version has (a version that is no pre-release starts at zero). -/
theorem C108_new_cycle (v : Version) (comp : Word) (hr : v.release ≠ []) (hc : IsComponent comp) (hs : stage v = none) :
    (∃ i s, position v.release comp = some i ∧ Bumped i v.release s ∧
      nextVersion v .dev comp = .ok { bare v s with dev := successor v.dev } ∧
      nextVersion v .pre comp = .ok { bare v s with pre := (successor (v.pre.map Prod.snd)).map (Pre.a, ·) } ∧
      ∀ k : Pre, nextVersion v k.word comp = .ok { bare v s with pre := (successor (v.pre.map Prod.snd)).map (k, ·) }) ∨
    (∃ i, position v.release comp = some i ∧ v.release.length ≤ i ∧
      ∀ next, asked next ≠ none ∨ next = .pre → nextVersion v next comp = .error .indexError) := by
  have h1 : logic (currentState v) .dev comp = some (.two comp .dev) := by
    rcases stage_none hs with h | h | h <;> rw [h] <;> rfl
  have h2 : logic (currentState v) .pre comp = some (.two comp .a) := by
    rcases stage_none hs with h | h | h <;> rw [h] <;> rfl
  have h3 : ∀ k : Pre, logic (currentState v) k.word comp = some (.two comp k.word) := by
    intro k
    rcases stage_none hs with h | h | h <;> rw [h] <;> cases k <;> rfl
  rcases cons_component (d := ⟨v.epoch, v.release, none, none, none, none⟩) (v := v) hc hr with ⟨i, s, hp, hb, hn⟩ | ⟨i, hp, hb, hn⟩
  · refine .inl ⟨i, s, hp, hb, ?_, ?_, fun k => ?_⟩
    · simp only [nextVersion, h1, hn]
      simp only [consNext, successor, vinc, bare]
      cases v.dev <;> rfl
    · simp only [nextVersion, h2, hn]
      simp only [consNext, successor, vinc, bare]
      cases v.pre <;> rfl
    · simp only [nextVersion, h3, hn]
      cases k <;> simp only [Pre.word, consNext, successor, vinc, bare] <;> cases v.pre <;> rfl
  · refine .inr ⟨i, hp, hb, fun next hnx => ?_⟩
    have : ∃ w, logic (currentState v) next comp = some (.two comp w) := by
      rcases hnx with hnx | rfl
      · cases next <;> simp [asked] at hnx
        · exact ⟨_, h1⟩
        · exact ⟨_, h3 .a⟩
        · exact ⟨_, h3 .b⟩
        · exact ⟨_, h3 .rc⟩
      · exact ⟨_, h2⟩
    obtain ⟨w, hw⟩ := this
    simp only [nextVersion, hw, hn]

/-- **C108**: a development version goes on to the next development version, or to any kind of pre-release, which is number zero. -/
theorem C108_development (v : Version) (comp : Word) (hs : stage v = some 0) :
    (∀ next, next = .dev ∨ next = .current → nextVersion v next comp = .ok { bare v v.release with dev := successor v.dev }) ∧
    nextVersion v .pre comp = .ok { bare v v.release with pre := some (.a, 0) } ∧
    ∀ k : Pre, nextVersion v k.word comp = .ok { bare v v.release with pre := some (k, 0) } := by
  rcases stage_state v 0 hs with ⟨-, hc, hp⟩ | ⟨k, n, -, h0, -⟩
  · refine ⟨?_, ?_, fun k => ?_⟩
    · rintro next (rfl | rfl) <;> simp only [nextVersion, hc, logic, if_true, consNext, successor, vinc, bare] <;> cases v.dev <;> rfl
    · simp [nextVersion, hc, logic, consNext, vinc, bare, hp]
    · cases k <;> simp [Pre.word, nextVersion, hc, logic, consNext, vinc, bare, hp]
  · cases k <;> simp [kind] at h0

/-- **C108**: a pre-release goes on to the next number of the same kind or of the next kind, and has no way to a development version. -/
theorem C108_prerelease (v : Version) (comp : Word) (k : Pre) (n : Nat) (hp : v.pre = some (k, n)) (hs : stage v ≠ none) :
    nextVersion v .current comp = .ok { bare v v.release with pre := some (k, n + 1) } ∧
    nextVersion v .pre comp =
      .ok { bare v v.release with pre := some (match k with | .a => .b | .b => .rc | .rc => .rc, n + 1) } ∧
    nextVersion v .dev comp = .error .valueError := by
  have hc : currentState v = k.word := by
    obtain ⟨s, hs⟩ := Option.ne_none_iff_exists'.1 hs
    rcases stage_state v s hs with ⟨-, -, h⟩ | ⟨k', n', h, -, hc⟩
    · rw [hp] at h; cases h
    · rw [hp] at h; cases h; exact hc
  refine ⟨?_, ?_, ?_⟩ <;> cases k <;> simp [Pre.word, nextVersion, hc, logic, consNext, vinc, bare, hp]

/-- **C108**: asking a pre-release for its own kind or a later one starts a new cycle of the release number, but goes on counting. -/
theorem C108_stage_again (v : Version) (comp : Word) (k k' : Pre) (n : Nat) (hp : v.pre = some (k, n)) (hs : stage v ≠ none)
    (hk : kind k ≤ kind k') (hr : v.release ≠ []) (hc : IsComponent comp) :
    (∃ i s, position v.release comp = some i ∧ Bumped i v.release s ∧
      nextVersion v k'.word comp = .ok { bare v s with pre := some (k', n + 1) }) ∨
    (∃ i, position v.release comp = some i ∧ v.release.length ≤ i ∧ nextVersion v k'.word comp = .error .indexError) := by
  have hst : currentState v = k.word := by
    obtain ⟨s, hs⟩ := Option.ne_none_iff_exists'.1 hs
    rcases stage_state v s hs with ⟨-, -, h⟩ | ⟨k', n', h, -, hc⟩
    · rw [hp] at h; cases h
    · rw [hp] at h; cases h; exact hc
  have hl : logic (currentState v) k'.word comp = some (.two comp k'.word) := by
    rw [hst]
    cases k <;> cases k' <;> simp [kind] at hk <;> rfl
  rcases cons_component (d := ⟨v.epoch, v.release, none, none, none, none⟩) (v := v) hc hr with ⟨i, s, hp', hb, hn⟩ | ⟨i, hp', hb, hn⟩
  · refine .inl ⟨i, s, hp', hb, ?_⟩
    simp only [nextVersion, hl, hn]
    cases k' <;> simp [Pre.word, consNext, vinc, bare, hp]
  · refine .inr ⟨i, hp', hb, ?_⟩
    simp only [nextVersion, hl, hn]

/-- **C108**: releasing what is not released drops everything but the release number. -/
theorem C108_release (v : Version) (comp : Word) (hs : stage v ≠ none) : nextVersion v .release comp = .ok (bare v v.release) := by
  obtain ⟨s, hs⟩ := Option.ne_none_iff_exists'.1 hs
  rcases stage_state v s hs with ⟨-, hc, -⟩ | ⟨k, n, -, -, hc⟩
  · simp [nextVersion, hc, logic, bare]
  · cases k <;> simp [nextVersion, hc, logic, bare, Pre.word]

/-- **C108**: post releases are made of plain releases, and go on counting; a plain release goes on to the next release. -/
theorem C108_post (v : Version) (comp : Word) (hr : v.release ≠ []) :
    nextVersion v .post comp =
      (if stage v = none ∧ v.post = none ∧ v.loc = none then .ok { bare v v.release with post := some 0 } else .error .valueError) ∧
    (∀ n, v.loc = none → v.post = some n → nextVersion v .current comp = .ok { bare v v.release with post := some (n + 1) }) ∧
    (stage v = none → v.post = none → v.loc = none → ∃ s, Bumped (v.release.length - 1) v.release s ∧
      nextVersion v .current comp = .ok (bare v s)) := by
  obtain ⟨ep, rel, pre, post, dev, loc⟩ := v
  refine ⟨?_, ?_, ?_⟩
  · cases loc <;> cases post <;> cases pre <;> cases dev <;>
      first
        | rfl
        | (rename_i x _; obtain ⟨k, n⟩ := x; cases k <;> rfl)
        | (rename_i x; obtain ⟨k, n⟩ := x; cases k <;> rfl)
        | simp [stage, nextVersion, logic, currentState]
  · rintro n h1 h2
    simp only at h1 h2
    subst h1 h2
    rfl
  · intro h1 h2 h3
    simp only at h2 h3
    subst h2 h3
    refine ⟨bumpLast rel, bumpAt_bumped.1 (bumpLast_at hr), ?_⟩
    cases pre <;> cases dev <;> first | rfl | simp [stage] at h1

/-- **C108**: a local label is added to everything else as it is; a version that has one cannot go on, and words that name nothing are
refused. -/
theorem C108_local (v : Version) (comp : Word) :
    (v.loc = none → nextVersion v .loc comp = .ok { v with loc := some [.num 0] }) ∧
    (v.loc ≠ none → nextVersion v .loc comp = .error .typeError ∧ nextVersion v .current comp = .error .typeError) ∧
    nextVersion v .other comp = .error .valueError := by
  refine ⟨fun h => ?_, fun h => ?_, rfl⟩
  · simp [nextVersion, logic, consNext, h]
  · obtain ⟨l, hl⟩ := Option.ne_none_iff_exists'.1 h
    simp [nextVersion, logic, consNext, currentState, hl]

example : Bumped 1 [1, 2, 3] [1, 3, 0] ∧ stage (sample none none none) = none ∧ stage (sample (some (.rc, 1)) none none) ≠ none := by
  refine ⟨bumpAt_bumped.1 rfl, by decide, by decide⟩

theorem bumpLast_ne : ∀ {r : List Nat}, r ≠ [] → bumpLast r ≠ r
  | [], h => absurd rfl h
  | [n], _ => by simp [bumpLast]
  | n :: m :: r, _ => by
    simp only [bumpLast, ne_eq, List.cons.injEq, true_and]
    exact bumpLast_ne (r := m :: r) (by simp)

theorem bumpAt_ne : ∀ {i : Nat} {r s : List Nat}, bumpAt i r = some s → s ≠ r
  | _, [], s, h => by simp [bumpAt] at h
  | 0, n :: r, s, h => by
    simp only [bumpAt, Option.some.injEq] at h
    subst h; simp
  | i + 1, n :: r, s, h => by
    simp only [bumpAt, Option.map_eq_some_iff] at h
    obtain ⟨t, ht, rfl⟩ := h
    simpa using bumpAt_ne ht

theorem consNext_changes (d v w : Version) (c : Word) (hc : c = .release ∨ c = .major ∨ c = .minor ∨ c = .micro) (hr : d.release ≠ [])
    (h : consNext d v c = .ok w) : w.release ≠ d.release := by
  rcases hc with rfl | rfl | rfl | rfl
  · simp only [consNext, Except.ok.injEq] at h; subst h; exact bumpLast_ne hr
  all_goals
    simp only [consNext] at h
    split at h
    · rename_i r hb
      simp only [Except.ok.injEq] at h; subst h; exact bumpAt_ne hb
    · exact nomatch h

/-- C64: of an unreleased version the release number stays as it is exactly when no component is asked for and no stage is asked for out of a
pre-release. -/
theorem C64_release_kept_iff (v w : Version) (next comp : Word) (hs : stage v ≠ none) (hr : v.release ≠ [])
    (hcomp : comp = .release ∨ comp = .major ∨ comp = .minor ∨ comp = .micro) (h : nextVersion v next comp = .ok w) :
    w.release = v.release ↔ (next ≠ .major ∧ next ≠ .minor ∧ next ≠ .micro) ∧ (asked next = none ∨ stage v = some 0) := by
  refine ⟨?_, fun ⟨hn, ha⟩ => C64_release_kept_partial v w next comp hs hn ha h⟩
  intro he
  have key : ∀ c, logic (currentState v) next comp = some (.one c) → ¬ (c = .release ∨ c = .major ∨ c = .minor ∨ c = .micro) := by
    intro c hl hc
    simp only [nextVersion, hl] at h
    exact consNext_changes _ v w c hc (by exact hr) h he
  have key2 : ∀ c, (c = .a ∨ c = .b ∨ c = .rc) → logic (currentState v) next comp ≠ some (.two comp c) := by
    intro c hc hl
    simp only [nextVersion, hl] at h
    split at h
    · rename_i d' hd'
      have hne := consNext_changes _ v d' comp hcomp (by exact hr) hd'
      have : w.release = d'.release := by
        rcases hc with rfl | rfl | rfl <;> (simp only [consNext, Except.ok.injEq] at h; subst h; rfl)
      exact hne (this.symm.trans he)
    · exact nomatch h
  refine ⟨⟨?_, ?_, ?_⟩, ?_⟩
  · rintro rfl; exact key .major (by simp [logic]) (by simp)
  · rintro rfl; exact key .minor (by simp [logic]) (by simp)
  · rintro rfl; exact key .micro (by simp [logic]) (by simp)
  · obtain ⟨s, hs⟩ := Option.ne_none_iff_exists'.1 hs
    rcases stage_state v s hs with ⟨hs0, hc, -⟩ | ⟨k, n, -, rfl, hc⟩
    · right; rw [hs, hs0]
    · left
      cases next <;> first | rfl | skip
      · -- from a pre-release to dev
        simp [nextVersion, logic, hc] at h
        cases k <;> simp [Pre.word] at h
      all_goals
        exfalso
        cases k <;> simp [nextVersion, logic, hc, Pre.word, later] at h key2

end Verif.Pep440
