import Verif.Lemmas.Dirs
import Verif.Spec.Ancestors

namespace Verif.FS
open Verif.Spec

theorem prefix_parent_or {p q : Path} (h : q <+: p) : q = p ∨ (p ≠ [] ∧ q <+: parentOf p) := by
  by_cases hp : p = []
  · subst hp; left; exact List.prefix_nil.1 h
  · have e := (List.dropLast_concat_getLast hp).symm
    rw [e] at h
    rcases List.prefix_concat_iff.1 h with h | h
    · left; rw [e]; exact h
    · right; exact ⟨hp, h⟩

theorem parent_prefix (p : Path) : parentOf p <+: p := List.dropLast_prefix p

theorem parent_ne {p : Path} (h : p ≠ []) : parentOf p ≠ p := by
  intro e
  have := congrArg List.length e
  rw [parentOf, List.length_dropLast] at this
  have := List.length_pos_iff.2 h
  omega

/-- Between the parent and the path there is nothing. -/
theorem between {p q : Path} (h1 : parentOf p <+: q) (h2 : q <+: p) : q = p ∨ q = parentOf p := by
  rcases prefix_parent_or h2 with h | ⟨_, h⟩
  · exact .inl h
  · right
    exact h.eq_of_length_le h1.length_le

theorem path_ind {motive : Path → Prop} (root : motive [])
    (step : ∀ p, p ≠ [] → motive (parentOf p) → motive p) (p : Path) : motive p := by
  induction p using snocInd with
  | nil => exact root
  | append_singleton l a ih =>
    refine step _ (by simp) ?_
    rw [parentOf, List.dropLast_concat]; exact ih

/-! sparse marks -/

theorem isSparse_spec (m : Marks) (base p : Path) :
    isSparse (getMark m) base p = .ok true ∨ isSparse (getMark m) base p = .ok false := by
  unfold isSparse
  have : ∃ r, sparseRoot (getMark m) base p = .ok r := by
    induction p using path_ind with
    | root => exact ⟨none, by rw [sparseRoot]; simp⟩
    | step p hp ih =>
      rw [sparseRoot]
      simp only [hp, dite_false, getMark]
      cases m (base ++ p) with
      | some v => exact ⟨_, rfl⟩
      | none => exact ih
  obtain ⟨r, hr⟩ := this
  rw [hr]
  cases r <;> simp

theorem isSparse_true_iff (m : Marks) (base p : Path) :
    isSparse (getMark m) base p = .ok true ↔ ∃ q, q <+: p ∧ q ≠ [] ∧ m (base ++ q) ≠ none := by
  unfold isSparse
  induction p using path_ind with
  | root =>
    rw [sparseRoot]
    simp only [dite_true, Option.isSome_none]
    constructor
    · intro h; cases h
    · rintro ⟨q, hq, hne, _⟩; exact absurd (List.prefix_nil.1 hq) hne
  | step p hp ih =>
    rw [sparseRoot]
    simp only [hp, dite_false, getMark]
    cases hm : m (base ++ p) with
    | some v =>
      simp only [Option.isSome_some, true_iff]
      exact ⟨p, List.prefix_refl _, hp, by simp [hm]⟩
    | none =>
      refine ih.trans ⟨?_, ?_⟩
      · rintro ⟨q, h1, h2, h3⟩; exact ⟨q, h1.trans (parent_prefix p), h2, h3⟩
      · rintro ⟨q, h1, h2, h3⟩
        rcases prefix_parent_or h1 with rfl | ⟨_, h⟩
        · exact absurd hm h3
        · exact ⟨q, h, h2, h3⟩

/-! cache root -/

theorem searchParents_spec (cache : Path → CacheAns) (fail : Bool) (h : ∀ p, cache p = .has ∨ cache p = .hasNot)
    (found : Option Path) (v : Path) :
    (∀ r, Topmost (fun q => cache q = .has) v r →
      searchParents cache fail found v = if r ≠ [] then .returned r else .goOn (some [])) ∧
    ((∀ q, q <+: v → cache q = .hasNot) →
      searchParents cache fail found v = match found with
        | some f => if f ≠ [] then .returned f else .goOn found
        | none => .goOn none) := by
  induction v using path_ind generalizing found with
  | root =>
    refine ⟨?_, ?_⟩
    · rintro r ⟨h1, h2, _⟩
      have := List.prefix_nil.1 h1
      subst this
      rw [searchParents]
      simp [searchStep, h2]
    · intro hn
      rw [searchParents]
      simp only [searchStep, hn [] (List.prefix_refl _), dite_true]
      cases found <;> rfl
  | step v hv ih =>
    refine ⟨?_, ?_⟩
    · rintro r ⟨h1, h2, h3⟩
      rcases prefix_parent_or h1 with rfl | ⟨_, hr⟩
      · have hlow : ∀ q, q <+: parentOf r → cache q = .hasNot := by
          intro q hq
          rcases h q with hh | hh
          · have hne : q ≠ r := by
              rintro rfl
              exact parent_ne hv ((parent_prefix q).eq_of_length_le hq.length_le)
            exact absurd hh (h3 q (hq.trans (parent_prefix r)) hne)
          · exact hh
        rw [searchParents]
        simp only [searchStep, h2, hv, dite_false]
        rw [(ih (some r)).2 hlow]
        simp [hv]
      · rw [searchParents]
        rcases h v with hh | hh
        · simp only [searchStep, hh, hv, dite_false]
          exact (ih (some v)).1 r ⟨hr, h2, h3⟩
        · simp only [searchStep, hh, hv, dite_false]
          exact (ih found).1 r ⟨hr, h2, h3⟩
    · intro hn
      rw [searchParents]
      simp only [searchStep, hn v (List.prefix_refl _), hv, dite_false]
      exact (ih found).2 fun q hq => hn q (hq.trans (parent_prefix v))

theorem topmost_or_none (P : Path → Prop) (v : Path) :
    (∃ r, Topmost P v r) ∨ ∀ q, q <+: v → ¬P q := by
  induction v using path_ind with
  | root =>
    by_cases h : P []
    · exact .inl ⟨[], List.prefix_refl _, h, fun q hq hne => absurd (List.prefix_nil.1 hq) hne⟩
    · right; intro q hq; rw [List.prefix_nil.1 hq]; exact h
  | step v hv ih =>
    rcases ih with ⟨r, h1, h2, h3⟩ | hn
    · exact .inl ⟨r, h1.trans (parent_prefix v), h2, h3⟩
    · by_cases h : P v
      · left
        refine ⟨v, List.prefix_refl _, h, fun q hq hne => ?_⟩
        rcases prefix_parent_or hq with e | ⟨_, hq⟩
        · exact absurd e hne
        · exact hn q hq
      · right
        intro q hq
        rcases prefix_parent_or hq with rfl | ⟨_, hq⟩
        · exact h
        · exact hn q hq

theorem topmost_unique {P : Path → Prop} {v r s : Path} (hr : Topmost P v r) (hs : Topmost P v s) : r = s := by
  obtain ⟨a1, a2, a3⟩ := hr
  obtain ⟨b1, b2, b3⟩ := hs
  rcases List.prefix_or_prefix_of_prefix a1 b1 with h | h
  · by_cases e : r = s
    · exact e
    · exact absurd a2 (b3 r h e)
  · by_cases e : s = r
    · exact e.symm
    · exact absurd b2 (a3 s h e)

/-! git -/

theorem workingDirAbs_some (ex : Path → Except PyErr Bool) (p w : Path)
    (h : workingDirAbs ex p = .ok (some w)) : Nearest' (fun q => ex q = .ok true) p w ∧
      ∀ q, w <+: q → q <+: p → q ≠ w → ex q = .ok false := by
  induction p using path_ind with
  | root =>
    rw [workingDirAbs] at h
    split at h
    · cases h
    · rename_i he
      simp only [Except.ok.injEq, Option.some.injEq] at h
      subst h
      refine ⟨⟨List.prefix_refl _, he, ?_⟩, ?_⟩
      · intro q _ hq hne; exact absurd (List.prefix_nil.1 hq) hne
      · intro q _ hq hne; exact absurd (List.prefix_nil.1 hq) hne
    · simp at h
  | step p hp ih =>
    rw [workingDirAbs] at h
    split at h
    · cases h
    · rename_i he
      simp only [Except.ok.injEq, Option.some.injEq] at h
      subst h
      have hno : ∀ q, p <+: q → q <+: p → q ≠ p → False := fun q h1 h2 hne =>
        hne (h2.eq_of_length_le h1.length_le)
      exact ⟨⟨List.prefix_refl _, he, fun q h1 h2 hne => (hno q h1 h2 hne).elim⟩,
        fun q h1 h2 hne => (hno q h1 h2 hne).elim⟩
    · rename_i he
      simp only [hp, dite_false] at h
      obtain ⟨⟨a1, a2, _⟩, a4⟩ := ih h
      have key : ∀ q, w <+: q → q <+: p → q ≠ w → ex q = .ok false := by
        intro q h1 h2 hne
        rcases prefix_parent_or h2 with rfl | ⟨_, h2⟩
        · exact he
        · exact a4 q h1 h2 hne
      refine ⟨⟨a1.trans (parent_prefix p), a2, ?_⟩, key⟩
      intro q h1 h2 hne
      simp [key q h1 h2 hne]

theorem workingDirAbs_none (ex : Path → Except PyErr Bool) (p : Path)
    (h : workingDirAbs ex p = .ok none) : ∀ q, q <+: p → ex q = .ok false := by
  induction p using path_ind with
  | root =>
    rw [workingDirAbs] at h
    split at h
    · cases h
    · cases h
    · rename_i he; intro q hq; rw [List.prefix_nil.1 hq]; exact he
  | step p hp ih =>
    rw [workingDirAbs] at h
    split at h
    · cases h
    · cases h
    · rename_i he
      simp only [hp, dite_false] at h
      intro q hq
      rcases prefix_parent_or hq with rfl | ⟨_, hq⟩
      · exact he
      · exact ih h q hq

theorem workingDirAbs_error (ex : Path → Except PyErr Bool) (p : Path) (e : PyErr)
    (h : workingDirAbs ex p = .error e) : ∃ q, q <+: p ∧ ex q = .error e := by
  induction p using path_ind with
  | root =>
    rw [workingDirAbs] at h
    split at h
    · rename_i he; cases h; exact ⟨[], List.prefix_refl _, he⟩
    · cases h
    · simp at h
  | step p hp ih =>
    rw [workingDirAbs] at h
    split at h
    · rename_i he; cases h; exact ⟨p, List.prefix_refl _, he⟩
    · cases h
    · simp only [hp, dite_false] at h
      obtain ⟨q, h1, h2⟩ := ih h
      exact ⟨q, h1.trans (parent_prefix p), h2⟩

theorem walk_reachable {L : Limits} {t : Tree} {cwd : Path} (h : Reachable L t cwd) (b : Nat) (rest : List Name) :
    walk L t b [] (cwd ++ rest) = walk L t b cwd rest := by
  have := walk_down_all (L := L) (t := t) (b := b) [] cwd rest h.2 (fun e _ he => h.1 e (by simpa using he))
  simpa using this

theorem pathExists_rel {L : Limits} {t : Tree} {cwd : Path} (h : Reachable L t cwd) (comps : List Name) :
    pathExists L t cwd ⟨false, comps⟩ = pathExists L t cwd ⟨true, cwd ++ comps⟩ := by
  simp [pathExists, stat, start, walk_reachable h]

/-- For a working directory that is reachable, relative paths are treated like absolute ones. -/
theorem workingDir_eq {L : Limits} {t : Tree} {cwd : Path} (p : UserPath)
    (h : p.absolute = true ∨ Reachable L t cwd) :
    workingDir L t cwd p =
      workingDirAbs (fun q => pathExists L t cwd ⟨true, q ++ [dotgit]⟩) (absolute cwd p) := by
  obtain ⟨a, comps⟩ := p
  cases a with
  | true => simp [workingDir, absolute]
  | false =>
    have hr : Reachable L t cwd := by simpa using h
    simp only [workingDir, absolute, Bool.false_eq_true, if_false]
    conv => rhs; rw [workingDirAbs]
    rw [pathExists_rel hr, List.append_assoc]
    generalize hg : pathExists L t cwd ⟨true, cwd ++ (comps ++ [dotgit])⟩ = g
    cases g with
    | error e => rfl
    | ok b =>
      cases b with
      | true => rfl
      | false =>
        by_cases hn : cwd ++ comps = []
        · simp only [hn, dite_true]
          obtain ⟨h1, h2⟩ := List.append_eq_nil_iff.1 hn
          subst h1 h2
          rw [workingDirAbs]
          simp only [List.nil_append] at hg
          simp [parentOf, hg]
        · simp only [hn, dite_false]

theorem leads_split {L : Limits} {t : Tree} {k : Nat} {c q : Path} {r : List Name} (h : Leads L t k c r q) :
    ∀ a b, r = a ++ b → ∃ k1 k2 d, k1 + k2 = k ∧ Leads L t k1 c a d ∧ Leads L t k2 d b q := by
  induction h with
  | here c =>
    intro a b e
    obtain ⟨rfl, rfl⟩ := List.append_eq_nil_iff.1 e.symm
    exact ⟨0, 0, c, rfl, .here c, .here c⟩
  | @dot k cur rest q hd hl ih =>
    intro a b e
    cases a with
    | nil => simp only [List.nil_append] at e; subst e; exact ⟨0, k, cur, by omega, .here _, .dot hd hl⟩
    | cons x a =>
      simp only [List.cons_append, List.cons.injEq] at e
      obtain ⟨rfl, rfl⟩ := e
      obtain ⟨k1, k2, d, h1, h2, h3⟩ := ih a b rfl
      exact ⟨k1, k2, d, h1, .dot hd h2, h3⟩
  | @up k cur rest q hd hl ih =>
    intro a b e
    cases a with
    | nil => simp only [List.nil_append] at e; subst e; exact ⟨0, k, cur, by omega, .here _, .up hd hl⟩
    | cons x a =>
      simp only [List.cons_append, List.cons.injEq] at e
      obtain ⟨rfl, rfl⟩ := e
      obtain ⟨k1, k2, d, h1, h2, h3⟩ := ih a b rfl
      exact ⟨k1, k2, d, h1, .up hd h2, h3⟩
  | @down k cur n rest q x hd hn hx hnl hl ih =>
    intro a b e
    cases a with
    | nil => simp only [List.nil_append] at e; subst e; exact ⟨0, k, cur, by omega, .here _, .down hd hn hx hnl hl⟩
    | cons x a =>
      simp only [List.cons_append, List.cons.injEq] at e
      obtain ⟨rfl, rfl⟩ := e
      obtain ⟨k1, k2, d, h1, h2, h3⟩ := ih a b rfl
      exact ⟨k1, k2, d, h1, .down hd hn hx hnl h2, h3⟩
  | @follow k cur n rest q l hd hn hx hl ih =>
    intro a b e
    cases a with
    | nil => simp only [List.nil_append] at e; subst e; exact ⟨0, k + 1, cur, by omega, .here _, .follow hd hn hx hl⟩
    | cons x a =>
      simp only [List.cons_append, List.cons.injEq] at e
      obtain ⟨rfl, rfl⟩ := e
      obtain ⟨k1, k2, d, h1, h2, h3⟩ := ih (l.comps ++ a) b (by simp)
      exact ⟨k1 + 1, k2, d, by omega, .follow hd hn hx h2, h3⟩

/-- What has something in it exists. -/
theorem leadsTo_parent {L : Limits} {t : Tree} {cwd : Path} {a : Bool} {comps : List Name} {n : Name} {x : Node}
    (h : LeadsTo L t cwd ⟨a, comps ++ [n]⟩ x) : LeadsTo L t cwd ⟨a, comps⟩ (.dir true) := by
  obtain ⟨k, q, hk, hl, hx⟩ := h
  obtain ⟨k1, k2, d, e, h1, h2⟩ := leads_split hl _ _ rfl
  refine ⟨k1, d, by omega, h1, ?_⟩
  cases h2 <;> assumption

end Verif.FS
