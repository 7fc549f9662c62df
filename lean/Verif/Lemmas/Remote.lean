import Verif.Model.Remote
import Verif.Spec.Remote
import Verif.Lemmas.Ssh

/-! Lemmas about the replies of a remote. -/

namespace Verif.Ssh
open Verif Verif.Ssh.Spec

/-! ### Replies that are not the output of stat -/

theorem splitTwo_ne_nil : ∀ s : Str, splitTwo s ≠ []
  | [] => by simp [splitTwo]
  | ' ' :: ' ' :: cs => by rw [splitTwo.eq_def]; simp
  | c :: cs => by
    rw [splitTwo.eq_def]
    split
    · simp
    · simp
    · split <;> simp

/-- The last field ends like the text, if there is no space in the way. -/
theorem splitTwo_getLast (t : Str) (ht : NoGap t) (hh : t.head? ≠ some ' ') : ∀ (n : Nat) (s : Str), s.length ≤ n →
    ∃ u w, splitTwo (s ++ t) = u ++ [w] ∧ t <:+ w
  | n, [], _ => ⟨[], t, by rw [List.nil_append, splitTwo_last ht, List.nil_append], List.suffix_rfl⟩
  | 0, c :: cs, h => by simp at h
  | n + 1, c :: cs, h => by
    by_cases h2 : ∃ ds, c :: cs = ' ' :: ' ' :: ds
    · obtain ⟨ds, e⟩ := h2
      obtain ⟨u, w, hu, hw⟩ := splitTwo_getLast t ht hh n ds (by rw [e] at h; simp at h; omega)
      refine ⟨[] :: u, w, ?_, hw⟩
      rw [e, List.cons_append, List.cons_append, splitTwo.eq_def]
      simp [hu]
    · obtain ⟨u, w, hu, hw⟩ := splitTwo_getLast t ht hh n cs (by simp at h; omega)
      have h2' : ∀ ds, c :: (cs ++ t) ≠ ' ' :: ' ' :: ds := by
        intro ds e
        cases cs with
        | nil =>
          simp only [List.nil_append, List.cons.injEq] at e
          rw [e.2] at hh
          simp at hh
        | cons d ds' =>
          simp only [List.cons_append, List.cons.injEq] at e
          exact h2 ⟨ds', by rw [e.1, e.2.1]⟩
      have es : splitTwo (c :: (cs ++ t)) = match splitTwo (cs ++ t) with
          | [] => [[c]]
          | w :: ws => (c :: w) :: ws := by
        rw [splitTwo.eq_def]
        split
        · rename_i e; cases e
        · rename_i ds e; exact absurd e (h2' ds)
        · rename_i e
          injection e with e1 e2
          subst e1 e2
          rfl
      rw [List.cons_append, es, hu]
      cases u with
      | nil => exact ⟨[], c :: w, rfl, hw.trans (List.suffix_cons c w)⟩
      | cons x xs => exact ⟨(c :: x) :: xs, w, rfl, hw⟩

/-- A character that is neither a digit nor whitespace cannot be read. -/
theorem fromHex_none {x : Char} (hx : hexVal? x = none) (hw : isWs x = false) : ∀ (n : Nat) (s : Str), s.length ≤ n →
    x ∈ s → fromHex s = none
  | n, [], _, h => by simp at h
  | 0, c :: cs, h, _ => by simp at h
  | n + 1, [c], _, h => by
    rw [List.mem_singleton] at h
    subst h
    rw [fromHex.eq_def]; simp [hw]
  | n + 1, c :: d :: cs, hn, h => by
    rw [fromHex.eq_def]
    dsimp only
    by_cases hc : isWs c = true
    · rw [if_pos hc]
      refine fromHex_none hx hw n (d :: cs) (by simp at hn ⊢; omega) ?_
      rcases List.mem_cons.1 h with rfl | h
      · rw [hw] at hc; cases hc
      · exact h
    · rw [if_neg hc]
      rcases List.mem_cons.1 h with rfl | h
      · rw [hx]
      rcases List.mem_cons.1 h with rfl | h
      · rw [hx]
        cases hexVal? c <;> rfl
      · rw [fromHex_none hx hw n cs (by simp at hn; omega) h]
        cases hexVal? c <;> cases hexVal? d <;> rfl

theorem parseStat_none (s t : Str) (ht : NoGap t) (hh : t.head? ≠ some ' ') (x : Char) (hx : hexVal? x = none)
    (hw : isWs x = false) (hm : x ∈ t) : parseStat (s ++ t) = none := by
  obtain ⟨u, w, hu, hsuf⟩ := splitTwo_getLast t ht hh _ s (Nat.le_refl _)
  have hnone : fromHex w = none := fromHex_none hx hw _ w (Nat.le_refl _) (hsuf.subset hm)
  unfold parseStat
  split
  · rename_i name ino hint size hb birth ha acc hm' modified hc changed gid uid rawMode e
    rw [hu] at e
    have : w = rawMode := by
      have := congrArg List.getLast? e
      simpa using this
    subst this
    rw [hnone]
    cases pyInt ino <;> try rfl
    cases pyInt hint <;> try rfl
    cases pyInt size <;> try rfl
    cases stamp acc ha <;> try rfl
    cases stamp modified hm' <;> try rfl
    cases stamp changed hc <;> try rfl
    cases pyInt gid <;> try rfl
    cases pyInt uid <;> rfl
  · rfl

/-! ### Lines -/

theorem splitOn_cons (sep : Str) (c : Char) (cs : Str) (h : ¬ (sep ≠ [] ∧ sep.isPrefixOf (c :: cs) = true)) :
    splitOn sep (c :: cs) = match splitOn sep cs with
      | [] => [[c]]
      | w :: ws => (c :: w) :: ws := by
  conv => lhs; rw [splitOn.eq_def]
  dsimp only
  rw [if_neg h]
  cases splitOn sep cs <;> rfl

theorem splitOn_ne_nil (sep s : Str) : splitOn sep s ≠ [] := by
  cases s with
  | nil => rw [splitOn.eq_def]; simp
  | cons c cs =>
    by_cases h : sep ≠ [] ∧ sep.isPrefixOf (c :: cs) = true
    · rw [splitOn.eq_def]
      dsimp only
      rw [if_pos h]; simp
    · rw [splitOn_cons _ _ _ h]
      split <;> simp

/-- A separator ends a piece that does not contain its first character. -/
theorem splitOn_append {x : Char} {sep : Str} : ∀ {w rest : Str}, x ∉ w →
    splitOn (x :: sep) (w ++ (x :: sep ++ rest)) = w :: splitOn (x :: sep) rest
  | [], rest, _ => by
    rw [List.nil_append, List.cons_append, splitOn.eq_def]
    dsimp only
    rw [if_pos ⟨by simp, by simp [List.isPrefixOf_iff_prefix]⟩]
    have : List.drop (x :: sep).length (x :: (sep ++ rest)) = rest := by
      simp
    rw [this]
  | c :: w, rest, h => by
    simp only [List.mem_cons, not_or] at h
    rw [List.cons_append, splitOn_cons _ _ _ (by
      rintro ⟨-, h'⟩
      simp only [List.isPrefixOf, Bool.and_eq_true, beq_iff_eq] at h'
      exact h.1 h'.1), splitOn_append h.2]

theorem splitOn_single {x : Char} {sep : Str} : ∀ {w : Str}, x ∉ w → splitOn (x :: sep) w = [w]
  | [], _ => by rw [splitOn.eq_def]
  | c :: w, h => by
    simp only [List.mem_cons, not_or] at h
    rw [splitOn_cons _ _ _ (by
      rintro ⟨-, h'⟩
      simp only [List.isPrefixOf, Bool.and_eq_true, beq_iff_eq] at h'
      exact h.1 h'.1), splitOn_single h.2]

theorem splitOn_lines : ∀ {ls : List Str}, ls ≠ [] → (∀ l ∈ ls, '\r' ∉ l) → splitOn (lit "\r\n") (lines ls) = ls
  | [], h, _ => absurd rfl h
  | [l], _, h => by
    have := splitOn_single (x := '\r') (sep := ['\n']) (h l (by simp))
    exact this
  | l :: m :: ls, _, h => by
    have e := splitOn_append (x := '\r') (sep := ['\n']) (w := l) (rest := lines (m :: ls)) (h l (by simp))
    have ih := splitOn_lines (ls := m :: ls) (by simp) (fun x hx => h x (List.mem_cons_of_mem _ hx))
    change splitOn ['\r', '\n'] (l ++ '\r' :: '\n' :: lines (m :: ls)) = _
    change splitOn ['\r', '\n'] (lines (m :: ls)) = _ at ih
    rw [show l ++ '\r' :: '\n' :: lines (m :: ls) = l ++ ('\r' :: ['\n'] ++ lines (m :: ls)) from rfl, e, ih]

/-- The rule between the two parts. -/
def rule : Str := lit "\r\n----\r\n"

theorem rule_eq : rule = '\r' :: ('\n' :: lit "----" ++ ['\r', '\n']) := by decide

/-- A line that is not the rule does not start it. -/
theorem not_rule_prefix {l rest : Str} (hl : '\r' ∉ l) (hne : l ≠ lit "----") (hrest : ∀ c cs, rest = c :: cs → c = '\r') :
    ¬ rule.isPrefixOf ('\r' :: '\n' :: (l ++ rest)) = true := by
  rw [List.isPrefixOf_iff_prefix, rule_eq]
  simp only [List.cons_append, List.cons_prefix_cons, true_and]
  rintro ⟨t, ht⟩
  simp only [List.append_assoc, List.cons_append, List.nil_append] at ht
  have key : ∀ (a b : Str) (x y : Str), '\r' ∉ a → '\r' ∉ b → a ++ '\r' :: x = b ++ y → (∀ c cs, y = c :: cs → c = '\r') → a = b := by
    intro a
    induction a with
    | nil =>
      intro b x y _ hb e hy
      cases b with
      | nil => rfl
      | cons d ds =>
        simp only [List.nil_append, List.cons_append, List.cons.injEq] at e
        exact absurd (by rw [← e.1]; simp) hb
    | cons c cs ih =>
      intro b x y ha hb e hy
      cases b with
      | nil =>
        have := hy c (cs ++ '\r' :: x) e.symm
        subst this
        simp at ha
      | cons d ds =>
        simp only [List.cons_append, List.cons.injEq] at e
        simp only [List.mem_cons, not_or] at ha hb
        rw [e.1, ih ds x y ha.2 hb.2 e.2 hy]
  exact hne (key (lit "----") l _ rest (by decide) hl ht hrest).symm

theorem splitOn_rule_step {l s : Str} (hl : '\r' ∉ l) :
    splitOn rule (l ++ s) = match splitOn rule s with
      | [] => [l]
      | w :: ws => (l ++ w) :: ws := by
  induction l with
  | nil =>
    rw [List.nil_append]
    cases h : splitOn rule s with
    | nil => exact absurd h (splitOn_ne_nil _ _)
    | cons w ws => rfl
  | cons c l ih =>
    simp only [List.mem_cons, not_or] at hl
    rw [List.cons_append, splitOn_cons _ _ _ (by
      rintro ⟨-, h'⟩
      rw [rule_eq] at h'
      simp only [List.isPrefixOf, Bool.and_eq_true, beq_iff_eq] at h'
      exact hl.1 h'.1), ih hl.2]
    cases splitOn rule s <;> rfl

/-- Lines without the rule among them are one part. -/
theorem splitOn_rule_lines (tail : Str) (w : Str) (ws : List Str)
    (htail : splitOn rule tail = w :: ws) (hhead : ∀ c cs, tail = c :: cs → c = '\r')
    (hcut : ∀ l, '\r' ∉ l → splitOn rule (l ++ tail) = (l ++ w) :: ws) :
    ∀ (ls : List Str), ls ≠ [] → (∀ l ∈ ls, '\r' ∉ l ∧ l ≠ lit "----") →
      splitOn rule (lines ls ++ tail) = (lines ls ++ w) :: ws
  | [], h, _ => absurd rfl h
  | [l], _, h => hcut l (h l (by simp)).1
  | l :: m :: ls, _, h => by
    have ih := splitOn_rule_lines tail w ws htail hhead hcut (m :: ls) (by simp) (fun x hx => h x (List.mem_cons_of_mem _ hx))
    have hm := h m (by simp)
    have e : lines (l :: m :: ls) ++ tail = l ++ ('\r' :: '\n' :: (lines (m :: ls) ++ tail)) := by
      simp [lines]
    obtain ⟨rest, hrest, hr⟩ : ∃ rest, lines (m :: ls) ++ tail = m ++ rest ∧ ∀ c cs, rest = c :: cs → c = '\r' := by
      cases ls with
      | nil => exact ⟨tail, rfl, hhead⟩
      | cons k ks =>
        refine ⟨'\r' :: '\n' :: lines (k :: ks) ++ tail, by simp [lines], ?_⟩
        intro c cs e
        simp only [List.cons_append, List.cons.injEq] at e
        exact e.1.symm
    have hnp : ¬ rule.isPrefixOf ('\r' :: '\n' :: (lines (m :: ls) ++ tail)) = true := by
      rw [hrest]
      exact not_rule_prefix hm.1 hm.2 hr
    have hnp2 : ¬ rule.isPrefixOf ('\n' :: (lines (m :: ls) ++ tail)) = true := by
      rw [rule_eq]
      simp [List.isPrefixOf]
    rw [e, splitOn_rule_step (h l (by simp)).1, splitOn_cons _ _ _ (fun h => hnp h.2), splitOn_cons _ _ _ (fun h => hnp2 h.2), ih]
    simp [lines]

/-- Two lots of lines with the rule between them come apart. -/
theorem splitOn_rule (ls ms : List Str) (hl : ls ≠ []) (hm : ms ≠ []) (hls : ∀ l ∈ ls, '\r' ∉ l ∧ l ≠ lit "----")
    (hms : ∀ l ∈ ms, '\r' ∉ l ∧ l ≠ lit "----") :
    splitOn rule (lines ls ++ rule ++ lines ms) = [lines ls, lines ms] := by
  have h2 : splitOn rule (lines ms) = [lines ms] := by
    have := splitOn_rule_lines [] [] [] (by rw [splitOn.eq_def]) (by intro c cs e; cases e)
      (fun l hl => by
        rw [List.append_nil, rule_eq]; exact splitOn_single hl) ms hm hms
    simpa using this
  have hr : ∀ l, '\r' ∉ l → splitOn rule (l ++ (rule ++ lines ms)) = l :: [lines ms] := by
    intro l hl
    rw [← h2]
    conv => lhs; rw [rule_eq]
    conv => rhs; rw [rule_eq]
    exact splitOn_append (x := '\r') hl
  have := splitOn_rule_lines (rule ++ lines ms) [] [lines ms] (by simpa using hr [] (by simp))
    (by intro c cs e; rw [rule_eq] at e; simp only [List.cons_append, List.cons.injEq] at e; exact e.1.symm)
    (fun l hl => by simpa using hr l hl) ls hl hls
  simpa using this

/-! ### Checksums -/

theorem contains_iff (n : Str) : ∀ s : Str, contains n s = true ↔ n <:+: s
  | [] => by simp [contains]
  | c :: cs => by
    rw [contains, Bool.or_eq_true, contains_iff n cs, List.infix_cons_iff, List.isPrefixOf_iff_prefix]

theorem splitTwo1_append {w rest : Str} (h : ' ' ∉ w) : splitTwo1 (w ++ ' ' :: ' ' :: rest) = some (w, rest) := by
  induction w with
  | nil => simp [splitTwo1]
  | cons c w ih =>
    simp only [List.mem_cons, not_or] at h
    rw [List.cons_append, splitTwo1.eq_def]
    split
    · rename_i e
      injection e with e1 e2
      exact absurd e1.symm h.1
    · rename_i e; cases e
    · rename_i e
      injection e with e1 e2
      subst e1 e2
      rw [ih h.2]; rfl

end Verif.Ssh
