import Verif.Spec.Shell
import Verif.Model.Remote

/-! Lemmas about the shell reader. -/

namespace Verif.Spec.Shell
open Verif

theorem lexGo_ordinary (i : Bool) (c : Char) (cur : Option Str) (cs : Str) (h : isOrdinary c = true) :
    lexGo i .out cur (c :: cs) = lexGo i .out (some (cur.getD [] ++ [c])) cs := by
  simp only [isOrdinary, Bool.and_eq_true, Bool.not_eq_true', decide_eq_true_eq, List.mem_cons, List.not_mem_nil,
    or_false, not_or] at h
  obtain ⟨⟨h1, h2⟩, h3, h4, h5, h6, h7, h8, h9⟩ := h
  have h2' : isExpanded i c = false := by
    cases i
    · simp only [isExpanded, Bool.or_eq_false_iff] at h2 ⊢
      exact ⟨h2.1, by simp⟩
    · exact h2
  rw [lexGo.eq_def]
  simp [h3, h4, h5, h6, h7, h8, h9, h1, h2']

theorem lexGo_word (i : Bool) : ∀ (w : Str) (cur : Option Str) (rest : Str), w ≠ [] → (∀ c ∈ w, isOrdinary c = true) →
    lexGo i .out cur (w ++ rest) = lexGo i .out (some (cur.getD [] ++ w)) rest
  | [], _, _, h, _ => absurd rfl h
  | [c], cur, rest, _, h => by
    rw [List.cons_append, lexGo_ordinary i c cur _ (h c (by simp))]; rfl
  | c :: d :: w, cur, rest, _, h => by
    rw [List.cons_append, lexGo_ordinary i c cur _ (h c (by simp)),
      lexGo_word i (d :: w) _ rest (by simp) (fun x hx => h x (List.mem_cons_of_mem _ hx))]
    simp

theorem lexGo_single (i : Bool) : ∀ (w a : Str) (rest : Str), '\'' ∉ w → (i = true → '\n' ∉ w) →
    lexGo i .single (some a) (w ++ '\'' :: rest) = lexGo i .out (some (a ++ w)) rest
  | [], a, rest, _, _ => by rw [List.nil_append, lexGo.eq_def]; simp
  | c :: w, a, rest, h, h' => by
    rw [List.cons_append, lexGo.eq_def]
    simp only [List.mem_cons, not_or] at h h'
    have h1 : ¬ c = '\'' := fun e => h.1 e.symm
    have h2 : ¬ (i = true ∧ c = '\n') := fun ⟨e, e'⟩ => (h' e).1 e'.symm
    simp only [h1, if_false, h2]
    rw [lexGo_single i w _ rest h.2 (fun e => (h' e).2)]
    simp

theorem lexGo_double (i : Bool) : ∀ (w a : Str) (rest : Str), (∀ c ∈ w, c ∉ ['"', '\\', '$', '`']) →
    (i = true → '\n' ∉ w ∧ '!' ∉ w) →
    lexGo i .double (some a) (w ++ '"' :: rest) = lexGo i .out (some (a ++ w)) rest
  | [], a, rest, _, _ => by rw [List.nil_append, lexGo.eq_def]; simp
  | c :: w, a, rest, h, h' => by
    rw [List.cons_append, lexGo.eq_def]
    have hc := h c (by simp)
    simp only [List.mem_cons, not_or, List.not_mem_nil, not_false_eq_true, and_true] at hc h'
    have h2 : ¬ (c = '$' ∨ c = '`' ∨ (i = true ∧ (c = '!' ∨ c = '\n'))) := by
      rintro (e | e | ⟨e, e' | e'⟩)
      · exact hc.2.2.1 e
      · exact hc.2.2.2 e
      · exact (h' e).2.1 e'.symm
      · exact (h' e).1.1 e'.symm
    simp only [hc.1, if_false, h2, hc.2.1]
    rw [lexGo_double i w _ rest (fun x hx => h x (List.mem_cons_of_mem _ hx)) (fun e => ⟨(h' e).1.2, (h' e).2.2⟩)]
    simp

theorem lexGo_space (i : Bool) (cur : Option Str) (rest : Str) :
    lexGo i .out cur (' ' :: rest) = (lexGo i .out none rest).map (flush cur ++ ·) := by
  rw [lexGo.eq_def]; simp

theorem lexGo_op (i : Bool) (c : Char) (cur : Option Str) (rest : Str) (h : isOp c = true) :
    lexGo i .out cur (c :: rest) = (lexGo i .out none rest).map (flush cur ++ .op c :: ·) := by
  rw [lexGo.eq_def]
  simp only [isOp, List.mem_cons, List.not_mem_nil, or_false, decide_eq_true_eq] at h
  rcases h with h | h | h | h | h | h | h | h <;> subst h <;> simp [isOp]

theorem lexGo_dq (i : Bool) (cur : Option Str) (rest : Str) :
    lexGo i .out cur ('"' :: rest) = lexGo i .double (some (cur.getD [])) rest := by
  rw [lexGo.eq_def]; simp

theorem lexGo_sq (i : Bool) (cur : Option Str) (rest : Str) :
    lexGo i .out cur ('\'' :: rest) = lexGo i .single (some (cur.getD [])) rest := by
  rw [lexGo.eq_def]; simp

theorem lexGo_nil (i : Bool) (cur : Option Str) : lexGo i .out cur [] = some (flush cur) := by
  rw [lexGo.eq_def]

/-- A word of ordinary characters before a space. -/
theorem lex_word_space (i : Bool) (w rest : Str) (h : w ≠ []) (ho : ∀ c ∈ w, isOrdinary c = true) :
    lexGo i .out none (w ++ ' ' :: rest) = (lexGo i .out none rest).map (.word w :: ·) := by
  rw [lexGo_word i w none _ h ho, lexGo_space]; rfl

/-! ### How much can come out -/

/-- The number of characters in tokens. -/
def total : List Tok → Nat
  | [] => 0
  | .word w :: ts => w.length + total ts
  | .op _ :: ts => 1 + total ts

theorem total_append (a b : List Tok) : total (a ++ b) = total a + total b := by
  induction a with
  | nil => simp [total]
  | cons t a ih => cases t <;> simp [total, ih] <;> omega

theorem total_flush (cur : Option Str) : total (flush cur) = (cur.getD []).length := by
  cases cur <;> simp [flush, total]

/-- If the line ends in a double quote, that quote or something else does not come out. -/
theorem lexGo_total (i : Bool) : ∀ (n : Nat) (q : Quote) (cur : Option Str) (s : Str) (toks : List Tok), s.length ≤ n →
    lexGo i q cur s = some toks → s.getLast? = some '"' → total toks + 1 ≤ (cur.getD []).length + s.length
  | 0, q, cur, s, toks, hn, h, hl => by
    have : s = [] := List.eq_nil_of_length_eq_zero (by omega)
    subst this; simp at hl
  | n + 1, q, cur, [], toks, hn, h, hl => by simp at hl
  | n + 1, q, cur, c :: cs, toks, hn, h, hl => by
    have ih := lexGo_total i n
    have step : ∀ q' cur', lexGo i q' cur' cs = some toks → c ≠ '"' →
        (cur'.getD []).length ≤ (cur.getD []).length + 1 →
        total toks + 1 ≤ (cur.getD []).length + (c :: cs).length := by
      intro q' cur' h' hc hle
      have hl' : cs.getLast? = some '"' := by
        cases cs with
        | nil => simp at hl; exact absurd hl hc
        | cons d ds => simpa using hl
      have := ih q' cur' cs toks (by simp at hn; omega) h' hl'
      simp; omega
    have lost : ∀ q' cur', lexGo i q' cur' cs = some toks →
        (cur'.getD []).length ≤ (cur.getD []).length →
        total toks + 1 ≤ (cur.getD []).length + (c :: cs).length := by
      intro q' cur' h' hle
      cases cs with
      | nil =>
        have : q' = .out := by
          cases q' <;> first | rfl | (rw [lexGo.eq_def] at h'; simp at h')
        subst this
        rw [lexGo_nil] at h'
        injection h' with h'
        subst h'
        rw [total_flush]; simp; omega
      | cons d ds =>
        have := ih q' cur' (d :: ds) toks (by simp at hn ⊢; omega) h' (by simpa using hl)
        simp at this ⊢; omega
    have lost2 : ∀ q' cur' d ds, cs = d :: ds → lexGo i q' cur' ds = some toks →
        (cur'.getD []).length ≤ (cur.getD []).length + 1 →
        total toks + 1 ≤ (cur.getD []).length + (c :: cs).length := by
      intro q' cur' d ds e h' hle
      subst e
      cases ds with
      | nil =>
        have : q' = .out := by
          cases q' <;> first | rfl | (rw [lexGo.eq_def] at h'; simp at h')
        subst this
        rw [lexGo_nil] at h'
        injection h' with h'
        subst h'
        rw [total_flush]; simp; omega
      | cons e es =>
        have := ih q' cur' (e :: es) toks (by simp at hn ⊢; omega) h' (by simpa using hl)
        simp at this ⊢; omega
    have sep : ∀ (extra : List Tok), total extra ≤ 1 → c ≠ '"' →
        (lexGo i .out none cs).map (flush cur ++ extra ++ ·) = some toks →
        total toks + 1 ≤ (cur.getD []).length + (c :: cs).length := by
      intro extra he hc h'
      have hl' : cs.getLast? = some '"' := by
        cases cs with
        | nil => simp at hl; exact absurd hl hc
        | cons d ds => simpa using hl
      cases hx : lexGo i .out none cs with
      | none => rw [hx] at h'; simp at h'
      | some ts =>
        rw [hx] at h'
        simp only [Option.map_some, Option.some.injEq] at h'
        subst h'
        have := ih .out none cs ts (by simp at hn; omega) hx hl'
        simp only [total_append, total_flush]
        simp at this ⊢; omega
    rw [lexGo.eq_def] at h
    cases q with
    | out =>
      dsimp only at h
      split at h
      · rename_i hc
        refine sep [] (by simp [total]) (by rintro rfl; simp at hc) ?_
        simpa using h
      split at h
      · exact lost _ _ h (by simp)
      split at h
      · exact lost _ _ h (by simp)
      split at h
      · split at h
        · simp at h
        · split at h
          · simp at h
          · exact lost2 _ _ _ _ rfl h (by simp)
      split at h
      · rename_i hq _ ho
        refine sep [.op c] (by simp [total]) hq ?_
        simpa using h
      split at h
      · simp at h
      split at h
      · -- a comment
        obtain ⟨pre, hpre⟩ := List.dropWhile_suffix (l := cs) (fun x : Char => decide (x ≠ '\n'))
        rename_i hcm
        obtain ⟨rfl, rfl⟩ := hcm
        have hlen := congrArg List.length hpre
        rw [List.length_append] at hlen
        by_cases hd : cs.dropWhile (fun x : Char => decide (x ≠ '\n')) = []
        · rw [hd, lexGo_nil] at h
          injection h with h
          subst h
          simp [flush, total]
        · have hlast : (cs.dropWhile (fun x : Char => decide (x ≠ '\n'))).getLast? = some '"' := by
            have hl' : cs.getLast? = some '"' := by
              cases cs with
              | nil => simp at hd
              | cons d ds => simpa using hl
            rw [← hpre, List.getLast?_append] at hl'
            cases hx : (cs.dropWhile (fun x : Char => decide (x ≠ '\n'))).getLast? with
            | none => exact absurd (List.getLast?_eq_none_iff.1 hx) hd
            | some y => rw [hx] at hl'; simpa using hl'
          have hn' : cs.length ≤ n := by simp only [List.length_cons] at hn; omega
          have := ih .out none _ toks (by omega) h hlast
          simp only [Option.getD_none, List.length_nil, List.length_cons] at this ⊢
          omega
      · rename_i hq _ _ _ _
        exact step _ _ h hq (by simp)
    | single =>
      dsimp only at h
      split at h
      · exact lost _ _ h (by simp)
      split at h
      · simp at h
      · by_cases hc : c = '"'
        · subst hc
          cases cs with
          | nil => rw [lexGo.eq_def] at h; simp at h
          | cons d ds =>
            have := ih _ _ (d :: ds) toks (by simp at hn ⊢; omega) h (by simpa using hl)
            simp at this ⊢; omega
        · exact step _ _ h hc (by simp)
    | double =>
      dsimp only at h
      split at h
      · exact lost _ _ h (by simp)
      rename_i hq
      split at h
      · simp at h
      split at h
      · split at h
        · simp at h
        · split at h
          · simp at h
          split at h
          · exact lost2 _ _ _ _ rfl h (by simp)
          · exact step _ _ h hq (by simp)
      · exact step _ _ h hq (by simp)

/-- What was read of a word stays at its front. -/
theorem lexGo_prefix (i : Bool) : ∀ (n : Nat) (q : Quote) (a s : Str) (toks : List Tok), s.length ≤ n →
    lexGo i q (some a) s = some toks → ∃ w ts, toks = .word w :: ts ∧ a <+: w
  | n, q, a, [], toks, hn, h => by
    cases q with
    | out =>
      rw [lexGo_nil] at h
      injection h with h
      exact ⟨a, [], h.symm, List.prefix_rfl⟩
    | single => rw [lexGo.eq_def] at h; simp at h
    | double => rw [lexGo.eq_def] at h; simp at h
  | 0, q, a, c :: cs, toks, hn, h => by simp at hn
  | n + 1, q, a, c :: cs, toks, hn, h => by
    have ih := lexGo_prefix i n
    have more : ∀ q' x s', s'.length ≤ n → lexGo i q' (some (a ++ x)) s' = some toks →
        ∃ w ts, toks = .word w :: ts ∧ a <+: w := by
      intro q' x s' hn' h'
      obtain ⟨w, ts, e, hp⟩ := ih q' (a ++ x) s' toks hn' h'
      exact ⟨w, ts, e, (List.prefix_append a x).trans hp⟩
    have same : ∀ q' s', s'.length ≤ n → lexGo i q' (some a) s' = some toks →
        ∃ w ts, toks = .word w :: ts ∧ a <+: w := fun q' s' hn' h' => ih q' a s' toks hn' h'
    have sep : ∀ (f : List Tok → List Tok) (s' : Str),
        (lexGo i .out none s').map (fun x => flush (some a) ++ f x) = some toks →
        ∃ w ts, toks = .word w :: ts ∧ a <+: w := by
      intro f s' h'
      cases hx : lexGo i .out none s' with
      | none => rw [hx] at h'; simp at h'
      | some ts =>
        rw [hx] at h'
        simp only [Option.map_some, Option.some.injEq] at h'
        exact ⟨a, f ts, h'.symm, List.prefix_rfl⟩
    have hn' : cs.length ≤ n := by simp at hn; omega
    rw [lexGo.eq_def] at h
    cases q with
    | out =>
      dsimp only at h
      split at h
      · exact sep id _ h
      split at h
      · exact same _ _ hn' h
      split at h
      · exact same _ _ hn' h
      split at h
      · split at h
        · simp at h
        · split at h
          · simp at h
          · refine more _ _ _ ?_ h
            simp at hn' ; omega
      split at h
      · exact sep (Tok.op c :: ·) _ h
      split at h
      · simp at h
      split at h
      · rename_i hcm
        simp at hcm
      · exact more _ _ _ hn' h
    | single =>
      dsimp only at h
      split at h
      · exact same _ _ hn' h
      split at h
      · simp at h
      · exact more _ _ _ hn' h
    | double =>
      dsimp only at h
      split at h
      · exact same _ _ hn' h
      split at h
      · simp at h
      split at h
      · split at h
        · simp at h
        · split at h
          · simp at h
          split at h
          · refine more _ _ _ ?_ h
            simp at hn' ; omega
          · exact more _ _ _ hn' h
      · exact more _ _ _ hn' h

end Verif.Spec.Shell
