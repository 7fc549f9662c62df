import Verif.Lemmas.Shell
import Verif.Lemmas.Ssh
import Verif.Lemmas.Decide

/-!
# C71: the commands sent to a remote name the path that is meant
-/

namespace Verif.Ssh
open Verif Verif.Spec.Shell

/-- A text that keeps its meaning between double quotes in an interactive shell: no character that
is expanded or ends the quotes, and no backslash that is followed by another one or by the closing
quote. -/
def DoubleOk (p : Str) : Prop :=
  (∀ c ∈ p, c ∉ ['"', '$', '`', '!', '\n']) ∧ ¬ ['\\', '\\'] <:+: p ∧ p.getLast? ≠ some '\\'

/-- A character that is shown as it is. -/
def Graphic (printable : Char → Bool) (c : Char) : Prop :=
  32 ≤ c.toNat ∧ c.toNat ≠ 127 ∧ (c.toNat < 127 ∨ printable c = true)

/-- The words before the path in the stat commands. -/
def statWords (darwin : Bool) : List Tok := [.word (if darwin then lit "gstat" else lit "stat"), .word (lit "-c")]

theorem doubleOk_cons {c : Char} {p : Str} (h : DoubleOk (c :: p)) (hc : p ≠ [] ∨ c ≠ '\\') : DoubleOk p := by
  obtain ⟨h1, h2, h3⟩ := h
  refine ⟨fun x hx => h1 x (List.mem_cons_of_mem _ hx), fun hi => h2 (hi.trans (List.infix_cons List.infix_rfl)), ?_⟩
  cases p with
  | nil => simp
  | cons d ds => simpa using h3

theorem lexGo_doubleOk : ∀ (p a rest : Str), DoubleOk p →
    lexGo true .double (some a) (p ++ '"' :: rest) = lexGo true .out (some (a ++ p)) rest
  | [], a, rest, _ => by rw [List.nil_append, lexGo.eq_def]; simp
  | c :: p, a, rest, h => by
    have hc := h.1 c (by simp)
    simp only [List.mem_cons, List.not_mem_nil, or_false, not_or] at hc
    have ih := lexGo_doubleOk p
    rw [List.cons_append, lexGo.eq_def]
    by_cases hb : c = '\\'
    · subst hb
      cases p with
      | nil => exact absurd rfl h.2.2
      | cons d ds =>
        have hp : DoubleOk (d :: ds) := doubleOk_cons h (.inl (by simp))
        have hd : d ≠ '\\' := by
          rintro rfl
          exact h.2.1 ⟨[], ds, rfl⟩
        have hd' := hp.1 d (by simp)
        simp only [List.mem_cons, List.not_mem_nil, or_false, not_or] at hd'
        have e := ih (a ++ ['\\']) rest hp
        rw [List.cons_append] at e
        simp [hd, hd', e]
    · have e := ih (a ++ [c]) rest (doubleOk_cons h (.inr hb))
      simp [hc, hb, e]

theorem doubleOk_cons' {c : Char} {p : Str} (h : DoubleOk p) (hc : c ∉ ['"', '$', '`', '!', '\n'])
    (hb : c = '\\' → ∃ d ds, p = d :: ds ∧ d ≠ '\\') : DoubleOk (c :: p) := by
  refine ⟨?_, ?_, ?_⟩
  · intro x hx
    rcases List.mem_cons.1 hx with rfl | hx
    · exact hc
    · exact h.1 x hx
  · intro hi
    rcases List.infix_cons_iff.1 hi with hi | hi
    · obtain ⟨t, ht⟩ := hi
      simp only [List.cons_append, List.nil_append, List.cons.injEq] at ht
      obtain ⟨d, ds, e, hd⟩ := hb ht.1.symm
      rw [e] at ht
      simp only [List.cons.injEq] at ht
      exact hd ht.2.1.symm
    · exact h.2.1 hi
  · cases p with
    | nil =>
      intro e
      simp at e
      obtain ⟨d, ds, e', -⟩ := hb e
      cases e'
    | cons d ds =>
      intro e
      exact h.2.2 (by simpa using e)

/-- If the text between the quotes comes out as it is, it was harmless. -/
theorem doubleOk_of_lexGo : ∀ (p a : Str), lexGo true .double (some a) (p ++ ['"']) = some [.word (a ++ p)] → DoubleOk p
  | [], _, _ => ⟨by simp, by simp, by simp⟩
  | c :: p, a, h => by
    have ih := doubleOk_of_lexGo p
    rw [List.cons_append, lexGo.eq_def] at h
    dsimp only at h
    split at h
    · have := lexGo_total true _ _ _ _ _ (Nat.le_refl _) h (by simp)
      simp [total] at this
      omega
    rename_i h1
    split at h
    · simp at h
    rename_i h2
    have hc : c ∉ ['"', '$', '`', '!', '\n'] := by
      simp only [true_and, not_or] at h2
      simp only [List.mem_cons, List.not_mem_nil, or_false, not_or]
      exact ⟨h1, h2.1, h2.2.1, h2.2.2.1, h2.2.2.2⟩
    split at h
    · rename_i hb
      subst hb
      cases p with
      | nil =>
        simp only [List.nil_append] at h
        rw [if_neg (by decide), if_pos (by decide), lexGo.eq_def] at h
        simp at h
      | cons d ds =>
        simp only [List.cons_append] at h
        split at h
        · simp at h
        split at h
        · have := lexGo_total true _ _ _ _ _ (Nat.le_refl _) h (by simp)
          simp [total] at this
          omega
        · rename_i hd
          refine doubleOk_cons' (ih (a ++ ['\\']) ?_) hc ?_
          · simpa using h
          · intro _
            exact ⟨d, ds, rfl, fun e => hd (by simp [e])⟩
    · rename_i hb
      refine doubleOk_cons' (ih (a ++ [c]) ?_) hc (fun e => absurd e hb)
      simpa using h

theorem doubleOk_statFields : DoubleOk statFields := by
  refine ⟨by decide, ?_, by decide⟩
  intro h
  have : '\\' ∈ statFields := h.subset (by simp)
  exact absurd this (by decide)

/-- The words before the format in the stat commands. -/
theorem lex_stat_words (darwin : Bool) (rest : Str) :
    lexGo true .out none ((if darwin then lit "gstat" else lit "stat") ++ ' ' :: (lit "-c" ++ ' ' :: rest)) =
      (lexGo true .out none rest).map (statWords darwin ++ ·) := by
  have hw : ∀ w : Str, w ≠ [] → (∀ c ∈ w, isOrdinary c = true) →
      lexGo true .out none (w ++ ' ' :: (lit "-c" ++ ' ' :: rest)) =
      (lexGo true .out none rest).map ([.word w, .word (lit "-c")] ++ ·) := by
    intro w hw ho
    rw [lex_word_space true w _ hw ho, lex_word_space true (lit "-c") _ (by simp) (by decide), Option.map_map]
    rfl
  cases darwin
  · exact hw (lit "stat") (by simp) (by decide)
  · exact hw (lit "gstat") (by simp) (by decide)

theorem statCmd_eq (darwin : Bool) (format p : Str) (hp : p ≠ []) : statCmd darwin format p =
    (if darwin then lit "gstat" else lit "stat") ++ ' ' :: (lit "-c" ++ ' ' :: (format ++ ' ' :: '"' :: (p ++ ['"']))) := by
  have e : lit " -c " = ' ' :: lit "-c" ++ [' '] := by decide
  have e' : lit " \"" = [' ', '"'] := by decide
  rw [statCmd, if_neg hp, e, e']
  simp only [List.append_assoc, List.cons_append, List.nil_append]

theorem lexGo_dq_path (p : Str) (cur : Option Str) (f : List Tok → List Tok) (hf : Function.Injective f) :
    ((lexGo true .out cur (' ' :: '"' :: (p ++ ['"']))).map f = some (f (flush cur ++ [.word p]))) ↔ DoubleOk p := by
  rw [lexGo_space, lexGo_dq]
  constructor
  · intro h
    refine doubleOk_of_lexGo p [] ?_
    cases hx : lexGo true .double (some []) (p ++ ['"']) with
    | none => simp [hx] at h
    | some ts =>
      simp only [Option.getD_none, hx, Option.map_some, Option.some.injEq] at h
      have := List.append_cancel_left (hf h)
      rw [this]; rfl
  · intro h
    have := lexGo_doubleOk p [] [] h
    simp only [Option.getD_none, this, lexGo_nil]
    simp [flush]

/-- C71.  The remote stat command gets the path as one argument, character by character, exactly if
the path is harmless between double quotes. -/
theorem C71_stat_partial (darwin : Bool) (p : Str) (hp : p ≠ []) :
    lex true (statCmd darwin statFormat p) = some (statWords darwin ++ [.word statFields, .word p]) ↔ DoubleOk p := by
  rw [lex, statCmd_eq darwin _ p hp, lex_stat_words]
  have e : statFormat ++ ' ' :: '"' :: (p ++ ['"']) = '"' :: (statFields ++ '"' :: (' ' :: '"' :: (p ++ ['"']))) := by
    simp [statFormat]
  rw [e, lexGo_dq, lexGo_doubleOk _ _ _ doubleOk_statFields]
  exact lexGo_dq_path p (some statFields) (statWords darwin ++ ·) (fun _ _ h => List.append_cancel_left h)

/-- C71.  The same for the commands that ask for the type of the file. -/
theorem C71_type_partial (darwin : Bool) (p : Str) (hp : p ≠ []) :
    lex true (statCmd darwin (lit "%F") p) = some (statWords darwin ++ [.word (lit "%F"), .word p]) ↔ DoubleOk p := by
  rw [lex, statCmd_eq darwin _ p hp, lex_stat_words, lexGo_word true (lit "%F") none _ (by simp) (by decide)]
  exact lexGo_dq_path p (some (lit "%F")) (statWords darwin ++ ·) (fun _ _ h => List.append_cancel_left h)

/-! ### `repr` -/

theorem mem_hexPad {x : Char} : ∀ {k n : Nat}, x ∈ hexPad k n → ∃ d, d < 16 ∧ x = hexChar d
  | 0, _, h => by simp [hexPad] at h
  | k + 1, n, h => by
    simp only [hexPad, List.mem_append, List.mem_singleton] at h
    rcases h with h | h
    · exact mem_hexPad h
    · exact ⟨n % 16, Nat.mod_lt _ (by omega), h⟩

/-- A character that means nothing between quotes. -/
def Quiet (c : Char) : Prop := c ∉ ['"', '\'', '\\', '$', '`']

theorem quiet_hex {d : Nat} (h : d < 16) : Quiet (hexChar d) := by
  unfold Quiet
  have : ∀ d, d < 16 → hexChar d ∉ ['"', '\'', '\\', '$', '`'] := by decide
  exact this d h

/-- What `repr` makes of a character other than the quotes around the text. -/
theorem reprChar_cases (pr : Char → Bool) (q c : Char) (hq : c ≠ q) :
    (Graphic pr c ∧ c ≠ '\\' ∧ reprChar pr q c = [c]) ∨ (c = '\\' ∧ reprChar pr q c = ['\\', '\\']) ∨
    (¬ Graphic pr c ∧ c ≠ '\\' ∧ ∃ x y, reprChar pr q c = '\\' :: x :: y ∧ x ≠ '\n' ∧ ∀ z ∈ x :: y, Quiet z) := by
  have hex : ∀ (x : Char) (k n : Nat), Quiet x → ∀ z ∈ x :: hexPad k n, Quiet z := by
    intro x k n hx z hz
    rcases List.mem_cons.1 hz with rfl | hz
    · exact hx
    · obtain ⟨d, hd, rfl⟩ := mem_hexPad hz
      exact quiet_hex hd
  by_cases hb : c = '\\'
  · subst hb
    exact .inr (.inl ⟨rfl, by simp [reprChar]⟩)
  unfold reprChar
  rw [if_neg (by simp [hq, hb])]
  split
  · rename_i e
    subst e
    exact .inr (.inr ⟨fun h => absurd h.1 (by decide), by decide, 't', [], rfl, by decide, by unfold Quiet; decide⟩)
  split
  · rename_i e
    subst e
    exact .inr (.inr ⟨fun h => absurd h.1 (by decide), by decide, 'n', [], rfl, by decide, by unfold Quiet; decide⟩)
  split
  · rename_i e
    subst e
    exact .inr (.inr ⟨fun h => absurd h.1 (by decide), by decide, 'r', [], rfl, by decide, by unfold Quiet; decide⟩)
  split
  · rename_i e
    exact .inr (.inr ⟨fun h => by rcases e with e | e; · have := h.1; omega
                                  · exact h.2.1 e, hb, 'x', _, rfl, by decide, hex _ _ _ (by unfold Quiet; decide)⟩)
  rename_i h1
  simp only [not_or] at h1
  split
  · rename_i e
    exact .inl ⟨⟨by omega, h1.2, .inl e⟩, hb, rfl⟩
  split
  · rename_i e
    exact .inl ⟨⟨by omega, h1.2, .inr e⟩, hb, rfl⟩
  rename_i h2 h3
  have hg : ¬ Graphic pr c := by
    rintro ⟨-, -, h | h⟩
    · exact h2 h
    · exact h3 h
  split
  · exact .inr (.inr ⟨hg, hb, 'x', _, rfl, by decide, hex _ _ _ (by unfold Quiet; decide)⟩)
  split
  · exact .inr (.inr ⟨hg, hb, 'u', _, rfl, by decide, hex _ _ _ (by unfold Quiet; decide)⟩)
  · exact .inr (.inr ⟨hg, hb, 'U', _, rfl, by decide, hex _ _ _ (by unfold Quiet; decide)⟩)

theorem length_le_flatMap {f : Char → Str} : ∀ {p : Str}, (∀ c ∈ p, f c ≠ []) → p.length ≤ (p.flatMap f).length
  | [], _ => by simp
  | c :: p, h => by
    have := length_le_flatMap (p := p) (f := f) (fun x hx => h x (List.mem_cons_of_mem _ hx))
    have h1 := List.length_pos_iff.2 (h c (by simp))
    simp only [List.flatMap_cons, List.length_append, List.length_cons]
    omega

theorem flatMap_eq_self {f : Char → Str} : ∀ {p : Str}, (∀ c ∈ p, f c ≠ []) → (p.flatMap f = p ↔ ∀ c ∈ p, f c = [c])
  | [], _ => by simp
  | c :: p, h => by
    have h' : ∀ x ∈ p, f x ≠ [] := fun x hx => h x (List.mem_cons_of_mem _ hx)
    have ih := flatMap_eq_self h'
    have hl := length_le_flatMap h'
    constructor
    · intro e
      cases hf : f c with
      | nil => exact absurd hf (h c (by simp))
      | cons x xs =>
        simp only [List.flatMap_cons, hf, List.cons_append, List.cons.injEq] at e
        have hlen := congrArg List.length e.2
        simp only [List.length_append] at hlen
        have hx : xs = [] := List.eq_nil_of_length_eq_zero (by omega)
        subst hx
        intro d hd
        rcases List.mem_cons.1 hd with rfl | hd
        · rw [hf, e.1]
        · exact ih.1 e.2 d hd
    · intro e
      rw [List.flatMap_cons, e c (by simp), ih.2 (fun d hd => e d (List.mem_cons_of_mem _ hd))]
      rfl

theorem reprChar_ne_nil (pr : Char → Bool) (q c : Char) : reprChar pr q c ≠ [] := by
  by_cases hq : c = q
  · simp [reprChar, hq]
  · rcases reprChar_cases pr q c hq with h | h | h
    · rw [h.2.2]; simp
    · rw [h.2]; simp
    · obtain ⟨-, -, x, y, e, -⟩ := h
      rw [e]; simp

theorem quote_not_mem_repr (pr : Char → Bool) : ∀ (p : Str), '\'' ∉ p → '\'' ∉ p.flatMap (reprChar pr '\'')
  | [], _ => by simp
  | c :: p, h => by
    simp only [List.mem_cons, not_or] at h
    rw [List.flatMap_cons, List.mem_append]
    rintro (hm | hm)
    · rcases reprChar_cases pr '\'' c (fun e => h.1 e.symm) with h' | h' | h'
      · rw [h'.2.2] at hm
        exact h.1 (List.mem_singleton.1 hm)
      · rw [h'.2] at hm
        revert hm; decide
      · obtain ⟨-, -, x, y, e, -, hz⟩ := h'
        rw [e] at hm
        rcases List.mem_cons.1 hm with hm | hm
        · revert hm; decide
        · exact hz _ hm (by simp)
    · exact quote_not_mem_repr pr p h.2 hm

/-- What the shell makes of a character in double quotes after `repr`. -/
def seen (pr : Char → Bool) (c : Char) : Str := if c = '\\' then ['\\'] else reprChar pr '"' c

theorem lexGo_quiet : ∀ (w a rest : Str), (∀ z ∈ w, Quiet z) →
    lexGo false .double (some a) (w ++ rest) = lexGo false .double (some (a ++ w)) rest
  | [], a, rest, _ => by simp
  | c :: w, a, rest, h => by
    have hc := h c (by simp)
    simp only [Quiet, List.mem_cons, List.not_mem_nil, or_false, not_or] at hc
    rw [List.cons_append, lexGo.eq_def]
    have := lexGo_quiet w (a ++ [c]) rest (fun z hz => h z (List.mem_cons_of_mem _ hz))
    simp [hc, this]

theorem lexGo_repr (pr : Char → Bool) : ∀ (p a rest : Str), '"' ∉ p →
    lexGo false .double (some a) (p.flatMap (reprChar pr '"') ++ '"' :: rest) =
      if '$' ∈ p ∨ '`' ∈ p then none else lexGo false .out (some (a ++ p.flatMap (seen pr))) rest
  | [], a, rest, _ => by
    rw [List.flatMap_nil, List.nil_append, lexGo.eq_def]; simp
  | c :: p, a, rest, h => by
    simp only [List.mem_cons, not_or] at h
    have hne : c ≠ '"' := fun e => h.1 e.symm
    have ih := fun a => lexGo_repr pr p a rest h.2
    by_cases hd : c = '$' ∨ c = '`'
    · have hr : reprChar pr '"' c = [c] := by
        rcases hd with rfl | rfl <;> rfl
      rw [List.flatMap_cons, hr, if_pos (by rcases hd with rfl | rfl <;> simp), List.append_assoc, List.cons_append, lexGo.eq_def]
      rcases hd with rfl | rfl <;> simp
    · simp only [not_or] at hd
      have hmem : ('$' ∈ c :: p ∨ '`' ∈ c :: p) ↔ ('$' ∈ p ∨ '`' ∈ p) := by
        simp [Ne.symm hd.1, Ne.symm hd.2]
      rw [List.flatMap_cons, List.append_assoc]
      simp only [hmem, List.flatMap_cons]
      rcases reprChar_cases pr '"' c hne with h' | h' | h'
      · have hs : seen pr c = [c] := by rw [seen, if_neg h'.2.1, h'.2.2]
        rw [h'.2.2, hs, List.cons_append, lexGo.eq_def]
        simp only [hne, hd.1, hd.2, h'.2.1, List.nil_append]
        simp [ih]
      · obtain ⟨rfl, hr⟩ := h'
        have hs : seen pr '\\' = ['\\'] := by simp [seen]
        rw [hr, hs, List.cons_append, lexGo.eq_def]
        simp [ih]
      · obtain ⟨-, hb, x, y, e, hx, hz⟩ := h'
        have hs : seen pr c = '\\' :: x :: y := by rw [seen, if_neg hb, e]
        have hxq := hz x (by simp)
        simp only [Quiet, List.mem_cons, List.not_mem_nil, or_false, not_or] at hxq
        rw [e, hs, List.cons_append, lexGo.eq_def]
        have hgo := lexGo_quiet (x :: y) (a ++ ['\\']) (p.flatMap (reprChar pr '"') ++ '"' :: rest) hz
        rw [List.cons_append] at hgo
        simp [hx, hxq, hgo, ih]

/-- C71.  Reading the content of a remote file asks for exactly the path, as one argument, exactly if
all characters are printable and, without single quotes in the path, there is no backslash, or, with
single quotes, none of the characters that are special in double quotes. -/
theorem C71_data_partial (printable : Char → Bool) (p : Str) :
    lex false (dataCmd printable p) = some [.word (lit "cat"), .word p] ↔
      (∀ c ∈ p, Graphic printable c) ∧
        (('\'' ∉ p ∧ '\\' ∉ p) ∨ ('\'' ∈ p ∧ '"' ∉ p ∧ '$' ∉ p ∧ '`' ∉ p)) := by
  have e : lit "cat " = lit "cat" ++ [' '] := by decide
  have front : lex false (dataCmd printable p) =
      (lexGo false .out none (pyRepr printable p)).map (Tok.word (lit "cat") :: ·) := by
    rw [lex, dataCmd, e, List.append_assoc, List.cons_append, List.nil_append,
      lex_word_space false (lit "cat") _ (by simp) (by decide)]
  have back : lex false (dataCmd printable p) = some [.word (lit "cat"), .word p] ↔
      lexGo false .out none (pyRepr printable p) = some [.word p] := by
    rw [front]
    cases lexGo false .out none (pyRepr printable p) <;> simp
  rw [back, pyRepr]
  by_cases hs : '\'' ∈ p
  · by_cases hd : '"' ∈ p
    · -- both kinds of quotes
      simp only [hs, hd, not_true_eq_false, and_false, if_false, false_and, or_false]
      refine ⟨fun h => ?_, fun h => h.elim⟩
      obtain ⟨u, t, hu, rfl⟩ : ∃ u t, '\'' ∉ u ∧ p = u ++ '\'' :: t := by
        obtain ⟨u, t, e, hu⟩ := List.eq_append_cons_of_mem hs
        exact ⟨u, t, hu, e⟩
      exfalso
      have hr : reprChar printable '\'' '\'' = ['\\', '\''] := by simp [reprChar]
      rw [List.cons_append, lexGo_sq, List.flatMap_append, List.flatMap_cons, hr] at h
      have e2 : u.flatMap (reprChar printable '\'') ++ (['\\', '\''] ++ t.flatMap (reprChar printable '\'')) ++ ['\''] =
          (u.flatMap (reprChar printable '\'') ++ ['\\']) ++ '\'' :: (t.flatMap (reprChar printable '\'') ++ ['\'']) := by simp
      have hn : '\'' ∉ u.flatMap (reprChar printable '\'') ++ ['\\'] := by
        rw [List.mem_append]
        rintro (hm | hm)
        · exact quote_not_mem_repr printable u hu hm
        · revert hm; decide
      rw [e2, lexGo_single false _ _ _ hn (by simp)] at h
      obtain ⟨w, ts, ew, hp⟩ := lexGo_prefix false _ _ _ _ _ (Nat.le_refl _) h
      injection ew with ew1 ew2
      injection ew1 with ew1
      subst ew1
      obtain ⟨r, hr'⟩ := hp
      have hl := length_le_flatMap (p := u) (f := reprChar printable '\'') (fun c _ => reprChar_ne_nil printable _ c)
      have ht : (u ++ '\'' :: t).take (u.length + 1) = u ++ ['\''] := by
        rw [List.take_append]; simp [List.take_of_length_le]
      rw [← hr', List.take_append_of_le_length (by simp only [Option.getD_none, List.nil_append]; rw [List.length_append, List.length_singleton]; omega)] at ht
      have : '\'' ∈ u ++ ['\''] := by simp
      rw [← ht] at this
      exact hn (by simpa using List.mem_of_mem_take this)
    · simp only [hs, hd, not_false_eq_true, and_self, if_true, not_true_eq_false, false_and, false_or, true_and]
      rw [List.cons_append, lexGo_dq, show (none : Option Str).getD [] = [] from rfl, lexGo_repr printable p [] [] hd, List.nil_append]
      by_cases hx : '$' ∈ p ∨ '`' ∈ p
      · rw [if_pos hx]
        constructor
        · intro h; simp at h
        · rintro ⟨-, h1, h2⟩
          exact (hx.elim h1 h2).elim
      · rw [if_neg hx, lexGo_nil]
        simp only [not_or] at hx
        simp only [flush, Option.some.injEq, List.cons.injEq, Tok.word.injEq, and_true, hx, not_false_eq_true]
        rw [flatMap_eq_self (fun c _ => by
          unfold seen; split
          · simp
          · exact reprChar_ne_nil printable _ c)]
        refine forall_congr' fun c => forall_congr' fun hc => ?_
        have hcq : c ≠ '"' := fun e => hd (e ▸ hc)
        rcases reprChar_cases printable '"' c hcq with h' | h' | h'
        · simp [seen, h'.2.1, h'.2.2, h'.1]
        · obtain ⟨rfl, -⟩ := h'
          simp only [seen, if_true, true_iff]
          exact ⟨by decide, by decide, .inl (by decide)⟩
        · obtain ⟨hg, hb, x, y, e, -⟩ := h'
          simp [seen, hb, e, hg]
  · simp only [hs, false_and, if_false, not_false_eq_true, true_and, or_false]
    rw [List.cons_append, lexGo_sq, lexGo_single false _ _ _ (quote_not_mem_repr printable p hs) (by simp), lexGo_nil]
    simp only [flush, Option.getD_none, List.nil_append, Option.some.injEq, List.cons.injEq, Tok.word.injEq, and_true]
    rw [flatMap_eq_self (fun c _ => reprChar_ne_nil printable _ c)]
    constructor
    · intro h
      refine ⟨fun c hc => ?_, fun hm => ?_⟩
      · have hcq : c ≠ '\'' := fun e => hs (e ▸ hc)
        have := h c hc
        rcases reprChar_cases printable '\'' c hcq with h' | h' | h'
        · exact h'.1
        · rw [h'.2] at this; simp at this
        · obtain ⟨-, -, x, y, e, -⟩ := h'
          rw [e] at this; simp at this
      · have := h _ hm
        simp [reprChar] at this
    · rintro ⟨h, hb⟩ c hc
      have hcq : c ≠ '\'' := fun e => hs (e ▸ hc)
      rcases reprChar_cases printable '\'' c hcq with h' | h' | h'
      · exact h'.2.2
      · exact absurd (h'.1 ▸ hc) hb
      · exact absurd (h c hc) h'.1

/-! ### Commands without quotes -/

/-- The words after the path in the checksum command. -/
def checksumTail : List Tok := [.op '|', .word (lit "awk"), .word (lit "{ print $1 }"), .op ';']

theorem lex_checksum_tail : lexGo true .out none (lit "| awk '{ print $1 }';") = some checksumTail := by
  have e : lit "| awk '{ print $1 }';" = '|' :: ' ' :: (lit "awk" ++ ' ' :: '\'' :: (lit "{ print $1 }" ++ '\'' :: [';'])) := by decide
  rw [e, lexGo_op _ _ _ _ (by decide), lexGo_space, lex_word_space true (lit "awk") _ (by simp) (by decide), lexGo_sq,
    lexGo_single true _ _ _ (by decide) (by decide), lexGo_op _ _ _ _ (by decide), lexGo_nil]
  simp [flush, checksumTail]

theorem checksumCmd_eq (cypher p : Str) : checksumCmd cypher p = cypher ++ ' ' :: (p ++ ' ' :: lit "| awk '{ print $1 }';") := by
  have e : lit " | awk '{ print $1 }';" = ' ' :: lit "| awk '{ print $1 }';" := by decide
  rw [checksumCmd, e]
  simp only [List.append_assoc, List.cons_append]

/-- C71.  The remote checksum command gets the path as one argument if the path is made of characters
that mean nothing to a shell. -/
theorem C71_checksum_partial (cypher p : Str) (hc : cypher ≠ [] ∧ ∀ c ∈ cypher, isOrdinary c = true) (hp : p ≠ [])
    (ho : ∀ c ∈ p, isOrdinary c = true) :
    lex true (checksumCmd cypher p) = some (.word cypher :: .word p :: checksumTail) := by
  rw [lex, checksumCmd_eq, lex_word_space true cypher _ hc.1 hc.2, lex_word_space true p _ hp ho, lex_checksum_tail]
  rfl

/-- C71.  The remote listing changes to the directory that is meant, and nothing else is run before
the commands for it, if the path is made of characters that mean nothing to a shell. -/
theorem C71_children_partial (darwin : Bool) (cypher p : Str) (hp : p ≠ []) (ho : ∀ c ∈ p, isOrdinary c = true) :
    ∃ rest, childrenCmd darwin cypher p = lit "cd " ++ p ++ ';' :: rest ∧
      ∀ more, lex true (lit "cd " ++ p ++ ';' :: more) =
        (lex true more).map ([.word (lit "cd"), .word p, .op ';'] ++ ·) := by
  refine ⟨statCmd darwin statFormat [] ++ lit " {.,}*;echo '----';" ++ cypher ++ lit " {.,}*;cd \"${OLDPWD}\"", ?_, fun more => ?_⟩
  · simp only [childrenCmd, List.append_assoc, List.cons_append]
  · have e : lit "cd " = lit "cd" ++ [' '] := by decide
    rw [lex, e, List.append_assoc, List.append_assoc, List.cons_append, List.nil_append,
      lex_word_space true (lit "cd") _ (by simp) (by decide), lexGo_word true p none _ hp ho, lexGo_op _ _ _ _ (by decide)]
    simp only [Option.map_map]
    rfl

/-- The path of an ordinary file satisfies the hypotheses of all of these, for all the commands. -/
example : lex true (checksumCmd (lit "b2sum") (lit "/home/user/data-1.2_x.bin")) =
    some (.word (lit "b2sum") :: .word (lit "/home/user/data-1.2_x.bin") :: checksumTail) :=
  C71_checksum_partial _ _ ⟨by simp, by decide⟩ (by simp) (by decide)

/-- A path with spaces can be read and looked at. -/
example : lex false (dataCmd (fun _ => false) (lit "/home/my data/it's")) =
    some [.word (lit "cat"), .word (lit "/home/my data/it's")] :=
  (C71_data_partial _ _).2 ⟨by unfold Graphic; decide, .inr (by decide)⟩

example : lex true (statCmd false statFormat (lit "/home/my data")) =
    some (statWords false ++ [.word statFields, .word (lit "/home/my data")]) :=
  (C71_stat_partial _ _ (by simp)).2 ⟨by decide, fun h => by
    have : '\\' ∈ lit "/home/my data" := h.subset (by simp)
    exact absurd this (by decide), by decide⟩

/-- C71 is false of the code for the checksum: the two halves of a path with a space in it are taken for
two paths, whatever they are. -/
theorem C71_checksum_space_counterexample (cypher a b : Str) (hc : cypher ≠ [] ∧ ∀ c ∈ cypher, isOrdinary c = true)
    (ha : a ≠ [] ∧ ∀ c ∈ a, isOrdinary c = true) (hb : b ≠ [] ∧ ∀ c ∈ b, isOrdinary c = true) :
    lex true (checksumCmd cypher (a ++ ' ' :: b)) = some (.word cypher :: .word a :: .word b :: checksumTail) := by
  rw [lex, checksumCmd_eq, lex_word_space true cypher _ hc.1 hc.2, List.append_assoc, List.cons_append,
    lex_word_space true a _ ha.1 ha.2, lex_word_space true b _ hb.1 hb.2, lex_checksum_tail]
  rfl

/-- C71 is false of the code for the listing: what follows a semicolon in the name of a directory is run
as a command of its own, whatever it is. -/
theorem C71_children_command_counterexample (darwin : Bool) (cypher a cmd : Str) (ha : a ≠ [] ∧ ∀ c ∈ a, isOrdinary c = true)
    (hcmd : cmd ≠ [] ∧ ∀ c ∈ cmd, isOrdinary c = true) :
    ∃ rest, childrenCmd darwin cypher (a ++ ';' :: cmd) = lit "cd " ++ a ++ ';' :: cmd ++ ';' :: rest ∧
      ∀ more, lex true (lit "cd " ++ a ++ ';' :: cmd ++ ';' :: more) =
        (lex true more).map ([.word (lit "cd"), .word a, .op ';', .word cmd, .op ';'] ++ ·) := by
  refine ⟨statCmd darwin statFormat [] ++ lit " {.,}*;echo '----';" ++ cypher ++ lit " {.,}*;cd \"${OLDPWD}\"", ?_, fun more => ?_⟩
  · simp only [childrenCmd, List.append_assoc, List.cons_append]
  · have e : lit "cd " = lit "cd" ++ [' '] := by decide
    rw [lex, e]
    simp only [List.append_assoc, List.cons_append, List.nil_append]
    rw [lex_word_space true (lit "cd") _ (by simp) (by decide), lexGo_word true a none _ ha.1 ha.2, lexGo_op _ _ _ _ (by decide),
      lexGo_word true cmd none _ hcmd.1 hcmd.2, lexGo_op _ _ _ _ (by decide)]
    simp only [Option.map_map]
    rfl

/-- C71 is false of the code for the content: with both kinds of quotes in a path, a part of it can be run
as a command. -/
theorem C71_data_command_counterexample :
    lex false (dataCmd (fun _ => true) (lit "a\"';reboot #")) =
      some [.word (lit "cat"), .word (lit "a\"\\"), .op ';', .word (lit "reboot")] := by
  decide +kernel

/-- C71 is false of the code for stat: a dollar sign in a path is taken for a variable or a command. -/
theorem C71_stat_dollar_counterexample : lex true (statCmd false statFormat (lit "/srv/$(reboot)")) = none := by
  decide +kernel

/-! ### What `repr` writes stands for the text -/

/-- The number that hexadecimal digits stand for. -/
def hexNum (l : Str) : Option Nat := l.foldlM (fun a c => (hexVal? c).map (a * 16 + ·)) 0

/-- How python reads a text in quotes, one character: the character and what follows. -/
def readOne (quote : Char) : Str → Option (Char × Str)
  | [] => none
  | c :: r =>
    if c = quote ∨ c = '\n' then none
    else if c ≠ '\\' then some (c, r)
    else match r with
      | [] => none
      | k :: r =>
        if k = '\\' ∨ k = '\'' ∨ k = '"' then some (k, r)
        else if k = 't' then some ('\t', r)
        else if k = 'n' then some ('\n', r)
        else if k = 'r' then some ('\r', r)
        else
          let w := if k = 'x' then 2 else if k = 'u' then 4 else 8
          if k = 'x' ∨ k = 'u' ∨ k = 'U' then (hexNum (r.take w)).map fun n => (Char.ofNat n, r.drop w) else none

/-- How python reads what is between quotes up to the closing quote. -/
def readText (quote : Char) : Nat → Str → Option Str
  | 0, _ => none
  | n + 1, s => if s = [quote] then some [] else
    match readOne quote s with
    | some (c, r) => (readText quote n r).map (c :: ·)
    | none => none

theorem hexVal_hexChar : ∀ d, d < 16 → hexVal? (hexChar d) = some d := by decide

theorem hexNum_hexPad : ∀ k n, hexNum (hexPad k n) = some (n % 16 ^ k)
  | 0, n => by simp [hexPad, hexNum, Nat.mod_one]
  | k + 1, n => by
    have ih := hexNum_hexPad k (n / 16)
    unfold hexNum at ih ⊢
    rw [hexPad, List.foldlM_append, ih]
    simp only [Option.bind_eq_bind, Option.bind_some, List.foldlM_cons, List.foldlM_nil, hexVal_hexChar _ (Nat.mod_lt n (by omega : 16 > 0)), Option.map_some]
    show some (n / 16 % 16 ^ k * 16 + n % 16) = _
    congr 1
    rw [Nat.pow_succ, Nat.mul_comm (16 ^ k) 16, Nat.mod_mul, Nat.mul_comm]
    omega

theorem hexPad_length : ∀ k n, (hexPad k n).length = k
  | 0, _ => rfl
  | k + 1, n => by simp [hexPad, hexPad_length k]

theorem readOne_reprChar (pr : Char → Bool) {q : Char} (hq : q = '\'' ∨ q = '"') (c : Char) (x : Str) :
    readOne q (reprChar pr q c ++ x) = some (c, x) := by
  have hqb : '\\' ≠ q ∧ 'x' ≠ q ∧ 'u' ≠ q ∧ 'U' ≠ q := by rcases hq with rfl | rfl <;> decide
  have hex : ∀ (k : Char) (w : Nat), (k = 'x' ∧ w = 2 ∨ k = 'u' ∧ w = 4 ∨ k = 'U' ∧ w = 8) → c.toNat < 16 ^ w →
      readOne q ('\\' :: k :: hexPad w c.toNat ++ x) = some (c, x) := by
    intro k w hk hw
    have hn := hexNum_hexPad w c.toNat
    rw [Nat.mod_eq_of_lt hw] at hn
    have hl := hexPad_length w c.toNat
    have h1 : (hexPad w c.toNat ++ x).take w = hexPad w c.toNat := List.take_left' hl
    have h2 : (hexPad w c.toNat ++ x).drop w = x := List.drop_left' hl
    rcases hk with ⟨rfl, rfl⟩ | ⟨rfl, rfl⟩ | ⟨rfl, rfl⟩ <;>
      simp [readOne, hqb.1, h1, h2, hn]
  have hval : c.toNat < 16 ^ 8 := by
    have := c.valid
    have h := c.val.toNat_lt
    simp only [Char.toNat]
    omega
  unfold reprChar
  split
  · rename_i h
    rcases h with rfl | rfl
    · rcases hq with rfl | rfl <;> simp [readOne]
    · simp [readOne, hqb.1]
  rename_i hc
  rw [not_or] at hc
  split
  · subst_vars; simp [readOne, lit, hqb.1]
  split
  · subst_vars; simp [readOne, lit, hqb.1]
  split
  · subst_vars; simp [readOne, lit, hqb.1]
  rename_i hnl _
  split
  · exact hex 'x' 2 (.inl ⟨rfl, rfl⟩) (by omega)
  split
  · simp [readOne, hc.1, hc.2, hnl]
  split
  · simp [readOne, hc.1, hc.2, hnl]
  split
  · exact hex 'x' 2 (.inl ⟨rfl, rfl⟩) (by omega)
  split
  · exact hex 'u' 4 (.inr (.inl ⟨rfl, rfl⟩)) (by omega)
  · exact hex 'U' 8 (.inr (.inr ⟨rfl, rfl⟩)) hval

theorem readText_reprChar (pr : Char → Bool) {q : Char} (hq : q = '\'' ∨ q = '"') : ∀ (s : Str) (n : Nat), s.length < n →
    readText q n (s.flatMap (reprChar pr q) ++ [q]) = some s
  | s, 0, h => by omega
  | [], n + 1, _ => by simp [readText]
  | c :: s, n + 1, h => by
    have ih := readText_reprChar pr hq s n (by simpa using h)
    have hne : (c :: s).flatMap (reprChar pr q) ++ [q] ≠ [q] := by
      intro he
      have h1 := readOne_reprChar pr hq c (s.flatMap (reprChar pr q) ++ [q])
      rw [List.flatMap_cons, List.append_assoc] at he
      rw [he] at h1
      simp [readOne] at h1
    rw [readText, if_neg hne, List.flatMap_cons, List.append_assoc, readOne_reprChar pr hq c]
    simp [ih]

/-- C71.  What is sent for a path is a python literal of exactly that path: read the way python reads a text in quotes, it is the path
again, whatever characters are in it. -/
theorem C71_repr (printable : Char → Bool) (p : Str) :
    ∃ q body, (q = '\'' ∨ q = '"') ∧ dataCmd printable p = lit "cat " ++ q :: body ∧ ∀ n, p.length < n → readText q n body = some p := by
  refine ⟨if '\'' ∈ p ∧ '"' ∉ p then '"' else '\'', _, ?_, rfl, fun n hn => readText_reprChar printable ?_ p n hn⟩
  all_goals split <;> simp

/-- C71.  So two paths are never asked for by the same command. -/
theorem C71_data_injective (printable : Char → Bool) (p p' : Str) (h : dataCmd printable p = dataCmd printable p') : p = p' := by
  obtain ⟨q, b, -, h1, h2⟩ := C71_repr printable p
  obtain ⟨q', b', -, h1', h2'⟩ := C71_repr printable p'
  rw [h1, h1', List.append_cancel_left_eq, List.cons.injEq] at h
  obtain ⟨rfl, rfl⟩ := h
  have e := h2 (p.length + p'.length + 1) (by omega)
  rw [h2' _ (by omega), Option.some.injEq] at e
  exact e.symm

example : dataCmd (fun _ => false) [Char.ofNat 0x1f600, 'é', '\''] = lit "cat \"\\U0001f600\\xe9'\"" := by decide +kernel

/-- A path that can be written without quotes: the first character may not be a tilde or a number sign, all others mean nothing within a
word. -/
def BareOk (p : Str) : Prop :=
  p ≠ [] ∧ p.head? ≠ some '~' ∧ p.head? ≠ some '#' ∧ ∀ c ∈ p, isOrdinary c = true ∨ c = '~' ∨ c = '#'

/-- What may follow a path in a command for its quoting to be closed within the path. -/
structure Ends (T : Str) : Prop where
  single : ∀ a, lexGo true .single (some a) T = none
  double : ∀ a, lexGo true .double (some a) T = none
  escape : ∀ a d ts, T = d :: ts → lexGo true .double (some a) ts = none
  out : ∀ a w ts, lexGo true .out (some a) T = some (.word w :: ts) → w = a
  start : ∀ w ts, lexGo true .out none T ≠ some (.word w :: ts)
  first : ∃ d ts, T = d :: ts ∧ d ≠ '\n' ∧ d ≠ '\\' ∧ ∀ a w us, lexGo true .out (some a) ts = some (.word w :: us) → w = a
  line : '\n' ∉ T

theorem lexGo_inner (c : Char) (a cs : Str) (h : isOrdinary c = true ∨ c = '~' ∨ c = '#') :
    lexGo true .out (some a) (c :: cs) = lexGo true .out (some (a ++ [c])) cs := by
  rcases h with h | rfl | rfl
  · rw [lexGo_ordinary true c _ _ h]; rfl
  · rw [lexGo.eq_def]; simp [isOp, isExpanded]
  · rw [lexGo.eq_def]; simp [isOp, isExpanded]

theorem lexGo_bare : ∀ (p a rest : Str), (∀ c ∈ p, isOrdinary c = true ∨ c = '~' ∨ c = '#') →
    lexGo true .out (some a) (p ++ rest) = lexGo true .out (some (a ++ p)) rest
  | [], a, rest, _ => by simp
  | c :: p, a, rest, h => by
    rw [List.cons_append, lexGo_inner c a _ (h c (by simp)), lexGo_bare p _ rest (fun x hx => h x (List.mem_cons_of_mem _ hx))]
    simp

theorem lexGo_bareOk (p rest : Str) (h : BareOk p) : lexGo true .out none (p ++ rest) = lexGo true .out (some p) rest := by
  obtain ⟨h1, h2, h3, h4⟩ := h
  cases p with
  | nil => exact absurd rfl h1
  | cons c p =>
    have hc : isOrdinary c = true := by
      rcases h4 c (by simp) with h | rfl | rfl
      · exact h
      · simp at h2
      · simp at h3
    rw [List.cons_append, lexGo_ordinary true c none _ hc, lexGo_bare p _ rest (fun x hx => h4 x (List.mem_cons_of_mem _ hx))]
    rfl

theorem lexGo_comment {T : Str} (hT : Ends T) (cs w : Str) (ts : List Tok)
    (h : lexGo true .out none ((cs ++ T).dropWhile (· ≠ '\n')) = some (.word w :: ts)) : False := by
  by_cases hnl : '\n' ∈ cs
  · have : ∃ us, (cs ++ T).dropWhile (· ≠ '\n') = '\n' :: us := by
      clear h
      induction cs with
      | nil => simp at hnl
      | cons x cs ih =>
        by_cases hx : x = '\n'
        · subst hx; exact ⟨cs ++ T, by simp⟩
        · obtain ⟨us, hus⟩ := ih (by simpa [Ne.symm hx, eq_comm, hx] using hnl)
          refine ⟨us, ?_⟩
          rw [List.cons_append, List.dropWhile_cons]
          simpa [hx] using hus
    obtain ⟨us, hus⟩ := this
    rw [hus, lexGo_op true _ _ _ (by decide)] at h
    cases hx : lexGo true .out none us with
    | none => rw [hx] at h; simp at h
    | some ts' => rw [hx] at h; simp [flush] at h
  · have : (cs ++ T).dropWhile (· ≠ '\n') = [] := by
      have hall : ∀ x ∈ cs ++ T, decide (x ≠ '\n') = true := by
        intro x hx
        rcases List.mem_append.1 hx with hx | hx
        · have : x ≠ '\n' := fun e => hnl (e ▸ hx)
          simpa using this
        · have : x ≠ '\n' := fun e => hT.line (e ▸ hx)
          simpa using this
      generalize cs ++ T = l at hall
      clear h
      induction l with
      | nil => rfl
      | cons x l ih =>
        rw [List.dropWhile_cons, if_pos (hall x (by simp))]
        exact ih (fun y hy => hall y (List.mem_cons_of_mem _ hy))
    rw [this, lexGo_nil] at h
    simp [flush] at h

/-- The first word is no longer than what is before `T`, and shorter by one if a quote must still be closed. -/
theorem lexGo_first_le {T : Str} (hT : Ends T) : ∀ (n : Nat) (q : Quote) (cur : Option Str) (s w : Str) (ts : List Tok), s.length ≤ n →
    lexGo true q cur (s ++ T) = some (.word w :: ts) → (q ≠ .out → cur ≠ none) →
    w.length + (if q = .out then 0 else 1) ≤ (cur.getD []).length + s.length := by
  intro n
  induction n with
  | zero =>
    intro q cur s w ts hn h hq
    have : s = [] := List.eq_nil_of_length_eq_zero (by omega)
    subst this
    rw [List.nil_append] at h
    cases cur with
    | none =>
      cases q with
      | out => exact absurd h (hT.start w ts)
      | single => exact absurd rfl (hq (by simp))
      | double => exact absurd rfl (hq (by simp))
    | some a =>
      cases q with
      | out => rw [hT.out a w ts h]; simp
      | single => rw [hT.single] at h; simp at h
      | double => rw [hT.double] at h; simp at h
  | succ n ih =>
    intro q cur s w ts hn h hq
    cases s with
    | nil => exact (by
        rw [List.nil_append] at h
        cases cur with
        | none =>
          cases q with
          | out => exact absurd h (hT.start w ts)
          | single => exact absurd rfl (hq (by simp))
          | double => exact absurd rfl (hq (by simp))
        | some a =>
          cases q with
          | out => rw [hT.out a w ts h]; simp
          | single => rw [hT.single] at h; simp at h
          | double => rw [hT.double] at h; simp at h)
    | cons c cs =>
      have hn' : cs.length ≤ n := by simpa using hn
      rw [List.cons_append, lexGo.eq_def] at h
      cases q with
      | out =>
        dsimp only at h
        simp only [if_true, List.length_cons]
        split at h
        · cases hx : lexGo true .out none (cs ++ T) with
          | none => rw [hx] at h; simp at h
          | some ts' =>
            rw [hx] at h
            cases cur with
            | none =>
              simp only [Option.map_some, flush, List.nil_append, Option.some.injEq] at h
              subst h
              have := ih .out none cs w ts hn' hx (by simp)
              simp at this ⊢
              omega
            | some a =>
              simp only [Option.map_some, flush, List.cons_append, List.nil_append, Option.some.injEq, List.cons.injEq, Tok.word.injEq] at h
              rw [← h.1]
              simp
        · split at h
          · have := ih .single _ cs w ts hn' h (by simp)
            simp at this ⊢
            omega
          · split at h
            · have := ih .double _ cs w ts hn' h (by simp)
              simp at this ⊢
              omega
            · split at h
              · cases cs with
                | nil =>
                  obtain ⟨d, us, rfl, hd, -, hus⟩ := hT.first
                  rw [List.nil_append] at h
                  dsimp only at h
                  rw [if_neg hd] at h
                  rw [hus _ _ _ h]
                  simp
                | cons d ds =>
                  rw [List.cons_append] at h
                  dsimp only at h
                  split at h
                  · simp at h
                  · have := ih .out _ ds w ts (by simp at hn'; omega) h (by simp)
                    simp at this ⊢
                    omega
              · split at h
                · cases hx : lexGo true .out none (cs ++ T) with
                  | none => rw [hx] at h; simp at h
                  | some ts' =>
                    rw [hx] at h
                    cases cur with
                    | none => simp [flush] at h
                    | some a =>
                      simp only [Option.map_some, flush, List.cons_append, List.nil_append, Option.some.injEq, List.cons.injEq, Tok.word.injEq] at h
                      rw [← h.1]
                      simp
                · split at h
                  · simp at h
                  · split at h
                    · rename_i hc
                      obtain ⟨hcur, -⟩ := hc
                      subst hcur
                      exfalso
                      exact lexGo_comment hT cs w ts h
                    · have := ih .out _ cs w ts hn' h (by simp)
                      simp at this ⊢
                      omega
      | single =>
        dsimp only at h
        simp only [List.length_cons]
        split at h
        · have := ih .out _ cs w ts hn' h (by simp)
          simp at this ⊢
          omega
        · split at h
          · simp at h
          · have := ih .single _ cs w ts hn' h (by simp)
            simp at this ⊢
            omega
      | double =>
        dsimp only at h
        simp only [List.length_cons]
        split at h
        · have := ih .out _ cs w ts hn' h (by simp)
          simp at this ⊢
          omega
        · split at h
          · simp at h
          · split at h
            · cases cs with
              | nil =>
                obtain ⟨d, us, hTd, hd, hb, -⟩ := hT.first
                exfalso
                rw [List.nil_append, hTd] at h
                dsimp only at h
                rw [if_neg hd] at h
                split at h
                · rw [hT.escape _ d us hTd] at h; simp at h
                · rw [← hTd, hT.double] at h; simp at h
              | cons d ds =>
                rw [List.cons_append] at h
                dsimp only at h
                split at h
                · simp at h
                · split at h
                  · have := ih .double _ ds w ts (by simp at hn'; omega) h (by simp)
                    simp at this ⊢
                    omega
                  · have := ih .double _ (d :: ds) w ts hn' h (by simp)
                    simp at this ⊢
                    omega
            · have := ih .double _ cs w ts hn' h (by simp)
              simp at this ⊢
              omega

theorem bare_of_lexGo {T : Str} (hT : Ends T) : ∀ (p a : Str) (ts : List Tok),
    lexGo true .out (some a) (p ++ T) = some (.word (a ++ p) :: ts) → ∀ c ∈ p, isOrdinary c = true ∨ c = '~' ∨ c = '#'
  | [], _, _, _ => by simp
  | c :: p, a, ts, h => by
    have ih := bare_of_lexGo hT p (a ++ [c]) ts
    by_cases hc : isOrdinary c = true ∨ c = '~' ∨ c = '#'
    · rw [List.cons_append, lexGo_inner c a _ hc] at h
      intro x hx
      rcases List.mem_cons.1 hx with rfl | hx
      · exact hc
      · exact ih (by rw [h]; simp) x hx
    · exfalso
      have hlen : (a ++ c :: p).length = a.length + p.length + 1 := by simp; omega
      rw [List.cons_append, lexGo.eq_def] at h
      dsimp only at h
      have hfl : ∀ (l : List Tok) (x : Option (List Tok)), x.map (fun r => flush (some a) ++ (l ++ r)) ≠ some (.word (a ++ c :: p) :: ts) := by
        intro l x hx
        cases x with
        | none => simp at hx
        | some r =>
          simp only [Option.map_some, flush, List.cons_append, List.nil_append, Option.some.injEq, List.cons.injEq, Tok.word.injEq] at hx
          have := congrArg List.length hx.1
          omega
      split at h
      · exact hfl [] _ h
      · split at h
        · have := lexGo_first_le hT _ _ _ _ _ _ (Nat.le_refl _) h (by simp)
          simp at this
          omega
        · split at h
          · have := lexGo_first_le hT _ _ _ _ _ _ (Nat.le_refl _) h (by simp)
            simp at this
            omega
          · split at h
            · rename_i hb
              cases p with
              | nil =>
                obtain ⟨d, us, rfl, hd, hb', hus⟩ := hT.first
                rw [List.nil_append] at h
                dsimp only at h
                rw [if_neg hd] at h
                have := hus _ _ _ h
                simp only [Option.getD_some, List.append_cancel_left_eq, List.cons.injEq, and_true] at this
                exact hb' (by rw [← this, hb])
              | cons d ds =>
                rw [List.cons_append] at h
                dsimp only at h
                split at h
                · simp at h
                · have := lexGo_first_le hT _ _ _ _ _ _ (Nat.le_refl _) h (by simp)
                  simp at this
                  omega
            · split at h
              · exact hfl [.op c] _ h
              · split at h
                · simp at h
                · rename_i h1 h2 h3 h4 h5 h6
                  refine hc (.inl ?_)
                  simp only [not_or] at hc h1 h6
                  simp [isOrdinary, h1, h2, h3, h4, h5, h6, hc]

/-- A shell takes a path that is written without quotes for the first word of a command exactly if it may be written that way. -/
theorem bareOk_of_lexGo {T : Str} (hT : Ends T) (p : Str) (ts : List Tok) (hp : p ≠ [])
    (h : lexGo true .out none (p ++ T) = some (.word p :: ts)) : BareOk p := by
  cases p with
  | nil => exact absurd rfl hp
  | cons c p =>
    by_cases hc : isOrdinary c = true
    · have h' := h
      rw [List.cons_append, lexGo_ordinary true c none _ hc] at h'
      have := bare_of_lexGo hT p [c] ts (by simpa using h')
      refine ⟨hp, ?_, ?_, ?_⟩
      · rintro h; simp at h; subst h; simp [isOrdinary] at hc
      · rintro h; simp at h; subst h; simp [isOrdinary] at hc
      · intro x hx
        rcases List.mem_cons.1 hx with rfl | hx
        · exact .inl hc
        · exact this x hx
    · exfalso
      rw [List.cons_append, lexGo.eq_def] at h
      dsimp only at h
      split at h
      · cases hx : lexGo true .out none (p ++ T) with
        | none => rw [hx] at h; simp at h
        | some r =>
          rw [hx] at h
          simp only [Option.map_some, flush, List.nil_append, Option.some.injEq] at h
          subst h
          have := lexGo_first_le hT _ _ _ _ _ _ (Nat.le_refl _) hx (by simp)
          simp at this
          omega
      · split at h
        · have := lexGo_first_le hT _ _ _ _ _ _ (Nat.le_refl _) h (by simp)
          simp at this
          omega
        · split at h
          · have := lexGo_first_le hT _ _ _ _ _ _ (Nat.le_refl _) h (by simp)
            simp at this
            omega
          · split at h
            · rename_i hb
              cases p with
              | nil =>
                obtain ⟨d, us, rfl, hd, hb', hus⟩ := hT.first
                rw [List.nil_append] at h
                dsimp only at h
                rw [if_neg hd] at h
                have := hus _ _ _ h
                simp at this
                exact hb' (by rw [← this, hb])
              | cons d ds =>
                rw [List.cons_append] at h
                dsimp only at h
                split at h
                · simp at h
                · have := lexGo_first_le hT _ _ _ _ _ _ (Nat.le_refl _) h (by simp)
                  simp at this
                  omega
            · split at h
              · cases hx : lexGo true .out none (p ++ T) with
                | none => rw [hx] at h; simp at h
                | some r => rw [hx] at h; simp [flush] at h
              · split at h
                · simp at h
                · split at h
                  · -- a comment
                    exact lexGo_comment hT p _ ts h
                  · rename_i h1 h2 h3 h4 h5 h6 h7
                    refine hc ?_
                    simp only [not_or] at h1 h6 h7
                    have h7' : c ≠ '#' := by simpa using h7
                    have h6' : c ≠ '~' := by simpa using h6.2
                    simp [isOrdinary, h1, h2, h3, h4, h5, h6.1, h6', h7']

theorem ends_semicolon : Ends [';'] where
  single a := by rw [lexGo.eq_def]; simp; rw [lexGo.eq_def]
  double a := by rw [lexGo.eq_def]; simp; rw [lexGo.eq_def]
  escape a d ts h := by
    simp only [List.cons.injEq] at h
    rw [← h.2, lexGo.eq_def]
  out a w ts h := by
    rw [lexGo_op _ _ _ _ (by decide), lexGo_nil] at h
    simp [flush] at h
    exact h.1.symm
  start w ts h := by
    rw [lexGo_op _ _ _ _ (by decide), lexGo_nil] at h
    simp [flush] at h
  first := ⟨';', [], rfl, by decide, by decide, fun a w us h => by
    rw [lexGo_nil] at h
    simp [flush] at h
    exact h.1.symm⟩
  line := by decide

/-- C71, exactly, for the listing: the remote shell changes to the directory that is meant, whatever follows, if and only if the path may be
written without quotes. -/
theorem C71_children_iff (p : Str) (hp : p ≠ []) :
    (∀ more, lex true (lit "cd " ++ p ++ ';' :: more) = (lex true more).map ([.word (lit "cd"), .word p, .op ';'] ++ ·)) ↔ BareOk p := by
  have e : ∀ more, lex true (lit "cd " ++ p ++ ';' :: more) = (lexGo true .out none (p ++ ';' :: more)).map (.word (lit "cd") :: ·) := by
    intro more
    have e : lit "cd " = lit "cd" ++ [' '] := by decide
    rw [lex, e, List.append_assoc, List.append_assoc, List.cons_append, List.nil_append,
      lex_word_space true (lit "cd") _ (by simp) (by decide)]
  constructor
  · intro h
    have h := h []
    rw [e, lex, lexGo_nil] at h
    cases hx : lexGo true .out none (p ++ [';']) with
    | none => rw [hx] at h; simp at h
    | some r =>
      rw [hx] at h
      simp only [Option.map_some, flush, Option.some.injEq, List.cons_append, List.nil_append, List.cons.injEq, true_and] at h
      subst h
      exact bareOk_of_lexGo ends_semicolon p _ hp hx
  · intro h more
    rw [e, lexGo_bareOk p _ h, lexGo_op _ _ _ _ (by decide), lex, Option.map_map]
    rfl

theorem ends_awk : Ends (lit " | awk '{ print $1 }';") := by
  have hT : lit " | awk '{ print $1 }';" = lit " | awk " ++ '\'' :: (lit "{ print " ++ '$' :: lit "1 }';") := by decide
  have hd : ∀ (w rest a : Str), (∀ c ∈ w, c ∉ ['"', '\\', '$', '`', '!', '\n']) → lexGo true .double (some a) (w ++ '$' :: rest) = none := by
    intro w
    induction w with
    | nil => intro rest a _; rw [List.nil_append, lexGo.eq_def]; simp
    | cons c w ih =>
      intro rest a h
      have hc := h c (by simp)
      simp only [List.mem_cons, List.not_mem_nil, or_false, not_or] at hc
      rw [List.cons_append, lexGo.eq_def]
      simp only [hc, if_false, or_self, and_false]
      exact ih rest _ (fun x hx => h x (List.mem_cons_of_mem _ hx))
  refine ⟨fun a => ?_, fun a => ?_, fun a d ts h => ?_, fun a w ts h => ?_, fun w ts h => ?_, ?_, by decide⟩
  · rw [hT, lexGo_single true _ _ _ (by decide) (by decide)]
    have : lit "{ print " ++ '$' :: lit "1 }';" = '{' :: lit " print $1 }';" := by decide
    rw [this, lexGo.eq_def]
    simp [isOp, isExpanded]
  · have : lit " | awk '{ print $1 }';" = lit " | awk '{ print " ++ '$' :: lit "1 }';" := by decide
    rw [this]
    exact hd _ _ a (by decide)
  · have : lit " | awk '{ print $1 }';" = ' ' :: (lit "| awk '{ print " ++ '$' :: lit "1 }';") := by decide
    rw [this] at h
    simp only [List.cons.injEq] at h
    rw [← h.2]
    exact hd _ _ a (by decide)
  · have : lit " | awk '{ print $1 }';" = ' ' :: lit "| awk '{ print $1 }';" := by decide
    rw [this, lexGo_space] at h
    cases hx : lexGo true .out none (lit "| awk '{ print $1 }';") with
    | none => rw [hx] at h; simp at h
    | some r => rw [hx] at h; simp [flush] at h; exact h.1.symm
  · have : lit " | awk '{ print $1 }';" = ' ' :: '|' :: lit " awk '{ print $1 }';" := by decide
    rw [this, lexGo_space, lexGo_op _ _ _ _ (by decide)] at h
    cases hx : lexGo true .out none (lit " awk '{ print $1 }';") with
    | none => rw [hx] at h; simp at h
    | some r => rw [hx] at h; simp [flush] at h
  · refine ⟨' ', lit "| awk '{ print $1 }';", by decide, by decide, by decide, fun a w us h => ?_⟩
    have : lit "| awk '{ print $1 }';" = '|' :: lit " awk '{ print $1 }';" := by decide
    rw [this, lexGo_op _ _ _ _ (by decide)] at h
    cases hx : lexGo true .out none (lit " awk '{ print $1 }';") with
    | none => rw [hx] at h; simp at h
    | some r => rw [hx] at h; simp [flush] at h; exact h.1.symm

/-- C71, exactly, for the checksum: the remote command gets the path as one argument, character by character, if and only if the path may be
written without quotes. -/
theorem C71_checksum_iff (cypher p : Str) (hc : cypher ≠ [] ∧ ∀ c ∈ cypher, isOrdinary c = true) (hp : p ≠ []) :
    lex true (checksumCmd cypher p) = some (.word cypher :: .word p :: checksumTail) ↔ BareOk p := by
  have e : lex true (checksumCmd cypher p) =
      (lexGo true .out none (p ++ lit " | awk '{ print $1 }';")).map (.word cypher :: ·) := by
    rw [lex, checksumCmd, List.append_assoc, List.cons_append, lex_word_space true cypher _ hc.1 hc.2]
  rw [e]
  constructor
  · intro h
    cases hx : lexGo true .out none (p ++ lit " | awk '{ print $1 }';") with
    | none => rw [hx] at h; simp at h
    | some r =>
      rw [hx] at h
      simp only [Option.map_some, Option.some.injEq, List.cons.injEq, true_and] at h
      subst h
      exact bareOk_of_lexGo ends_awk p _ hp hx
  · intro h
    rw [lexGo_bareOk p _ h]
    have e2 : lit " | awk '{ print $1 }';" = ' ' :: lit "| awk '{ print $1 }';" := by decide
    have e3 := C71_checksum_partial cypher [ 'a' ] hc (by simp) (by decide)
    rw [lex, checksumCmd, List.append_assoc, List.cons_append, lex_word_space true cypher _ hc.1 hc.2,
      lexGo_word true ['a'] none _ (by simp) (by decide), e2, lexGo_space] at e3
    rw [e2, lexGo_space]
    cases hx : lexGo true .out none (lit "| awk '{ print $1 }';") with
    | none => rw [hx] at e3; simp at e3
    | some r =>
      rw [hx] at e3
      simp [flush] at e3 ⊢
      exact e3

example : BareOk (lit "/srv/data#1/~x") ∧ ¬ BareOk (lit "/srv/my data") ∧ ¬ BareOk (lit "~/x") := by
  refine ⟨⟨by decide, by decide, by decide, by decide⟩, fun h => ?_, fun h => ?_⟩
  · exact absurd (h.2.2.2 ' ' (by decide)) (by decide)
  · exact h.2.1 (by decide)

/-! ### What `repr` writes is a literal for the text -/

/-- Where a reader of a text literal is: in the text, after a backslash, or in a hexadecimal escape with so many digits to go. -/
inductive Reading where
  | text
  | escape
  | digits (more value : Nat)

/-- The value of a hexadecimal digit. -/
def digitValue (c : Char) : Option Nat :=
  if '0'.toNat ≤ c.toNat ∧ c.toNat ≤ '9'.toNat then some (c.toNat - '0'.toNat)
  else if 'a'.toNat ≤ c.toNat ∧ c.toNat ≤ 'f'.toNat then some (c.toNat - 'a'.toNat + 10)
  else none

/-- How python reads a text literal after the opening quote: to the closing quote, which is the end, with the escapes for the quotes, the
backslash, white space and numbers. -/
def readLiteral (q : Char) : Reading → Str → Option Str
  | _, [] => none
  | .text, c :: s =>
    if c = q then (if s = [] then some [] else none)
    else if c = '\\' then readLiteral q .escape s
    else if c = '\n' then none
    else (readLiteral q .text s).map (c :: ·)
  | .escape, c :: s =>
    if c = '\\' ∨ c = '\'' ∨ c = '"' then (readLiteral q .text s).map (c :: ·)
    else if c = 't' then (readLiteral q .text s).map ('\t' :: ·)
    else if c = 'n' then (readLiteral q .text s).map ('\n' :: ·)
    else if c = 'r' then (readLiteral q .text s).map ('\r' :: ·)
    else if c = 'x' then readLiteral q (.digits 2 0) s
    else if c = 'u' then readLiteral q (.digits 4 0) s
    else if c = 'U' then readLiteral q (.digits 8 0) s
    else none
  | .digits more v, c :: s =>
    match digitValue c with
    | none => none
    | some d => if more ≤ 1 then (readLiteral q .text s).map (Char.ofNat (16 * v + d) :: ·) else readLiteral q (.digits (more - 1) (16 * v + d)) s

theorem digitValue_hexChar {d : Nat} (h : d < 16) : digitValue (hexChar d) = some d := by
  have : ∀ d, d < 16 → digitValue (hexChar d) = some d := by decide
  exact this d h

theorem read_digits (q : Char) : ∀ (k j v m : Nat) (s : Str), 0 < j → m < 16 ^ k →
    readLiteral q (.digits (k + j) v) (hexPad k m ++ s) = readLiteral q (.digits j (v * 16 ^ k + m)) s
  | 0, j, v, m, s, _, hm => by
    have : m = 0 := by simpa using hm
    subst this
    simp [hexPad]
  | k + 1, j, v, m, s, hj, hm => by
    have hm' : m / 16 < 16 ^ k := by
      rw [Nat.pow_succ] at hm
      exact Nat.div_lt_of_lt_mul (by omega)
    have ih := read_digits q k (j + 1) v (m / 16) (hexChar (m % 16) :: s) (by omega) hm'
    rw [show k + 1 + j = k + (j + 1) by omega, hexPad, List.append_assoc, List.singleton_append, ih]
    rw [readLiteral, digitValue_hexChar (Nat.mod_lt _ (by omega))]
    dsimp only
    rw [if_neg (by omega), Nat.add_sub_cancel]
    congr 2
    rw [Nat.pow_succ, ← Nat.mul_assoc]
    generalize v * 16 ^ k = w
    omega

theorem read_number (q : Char) (k : Nat) (c : Char) (s : Str) (h : c.toNat < 16 ^ (k + 1)) :
    readLiteral q (.digits (k + 1) 0) (hexPad (k + 1) c.toNat ++ s) = (readLiteral q .text s).map (c :: ·) := by
  have hm' : c.toNat / 16 < 16 ^ k := by
    rw [Nat.pow_succ] at h
    exact Nat.div_lt_of_lt_mul (by omega)
  rw [hexPad, List.append_assoc, List.singleton_append, read_digits q k 1 0 _ _ (by omega) hm', readLiteral,
    digitValue_hexChar (Nat.mod_lt _ (by omega))]
  dsimp only
  rw [if_pos (by omega), show 16 * (0 * 16 ^ k + c.toNat / 16) + c.toNat % 16 = c.toNat by simp; omega, Char.ofNat_toNat]

theorem read_reprChar (pr : Char → Bool) (q c : Char) (hq : q = '\'' ∨ q = '"') (s : Str) :
    readLiteral q .text (reprChar pr q c ++ s) = (readLiteral q .text s).map (c :: ·) := by
  have hqb : '\\' ≠ q := by rcases hq with rfl | rfl <;> decide
  have esc : ∀ t : Str, readLiteral q .text ('\\' :: t) = readLiteral q .escape t := by
    intro t
    rw [readLiteral, if_neg hqb, if_pos rfl]
  unfold reprChar
  split
  · rename_i h
    rw [List.cons_append, esc, List.cons_append, List.nil_append, readLiteral, if_pos]
    rcases h with rfl | rfl
    · rcases hq with rfl | rfl <;> simp
    · simp
  rename_i h
  have h1 : c ≠ q := fun e => h (.inl e)
  have h2 : c ≠ '\\' := fun e => h (.inr e)
  split
  · rename_i e; subst e
    show readLiteral q .text ('\\' :: 't' :: s) = _
    rw [esc, readLiteral]; simp
  split
  · rename_i e; subst e
    show readLiteral q .text ('\\' :: 'n' :: s) = _
    rw [esc, readLiteral]; simp
  rename_i hnl
  split
  · rename_i e; subst e
    show readLiteral q .text ('\\' :: 'r' :: s) = _
    rw [esc, readLiteral]; simp
  have plain : readLiteral q .text ([c] ++ s) = (readLiteral q .text s).map (c :: ·) := by
    rw [List.singleton_append, readLiteral, if_neg h1, if_neg h2, if_neg hnl]
  have hx : c.toNat < 256 → readLiteral q .text ('\\' :: 'x' :: hexPad 2 c.toNat ++ s) = (readLiteral q .text s).map (c :: ·) := by
    intro hc
    rw [List.cons_append, esc, List.cons_append, readLiteral]
    simpa using read_number q 1 c s (by omega)
  split
  · exact hx (by omega)
  split
  · exact plain
  split
  · exact plain
  split
  · exact hx (by omega)
  split
  · rw [List.cons_append, esc, List.cons_append, readLiteral]
    simpa using read_number q 3 c s (by omega)
  · rw [List.cons_append, esc, List.cons_append, readLiteral]
    have := c.valid
    simpa using read_number q 7 c s (by
      have : c.toNat < 0x110000 := by
        rcases c.valid with h | ⟨_, h⟩
        · have : c.toNat < 0xd800 := h
          omega
        · exact h
      omega)

/-- Beside C71: what `repr` makes of a text is a literal for exactly that text, whatever characters it has and whichever are printable. -/
theorem C71_repr_literal (printable : Char → Bool) (s : Str) :
    ∃ q body, pyRepr printable s = q :: body ∧ (q = '\'' ∨ q = '"') ∧ readLiteral q .text body = some s := by
  have key : ∀ (q : Char), q = '\'' ∨ q = '"' → readLiteral q .text (s.flatMap (reprChar printable q) ++ [q]) = some s := by
    intro q hq
    induction s with
    | nil => simp [readLiteral]
    | cons c s ih =>
      rw [List.flatMap_cons, List.append_assoc, read_reprChar printable q c hq, ih]
      rfl
  have hq : (if '\'' ∈ s ∧ '"' ∉ s then '"' else '\'') = '\'' ∨ (if '\'' ∈ s ∧ '"' ∉ s then '"' else '\'') = '"' := by
    split <;> simp
  exact ⟨_, _, rfl, hq, key _ hq⟩

example : readLiteral '\'' .text (lit "a\\n\\x07\\u20ac\\\\'") = some ['a', '\n', Char.ofNat 7, '€', '\\'] := by decide +kernel

end Verif.Ssh
