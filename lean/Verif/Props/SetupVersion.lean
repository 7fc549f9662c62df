import Verif.Model.SetupVersion

/-!
# The version that `setup.py` finds is that of the module (C123)
-/

namespace Verif.Setup
namespace Spec

/-- A line of a module: an assignment of a literal without escapes to `__version__` with what comes after it on the line (spaces, a
comment, the end of the line), or something else that does not bind it. -/
inductive Line where
  | assign (indent : Str) (spaces : Bool) (quote : Char) (value after : Str)
  | other (text : Str)

/-- The text of a line. -/
def Line.text : Line → Str
  | .assign indent spaces q v after => indent ++ lit "__version__" ++ (if spaces then lit " = " else lit "=") ++ [q] ++ v ++ [q] ++ after
  | .other s => s

/-- The value of `__version__` after all lines ran. -/
def value (ls : List Line) : Option Str :=
  ls.foldl (fun last l => match l with | .assign _ _ _ v _ => some v | .other _ => last) none

/-- A line that is written in the usual way: without indentation, with one space on both sides of the sign, one kind of quotes, no quote
in the value or after it; other lines do not look like an assignment. -/
def Usual : Line → Prop
  | .assign indent spaces q v after => indent = [] ∧ spaces = true ∧ (q = '\'' ∨ q = '"') ∧ (∀ c ∈ v ++ after, c ≠ '\'' ∧ c ≠ '"') ∧ '\\' ∉ v
  | .other s => ∀ q r, (q = '\'' ∨ q = '"') → s ≠ lit "__version__ = " ++ q :: r

end Spec
open Spec

theorem isQuote_iff (c : Char) : isQuote c = true ↔ c = '\'' ∨ c = '"' := by simp [isQuote]

theorem beforeLastQuote_iff (s g : Str) :
    beforeLastQuote s = some g ↔ ∃ q r, s = g ++ q :: r ∧ (q = '\'' ∨ q = '"') ∧ ∀ c ∈ r, c ≠ '\'' ∧ c ≠ '"' := by
  induction s generalizing g with
  | nil => simp [beforeLastQuote]
  | cons c cs ih =>
    unfold beforeLastQuote
    cases h : beforeLastQuote cs with
    | some g' =>
      obtain ⟨q, r, h1, h2, h3⟩ := (ih g').1 h
      simp only [Option.some.injEq]
      constructor
      · rintro rfl
        exact ⟨q, r, by simp [h1], h2, h3⟩
      · rintro ⟨q', r', h4, h5, h6⟩
        cases g with
        | nil =>
          simp only [List.nil_append, List.cons.injEq] at h4
          obtain ⟨rfl, rfl⟩ := h4
          have := h6 q (by simp [h1])
          rcases h2 with rfl | rfl <;> simp at this
        | cons a g =>
          simp only [List.cons_append, List.cons.injEq] at h4
          obtain ⟨rfl, h4⟩ := h4
          have := (ih g).2 ⟨q', r', h4, h5, h6⟩
          rw [h] at this
          simp only [Option.some.injEq] at this
          rw [this]
    | none =>
      have hno : ∀ g', ¬ ∃ q r, cs = g' ++ q :: r ∧ (q = '\'' ∨ q = '"') ∧ ∀ c ∈ r, c ≠ '\'' ∧ c ≠ '"' := fun g' h' => by
        have := (ih g').2 h'
        simp [h] at this
      have hq : ∀ (l : Str), beforeLastQuote l = none → ∀ c ∈ l, c ≠ '\'' ∧ c ≠ '"' := by
        intro l
        induction l with
        | nil => simp
        | cons a l ihl =>
          unfold beforeLastQuote
          cases ha : beforeLastQuote l with
          | some g => simp
          | none =>
            intro hn c hc
            rcases List.mem_cons.1 hc with rfl | hc
            · by_cases hc : isQuote c = true
              · simp [hc] at hn
              · rw [isQuote_iff] at hc
                exact ⟨fun h => hc (.inl h), fun h => hc (.inr h)⟩
            · exact ihl ha c hc
      by_cases hc : isQuote c = true
      · simp only [hc, if_true, Option.some.injEq]
        constructor
        · rintro rfl
          exact ⟨c, cs, rfl, (isQuote_iff c).1 hc, hq cs h⟩
        · rintro ⟨q, r, h4, h5, h6⟩
          cases g with
          | nil => rfl
          | cons a g =>
            simp only [List.cons_append, List.cons.injEq] at h4
            exact absurd ⟨q, r, h4.2, h5, h6⟩ (hno g)
      · simp only [hc, Bool.false_eq_true, if_false, reduceCtorEq, false_iff]
        rintro ⟨q, r, h4, h5, h6⟩
        cases g with
        | nil =>
          simp only [List.nil_append, List.cons.injEq] at h4
          exact hc ((isQuote_iff c).2 (h4.1 ▸ h5))
        | cons a g =>
          simp only [List.cons_append, List.cons.injEq] at h4
          exact hno g ⟨q, r, h4.2, h5, h6⟩

theorem stripStart_iff (p s r : Str) : stripStart p s = some r ↔ s = p ++ r := by
  induction p generalizing s with
  | nil => simp [stripStart]
  | cons a p ih =>
    cases s with
    | nil => simp [stripStart]
    | cons c s =>
      unfold stripStart
      by_cases h : a = c
      · subst h
        simp [ih]
      · simp [h, Ne.symm h]

/-- **C123**, line by line and exactly: what a line says the version is. -/
theorem C123_line_iff (line g : Str) : matchLine line = some g ↔
    ∃ q q' r, line = lit "__version__ = " ++ [q] ++ g ++ [q'] ++ r ∧ (q = '\'' ∨ q = '"') ∧ (q' = '\'' ∨ q' = '"') ∧ ∀ c ∈ r, c ≠ '\'' ∧ c ≠ '"' := by
  have hs : assignStart = lit "__version__ = " := by unfold assignStart; rfl
  unfold matchLine
  rw [← hs]
  cases h : stripStart assignStart line with
  | none =>
    simp only [reduceCtorEq, false_iff]
    rintro ⟨q, q', r, h1, -⟩
    have := (stripStart_iff assignStart line (q :: g ++ [q'] ++ r)).2 (by simp [h1])
    simp [h] at this
  | some s =>
    have h1 := (stripStart_iff _ _ _).1 h
    cases s with
    | nil =>
      simp only [reduceCtorEq, false_iff]
      rintro ⟨q, q', r, h2, -⟩
      rw [h1] at h2
      simp at h2
    | cons c rest =>
      have key : ∀ q q' r, line = assignStart ++ [q] ++ g ++ [q'] ++ r ↔ c = q ∧ rest = g ++ q' :: r := fun q q' r => by
        rw [h1]
        simp
      simp only [key]
      by_cases hc : isQuote c = true
      · simp only [hc, if_true, beforeLastQuote_iff]
        constructor
        · rintro ⟨q, r, h4, h5, h6⟩
          exact ⟨c, q, r, ⟨rfl, h4⟩, (isQuote_iff c).1 hc, h5, h6⟩
        · rintro ⟨q, q', r, ⟨-, h4⟩, -, h5, h6⟩
          exact ⟨q', r, h4, h5, h6⟩
      · simp only [hc, Bool.false_eq_true, if_false, reduceCtorEq, false_iff]
        rintro ⟨q, q', r, ⟨rfl, -⟩, h5, -⟩
        exact hc ((isQuote_iff c).2 h5)

/-- A usual line says what it assigns. -/
theorem matchLine_usual {l : Line} (h : Usual l) :
    matchLine l.text = match l with | .assign _ _ _ v _ => some v | .other _ => none := by
  cases l with
  | assign indent spaces q v after =>
    obtain ⟨rfl, rfl, h1, h2, -⟩ := h
    rw [C123_line_iff]
    refine ⟨q, q, after, ?_, h1, h1, fun c hc => h2 c (List.mem_append_right _ hc)⟩
    simp [Line.text, lit]
  | other s =>
    cases hm : matchLine (Line.text (.other s)) with
    | none => rfl
    | some g =>
      obtain ⟨q, q', r, h1, h2, -, -⟩ := (C123_line_iff _ _).1 hm
      exact absurd (by simpa [Line.text] using h1) (h q (g ++ [q'] ++ r) h2)

/-- **C123** for modules that are written in the usual way, with any number of assignments. -/
theorem C123_found_partial (ls : List Line) (h : ∀ l ∈ ls, Usual l) : findVersion (ls.map Line.text) = value ls := by
  unfold findVersion value
  generalize (none : Option Str) = a
  induction ls generalizing a with
  | nil => rfl
  | cons l ls ih =>
    simp only [List.map_cons, List.foldl_cons]
    rw [matchLine_usual (h l List.mem_cons_self), ih fun l hl => h l (List.mem_cons_of_mem _ hl)]
    cases l <;> rfl

/-- **C123 is false** for a comment with a quote after the value: it becomes a part of the version. -/
theorem C123_comment_counterexample (v c : Str) (q q' : Char) (hq : q = '\'' ∨ q = '"') (hq' : q' = '\'' ∨ q' = '"') (rest : Str)
    (hr : ∀ c ∈ rest, c ≠ '\'' ∧ c ≠ '"') (ls : List Line) :
    findVersion ((ls ++ [Line.assign [] true q v (lit "  # " ++ c ++ [q'] ++ rest)]).map Line.text) = some (v ++ [q] ++ lit "  # " ++ c) ∧
      value (ls ++ [Line.assign [] true q v (lit "  # " ++ c ++ [q'] ++ rest)]) = some v := by
  constructor
  · have : matchLine (Line.text (.assign [] true q v (lit "  # " ++ c ++ [q'] ++ rest))) = some (v ++ [q] ++ lit "  # " ++ c) := by
      rw [C123_line_iff]
      exact ⟨q, q', rest, by simp [Line.text, lit], hq, hq', hr⟩
    rw [findVersion, List.map_append, List.foldl_append]
    simp only [List.map_cons, List.map_nil, List.foldl_cons, List.foldl_nil, this]
  · simp [value, List.foldl_append]

/-- **C123 is false** for an assignment that is indented, as in a condition, or has no spaces around the sign: it is not seen. -/
theorem C123_missed_counterexample (c : Char) (indent : Str) (q : Char) (v after : Str) (hc : c ≠ '_') (b : Bool) (ls : List Line) :
    findVersion ((ls ++ [Line.assign (c :: indent) b q v after]).map Line.text) = findVersion (ls.map Line.text) ∧
    findVersion ((ls ++ [Line.assign [] false q v after]).map Line.text) = findVersion (ls.map Line.text) ∧
      value (ls ++ [Line.assign (c :: indent) b q v after]) = some v ∧ value (ls ++ [Line.assign [] false q v after]) = some v := by
  have hs : assignStart = lit "__version__ = " := by unfold assignStart; rfl
  have h1 : matchLine (Line.text (.assign (c :: indent) b q v after)) = none := by
    unfold matchLine
    have : stripStart assignStart (Line.text (.assign (c :: indent) b q v after)) = none := by
      rw [hs]
      simp [lit, stripStart, Line.text, Ne.symm hc]
    rw [this]
  have h2 : matchLine (Line.text (.assign [] false q v after)) = none := by
    unfold matchLine
    have : stripStart assignStart (Line.text (.assign [] false q v after)) = none := by
      rw [hs]
      simp [lit, stripStart, Line.text]
    rw [this]
  refine ⟨?_, ?_, ?_, ?_⟩
  · simp [findVersion, List.foldl_append, h1]
  · simp [findVersion, List.foldl_append, h2]
  · simp [value, List.foldl_append]
  · simp [value, List.foldl_append]

/-- The hypotheses can be met: the lines of `augpathlib/__init__.py` around the version, after an older one. -/
example : findVersion [lit "import os\n", lit "__version__ = '0.0.33'\n", lit "]\n", lit "\n", lit "__version__ = '0.0.34'\n"] = some (lit "0.0.34") :=
  C123_found_partial [.other (lit "import os\n"), .assign [] true '\'' (lit "0.0.33") (lit "\n"), .other (lit "]\n"), .other (lit "\n"),
    .assign [] true '\'' (lit "0.0.34") (lit "\n")] (by
      intro l hl
      simp only [List.mem_cons, List.not_mem_nil, or_false] at hl
      rcases hl with rfl | rfl | rfl | rfl | rfl
      · intro q r _ h; simp [lit] at h
      · exact ⟨rfl, rfl, .inl rfl, by decide, by decide⟩
      · intro q r _ h; simp [lit] at h
      · intro q r _ h; simp [lit] at h
      · exact ⟨rfl, rfl, .inl rfl, by decide, by decide⟩)

/-- **C123 is false** for a line inside a longer text, such as a docstring, that looks like an assignment. -/
theorem C123_text_counterexample (v : Str) (q : Char) (hq : q = '\'' ∨ q = '"') (ls : List Line) :
    findVersion ((ls ++ [Line.other (lit "__version__ = " ++ [q] ++ v ++ [q])]).map Line.text) = some v ∧
      value (ls ++ [Line.other (lit "__version__ = " ++ [q] ++ v ++ [q])]) = value ls := by
  constructor
  · have : matchLine (Line.text (.other (lit "__version__ = " ++ [q] ++ v ++ [q]))) = some v := by
      rw [C123_line_iff]
      exact ⟨q, q, [], by simp [Line.text], hq, hq, by simp⟩
    rw [findVersion, List.map_append, List.foldl_append]
    simp only [List.map_cons, List.map_nil, List.foldl_cons, List.foldl_nil, this]
  · simp [value, List.foldl_append]

/-- The last line that says something decides, and without one there is no version. -/
theorem C123_last (ls : List Str) (l : Str) : findVersion [] = none ∧
    findVersion (ls ++ [l]) = (matchLine l).or (findVersion ls) := by
  refine ⟨rfl, ?_⟩
  rw [findVersion, List.foldl_append]
  simp only [List.foldl_cons, List.foldl_nil]
  cases matchLine l <;> rfl

end Verif.Setup
