import Verif.Model.ZipOpen
import Verif.Props.Zip
import Verif.Lemmas.Decide

/-!
# C119: opening what is in an archive
-/

namespace Verif.Zip
open Verif.Symlink Verif.Zip.Spec

/-- The path `p` is that of the entry `n`: nothing is below it, `n` is the first entry with this path, and is not that of a directory. -/
def Spec.FileAt (names : List Str) (p : Pure) (n : Str) : Prop :=
  (∀ m ∈ names, ¬ Above p (parse m)) ∧
    ∃ before after, names = before ++ n :: after ∧ parse n = p ∧ (∀ m ∈ before, parse m ≠ p) ∧ n.getLast? ≠ some '/'

theorem fileAt_info {names : List Str} {p : Pure} {n : Str} (h : Spec.FileAt names p n) :
    isDir names p = false ∧ (obj names p).info = some n := by
  obtain ⟨hno, b, a, he, hp, hb, hs⟩ := h
  refine ⟨(C65_file_iff names p).2 ⟨hno, b, n, a, he, hp, hb, hs⟩, ?_⟩
  rw [obj_info names p hno, List.find?_eq_some_iff_append]
  exact ⟨by simp [hp], b, a, he, fun m hm => by simp [hb m hm]⟩

theorem fileAt_of {names : List Str} {p : Pure} (h : isDir names p = false) : ∃ n, Spec.FileAt names p n := by
  obtain ⟨hno, b, n, a, he, hp, hb, hs⟩ := (C65_file_iff names p).1 h
  exact ⟨n, hno, b, a, he, hp, hb, hs⟩

/-- Two paths have the same entry only when they are the same. -/
theorem fileAt_path {names : List Str} {p q : Pure} {n : Str} (h : Spec.FileAt names p n) (h' : Spec.FileAt names q n) : p = q := by
  obtain ⟨-, -, -, -, hp, -⟩ := h
  obtain ⟨-, -, -, -, hq, -⟩ := h'
  exact hp.symm.trans hq

theorem openInside_file {names : List Str} {p : Pure} {n : Str} (h : Spec.FileAt names p n) (content : Str → Bytes) (lost : List Str) (m : Str) :
    openInside names content lost p m = openEntry content lost n m := by
  obtain ⟨hd, hi⟩ := fileAt_info h
  simp [openInside, hd, hi]

/-- What a call adds to the entries that have lost their position. -/
theorem mem_openInside {names : List Str} {content : Str → Bytes} {lost : List Str} {p : Pure} {m n : Str} :
    n ∈ (openInside names content lost p m).2 ↔ n ∈ lost ∨ (m = lit "w" ∧ Spec.FileAt names p n) := by
  cases hd : isDir names p with
  | true =>
    have hn : ¬ Spec.FileAt names p n := fun h => by rw [(fileAt_info h).1] at hd; exact nomatch hd
    simp [openInside, hd, hn]
  | false =>
    obtain ⟨k, hk⟩ := fileAt_of hd
    have hn : Spec.FileAt names p n ↔ n = k := by
      constructor
      · intro h
        have := (fileAt_info h).2
        rw [(fileAt_info hk).2] at this
        exact (Option.some.inj this).symm
      · rintro rfl; exact hk
    rw [openInside_file hk, openEntry, hn]
    have hrw : lit "w" ≠ lit "r" := by decide
    split
    · rename_i hm
      subst hm
      have : ¬ (lit "r" = lit "w") := fun h => hrw h.symm
      split <;> simp [this]
    · split
      · rename_i hm
        subst hm
        simp [or_comm]
      · rename_i hm
        simp [hm]

theorem mem_openings {names : List Str} {content : Str → Bytes} {es : List (Pure × Str)} {n : Str} :
    ∀ {lost : List Str}, n ∈ openings names content lost es ↔ n ∈ lost ∨ ∃ p, (p, lit "w") ∈ es ∧ Spec.FileAt names p n := by
  induction es with
  | nil => intro lost; simp [openings]
  | cons e es ih =>
    intro lost
    obtain ⟨p, m⟩ := e
    rw [openings, ih, mem_openInside]
    constructor
    · rintro ((h | ⟨rfl, h⟩) | ⟨q, hq, h⟩)
      · exact .inl h
      · exact .inr ⟨p, by simp, h⟩
      · exact .inr ⟨q, by simp [hq], h⟩
    · rintro (h | ⟨q, hq, h⟩)
      · exact .inl (.inl h)
      · rcases List.mem_cons.1 hq with hq | hq
        · injection hq with h1 h2
          subst h1 h2
          exact .inl (.inr ⟨rfl, h⟩)
        · exact .inr ⟨q, hq, h⟩

/-- C119: whatever was opened before and however, a path of an archive gives the content of its entry exactly when the mode is `r`
and nobody tried to write to this path. -/
theorem C119_read_iff (names : List Str) (content : Str → Bytes) (es : List (Pure × Str)) (p : Pure) (m n : Str) (h : Spec.FileAt names p n) (g : Got) :
    (openInside names content (openings names content [] es) p m).1 = .ok g ↔
      m = lit "r" ∧ (p, lit "w") ∉ es ∧ g = .bytes (content n) := by
  have hl : n ∈ openings names content [] es ↔ (p, lit "w") ∈ es := by
    rw [mem_openings]
    constructor
    · rintro (h' | ⟨q, hq, h'⟩)
      · exact nomatch h'
      · rw [fileAt_path h h']; exact hq
    · exact fun h' => .inr ⟨p, h', h⟩
  rw [openInside_file h, openEntry]
  split
  · rename_i hm
    split
    · rename_i hc
      have : (p, lit "w") ∈ es := hl.1 (List.contains_iff_mem.1 hc)
      simp [this]
    · rename_i hc
      have : (p, lit "w") ∉ es := fun h' => hc (List.contains_iff_mem.2 (hl.2 h'))
      simp [hm, this, eq_comm]
  · rename_i hm
    split <;> simp [hm]

/-- C119: what failing raises: a directory (and what the archive has not) `IsADirectoryError`; other modes `ValueError`;
reading what somebody tried to write to the error of the archive. -/
theorem C119_errors (names : List Str) (content : Str → Bytes) (es : List (Pure × Str)) (p : Pure) (m : Str) (e : PyErr) :
    (openInside names content (openings names content [] es) p m).1 = .error e ↔
      (e = .isADirectoryError ∧ ∀ n, ¬ Spec.FileAt names p n) ∨
      (e = .valueError ∧ m ≠ lit "r" ∧ ∃ n, Spec.FileAt names p n) ∨
      (e = .foreign ∧ m = lit "r" ∧ (p, lit "w") ∈ es ∧ ∃ n, Spec.FileAt names p n) := by
  cases hd : isDir names p with
  | true =>
    have hn : ∀ n, ¬ Spec.FileAt names p n := fun n h => by rw [(fileAt_info h).1] at hd; exact nomatch hd
    simp [openInside, hd, hn, eq_comm]
  | false =>
    obtain ⟨n, h⟩ := fileAt_of hd
    have hl : n ∈ openings names content [] es ↔ (p, lit "w") ∈ es := by
      rw [mem_openings]
      constructor
      · rintro (h' | ⟨q, hq, h'⟩)
        · exact nomatch h'
        · rw [fileAt_path h h']; exact hq
      · exact fun h' => .inr ⟨p, h', h⟩
    have h1 : ¬ ∀ n, ¬ Spec.FileAt names p n := fun h' => h' n h
    have h2 : ∃ n, Spec.FileAt names p n := ⟨n, h⟩
    rw [openInside_file h, openEntry]
    simp only [h1, h2, and_false, false_or, and_true]
    split
    · rename_i hm
      split
      · rename_i hc
        have : (p, lit "w") ∈ es := hl.1 (List.contains_iff_mem.1 hc)
        simp [hm, this, eq_comm]
      · rename_i hc
        have : (p, lit "w") ∉ es := fun h' => hc (List.contains_iff_mem.2 (hl.2 h'))
        simp [this, hm]
    · rename_i hm
      split <;> simp [hm, eq_comm]

/-- C119 (fails): a call that is refused does not leave things as they were: after `open('w')`, which raises, the same path cannot be read any more, whatever
else is done in between. -/
theorem C119_spoiled_counterexample (names : List Str) (content : Str → Bytes) (before after : List (Pure × Str)) (p : Pure) (n : Str)
    (h : Spec.FileAt names p n) :
    (openInside names content (openings names content [] before) p (lit "w")).1 = .error .valueError ∧
    (openInside names content (openings names content [] (before ++ (p, lit "w") :: after)) p (lit "r")).1 = .error .foreign := by
  refine ⟨(C119_errors ..).2 (.inr (.inl ⟨rfl, by decide, n, h⟩)), (C119_errors ..).2 (.inr (.inr ⟨rfl, rfl, by simp, n, h⟩))⟩

/-- **C119**: outside of archives a path is read as text or bytes, according to the mode, and whatever was opened before. -/
theorem C119_outside (outside : Bytes) (lost : List Str) (m : Str) (g : Got) :
    ((openHelper none outside lost m).1 = .ok g ↔ (m ∈ [lit "r", lit "rt"] ∧ g = .text outside) ∨ (m = lit "rb" ∧ g = .bytes outside)) ∧
    (m ∉ [lit "r", lit "rt", lit "rb"] → (openHelper none outside lost m).1 = .error .valueError) ∧ (openHelper none outside lost m).2 = lost := by
  refine ⟨?_, fun h => ?_, rfl⟩
  · unfold openHelper openFile
    dsimp only
    by_cases h1 : m = lit "r" ∨ m = lit "rt"
    · have h2 : m ≠ lit "rb" := by rintro rfl; revert h1; decide
      rw [if_pos h1]
      simp [h1, h2, eq_comm]
    · rw [if_neg h1]
      by_cases h2 : m = lit "rb"
      · rw [if_pos h2]
        have h1' : m ∉ [lit "r", lit "rt"] := by simpa using h1
        constructor
        · intro h; cases h; exact .inr ⟨h2, rfl⟩
        · rintro (⟨h, -⟩ | ⟨-, h⟩)
          · exact absurd h h1'
          · rw [h]
      · rw [if_neg h2]
        have h1' : m ∉ [lit "r", lit "rt"] := by simpa using h1
        constructor
        · intro h; cases h
        · rintro (⟨h, -⟩ | ⟨h, -⟩)
          · exact absurd h h1'
          · exact absurd h h2
  · unfold openHelper openFile
    dsimp only
    rw [if_neg (fun h1 => h (by rcases h1 with h1 | h1 <;> simp [h1])), if_neg (fun h1 => h (by simp [h1]))]

example : (openHelper none [1] [] (lit "rt")).1 = .ok (.text [1]) ∧ lit "w" ∉ [lit "r", lit "rt", lit "rb"] := by decide +kernel

/-- C119 (fails): the mode that reads bytes everywhere else is refused in archives, and the one that reads text gives bytes. -/
theorem C119_modes_counterexample (names : List Str) (content : Str → Bytes) (outside : Bytes) (p : Pure) (n : Str) (h : Spec.FileAt names p n) :
    (openHelper none outside [] (lit "rb")).1 = .ok (.bytes outside) ∧
    (openHelper (some (names, content, p)) outside [] (lit "rb")).1 = .error .valueError ∧
    (openHelper none outside [] (lit "r")).1 = .ok (.text outside) ∧
    (openHelper (some (names, content, p)) outside [] (lit "r")).1 = .ok (.bytes (content n)) := by
  refine ⟨by rw [openHelper, openFile, if_neg (by decide), if_pos rfl], (C119_errors names content [] p _ _).2 (.inr (.inl ⟨rfl, by decide, n, h⟩)), ?_,
    (C119_read_iff names content [] p _ n h _).2 ⟨rfl, by simp, rfl⟩⟩
  rw [openHelper, openFile, if_pos (.inl rfl)]

/-- C119 (fails): what an archive has not is said to be a directory. -/
theorem C119_missing_counterexample (names : List Str) (content : Str → Bytes) (lost : List Str) (p : Pure) (m : Str) (h : ¬ InTree names p) :
    openInside names content lost p m = (.error .isADirectoryError, lost) := by
  have hd : isDir names p = true := by
    cases hd : isDir names p with
    | true => rfl
    | false =>
      obtain ⟨n, -, b, a, he, hp, -⟩ := fileAt_of hd
      exact absurd ⟨n, by rw [he]; simp, .inl hp.symm⟩ h
  simp [openInside, hd]

theorem sampleFile : Spec.FileAt [lit "a/b", lit "c/"] (parse (lit "a/b")) (lit "a/b") :=
  ⟨((C65_file_iff _ _).1 (by decide +kernel)).1, [], [lit "c/"], rfl, rfl, by simp, by decide⟩

example : (openInside [lit "a/b", lit "c/"] (fun _ => [1, 2]) (openings [lit "a/b", lit "c/"] (fun _ => [1, 2]) [] [(parse (lit "a/b"), lit "rb"), (parse (lit "c"), lit "w")])
    (parse (lit "a/b")) (lit "r")).1 = .ok (.bytes [1, 2]) := by decide +kernel

example : ¬ InTree [lit "a/b"] (parse (lit "x")) := by
  rw [← C65_exists_iff]; decide +kernel

end Verif.Zip
