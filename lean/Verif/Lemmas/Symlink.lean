import Verif.Lemmas.Xattrs
import Verif.Lemmas.FileSize
import Verif.Model.Symlink

namespace Verif.Symlink
open Verif Verif.Spec

/-! ### Pure paths -/

theorem parse_joinC (comps : List Str) (hne : comps ≠ [])
    (h : ∀ w ∈ comps, w ≠ [] ∧ w ≠ ['.'] ∧ '/' ∉ w) : parse (joinC '/' comps) = ⟨[], comps⟩ := by
  have hs : splitC '/' (joinC '/' comps) = comps := splitC_joinC hne fun w hw => (h w hw).2.2
  have hf : comps.filter (fun w => decide (w ≠ [] ∧ w ≠ ['.'])) = comps := by
    rw [List.filter_eq_self]
    intro w hw
    simp [(h w hw).1, (h w hw).2.1]
  have hroot : ∀ s, joinC '/' comps ≠ '/' :: s := by
    intro s hs'
    rw [hs'] at hs
    simp only [splitC, if_true] at hs
    have := (h [] (by rw [← hs]; simp)).1
    exact this rfl
  unfold parse
  simp only [hs]
  congr 1
  split
  · rename_i he; exact absurd he (hroot _)
  · rename_i he; exact absurd he (hroot _)
  · rename_i he; exact absurd he (hroot _)
  · rfl

theorem parse_single (w : Str) (h : w ≠ [] ∧ w ≠ ['.'] ∧ '/' ∉ w) : parse w = ⟨[], [w]⟩ :=
  parse_joinC [w] (by simp) (by simpa using h)

/-! ### Characters of encoded columns -/

theorem escape_ok {isName : Bool} {s : Str} (h1 : '|' ∉ s) (h2 : '!' ∉ s)
    (h3 : isName = true → '/' ∉ s) :
    escape isName s = .ok (replaceC '.' '!' (replaceC '/' '|' s)) := by
  have h4 : '!' ∉ replaceC '/' '|' s := by
    rw [mem_replaceC_iff (by decide) (by decide)]; exact h2
  unfold escape
  rw [if_neg (fun h => h1 h.2), if_neg (fun h => h3 h.2 h.1)]
  simp only [h4, and_false, if_false]

theorem escape_plain {isName : Bool} {s : Str} (h1 : '/' ∉ s) (h2 : '.' ∉ s) :
    escape isName s = .ok s := by
  have h3 : replaceC '/' '|' s = s := replaceC_eq_self h1
  unfold escape
  simp only [h1, h2, h3, false_and, if_false, replaceC_eq_self h2]

theorem escape_chars {isName : Bool} {s e : Str} (h : escape isName s = .ok e) :
    '/' ∉ e ∧ '.' ∉ e := by
  unfold escape at h
  split at h
  · cases h
  · split at h
    · cases h
    · dsimp only at h
      split at h
      · cases h
      · simp only [Except.ok.injEq] at h
        subst h
        refine ⟨?_, not_mem_replaceC (by decide)⟩
        rw [mem_replaceC_iff (by decide) (by decide)]
        exact not_mem_replaceC (by decide)

theorem unescape {s : Str} (h1 : '|' ∉ s) (h2 : '!' ∉ s) :
    replaceC '!' '.' (replaceC '|' '/' (replaceC '.' '!' (replaceC '/' '|' s))) = s := by
  induction s with
  | nil => rfl
  | cons c cs ih =>
    simp only [List.mem_cons, not_or] at h1 h2
    have ih := ih h1.2 h2.2
    have a1 : ¬c = '|' := fun e => h1.1 e.symm
    have a2 : ¬c = '!' := fun e => h2.1 e.symm
    simp only [replaceC_cons, ih]
    congr 1
    by_cases c1 : c = '/'
    · subst c1; decide
    · by_cases c2 : c = '.'
      · subst c2; decide
      · simp [c1, c2, a1, a2]

theorem encode_chars (env : Env) (f : Field) (v : PyVal) (ht : HasType f v) (e : Str)
    (he : encode env f v = .ok e) :
    (f ≠ .errors → '/' ∉ e ∧ '.' ∉ e) ∧
      (∀ l, v = .strs l → (∀ x ∈ l, '/' ∉ x) → '/' ∉ e) := by
  constructor
  · intro hf
    cases v with
    | none =>
      cases f <;> simp [HasType] at ht <;> simp [encode, PyVal.truthy] at he <;> subst he <;> decide
    | str s =>
      cases f <;> simp [HasType] at ht <;> simp [encode] at he <;> exact escape_chars he
    | int i =>
      have h1 : '/' ∉ intStr i := intStr_not_mem i (by decide) (by decide)
      have h2 : '.' ∉ intStr i := intStr_not_mem i (by decide) (by decide)
      cases f <;> simp [HasType] at ht <;> simp [encode, strEncode, pyStr, PyVal.truthy] at he
      case file_id =>
        by_cases h0 : i = 0
        · simp [h0] at he; subst he; decide
        · simp [h0] at he; subst he; exact ⟨h1, h2⟩
      all_goals subst he; exact ⟨h1, h2⟩
    | bytes b =>
      cases f <;> simp [HasType] at ht
      simp [encode] at he; subst he
      exact ⟨hex_not_mem b (by decide), hex_not_mem b (by decide)⟩
    | etag b i =>
      cases f <;> simp [HasType] at ht
      simp [encode, strEncode] at he; subst he
      simp [hex_not_mem b (show hexVal? '/' = none by decide), hex_not_mem b (show hexVal? '.' = none by decide),
        intStr_not_mem i (show digitVal? '/' = none by decide) (by decide),
        intStr_not_mem i (show digitVal? '.' = none by decide) (by decide)]
    | strs l => cases f <;> simp [HasType] at ht; exact absurd rfl hf
    | dt d =>
      cases f <;> simp [HasType] at ht <;> simp [encode, strEncode] at he <;> subst he <;>
        exact ⟨isoformat_not_mem d ht (by decide) (by decide), isoformat_not_mem d ht (by decide) (by decide)⟩
  · intro l hl hx
    subst hl
    cases f <;> simp [HasType] at ht
    simp [encode] at he; subst he
    intro hm
    rcases mem_joinC hm with h | ⟨w, hw, h⟩
    · exact absurd h (by decide)
    · exact hx w hw h

/-! ### Decoding what was encoded -/

/-- The value the decoder hands to the constructor. -/
def decoded : PyVal → PyVal
  | .dt d => .str (isoformat d)
  | v => v

theorem replaceC_eq_hash {a b : Char} {s : Str} (hb : b ≠ '#')
    (h : replaceC a b s = ['#']) : s = ['#'] := by
  cases s with
  | nil => simp [replaceC] at h
  | cons c cs =>
    simp only [replaceC_cons, List.cons.injEq] at h
    obtain ⟨h1, h2⟩ := h
    have : cs = [] := by
      cases cs with
      | nil => rfl
      | cons _ _ => simp [replaceC] at h2
    subst this
    by_cases hc : c = a
    · simp [hc] at h1; exact absurd h1 hb
    · simp [hc] at h1; simp [h1]

theorem natStr_ne_hash (n : Nat) : natStr n ≠ ['#'] := by
  intro h
  have : '#' ∈ natStr n := by rw [h]; simp
  exact natStr_not_mem n (by decide) this

theorem intStr_ne_hash (i : Int) : intStr i ≠ ['#'] := by
  intro h
  have : '#' ∈ intStr i := by rw [h]; simp
  exact intStr_not_mem i (by decide) (by decide) this

theorem encode_decode (env : Env) (f : Field) (v : PyVal) (ht : HasType f v)
    (hs : SymlinkStorable f v) :
    ∃ e, encode env f v = .ok e ∧ decode f e 6 = .ok (decoded v) ∧ (f = .id → e ≠ []) := by
  cases v with
  | none =>
    refine ⟨['#'], ?_, ?_, by simp⟩
    · cases f <;> simp [HasType] at ht <;> simp [encode, PyVal.truthy]
    · simp [decode, decoded]
  | str s =>
    have h5 : (5 : Int) ≤ 6 := by decide
    cases f <;> simp [HasType] at ht
    case name =>
      obtain ⟨g1, g2, g3, g4⟩ := hs
      refine ⟨_, by simpa [encode] using escape_ok g3 g4 (fun _ => g2), ?_, by simp⟩
      have hh : replaceC '.' '!' (replaceC '/' '|' s) ≠ ['#'] := fun h =>
        g1 (replaceC_eq_hash (by decide) (replaceC_eq_hash (by decide) h))
      have e1 : replaceC '/' '|' s = s := replaceC_eq_self g2
      have hb : '|' ∉ replaceC '.' '!' s := by
        rw [mem_replaceC_iff (by decide) (by decide)]; exact g3
      rw [e1] at hh ⊢
      simp only [decode, hh, if_false, hb, false_and, h5, if_true, decoded]
      rw [replaceC_eq_self hb, replaceC_replaceC g4]
    case checksum_cypher =>
      obtain ⟨g1, g2, g3⟩ := hs
      exact ⟨s, by simpa [encode] using escape_plain g2 g3, by simp [decode, g1, decoded], by simp⟩
    case user_id =>
      obtain ⟨g1, g2, g3, g4⟩ := hs
      exact ⟨s, by simpa [encode] using escape_plain g2 g3, by simp [decode, g1, g4, decoded], by simp⟩
    case id =>
      obtain ⟨g0, g1, g3, g4⟩ := hs
      refine ⟨_, by simpa [encode] using escape_ok g3 g4 (by simp), ?_, ?_⟩
      · have hh : replaceC '.' '!' (replaceC '/' '|' s) ≠ ['#'] := fun h =>
          g1 (replaceC_eq_hash (by decide) (replaceC_eq_hash (by decide) h))
        simp [decode, hh, h5, decoded, unescape g3 g4]
      · intro _ h
        have := congrArg List.length h
        simp [length_replaceC] at this
        exact g0 this
    all_goals
      obtain ⟨g1, g3, g4⟩ := hs
      refine ⟨_, by simpa [encode] using escape_ok g3 g4 (by simp), ?_, by simp⟩
      have hh : replaceC '.' '!' (replaceC '/' '|' s) ≠ ['#'] := fun h =>
        g1 (replaceC_eq_hash (by decide) (replaceC_eq_hash (by decide) h))
      simp [decode, hh, h5, decoded, unescape g3 g4]
  | int i =>
    refine ⟨intStr i, ?_, ?_, fun _ => intStr_ne_nil i⟩
    · cases f <;> simp [HasType] at ht <;> simp [encode, strEncode, pyStr, PyVal.truthy]
      simp [SymlinkStorable] at hs
      simp [hs]
    · cases f <;> simp [HasType] at ht <;> simp [decode, intStr_ne_hash, pyInt_intStr, decoded]
  | bytes b =>
    have hh : hex b ≠ ['#'] := by
      intro h
      have : '#' ∈ hex b := by rw [h]; simp
      exact hex_not_mem b (by decide) this
    cases f <;> simp [HasType] at ht
    exact ⟨hex b, by simp [encode], by simp [decode, hh, fromHex_hex, decoded], by simp⟩
  | etag b i =>
    have hh : hex b ++ '-' :: intStr i ≠ ['#'] := by
      intro h
      have : '-' ∈ hex b ++ '-' :: intStr i := by simp
      rw [h] at this
      simp at this
    cases f <;> simp [HasType] at ht
    exact ⟨_, by simp [encode, strEncode]; rfl,
      by simp [decode, hh, Xattrs.decodeEtag_enc b i ht, decoded], by simp⟩
  | strs l =>
    cases f <;> simp [HasType] at ht
    obtain ⟨g1, g2⟩ := hs
    have hp : (splitC ';' (joinC ';' l)).filter (fun x => decide (x ≠ [])) = l := by
      have h1 := pieces_joinC l
      have h2 := (flatMap_pieces_eq l).2 fun e he => ⟨(g2 e he).1, (g2 e he).2.1⟩
      simp only [pieces] at h1 h2
      rw [h1]; exact h2
    have hh : joinC ';' l ≠ ['#'] := by
      intro h
      rw [h] at hp
      exact g1 (by rw [← hp]; decide)
    refine ⟨_, by simp [encode]; rfl, ?_, by simp⟩
    simp only [decode, hh, if_false, decoded]
    rw [hp]
  | dt d =>
    cases f <;> simp [HasType] at ht <;>
    · have hh : isoformat d ≠ ['#'] := by
        intro h
        have := isoformat_length d ht
        rw [h] at this
        simp at this
      exact ⟨isoformat d, by simp [encode, strEncode], by simp [decode, hh, decoded], by simp⟩

theorem argOK (env : Env) (hp : ParsesIso env) (f : Field) (v : PyVal) (ht : HasType f v) :
    ArgOK env f (decoded v) v := by
  cases v <;> cases f <;> simp [HasType] at ht <;>
    simp [ArgOK, decoded, mkSlot, Slot.get, mkSize, mkErrors] <;> exact hp _ ht

theorem columns_ok (env : Env) (m : Meta) (ht : WellTyped m) (hs : ∀ f, SymlinkStorable f (m f)) :
    ∀ fs : List Field, ∃ cols, columns env m fs = .ok cols ∧
      (∀ c ∈ cols, '/' ∉ c ∧ '.' ∉ c) ∧ cols.length = fs.length ∧
      ∀ rest, zipDecode 6 fs (cols ++ rest) = .ok (kwOf (fun f => some (decoded (m f))) fs) := by
  intro fs
  induction fs with
  | nil => exact ⟨[], rfl, by simp, rfl, fun rest => by simp [zipDecode, kwOf]⟩
  | cons f fs ih =>
    obtain ⟨cols, h1, h2, h3, h4⟩ := ih
    obtain ⟨e, he, hd, _⟩ := encode_decode env f (m f) (ht f) (hs f)
    refine ⟨e :: cols, by simp [columns, he, h1], ?_, by simp [h3], ?_⟩
    · intro c hc
      rcases List.mem_cons.1 hc with rfl | hc
      · by_cases hf : f = .errors
        · subst hf
          have hte := ht .errors
          have hse := hs .errors
          cases hm : m .errors with
          | strs l =>
            rw [hm] at he hse
            simp [encode] at he
            subst he
            constructor <;> intro hmem <;> rcases mem_joinC hmem with h | ⟨w, hw, h⟩
            · exact absurd h (by decide)
            · exact (hse.2 w hw).2.2.2 h
            · exact absurd h (by decide)
            · exact (hse.2 w hw).2.2.1 h
          | _ => rw [hm] at hte; simp [HasType] at hte
        · exact (encode_chars env f _ (ht f) _ he).1 hf
      · exact h2 c hc
    · intro rest
      rw [kwOf_cons]
      simp [zipDecode, hd, h4 rest]

theorem hrColumn_ok (m : Meta) : ∃ h, hrColumn m = .ok h ∧ '/' ∉ h ∧ '.' ∉ h := by
  unfold hrColumn
  split
  · rename_i i _
    have := escape_ok (isName := false) (hr_not_mem i (c := '|') (by decide))
      (hr_not_mem i (c := '!') (by decide)) (by simp)
    exact ⟨_, this, escape_chars this⟩
  · exact ⟨_, rfl, by decide, by decide⟩

theorem dataText_eq (cols : List Str) (h : cols ≠ []) :
    dataText cols = joinC '.' ([] :: lit "mdv6" :: cols) := by
  cases cols with
  | nil => exact absurd rfl h
  | cons c cs => simp [dataText, joinC, lit]

theorem dataText_slash {cols : List Str} (h : ∀ c ∈ cols, '/' ∉ c) : '/' ∉ dataText cols := by
  intro hm
  rcases List.mem_append.1 hm with hm | hm
  · exact absurd hm (by decide)
  · rcases mem_joinC hm with h' | ⟨w, hw, h'⟩
    · exact absurd h' (by decide)
    · exact h w hw h'

theorem dataText_ne (cols : List Str) : dataText cols ≠ [] ∧ dataText cols ≠ ['.'] := by
  simp [dataText, lit]

theorem ofParts_pair (a b : Str) (ha : a ≠ [] ∧ a ≠ ['.'] ∧ '/' ∉ a) (hb : b ≠ [] ∧ b ≠ ['.'] ∧ '/' ∉ b) :
    (ofParts [a, b]).parent.str = a := by
  simp [ofParts, parse_single a ha, parse_single b hb, Pure.join, Pure.parent, Pure.str, joinC]

end Verif.Symlink
