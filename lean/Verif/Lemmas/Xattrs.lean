import Verif.Lemmas.Meta
import Verif.Model.Xattrs

namespace Verif.Xattrs
open Verif Verif.Spec

theorem text_utf8 (s : Str) : text (utf8 s) = .ok s := by simp [text, utf8?_utf8]

theorem decodeEtag_enc (b : Bytes) (i : Int) (h : 0 ≤ i) :
    decodeEtag (hex b ++ '-' :: intStr i) = .ok (.etag b i) := by
  have hm : '-' ∉ intStr i := by
    obtain ⟨n, rfl⟩ := Int.eq_ofNat_of_zero_le h
    exact natStr_not_mem n (by decide)
  simp [decodeEtag, rsplit1_append hm, pyInt_intStr, fromHex_hex]

/-- The value the decoder hands to the constructor. -/
def decoded (f : Field) : PyVal → PyVal
  | .dt d => .str (isoformat d)
  | v => xattrReadBack f v

/-- Whether a value is written at all. -/
def written (v : PyVal) : Prop := v ≠ .none ∧ ¬v.emptyIterable

instance (v : PyVal) : Decidable (written v) := by unfold written; infer_instance

theorem encode_decode (env : Env) (f : Field) (v : PyVal) (ht : HasType f v) (hw : written v) :
    ∃ b, encode env f v = .ok b ∧ decode env f b = .ok (decoded f v) := by
  obtain ⟨hn, he⟩ := hw
  have henc : encode env f v = bytesEncode env f v := by simp [encode, hn, he]
  rw [henc]
  cases v with
  | none => exact absurd rfl hn
  | str s =>
    have hs : s ≠ [] := by simpa [PyVal.emptyIterable] using he
    refine ⟨utf8 s, by simp [bytesEncode, strEncode], ?_⟩
    cases f <;> simp [HasType] at ht <;>
      simp [decode, text_utf8, decoded, xattrReadBack, hs, pyIntBytes_utf8, Except.map]
    cases pyInt s <;> simp
  | int i =>
    refine ⟨utf8 (intStr i), by cases f <;> simp [HasType] at ht <;> simp [bytesEncode, strEncode, pyStr], ?_⟩
    cases f <;> simp [HasType] at ht <;>
      simp [decode, decoded, xattrReadBack, pyIntBytes_utf8, pyInt_intStr]
  | bytes b =>
    have hs : b ≠ [] := by simpa [PyVal.emptyIterable] using he
    refine ⟨b, by simp [bytesEncode], ?_⟩
    cases f <;> simp [HasType] at ht <;> simp [decode, decoded, xattrReadBack, hs]
  | etag b i =>
    refine ⟨utf8 (hex b ++ '-' :: intStr i), by cases f <;> simp [HasType] at ht <;> simp [bytesEncode, strEncode], ?_⟩
    cases f <;> simp [HasType] at ht
    simp [decode, text_utf8, decoded, xattrReadBack, Except.bind, decodeEtag_enc b i ht]
  | strs l =>
    refine ⟨utf8 (joinC ';' l), by cases f <;> simp [HasType] at ht <;> simp [bytesEncode, strEncode], ?_⟩
    cases f <;> simp [HasType] at ht
    simp only [decode, text_utf8, decoded, xattrReadBack, Except.map]
    have := pieces_joinC l
    simp only [pieces] at this
    rw [this]
  | dt d =>
    have hd : d.Valid := by cases f <;> simp [HasType] at ht <;> exact ht
    have hlen : (utf8 (isoformat d)).length ≠ 8 := by
      have h1 := utf8_length (isoformat d)
      have h2 := isoformat_length d hd
      omega
    refine ⟨utf8 (isoformat d), by cases f <;> simp [HasType] at ht <;> simp [bytesEncode, strEncode], ?_⟩
    cases f <;> simp [HasType] at ht <;>
      simp [decode, hlen, text_utf8, decoded, Except.map]

theorem deprefix_key (pre : Option Str) (f : Field) : deprefix pre (key pre f) = some f.toStr := by
  cases pre with
  | none => rfl
  | some p =>
    cases p with
    | nil => rfl
    | cons c cs =>
      have h1 : ((c :: cs) ++ ['.']).isPrefixOf ((c :: cs) ++ '.' :: f.toStr) = true := by
        rw [List.isPrefixOf_iff_prefix]
        exact ⟨f.toStr, by simp⟩
      have h2 : ((c :: cs) ++ '.' :: f.toStr).drop ((c :: cs).length + 1) = f.toStr := by
        rw [← List.drop_drop, List.drop_left]
        rfl
      simp only [deprefix, key, h1, if_true, h2]

/-- The assignment of constructor arguments that reading back produces. -/
def args (m : Meta) (f : Field) : Option PyVal := if written (m f) then some (decoded f (m f)) else none

theorem kwargs_attrs (env : Env) (pre : Option Str) (m : Meta) (ht : WellTyped m) :
    ∀ fs : List Field, ∃ xs, attrs env pre m fs = .ok xs ∧ kwargs env pre xs = .ok (kwOf (args m) fs) := by
  intro fs
  induction fs with
  | nil => exact ⟨[], rfl, rfl⟩
  | cons f fs ih =>
    obtain ⟨xs, h1, h2⟩ := ih
    rw [kwOf_cons]
    by_cases hw : written (m f)
    · obtain ⟨b, he, hd⟩ := encode_decode env f (m f) (ht f) hw
      refine ⟨(utf8 (key pre f), b) :: xs, ?_, ?_⟩
      · have hw' := hw
        unfold written at hw'
        simp only [attrs, attr]
        rw [if_pos hw']
        simp [he, h1]
      · simp [kwargs, text_utf8, deprefix_key, decodeNamed, Field.ofStr?_toStr, hd, h2, args, hw]
    · refine ⟨xs, ?_, ?_⟩
      · have hw' := hw
        unfold written at hw'
        simp only [attrs, attr]
        rw [if_neg hw']
        simp [h1]
      · simp [args, hw, h2]

theorem argOK (env : Env) (hp : ParsesIso env) (f : Field) (v : PyVal) (ht : HasType f v) :
    ArgOK env f ((if written v then some (decoded f v) else none).getD .none) (xattrReadBack f v) := by
  cases v with
  | none => cases f <;> simp [HasType] at ht <;> simp [written, ArgOK, xattrReadBack, mkSlot, Slot.get, mkSize]
  | str s =>
    by_cases hs : s = []
    · subst hs
      cases f <;> simp [HasType] at ht <;>
        simp [written, ArgOK, xattrReadBack, PyVal.emptyIterable]
      decide
    · cases f <;> simp [HasType] at ht <;>
        simp [written, ArgOK, xattrReadBack, PyVal.emptyIterable, hs, decoded]
  | int i => cases f <;> simp [HasType] at ht <;>
      simp [written, ArgOK, xattrReadBack, PyVal.emptyIterable, decoded, mkSize]
  | bytes b =>
    cases f <;> simp [HasType] at ht
    by_cases hs : b = [] <;> simp [written, ArgOK, xattrReadBack, PyVal.emptyIterable, decoded, hs]
  | etag b i => cases f <;> simp [HasType] at ht <;>
      simp [written, ArgOK, xattrReadBack, PyVal.emptyIterable, decoded]
  | strs l =>
    cases f <;> simp [HasType] at ht
    by_cases hs : l = [] <;>
      simp [written, ArgOK, xattrReadBack, PyVal.emptyIterable, decoded, hs, mkErrors, PyVal.truthy]
  | dt d => cases f <;> simp [HasType] at ht <;>
      simp [written, ArgOK, xattrReadBack, PyVal.emptyIterable, decoded, mkSlot, Slot.get, hp d ht]

theorem xattrReadBack_eq_iff (f : Field) (v : PyVal) (ht : HasType f v) :
    xattrReadBack f v = v ↔ XattrStorable f v := by
  cases v with
  | str s =>
    cases f <;> simp [HasType] at ht <;> simp [xattrReadBack, XattrStorable]
    cases h : pyInt s with
    | none => by_cases hs : s = [] <;> simp [hs]
    | some i => simp
  | bytes b => cases f <;> simp [HasType] at ht; simp [xattrReadBack, XattrStorable]
  | strs l =>
    cases f <;> simp [HasType] at ht
    simp [xattrReadBack, XattrStorable, flatMap_pieces_eq]
  | none => cases f <;> simp [xattrReadBack, XattrStorable]
  | int i => cases f <;> simp [xattrReadBack, XattrStorable]
  | etag b i => cases f <;> simp [xattrReadBack, XattrStorable]
  | dt d => cases f <;> simp [xattrReadBack, XattrStorable]

end Verif.Xattrs
