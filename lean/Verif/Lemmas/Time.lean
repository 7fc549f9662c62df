import Verif.Lemmas.Str
import Verif.Spec.Time

namespace Verif
open Verif.Spec

theorem pad_digits (k n : Nat) : ∀ c ∈ pad k n, ∃ d, d < 10 ∧ c = digitChar d := by
  induction k generalizing n with
  | zero => simp [pad]
  | succ k ih =>
    intro c hc
    rcases List.mem_append.1 hc with hc | hc
    · exact ih _ c hc
    · simp at hc; exact ⟨n % 10, Nat.mod_lt _ (by omega), hc⟩

theorem pad_not_mem (k n : Nat) {c : Char} (h : digitVal? c = none) : c ∉ pad k n := by
  intro hc
  obtain ⟨d, hd, rfl⟩ := pad_digits k n c hc
  exact digitChar_ne hd h rfl

theorem pad_length (k n : Nat) : (pad k n).length = k := by
  induction k generalizing n with
  | zero => rfl
  | succ k ih => simp [pad, ih]

theorem readDigits_append (k j : Nat) (s t : Str) : ∀ acc v, s.length = k →
    readDigits k acc s = some (v, []) → readDigits (k + j) acc (s ++ t) = readDigits j v t := by
  induction k generalizing s with
  | zero =>
    intro acc v hs h
    have : s = [] := List.length_eq_zero_iff.1 hs
    subst this
    simp [readDigits] at h
    simp [h]
  | succ k ih =>
    intro acc v hs h
    cases s with
    | nil => simp at hs
    | cons c cs =>
      have e : k + 1 + j = (k + j) + 1 := by omega
      rw [e]
      simp only [List.cons_append, readDigits] at h ⊢
      cases hd : digitVal? c with
      | none => simp [hd] at h
      | some d =>
        simp only [hd, Option.bind_some] at h ⊢
        exact ih cs _ _ (by simpa using hs) h

theorem readDigits_pad_nil (k : Nat) : ∀ (n acc : Nat), n < 10 ^ k →
    readDigits k acc (pad k n) = some (acc * 10 ^ k + n, []) := by
  induction k with
  | zero => intro n acc h; simp [readDigits, pad]; omega
  | succ k ih =>
    intro n acc h
    have h1 : n / 10 < 10 ^ k := by
      rw [Nat.pow_succ] at h; omega
    have h2 := ih (n / 10) acc h1
    have h3 := readDigits_append k 1 (pad k (n / 10)) [digitChar (n % 10)] acc _ (pad_length _ _) h2
    simp only [pad]
    rw [h3]
    simp only [readDigits, digitVal?_digitChar (Nat.mod_lt n (by omega : 0 < 10)), Option.bind_some,
      Option.some.injEq, Prod.mk.injEq, and_true]
    rw [Nat.pow_succ, ← Nat.mul_assoc]
    generalize acc * 10 ^ k = x
    omega

theorem readDigits_pad (k n : Nat) (rest : Str) (h : n < 10 ^ k) :
    readDigits k 0 (pad k n ++ rest) = some (n, rest) := by
  have h1 := readDigits_pad_nil k n 0 h
  have h2 := readDigits_append k 0 (pad k n) rest 0 _ (pad_length _ _) h1
  simpa [readDigits] using h2

theorem expect_cons (c : Char) (s : Str) : expect c (c :: s) = some s := by simp [expect]

theorem replaceC_append (a b : Char) (s t : Str) :
    replaceC a b (s ++ t) = replaceC a b s ++ replaceC a b t := by simp [replaceC]

theorem replaceC_cons (a b c : Char) (s : Str) :
    replaceC a b (c :: s) = (if c = a then b else c) :: replaceC a b s := by simp [replaceC]

theorem replaceSub_prefix {p : Char} {ps rep : Str} (s t : Str) (h : p ∉ s) :
    replaceSub (p :: ps) rep (s ++ t) = s ++ replaceSub (p :: ps) rep t := by
  induction s with
  | nil => rfl
  | cons c cs ih =>
    simp only [List.mem_cons, not_or] at h
    rw [List.cons_append]
    rw [replaceSub]
    have : (p == c) = false := by simpa using h.1
    simp [List.isPrefixOf, this, ih h.2]

theorem replaceSub_cons_ne {p c : Char} {ps rep : Str} (t : Str) (h : c ≠ p) :
    replaceSub (p :: ps) rep (c :: t) = c :: replaceSub (p :: ps) rep t :=
  replaceSub_prefix [c] t (by simpa using Ne.symm h)

theorem replaceSub_not_mem {p : Char} {ps rep : Str} (s : Str) (h : p ∉ s) :
    replaceSub (p :: ps) rep s = s := by
  have := replaceSub_prefix (ps := ps) (rep := rep) s [] h
  rw [List.append_nil] at this
  rw [this]; unfold replaceSub; simp

/-- The zone text after the `+00:00` to `Z` replacement. -/
def zoneText : Option Int → Str
  | none => []
  | some o =>
    if o = 0 then ['Z']
    else (if o < 0 then '-' else '+') :: (pad 2 (o.natAbs / 60) ++ ':' :: pad 2 (o.natAbs % 60))

theorem pad2 (n : Nat) : pad 2 n = [digitChar (n / 10 % 10), digitChar (n % 10)] := by
  simp [pad]

theorem digitChar_zero {d : Nat} (h : d < 10) (h' : digitChar d = '0') : d = 0 := by
  have : ∀ d : Fin 10, digitChar d = '0' → d.1 = 0 := by decide
  exact this ⟨d, h⟩ h'

theorem replaceSub_offset (o : Option Int) (ho : ∀ x, o = some x → -1440 < x ∧ x < 1440) :
    replaceSub ['+', '0', '0', ':', '0', '0'] ['Z'] (offsetStr o) = zoneText o := by
  cases o with
  | none => simp [offsetStr, zoneText, replaceSub]
  | some o =>
    have hb := ho o rfl
    by_cases hneg : o < 0
    · have h0 : o ≠ 0 := by omega
      simp only [offsetStr, zoneText, hneg, if_true, h0, if_false]
      apply replaceSub_not_mem
      simp only [List.mem_cons, List.mem_append, not_or]
      exact ⟨by decide, pad_not_mem _ _ (by decide), by decide, pad_not_mem _ _ (by decide)⟩
    · by_cases h0 : o = 0
      · subst h0; decide +kernel
      · simp only [offsetStr, zoneText, hneg, if_false, h0]
        unfold replaceSub
        rw [if_neg]
        · congr 1
          apply replaceSub_not_mem
          simp only [List.mem_cons, List.mem_append, not_or]
          exact ⟨pad_not_mem _ _ (by decide), by decide, pad_not_mem _ _ (by decide)⟩
        · intro ⟨_, hp⟩
          rw [pad2, pad2] at hp
          simp only [List.isPrefixOf, List.cons_append, List.nil_append, Bool.and_eq_true,
            beq_iff_eq, and_true] at hp
          obtain ⟨_, h1, h2, _, h3, h4⟩ := hp
          have h1 := digitChar_zero (Nat.mod_lt _ (by omega)) h1.symm
          have h2 := digitChar_zero (Nat.mod_lt _ (by omega)) h2.symm
          have h3 := digitChar_zero (Nat.mod_lt _ (by omega)) h3.symm
          have h4 := digitChar_zero (Nat.mod_lt _ (by omega)) h4.symm
          omega

/-- The text written by `isoformat`, without the string replacements. -/
theorem isoformat_eq (d : DateTime) (h : d.Valid) :
    isoformat d = pad 4 d.year ++ '-' :: (pad 2 d.month ++ '-' :: (pad 2 d.day ++ 'T' ::
      (pad 2 d.hour ++ ':' :: (pad 2 d.minute ++ ':' :: (pad 2 d.second ++
        ((if d.micro = 0 then [] else ',' :: pad 6 d.micro) ++ zoneText d.offset)))))) := by
  have hp : ∀ k n, replaceC '.' ',' (pad k n) = pad k n :=
    fun k n => replaceC_eq_self (pad_not_mem k n (by decide))
  have ho : replaceC '.' ',' (offsetStr d.offset) = offsetStr d.offset := by
    apply replaceC_eq_self
    cases d.offset with
    | none => simp [offsetStr]
    | some o =>
      simp only [offsetStr, List.mem_cons, List.mem_append, not_or]
      exact ⟨by split <;> decide, pad_not_mem _ _ (by decide), by decide, pad_not_mem _ _ (by decide)⟩
  have hf : replaceC '.' ',' (if d.micro = 0 then [] else '.' :: pad 6 d.micro) =
      if d.micro = 0 then [] else ',' :: pad 6 d.micro := by
    split
    · rfl
    · simp [replaceC_cons, hp]
  unfold isoformat stdIsoformat
  simp only [replaceC_append, replaceC_cons, hp, ho, hf, reduceIte, Char.reduceEq]
  have hm : '+' ∉ (if d.micro = 0 then [] else ',' :: pad 6 d.micro) := by
    split
    · simp
    · simp only [List.mem_cons, not_or]
      exact ⟨by decide, pad_not_mem _ _ (by decide)⟩
  rw [replaceSub_prefix _ _ (pad_not_mem _ _ (by decide)), replaceSub_cons_ne _ (by decide),
    replaceSub_prefix _ _ (pad_not_mem _ _ (by decide)), replaceSub_cons_ne _ (by decide),
    replaceSub_prefix _ _ (pad_not_mem _ _ (by decide)), replaceSub_cons_ne _ (by decide),
    replaceSub_prefix _ _ (pad_not_mem _ _ (by decide)), replaceSub_cons_ne _ (by decide),
    replaceSub_prefix _ _ (pad_not_mem _ _ (by decide)), replaceSub_cons_ne _ (by decide),
    replaceSub_prefix _ _ (pad_not_mem _ _ (by decide)), replaceSub_prefix _ _ hm,
    replaceSub_offset _ h.offset]

theorem readZone_zoneText (o : Option Int) (ho : ∀ x, o = some x → -1440 < x ∧ x < 1440) :
    readZone (zoneText o) = some o := by
  cases o with
  | none => rfl
  | some o =>
    have hb := ho o rfl
    by_cases h0 : o = 0
    · subst h0; rfl
    · simp only [zoneText, h0, if_false]
      have hr : ∀ c : Char, readZone (c :: (pad 2 (o.natAbs / 60) ++ ':' :: pad 2 (o.natAbs % 60))) =
          (if c = '+' then some (some ((o.natAbs : Nat) : Int))
           else if c = '-' then some (some (-((o.natAbs : Nat) : Int))) else none) := by
        intro c
        have h1 := readDigits_pad 2 (o.natAbs / 60) (':' :: pad 2 (o.natAbs % 60)) (by omega)
        have h2 := readDigits_pad 2 (o.natAbs % 60) [] (by omega)
        rw [List.append_nil] at h2
        have h3 : 60 * (o.natAbs / 60) + o.natAbs % 60 = o.natAbs := by omega
        unfold readZone
        split
        · rename_i h; simp at h
        · rename_i h
          have := congrArg List.length h
          simp [pad_length] at this
        · rename_i c' s' _ h
          simp only [List.cons.injEq] at h
          obtain ⟨rfl, rfl⟩ := h
          simp only [h1, h2, h3, expect_cons, Option.bind_eq_bind, Option.bind_some]
          simp
      rw [hr]
      by_cases hneg : o < 0
      · simp [hneg]; omega
      · simp [hneg]; omega

theorem zoneText_head (o : Option Int) : ∀ s, zoneText o ≠ ',' :: s := by
  intro s h
  cases o with
  | none => simp [zoneText] at h
  | some o =>
    simp only [zoneText] at h
    split at h
    · simp at h
    · split at h <;> simp at h

theorem readFraction_micro (m : Nat) (hm : m < 1000000) (o : Option Int) :
    readFraction ((if m = 0 then [] else ',' :: pad 6 m) ++ zoneText o) = some (m, zoneText o) := by
  by_cases h : m = 0
  · subst h
    simp only [if_true, List.nil_append]
    unfold readFraction
    split
    · rename_i s hs; exact absurd hs (zoneText_head o s)
    · rfl
  · simp only [h, if_false, List.cons_append, readFraction]
    exact readDigits_pad 6 m _ (by omega)

theorem readIso_isoformat (d : DateTime) (h : d.Valid) : readIso (isoformat d) = some d := by
  rw [isoformat_eq d h]
  unfold readIso
  have hy := h.year; have hmo := h.month; have hd := h.day; have hh := h.hour
  have hmi := h.minute; have hs := h.second
  simp only [readDigits_pad 4 d.year _ (by omega), readDigits_pad 2 d.month _ (by omega),
    readDigits_pad 2 d.day _ (by omega), readDigits_pad 2 d.hour _ (by omega),
    readDigits_pad 2 d.minute _ (by omega), readDigits_pad 2 d.second _ (by omega),
    expect_cons, Option.bind_eq_bind, Option.bind_some, readFraction_micro _ h.micro,
    readZone_zoneText _ h.offset]

theorem isoformat_not_mem (d : DateTime) (h : d.Valid) {c : Char} (hc : digitVal? c = none)
    (hs : c ∉ ['-', 'T', ':', ',', 'Z', '+']) : c ∉ isoformat d := by
  have hz : c ∉ zoneText d.offset := by
    cases d.offset with
    | none => simp [zoneText]
    | some o =>
      simp only [List.mem_cons, not_or, List.not_mem_nil, not_false_eq_true, and_true] at hs
      simp only [zoneText]
      split
      · simp [hs]
      · simp only [List.mem_cons, List.mem_append, not_or]
        exact ⟨by split <;> simp [hs], pad_not_mem _ _ hc, hs.2.2.1, pad_not_mem _ _ hc⟩
  have hm : c ∉ (if d.micro = 0 then [] else ',' :: pad 6 d.micro) := by
    simp only [List.mem_cons, not_or, List.not_mem_nil, not_false_eq_true, and_true] at hs
    split
    · simp
    · simp only [List.mem_cons, not_or]
      exact ⟨hs.2.2.2.1, pad_not_mem _ _ hc⟩
  simp only [List.mem_cons, not_or, List.not_mem_nil, not_false_eq_true, and_true] at hs
  rw [isoformat_eq d h]
  simp only [List.mem_append, List.mem_cons, not_or, pad_not_mem _ _ hc, not_false_eq_true, hs,
    hm, hz, and_self]

theorem isoformat_length (d : DateTime) (h : d.Valid) : 19 ≤ (isoformat d).length := by
  rw [isoformat_eq d h]
  simp only [List.length_append, List.length_cons, pad_length]
  omega

end Verif
