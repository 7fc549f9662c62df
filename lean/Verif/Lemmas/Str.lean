import Verif.Model.Str

namespace Verif

theorem utf8?_utf8 (s : Str) : utf8? (utf8 s) = some s := by
  have : (utf8 s).toByteArray = s.utf8Encode := rfl
  simp [utf8?, this]

theorem utf8_injective {s t : Str} (h : utf8 s = utf8 t) : s = t := by
  have := congrArg utf8? h
  simpa [utf8?_utf8] using this

theorem utf8_append (s t : Str) : utf8 (s ++ t) = utf8 s ++ utf8 t := by simp [utf8]

theorem utf8_eq_nil (s : Str) : utf8 s = [] ↔ s = [] := by
  constructor
  · intro h
    have : utf8 s = utf8 [] := by rw [h]; rfl
    exact utf8_injective this
  · rintro rfl; rfl

/-! ### decimal numbers -/

theorem digitVal?_digitChar {d : Nat} (h : d < 10) : digitVal? (digitChar d) = some d := by
  have : ∀ d : Fin 10, digitVal? (digitChar d) = some d.1 := by decide
  exact this ⟨d, h⟩

theorem digitChar_ne {d : Nat} (h : d < 10) {c : Char} (hc : digitVal? c = none) :
    digitChar d ≠ c := by
  intro e
  rw [← e, digitVal?_digitChar h] at hc
  simp at hc

/-- every character of `natStr n` is a decimal digit -/
theorem natStr_digits (n : Nat) : ∀ c ∈ natStr n, ∃ d, d < 10 ∧ c = digitChar d := by
  fun_induction natStr n with
  | case1 n h => intro c hc; simp at hc; exact ⟨n, h, hc⟩
  | case2 n h ih =>
    intro c hc
    rcases List.mem_append.1 hc with hc | hc
    · exact ih c hc
    · simp at hc; exact ⟨n % 10, Nat.mod_lt _ (by omega), hc⟩

theorem natStr_ne_nil (n : Nat) : natStr n ≠ [] := by
  fun_induction natStr n <;> simp

theorem digitsGo_append (s t : Str) : ∀ acc prev r,
    (∀ c ∈ s, (digitVal? c).isSome) → digitsGo acc prev s = some r →
    digitsGo acc prev (s ++ t) = digitsGo r (if s = [] then prev else true) t := by
  induction s with
  | nil =>
    intro acc prev r _ h
    simp only [digitsGo] at h
    split at h
    · simp at h; subst h; simp
    · simp at h
  | cons c cs ih =>
    intro acc prev r hd h
    have hc := hd c (by simp)
    obtain ⟨d, hd'⟩ := Option.isSome_iff_exists.1 hc
    simp only [List.cons_append, digitsGo, hd'] at h ⊢
    rw [ih _ _ r (fun c hc => hd c (by simp [hc])) h]
    simp

theorem digitsGo_natStr (n : Nat) (prev : Bool) : digitsGo 0 prev (natStr n) = some n := by
  fun_induction natStr n with
  | case1 n h => simp [digitsGo, digitVal?_digitChar h]
  | case2 n h ih =>
    rw [digitsGo_append _ _ 0 prev (n / 10) ?_ ih]
    · simp [digitsGo, digitVal?_digitChar (Nat.mod_lt n (by omega : 0 < 10))]
      omega
    · intro c hc
      obtain ⟨d, hd, rfl⟩ := natStr_digits _ c hc
      simp [digitVal?_digitChar hd]

theorem isWs_digitChar {d : Nat} (h : d < 10) : isWs (digitChar d) = false := by
  have : ∀ d : Fin 10, isWs (digitChar d) = false := by decide
  exact this ⟨d, h⟩

theorem strip_eq_self {s : Str} (h : ∀ c ∈ s, isWs c = false) : strip s = s := by
  have dw : ∀ t : Str, (∀ c ∈ t, isWs c = false) → t.dropWhile isWs = t := by
    intro t ht
    cases t with
    | nil => rfl
    | cons c cs => simp [ht c (by simp)]
  unfold strip
  rw [dw s h, dw s.reverse (by simpa using h), List.reverse_reverse]

theorem pyInt_natStr (n : Nat) : pyInt (natStr n) = some (n : Int) := by
  have hs : strip (natStr n) = natStr n := by
    apply strip_eq_self
    intro c hc
    obtain ⟨d, hd, rfl⟩ := natStr_digits _ c hc
    exact isWs_digitChar hd
  have hhead : ∀ c cs, natStr n = c :: cs → c ≠ '-' ∧ c ≠ '+' := by
    intro c cs h
    obtain ⟨d, hd, rfl⟩ := natStr_digits n c (by rw [h]; simp)
    exact ⟨digitChar_ne hd (by decide), digitChar_ne hd (by decide)⟩
  unfold pyInt
  rw [hs]
  have hd := digitsGo_natStr n false
  cases hn : natStr n with
  | nil => exact absurd hn (natStr_ne_nil n)
  | cons c cs =>
    obtain ⟨h1, h2⟩ := hhead c cs hn
    split
    · rename_i h; simp at h; exact absurd h.1 h1
    · rename_i h; simp at h; exact absurd h.1 h2
    · rw [hn] at hd; rw [hd]; rfl

theorem pyInt_intStr (i : Int) : pyInt (intStr i) = some i := by
  cases i with
  | ofNat n => exact pyInt_natStr n
  | negSucc n =>
    have hs : strip ('-' :: natStr (n + 1)) = '-' :: natStr (n + 1) := by
      apply strip_eq_self
      intro c hc
      rcases List.mem_cons.1 hc with rfl | hc
      · decide
      · obtain ⟨d, hd, rfl⟩ := natStr_digits _ c hc
        exact isWs_digitChar hd
    simp only [intStr, pyInt, hs, digitsGo_natStr]
    simp [Int.negSucc_eq]

/-- The characters of `intStr i`. -/
theorem intStr_chars (i : Int) : ∀ c ∈ intStr i, c = '-' ∨ ∃ d, d < 10 ∧ c = digitChar d := by
  cases i with
  | ofNat n => intro c hc; exact .inr (natStr_digits n c hc)
  | negSucc n =>
    intro c hc
    rcases List.mem_cons.1 hc with rfl | hc
    · exact .inl rfl
    · exact .inr (natStr_digits _ c hc)

theorem intStr_not_mem (i : Int) {c : Char} (h : digitVal? c = none) (h' : c ≠ '-') :
    c ∉ intStr i := by
  intro hc
  rcases intStr_chars i c hc with rfl | ⟨d, hd, rfl⟩
  · exact h' rfl
  · exact digitChar_ne hd h rfl

theorem natStr_not_mem (n : Nat) {c : Char} (h : digitVal? c = none) : c ∉ natStr n := by
  intro hc
  obtain ⟨d, hd, rfl⟩ := natStr_digits n c hc
  exact digitChar_ne hd h rfl

theorem intStr_ne_nil (i : Int) : intStr i ≠ [] := by
  cases i with
  | ofNat n => exact natStr_ne_nil n
  | negSucc n => simp [intStr]

/-! ### hexadecimal -/

theorem hexVal?_hexChar {d : Nat} (h : d < 16) : hexVal? (hexChar d) = some d := by
  have : ∀ d : Fin 16, hexVal? (hexChar d) = some d.1 := by decide
  exact this ⟨d, h⟩

theorem isWs_hexChar {d : Nat} (h : d < 16) : isWs (hexChar d) = false := by
  have : ∀ d : Fin 16, isWs (hexChar d) = false := by decide
  exact this ⟨d, h⟩

theorem fromHex_hex (b : Bytes) : fromHex (hex b) = some b := by
  induction b with
  | nil => simp [hex, fromHex]
  | cons x xs ih =>
    have hx : x.toNat < 256 := x.toNat_lt
    have h1 : x.toNat / 16 < 16 := by omega
    have h2 : x.toNat % 16 < 16 := Nat.mod_lt _ (by omega)
    unfold hex
    unfold fromHex
    simp only [isWs_hexChar h1, hexVal?_hexChar h1, hexVal?_hexChar h2, ih]
    simp only [Bool.false_eq_true, if_false, Option.map_some, Option.some.injEq, List.cons.injEq,
      and_true]
    have : 16 * (x.toNat / 16) + x.toNat % 16 = x.toNat := by omega
    rw [this]; exact UInt8.ofNat_toNat

theorem hex_chars (b : Bytes) : ∀ c ∈ hex b, ∃ d, d < 16 ∧ c = hexChar d := by
  induction b with
  | nil => simp [hex]
  | cons x xs ih =>
    have hx : x.toNat < 256 := x.toNat_lt
    intro c hc
    simp only [hex, List.mem_cons] at hc
    rcases hc with rfl | rfl | hc
    · exact ⟨_, by omega, rfl⟩
    · exact ⟨_, Nat.mod_lt _ (by omega), rfl⟩
    · exact ih c hc

theorem hex_not_mem (b : Bytes) {c : Char} (h : hexVal? c = none) : c ∉ hex b := by
  intro hc
  obtain ⟨d, hd, rfl⟩ := hex_chars b c hc
  rw [hexVal?_hexChar hd] at h
  simp at h

/-! ### split, join, replace -/

theorem splitC_ne_nil (sep : Char) (s : Str) : splitC sep s ≠ [] := by
  induction s with
  | nil => simp [splitC]
  | cons c cs ih =>
    unfold splitC
    split
    · simp
    · split <;> simp

theorem splitC_of_not_mem {sep : Char} {s : Str} (h : sep ∉ s) : splitC sep s = [s] := by
  induction s with
  | nil => rfl
  | cons c cs ih =>
    simp only [List.mem_cons, not_or] at h
    simp [splitC, Ne.symm h.1, ih h.2]

theorem splitC_append_sep {sep : Char} {w t : Str} (h : sep ∉ w) :
    splitC sep (w ++ sep :: t) = w :: splitC sep t := by
  induction w with
  | nil => simp [splitC]
  | cons c cs ih =>
    simp only [List.mem_cons, not_or] at h
    simp [splitC, Ne.symm h.1, ih h.2]

theorem splitC_joinC {sep : Char} : ∀ {ws : List Str}, ws ≠ [] → (∀ w ∈ ws, sep ∉ w) →
    splitC sep (joinC sep ws) = ws
  | [], h, _ => absurd rfl h
  | [w], _, h => by simp [joinC, splitC_of_not_mem (h w (by simp))]
  | w :: v :: ws, _, h => by
    simp only [joinC]
    rw [splitC_append_sep (h w (by simp)), splitC_joinC (by simp) (fun x hx => h x (by simp [hx]))]

theorem joinC_splitC (sep : Char) (s : Str) : joinC sep (splitC sep s) = s := by
  induction s with
  | nil => rfl
  | cons c cs ih =>
    unfold splitC
    split
    · rename_i h
      subst h
      cases hs : splitC c cs with
      | nil => exact absurd hs (splitC_ne_nil _ _)
      | cons w ws => simp only [joinC]; rw [← hs, ih]; rfl
    · split
      · rename_i hs; exact absurd hs (splitC_ne_nil _ _)
      · rename_i w ws hs
        cases ws with
        | nil => simp only [joinC]; rw [hs] at ih; simp only [joinC] at ih; rw [ih]
        | cons v vs => simp only [joinC] at ih ⊢; rw [hs] at ih; simp only [joinC] at ih; simp [ih]

theorem splitC_not_mem (sep : Char) (s : Str) : ∀ w ∈ splitC sep s, sep ∉ w := by
  induction s with
  | nil => simp [splitC]
  | cons c cs ih =>
    intro w hw
    unfold splitC at hw
    split at hw
    · rcases List.mem_cons.1 hw with rfl | hw
      · simp
      · exact ih w hw
    · rename_i hc
      split at hw
      · simp at hw; subst hw; simpa using Ne.symm hc
      · rename_i v vs hs
        rcases List.mem_cons.1 hw with rfl | hw
        · have := ih v (by rw [hs]; simp)
          simp only [List.mem_cons, not_or]
          exact ⟨Ne.symm hc, this⟩
        · exact ih w (by rw [hs]; simp [hw])

theorem mem_joinC {sep : Char} {ws : List Str} {c : Char} (h : c ∈ joinC sep ws) :
    c = sep ∨ ∃ w ∈ ws, c ∈ w := by
  induction ws with
  | nil => simp [joinC] at h
  | cons w ws ih =>
    cases ws with
    | nil => exact .inr ⟨w, by simp, h⟩
    | cons v vs =>
      simp only [joinC, List.mem_append, List.mem_cons] at h
      rcases h with h | h | h
      · exact .inr ⟨w, by simp, h⟩
      · exact .inl h
      · rcases ih h with h | ⟨x, hx, hc⟩
        · exact .inl h
        · exact .inr ⟨x, by simp [hx], hc⟩

theorem rsplit1_append {sep : Char} {a b : Str} (h : sep ∉ b) :
    rsplit1 sep (a ++ sep :: b) = some (a, b) := by
  have key : ∀ a : Str, splitC sep (a ++ sep :: b) = splitC sep a ++ [b] := by
    intro a
    induction a with
    | nil => simp [splitC, splitC_of_not_mem h]
    | cons c cs ih =>
      simp only [List.cons_append, splitC, ih]
      split
      · rfl
      · cases hs : splitC sep cs with
        | nil => exact absurd hs (splitC_ne_nil _ _)
        | cons w ws => rfl
  have hs := joinC_splitC sep a
  unfold rsplit1
  rw [key]
  cases hw : splitC sep a with
  | nil => exact absurd hw (splitC_ne_nil _ _)
  | cons w ws =>
    rw [hw] at hs
    cases ws with
    | nil =>
      have hd : ([w] ++ [b]).dropLast = [w] := rfl
      simpa [hd] using hs
    | cons v vs =>
      have hd : (w :: v :: vs ++ [b]).dropLast = w :: v :: vs := List.dropLast_concat
      show some (joinC sep (w :: v :: vs ++ [b]).dropLast,
        (w :: v :: vs ++ [b]).getLast?.getD []) = _
      have hg : (w :: v :: vs ++ [b]).getLast? = some b := List.getLast?_concat
      rw [hd, hs, hg]
      rfl

theorem replaceC_eq_self {a b : Char} {s : Str} (h : a ∉ s) : replaceC a b s = s := by
  induction s with
  | nil => rfl
  | cons c cs ih =>
    simp only [List.mem_cons, not_or] at h
    simp only [replaceC, List.map_cons, if_neg (Ne.symm h.1)] at ih ⊢
    rw [ih h.2]

theorem replaceC_replaceC {a b : Char} {s : Str} (h : b ∉ s) :
    replaceC b a (replaceC a b s) = s := by
  induction s with
  | nil => rfl
  | cons c cs ih =>
    simp only [List.mem_cons, not_or] at h
    simp only [replaceC, List.map_cons] at ih ⊢
    rw [ih h.2]
    by_cases hc : c = a
    · subst hc; simp
    · simp [hc, Ne.symm h.1]

theorem not_mem_replaceC {a b : Char} {s : Str} (h : a ≠ b) : a ∉ replaceC a b s := by
  intro hm
  simp only [replaceC, List.mem_map] at hm
  obtain ⟨c, _, hc⟩ := hm
  split at hc
  · exact h hc.symm
  · contradiction

theorem mem_replaceC_iff {a b x : Char} {s : Str} (hx : x ≠ a) (hx' : x ≠ b) :
    x ∈ replaceC a b s ↔ x ∈ s := by
  simp only [replaceC, List.mem_map]
  constructor
  · rintro ⟨c, hc, h⟩
    split at h
    · exact absurd h.symm hx'
    · exact h ▸ hc
  · intro h
    exact ⟨x, h, by simp [hx]⟩

theorem length_replaceC (a b : Char) (s : Str) : (replaceC a b s).length = s.length := by
  simp [replaceC]

end Verif
