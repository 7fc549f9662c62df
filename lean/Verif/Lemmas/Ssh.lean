import Verif.Lemmas.Time
import Verif.Spec.Ssh

namespace Verif.Ssh

open Verif.Ssh.Spec

/-! ## Bits -/

theorem and_two_pow_ne (k c : Nat) : (2 ^ k &&& c != 0) = c.testBit k := by
  cases h : c.testBit k with
  | true =>
    simp only [bne_iff_ne, ne_eq]
    intro h0
    have : (2 ^ k &&& c).testBit k = false := by rw [h0]; simp
    simp [Nat.testBit_and, Nat.testBit_two_pow_self, h] at this
  | false =>
    simp only [bne_eq_false_iff_eq]
    apply Nat.eq_of_testBit_eq
    intro i
    rw [Nat.testBit_and, Nat.testBit_two_pow]
    by_cases hi : k = i
    · subst hi; simp [h]
    · simp [hi]

theorem testBit_lit_124 (i : Nat) : (0x124 : Nat).testBit i = (i = 2 || i = 5 || i = 8) := by
  by_cases h : i < 9
  · have : i = 0 ∨ i = 1 ∨ i = 2 ∨ i = 3 ∨ i = 4 ∨ i = 5 ∨ i = 6 ∨ i = 7 ∨ i = 8 := by omega
    rcases this with h | h | h | h | h | h | h | h | h <;> subst h <;> decide
  · rw [Nat.testBit_lt_two_pow (Nat.lt_of_lt_of_le (by decide : 0x124 < 2 ^ 9) (Nat.pow_le_pow_right (by decide) (by omega)))]
    simp; omega

theorem testBit_lit_92 (i : Nat) : (0x92 : Nat).testBit i = (i = 1 || i = 4 || i = 7) := by
  by_cases h : i < 9
  · have : i = 0 ∨ i = 1 ∨ i = 2 ∨ i = 3 ∨ i = 4 ∨ i = 5 ∨ i = 6 ∨ i = 7 ∨ i = 8 := by omega
    rcases this with h | h | h | h | h | h | h | h | h <;> subst h <;> decide
  · rw [Nat.testBit_lt_two_pow (Nat.lt_of_lt_of_le (by decide : 0x92 < 2 ^ 9) (Nat.pow_le_pow_right (by decide) (by omega)))]
    simp; omega

theorem testBit_lit_49 (i : Nat) : (0x49 : Nat).testBit i = (i = 0 || i = 3 || i = 6) := by
  by_cases h : i < 9
  · have : i = 0 ∨ i = 1 ∨ i = 2 ∨ i = 3 ∨ i = 4 ∨ i = 5 ∨ i = 6 ∨ i = 7 ∨ i = 8 := by omega
    rcases this with h | h | h | h | h | h | h | h | h <;> subst h <;> decide
  · rw [Nat.testBit_lt_two_pow (Nat.lt_of_lt_of_le (by decide : 0x49 < 2 ^ 9) (Nat.pow_le_pow_right (by decide) (by omega)))]
    simp; omega

/-- The bits of `current` at the three places that are looked at. -/
theorem current_testBit (mode : Nat) (m : Mode) (c : Nat) (hc : c < 3) :
    (current mode m).testBit (3 * c) = match bit m with
      | some b => mode.testBit (3 * c + b)
      | none => false := by
  cases m with
  | read =>
    have : current mode .read = ((0x124 &&& mode) >>> 2) &&& 0x49 := by simp [current, times]
    rw [this, Nat.testBit_and, Nat.testBit_shiftRight, Nat.testBit_and, testBit_lit_124, testBit_lit_49]
    have : c = 0 ∨ c = 1 ∨ c = 2 := by omega
    rcases this with h | h | h <;> subst h <;> simp [bit]
  | write =>
    have : current mode .write = ((0x92 &&& mode) >>> 1) &&& 0x49 := by simp [current, times]
    rw [this, Nat.testBit_and, Nat.testBit_shiftRight, Nat.testBit_and, testBit_lit_92, testBit_lit_49]
    have : c = 0 ∨ c = 1 ∨ c = 2 := by omega
    rcases this with h | h | h <;> subst h <;> simp [bit]
  | execute =>
    have : current mode .execute = (0x49 &&& mode) &&& 0x49 := by simp [current, times]
    rw [this, Nat.testBit_and, Nat.testBit_and, testBit_lit_49]
    have : c = 0 ∨ c = 1 ∨ c = 2 := by omega
    rcases this with h | h | h <;> subst h <;> simp [bit]
  | other =>
    have : current mode .other = 0 := by simp [current, times]
    rw [this]; simp [bit]

theorem access_eq (st : Stat) (me : Nat) (gids : List Nat) (m : Mode) :
    access (.ok st) me gids m = .ok (match bit m with
      | some b => (st.mode.testBit (6 + b) && st.uid == me) ||
          (st.mode.testBit (3 + b) && gids.contains st.gid) || st.mode.testBit b
      | none => false) := by
  have h0 := current_testBit st.mode m 0 (by omega)
  have h1 := current_testBit st.mode m 1 (by omega)
  have h2 := current_testBit st.mode m 2 (by omega)
  simp only [access]
  rw [show (0x40 : Nat) = 2 ^ (3 * 2) from rfl, show (0x8 : Nat) = 2 ^ (3 * 1) from rfl,
    show (0x1 : Nat) = 2 ^ (3 * 0) from rfl, and_two_pow_ne, and_two_pow_ne, and_two_pow_ne, h0, h1, h2]
  cases bit m <;> simp

/-! ## Splitting -/

theorem noGap_cons {c : Char} {s : Str} (hs : s ≠ []) (h : NoGap (c :: s)) :
    NoGap s ∧ ¬ (c = ' ' ∧ s.head? = some ' ') := by
  refine ⟨⟨fun hi => h.1 (hi.trans (List.suffix_cons c s).isInfix), fun hl => h.2 ?_⟩, ?_⟩
  · cases s with
    | nil => exact absurd rfl hs
    | cons d r => rw [List.getLast?_cons_cons]; exact hl
  · rintro ⟨rfl, hh⟩
    cases s with
    | nil => simp at hh
    | cons d r =>
      simp only [List.head?_cons, Option.some.injEq] at hh
      subst hh
      exact h.1 ⟨[], r, rfl⟩

theorem splitTwo_append {w t : Str} (h : NoGap w) : splitTwo (w ++ ' ' :: ' ' :: t) = w :: splitTwo t := by
  induction w with
  | nil => simp [splitTwo]
  | cons c s ih =>
    by_cases hs : s = []
    · subst hs
      have hc : c ≠ ' ' := by
        intro hc; subst hc; exact h.2 (by simp)
      simp only [List.cons_append, List.nil_append]
      rw [splitTwo]
      · simp [splitTwo]
      · intro cs h1 _; exact hc h1
    · obtain ⟨h1, h2⟩ := noGap_cons hs h
      rw [List.cons_append, splitTwo]
      · rw [ih h1]
      · intro cs hc hcs
        refine h2 ⟨hc, ?_⟩
        cases s with
        | nil => exact absurd rfl hs
        | cons d r => simp at hcs; simp [hcs.1]

theorem splitTwo_last {w : Str} (h : NoGap w) : splitTwo w = [w] := by
  induction w with
  | nil => simp [splitTwo]
  | cons c s ih =>
    by_cases hs : s = []
    · subst hs
      rw [splitTwo]
      · simp [splitTwo]
      · intro cs _ h2; simp at h2
    · obtain ⟨h1, h2⟩ := noGap_cons hs h
      rw [splitTwo]
      · rw [ih h1]
      · intro cs hc hcs
        exact h2 ⟨hc, by simp [hcs]⟩

theorem splitTwo_spaced : ∀ ws : List Str, ws ≠ [] → (∀ w ∈ ws, NoGap w) → splitTwo (spaced ws) = ws
  | [], h, _ => absurd rfl h
  | [w], _, h => splitTwo_last (h w (by simp))
  | w :: v :: ws, _, h => by
    rw [spaced, List.append_assoc]
    · rw [List.cons_append, List.cons_append, List.nil_append, splitTwo_append (h w (by simp)),
        splitTwo_spaced (v :: ws) (by simp) (fun x hx => h x (by simp [hx]))]
    · simp

theorem noGap_of_not_mem {w : Str} (h : ' ' ∉ w) : NoGap w := by
  refine ⟨fun hi => h (hi.subset (by simp)), fun hl => h (List.mem_of_getLast? hl)⟩

/-- Joining two texts with one space makes no gap unless they bring one. -/
theorem noGap_join {a b : Str} (ha : ' ' ∉ a) (hb : NoGap b) (hb' : b ≠ []) (hh : b.head? ≠ some ' ') :
    NoGap (a ++ ' ' :: b) := by
  induction a with
  | nil =>
    refine ⟨?_, ?_⟩
    · intro hi
      rcases List.infix_cons_iff.1 hi with hp | hi
      · simp only [List.nil_append, List.cons_prefix_cons, true_and] at hp
        cases b with
        | nil => exact hb' rfl
        | cons d r => simp at hp; exact hh (by simp [← hp])
      · exact hb.1 hi
    · cases b with
      | nil => exact absurd rfl hb'
      | cons d r => rw [List.nil_append, List.getLast?_cons_cons]; exact hb.2
  | cons c a ih =>
    have hc : c ≠ ' ' := fun hc => ha (by simp [hc])
    have ih := ih (fun hm => ha (by simp [hm]))
    refine ⟨?_, ?_⟩
    · intro hi
      rw [List.cons_append] at hi
      rcases List.infix_cons_iff.1 hi with hp | hi
      · simp only [List.cons_prefix_cons] at hp; exact hc hp.1.symm
      · exact ih.1 hi
    · cases hab : a ++ ' ' :: b with
      | nil => simp at hab
      | cons d r => rw [List.cons_append, hab, List.getLast?_cons_cons, ← hab]; exact ih.2

theorem human_eq (t : Moment) :
    t.human = t.day ++ ' ' :: ((t.tod ++ '.' :: pad 9 t.nsec) ++ ' ' :: t.zone) := by
  simp [Moment.human]

theorem tod_not_mem {t : Moment} (h : t.ok) : ' ' ∉ t.tod ++ '.' :: pad 9 t.nsec := by
  have := pad_not_mem 9 t.nsec (c := ' ') (by decide)
  simp [h.2.2.1, this]

theorem noGap_human {t : Moment} (h : t.ok) : NoGap t.human := by
  rw [human_eq]
  have h1 : NoGap ((t.tod ++ '.' :: pad 9 t.nsec) ++ ' ' :: t.zone) := by
    refine noGap_join (tod_not_mem h) (noGap_of_not_mem h.2.2.2.2.1) h.2.2.2.2.2 ?_
    intro hh
    exact h.2.2.2.2.1 (List.mem_of_head? hh)
  refine noGap_join h.2.1 h1 (by simp) ?_
  intro hh
  cases ht : t.tod with
  | nil => rw [ht] at hh; simp at hh
  | cons d r =>
    rw [ht] at hh
    simp only [List.cons_append, List.head?_cons, Option.some.injEq] at hh
    exact h.2.2.1 (by rw [ht, hh]; simp)

theorem ns_human {t : Moment} (h : t.ok) : ns t.human = some ('.' :: pad 9 t.nsec) := by
  simp only [ns, human_eq]
  rw [splitC_append_sep h.2.1, splitC_append_sep (tod_not_mem h), splitC_of_not_mem h.2.2.2.2.1]
  simp only
  rw [splitC_append_sep h.2.2.2.1, splitC_of_not_mem (pad_not_mem 9 t.nsec (by decide))]

theorem digitsGo_pad (k n acc : Nat) (hk : 0 < k) (h : n < 10 ^ k) :
    ∀ prev, digitsGo acc prev (pad k n) = some (acc * 10 ^ k + n) := by
  induction k generalizing n acc with
  | zero => omega
  | succ k ih =>
    intro prev
    rw [pad]
    by_cases hk' : k = 0
    · subst hk'
      have hn : n < 10 := by simpa using h
      simp [pad, digitsGo, digitVal?_digitChar (show n % 10 < 10 by omega)]
      omega
    · have h' : n / 10 < 10 ^ k := by rw [Nat.div_lt_iff_lt_mul (by omega)]; rw [Nat.pow_succ] at h; exact h
      have hd : ∀ c ∈ pad k (n / 10), (digitVal? c).isSome := by
        intro c hc
        obtain ⟨d, hd, rfl⟩ := pad_digits _ _ c hc
        simp [digitVal?_digitChar hd]
      rw [digitsGo_append _ _ _ _ _ hd (ih (n / 10) acc (by omega) h' prev)]
      rw [digitsGo, digitVal?_digitChar (by omega)]
      simp only [digitsGo, if_true, Option.some.injEq]
      rw [Nat.pow_succ, Nat.add_mul, Nat.mul_assoc, Nat.add_assoc]
      omega

theorem digitsGo_frac (s n : Nat) (h : n < 10 ^ 9) :
    digitsGo 0 false (natStr s ++ pad 9 n) = some (s * 10 ^ 9 + n) := by
  have hd : ∀ c ∈ natStr s, (digitVal? c).isSome := by
    intro c hc
    obtain ⟨d, hd, rfl⟩ := natStr_digits _ c hc
    simp [digitVal?_digitChar hd]
  rw [digitsGo_append _ _ _ _ _ hd (digitsGo_natStr s false)]
  exact digitsGo_pad 9 n s (by omega) h _

theorem pyFloat_pos (n : Nat) (b : Str) (hb : '.' ∉ b) : pyFloat (natStr n ++ '.' :: b) =
    (digitsGo 0 false (natStr n ++ b)).map fun (n : Nat) => (⟨(n : Int), b.length⟩ : Dec) := by
  rw [pyFloat, splitC_append_sep (natStr_not_mem n (by decide)), splitC_of_not_mem hb]
  simp only
  split
  · rename_i a' ha
    obtain ⟨d, hd, h'⟩ := natStr_digits n '-' (by rw [ha]; simp)
    have := digitVal?_digitChar hd
    rw [← h'] at this
    simp [digitVal?] at this
  · rfl

theorem pyFloat_neg (n : Nat) (b : Str) (hb : '.' ∉ b) : pyFloat ('-' :: natStr n ++ '.' :: b) =
    (digitsGo 0 false (natStr n ++ b)).map fun (n : Nat) => (⟨-(n : Int), b.length⟩ : Dec) := by
  have h : '.' ∉ '-' :: natStr n := by
    have := natStr_not_mem n (c := '.') (by decide)
    simp [this]
  rw [pyFloat, splitC_append_sep h, splitC_of_not_mem hb]
  rfl

theorem stamp_human {t : Moment} (h : t.ok) (hs : 0 ≤ t.sec) : stamp t.secs t.human = some t.value := by
  simp only [stamp, ns_human h, Option.bind_some, Moment.secs]
  obtain ⟨n, hn⟩ := Int.eq_ofNat_of_zero_le hs
  rw [hn]
  show pyFloat (natStr n ++ _) = _
  rw [pyFloat_pos _ _ (pad_not_mem 9 t.nsec (by decide)), digitsGo_frac _ _ h.1, pad_length]
  simp [Moment.value, hn]

/-- Before 1970 the fraction is subtracted instead of added. -/
theorem stamp_before {t : Moment} (h : t.ok) (hs : t.sec < 0) :
    stamp t.secs t.human = some ⟨t.sec * 10 ^ 9 - t.nsec, 9⟩ := by
  simp only [stamp, ns_human h, Option.bind_some, Moment.secs]
  obtain ⟨n, hn⟩ := Int.eq_negSucc_of_lt_zero hs
  rw [hn]
  show pyFloat ('-' :: natStr (n + 1) ++ _) = _
  rw [pyFloat_neg _ _ (pad_not_mem 9 t.nsec (by decide)), digitsGo_frac _ _ h.1, pad_length]
  simp only [Option.map_some, Option.some.injEq, Dec.mk.injEq, and_true]
  omega

/-! ## The mode -/

theorem natHex_four {n : Nat} (h : 0x1000 ≤ n) (h' : n < 0x10000) :
    natHex n = hex [UInt8.ofNat (n / 256), UInt8.ofNat (n % 256)] := by
  rw [natHex, if_neg (by omega), natHex, if_neg (by omega), natHex, if_neg (by omega), natHex,
    if_pos (by omega)]
  simp only [hex, List.cons_append, List.nil_append]
  rw [UInt8.toNat_ofNat', UInt8.toNat_ofNat']
  have h1 : n / 256 % 2 ^ 8 = n / 256 := Nat.mod_eq_of_lt (by omega)
  have h2 : n % 256 % 2 ^ 8 = n % 256 := Nat.mod_eq_of_lt (by omega)
  rw [h1, h2]
  have e1 : n / 16 / 16 / 16 = n / 256 / 16 := by omega
  have e2 : n / 16 / 16 % 16 = n / 256 % 16 := by omega
  have e3 : n / 16 % 16 = n % 256 / 16 := by omega
  have e4 : n % 16 = n % 256 % 16 := by omega
  rw [e1, e2, e3, e4]

theorem mode_natHex {n : Nat} (h : 0x1000 ≤ n) (h' : n < 0x10000) :
    (fromHex (natHex n)).map fromBytesBig = some n := by
  rw [natHex_four h h', fromHex_hex]
  simp only [Option.map_some, fromBytesBig, List.foldl_cons, List.foldl_nil, Option.some.injEq]
  rw [UInt8.toNat_ofNat', UInt8.toNat_ofNat']
  have h1 : n / 256 % 2 ^ 8 = n / 256 := Nat.mod_eq_of_lt (by omega)
  have h2 : n % 256 % 2 ^ 8 = n % 256 := Nat.mod_eq_of_lt (by omega)
  rw [h1, h2]; omega

theorem natHex_not_mem (n : Nat) : ' ' ∉ natHex n := by
  induction n using Nat.strongRecOn with
  | _ n ih =>
    rw [natHex]
    have hc : ∀ d, d < 16 → ' ' ≠ hexChar d := by
      intro d hd h
      have := hexVal?_hexChar hd
      rw [← h] at this
      simp [hexVal?] at this
    split
    · rename_i h; simp; exact fun h' => hc n h h'
    · rename_i h
      simp only [List.mem_append, List.mem_singleton, not_or]
      exact ⟨ih (n / 16) (by omega), fun h' => hc (n % 16) (by omega) h'⟩

/-! ## Colons and base64 -/

theorem splitColon_append {h p : Str} (hh : ':' ∉ h) : splitColon (h ++ ':' :: p) = some (h, p) := by
  induction h with
  | nil => simp [splitColon]
  | cons c h ih =>
    have hc : c ≠ ':' := fun hc => hh (by simp [hc])
    rw [List.cons_append, splitColon, if_neg hc, ih (fun hm => hh (by simp [hm]))]
    rfl

theorem b64Char_inj {m n : Nat} (hm : m < 64) (hn : n < 64) (h : b64Char m = b64Char n) : m = n := by
  have key : ∀ n < 64, (b64Char n).toNat = if n < 26 then 65 + n else if n < 52 then 71 + n else
      if n < 62 then n - 4 else if n = 62 then 45 else 95 := by decide
  have h1 := key m hm
  have h2 := key n hn
  rw [h] at h1
  rw [h1] at h2
  repeat' split at h2
  all_goals omega

theorem b64Char_ne {n : Nat} (hn : n < 64) : b64Char n ≠ ':' := by
  have : ∀ n < 64, b64Char n ≠ ':' := by decide
  exact this n hn

theorem b64_inj16 : ∀ (a b : Bytes) (k : Nat), a.length = 3 * k + 1 → b.length = 3 * k + 1 →
    (b64 a).take (4 * k + 2) = (b64 b).take (4 * k + 2) → a = b := by
  intro a b k
  induction k generalizing a b with
  | zero =>
    intro ha hb h
    match a, b, ha, hb with
    | [x], [y], _, _ =>
      simp only [b64, Nat.mul_zero, Nat.zero_add, List.take_succ_cons, List.take_zero, List.cons.injEq, and_true] at h
      have hx := x.toNat_lt
      have hy := y.toNat_lt
      have h1 := b64Char_inj (by omega) (by omega) h.1
      have h2 := b64Char_inj (by omega) (by omega) h.2
      have : x.toNat = y.toNat := by omega
      rw [UInt8.toNat_inj.1 this]
  | succ k ih =>
    intro ha hb h
    match a, b, ha, hb with
    | x :: y :: z :: r, x' :: y' :: z' :: r', ha, hb =>
      rw [show 4 * (k + 1) + 2 = (4 * k + 2) + 1 + 1 + 1 + 1 by omega] at h
      simp only [b64, List.take_succ_cons, List.cons.injEq] at h
      obtain ⟨h1, h2, h3, h4, h5⟩ := h
      have hx := x.toNat_lt
      have hy := y.toNat_lt
      have hz := z.toNat_lt
      have hx' := x'.toNat_lt
      have hy' := y'.toNat_lt
      have hz' := z'.toNat_lt
      have h1 := b64Char_inj (by omega) (by omega) h1
      have h2 := b64Char_inj (by omega) (by omega) h2
      have h3 := b64Char_inj (by omega) (by omega) h3
      have h4 := b64Char_inj (by omega) (by omega) h4
      have ex : x.toNat = x'.toNat := by omega
      have ey : y.toNat = y'.toNat := by omega
      have ez : z.toNat = z'.toNat := by omega
      rw [UInt8.toNat_inj.1 ex, UInt8.toNat_inj.1 ey, UInt8.toNat_inj.1 ez,
        ih r r' (by simp at ha; omega) (by simp at hb; omega) h5]

theorem b64_length : ∀ (a : Bytes) (k : Nat), a.length = 3 * k + 1 → (b64 a).length = 4 * k + 4 := by
  intro a k
  induction k generalizing a with
  | zero => intro ha; match a, ha with | [x], _ => simp [b64]
  | succ k ih =>
    intro ha
    match a, ha with
    | x :: y :: z :: r, ha =>
      simp only [b64, List.length_cons]
      rw [ih r (by simp at ha; omega)]; omega

theorem b64_not_mem : ∀ a : Bytes, ':' ∉ b64 a := by
  intro a
  induction a using b64.induct with
  | case1 a b c rest ih =>
    have ha := a.toNat_lt
    have hb := b.toNat_lt
    have hc := c.toNat_lt
    simp only [b64, List.mem_cons, not_or]
    exact ⟨(b64Char_ne (by omega)).symm, (b64Char_ne (by omega)).symm, (b64Char_ne (by omega)).symm,
      (b64Char_ne (by omega)).symm, ih⟩
  | case2 a b =>
    have ha := a.toNat_lt
    have hb := b.toNat_lt
    simp only [b64, List.mem_cons, not_or]
    exact ⟨(b64Char_ne (by omega)).symm, (b64Char_ne (by omega)).symm, (b64Char_ne (by omega)).symm, by decide, by simp⟩
  | case3 a =>
    have ha := a.toNat_lt
    simp only [b64, List.mem_cons, not_or]
    exact ⟨(b64Char_ne (by omega)).symm, (b64Char_ne (by omega)).symm, by decide, by decide, by simp⟩
  | case4 => simp [b64]

theorem sysid_not_mem (b : Bytes) : ':' ∉ sysid b := fun h =>
  b64_not_mem _ ((List.take_sublist _ _).subset h)

theorem sysid_eq (b : Bytes) (h : 16 ≤ b.length) : sysid b = (b64 (b.take 16)).take (4 * 5 + 2) := by
  have : (b64 (b.take 16)).length = 4 * 5 + 4 := b64_length _ 5 (by simp; omega)
  simp [sysid, this]

theorem sysid_inj {a b : Bytes} (ha : 16 ≤ a.length) (hb : 16 ≤ b.length) (h : sysid a = sysid b) :
    a.take 16 = b.take 16 := by
  rw [sysid_eq a ha, sysid_eq b hb] at h
  exact b64_inj16 _ _ 5 (by simp; omega) (by simp; omega) h

end Verif.Ssh
