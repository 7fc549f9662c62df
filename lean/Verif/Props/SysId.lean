import Verif.Model.SysId
import Verif.Lemmas.Symlink
import Verif.Lemmas.Decide

/-!
# C80 – C82: The id of the machine and the ids of local paths
-/

namespace Verif.SysId
open Verif

/-! ## The id does not change -/

/-- The machine after some more processes asked for its id, each with a random id in hand. -/
def later (H : Bytes → Bytes) (m : Machine) : List Bytes → Machine
  | [] => m
  | u :: us => later H (rawId H u m).2 us

/-- A machine of which some usable file holds the content `c`, and it is the one that is asked. -/
def Settled (m : Machine) (c : Bytes) : Prop :=
  c ≠ [] ∧ ((∃ b, m.etc = some ⟨true, b, c⟩) ∨ usable m.etc = false ∧ ∃ b, m.failover = some ⟨true, b, c⟩)

theorem Settled.rawId {H : Bytes → Bytes} {m : Machine} {c : Bytes} (h : Settled m c) (u : Bytes) :
    rawId H u m = (.ok ((H c).take 16), m) := by
  obtain ⟨hc, ⟨b, h⟩ | ⟨he, b, h⟩⟩ := h
  · have hu : usable m.etc = true := by simp [usable, h, List.length_pos_iff, hc]
    rw [SysId.rawId, sysidpath, if_neg (by simp), if_pos hu]
    simp [Machine.file, h]
  · have hu : usable m.failover = true := by simp [usable, h, List.length_pos_iff, hc]
    rw [SysId.rawId, sysidpath, if_neg (by simp), if_neg (by simp [he]), if_pos hu]
    simp [Machine.file, h]

theorem settled_of_ok {H : Bytes → Bytes} {m : Machine} {u i : Bytes} (hu : u ≠ []) (h : (rawId H u m).1 = .ok i) :
    ∃ c, Settled (rawId H u m).2 c ∧ i = (H c).take 16 := by
  unfold rawId sysidpath at h ⊢
  rw [if_neg (by simp)] at h ⊢
  by_cases he : usable m.etc = true
  · rw [if_pos he] at h ⊢
    cases hf : m.etc with
    | none => simp [hf, usable] at he
    | some f =>
      obtain ⟨r, w, c⟩ := f
      simp only [usable, hf, Bool.and_eq_true, decide_eq_true_eq] at he
      obtain ⟨rfl, hc⟩ := he
      simp [Machine.file, hf] at h ⊢
      exact ⟨c, ⟨List.length_pos_iff.1 hc, .inl ⟨w, hf⟩⟩, h.symm⟩
  · rw [if_neg he] at h ⊢
    have he' : usable m.etc = false := by simpa using he
    by_cases hv : usable m.failover = true
    · rw [if_pos hv] at h ⊢
      cases hf : m.failover with
      | none => simp [hf, usable] at hv
      | some f =>
        obtain ⟨r, w, c⟩ := f
        simp only [usable, hf, Bool.and_eq_true, decide_eq_true_eq] at hv
        obtain ⟨rfl, hc⟩ := hv
        simp [Machine.file, hf] at h ⊢
        exact ⟨c, ⟨List.length_pos_iff.1 hc, .inr ⟨he', w, hf⟩⟩, h.symm⟩
    · rw [if_neg hv] at h ⊢
      unfold writeFailover at h ⊢
      cases hf : m.failover with
      | none =>
        simp only [hf] at h ⊢
        by_cases hm : m.canMake = true
        · simp only [hm, if_true, Machine.file, Except.ok.injEq] at h ⊢
          exact ⟨u, ⟨hu, .inr ⟨he', true, rfl⟩⟩, h.symm⟩
        · simp [hm] at h
      | some f =>
        simp only [hf] at h ⊢
        by_cases hw : f.writable = true
        · simp only [hw, if_true, Machine.file] at h ⊢
          by_cases hr : f.readable = true
          · simp only [hr, if_true, Except.ok.injEq] at h ⊢
            exact ⟨u, ⟨hu, .inr ⟨he', f.writable, by simp [hw]⟩⟩, h.symm⟩
          · simp [hr] at h
        · simp [hw] at h

/-- C80: once a process was told the id of the machine, every later one is told the same, however many ask and whatever
random ids they would draw, and nothing is written any more. -/
theorem C80_stable (H : Bytes → Bytes) (m : Machine) (u i : Bytes) (hu : u ≠ []) (h : (rawId H u m).1 = .ok i)
    (us : List Bytes) (v : Bytes) :
    (rawId H v (later H (rawId H u m).2 us)).1 = .ok i ∧ later H (rawId H u m).2 us = (rawId H u m).2 := by
  obtain ⟨c, hs, rfl⟩ := settled_of_ok hu h
  have : ∀ us, later H (rawId H u m).2 us = (rawId H u m).2 := by
    intro us
    induction us with
    | nil => rfl
    | cons w us ih => rw [later, hs.rawId w]; exact ih
  rw [this us]
  exact ⟨by rw [hs.rawId v], rfl⟩

/-- C80: an id that is there already is used and not replaced: the file in `/etc` first, then the one in `/var/tmp`. -/
theorem C80_existing (H : Bytes → Bytes) (m : Machine) (u : Bytes) :
    (∀ b c, m.etc = some ⟨true, b, c⟩ → c ≠ [] → rawId H u m = (.ok ((H c).take 16), m)) ∧
    (∀ b c, m.etc = none → m.failover = some ⟨true, b, c⟩ → c ≠ [] → rawId H u m = (.ok ((H c).take 16), m)) :=
  ⟨fun b _ h hc => Settled.rawId ⟨hc, .inl ⟨b, h⟩⟩ u,
    fun b _ he h hc => Settled.rawId ⟨hc, .inr ⟨by simp [usable, he], b, h⟩⟩ u⟩

/-- C80: a machine without an id gets one if the file for it can be made. -/
theorem C80_answers (H : Bytes → Bytes) (m : Machine) (u : Bytes) (he : m.etc = none) (hf : m.failover = none) (hm : m.canMake = true) :
    (rawId H u m).1 = .ok ((H u).take 16) := by
  simp [rawId, sysidpath, usable, he, hf, writeFailover, hm, Machine.file]

/-- C80: there is no id exactly if no file has one and the file in `/var/tmp` cannot be written, or read back; this is a
`PermissionError`, no other exception is raised. -/
theorem C80_refuses (H : Bytes → Bytes) (m : Machine) (u : Bytes) :
    ((rawId H u m).1 = .error .permissionError ↔ usable m.etc = false ∧ usable m.failover = false ∧
      (m.failover = none ∧ m.canMake = false ∨ ∃ f, m.failover = some f ∧ (f.writable = false ∨ f.readable = false))) ∧
    (∀ e, (rawId H u m).1 = .error e → e = .permissionError) := by
  obtain ⟨etc, fo, mk⟩ := m
  unfold rawId sysidpath writeFailover
  rcases etc with _ | ⟨r, w, c⟩
  · rcases fo with _ | ⟨r', w', c'⟩
    · cases mk <;> simp [usable, Machine.file]
    · cases r' <;> cases w' <;> cases c' <;> simp [usable, Machine.file]
  · rcases fo with _ | ⟨r', w', c'⟩
    · cases r <;> cases c <;> cases mk <;> simp [usable, Machine.file]
    · cases r <;> cases c <;> cases r' <;> cases w' <;> cases c' <;> simp [usable, Machine.file]

/-- C80: a class gets no id if there is none, and says why. -/
theorem C80_unbound (H : Bytes → Bytes) (u : Bytes) (m : Machine) :
    (bindSysid H u none m).1 = (match (rawId H u m).1 with | .ok _ => .ok () | .error e => .error e) ∧
    ((bindSysid H u none m).2.1 = none ↔ (bindSysid H u none m).1 ≠ .ok ()) := by
  unfold bindSysid
  generalize rawId H u m = x
  obtain ⟨x, m'⟩ := x
  cases x <;> simp

/-- C80: a class is given an id once; after that it raises and the id stays. -/
theorem C80_bound_once (H : Bytes → Bytes) (u : Bytes) (m : Machine) (s : Str) :
    bindSysid H u (some s) m = (.error .valueError, some s, m) := rfl

/-- Beside C80: a file that may be written but not read is overwritten, whatever it holds, although the call raises. -/
theorem C80_unreadable (H : Bytes → Bytes) (u c : Bytes) (b : Bool) :
    rawId H u ⟨none, some ⟨false, true, c⟩, b⟩ = (.error .permissionError, ⟨none, some ⟨false, true, u⟩, b⟩) := rfl

example : (rawId id [1] ⟨none, none, true⟩).1 = .ok [1] ∧
    (rawId id [7] (later id (rawId id [1] ⟨none, none, true⟩).2 [[2], [3]])).1 = .ok [1] := by decide

/-! ## Base64 -/

theorem digit_inj : ∀ a < 64, ∀ b < 64, digit a = digit b → a = b := by decide +kernel

theorem digit_plain : ∀ a < 64, digit a ≠ ':' ∧ digit a ≠ '=' := by decide +kernel

theorem lt_byte (a : UInt8) : a.toNat < 256 := a.toNat_lt

theorem toNat_inj {a b : UInt8} (h : a.toNat = b.toNat) : a = b := UInt8.toNat.inj h

theorem b64_length : ∀ b : Bytes, (b64 b).length = (b.length + 2) / 3 * 4
  | [] => rfl
  | [_] => by simp [b64]
  | [_, _] => by simp [b64]
  | a :: b :: c :: r => by
    simp only [b64, List.length_cons, b64_length r]
    omega

theorem b64_inj : ∀ x y : Bytes, b64 x = b64 y → x = y
  | [], y, h => by
    have := congrArg List.length h
    rw [b64_length, b64_length] at this
    have : y.length = 0 := by simp at this; omega
    exact (List.length_eq_zero_iff.1 this).symm
  | [a], y, h => by
    have ha := lt_byte a
    match y, h with
    | [], h => simp [b64] at h
    | [a'], h =>
      have ha' := lt_byte a'
      simp only [b64, List.cons.injEq, and_true] at h
      have h1 := digit_inj _ (by omega) _ (by omega) h.1
      have h2 := digit_inj _ (by omega) _ (by omega) h.2
      rw [toNat_inj (a := a) (b := a') (by omega)]
    | [a', b'], h =>
      have hb' := lt_byte b'
      simp only [b64, List.cons.injEq, and_true] at h
      exact absurd h.2.2.symm (digit_plain _ (by omega)).2
    | a' :: b' :: c' :: r', h =>
      have hb' := lt_byte b'
      have hc' := lt_byte c'
      simp only [b64, List.cons.injEq] at h
      exact absurd h.2.2.1.symm (digit_plain _ (by omega)).2
  | [a, b], y, h => by
    have ha := lt_byte a
    have hb := lt_byte b
    match y, h with
    | [], h => simp [b64] at h
    | [a'], h =>
      simp only [b64, List.cons.injEq, and_true] at h
      exact absurd h.2.2 (digit_plain _ (by omega)).2
    | [a', b'], h =>
      have ha' := lt_byte a'
      have hb' := lt_byte b'
      simp only [b64, List.cons.injEq, and_true] at h
      have h1 := digit_inj _ (by omega) _ (by omega) h.1
      have h2 := digit_inj _ (by omega) _ (by omega) h.2.1
      have h3 := digit_inj _ (by omega) _ (by omega) h.2.2
      rw [toNat_inj (a := a) (b := a') (by omega), toNat_inj (a := b) (b := b') (by omega)]
    | a' :: b' :: c' :: r', h =>
      have hc' := lt_byte c'
      simp only [b64, List.cons.injEq] at h
      exact absurd h.2.2.2.1.symm (digit_plain _ (by omega)).2
  | a :: b :: c :: r, y, h => by
    have ha := lt_byte a
    have hb := lt_byte b
    have hc := lt_byte c
    match y, h with
    | [], h => simp [b64] at h
    | [a'], h =>
      simp only [b64, List.cons.injEq] at h
      exact absurd h.2.2.1 (digit_plain _ (by omega)).2
    | [a', b'], h =>
      simp only [b64, List.cons.injEq] at h
      exact absurd h.2.2.2.1 (digit_plain _ (by omega)).2
    | a' :: b' :: c' :: r', h =>
      have ha' := lt_byte a'
      have hb' := lt_byte b'
      have hc' := lt_byte c'
      simp only [b64, List.cons.injEq] at h
      have h1 := digit_inj _ (by omega) _ (by omega) h.1
      have h2 := digit_inj _ (by omega) _ (by omega) h.2.1
      have h3 := digit_inj _ (by omega) _ (by omega) h.2.2.1
      have h4 := digit_inj _ (by omega) _ (by omega) h.2.2.2.1
      rw [toNat_inj (a := a) (b := a') (by omega), toNat_inj (a := b) (b := b') (by omega),
        toNat_inj (a := c) (b := c') (by omega), b64_inj r r' h.2.2.2.2]

theorem text_cons3 (a b c : UInt8) (r : Bytes) (hr : r ≠ []) :
    text (a :: b :: c :: r) = digit (a.toNat / 4) :: digit (a.toNat % 4 * 16 + b.toNat / 16) ::
      digit (b.toNat % 16 * 4 + c.toNat / 64) :: digit (c.toNat % 64) :: text r := by
  have hl := b64_length r
  have hpos : 0 < r.length := List.length_pos_iff.2 hr
  unfold text
  simp only [b64, List.length_cons]
  have : (b64 r).length + 1 + 1 + 1 + 1 - 2 = (b64 r).length - 2 + 1 + 1 + 1 + 1 := by omega
  rw [this]
  simp only [List.take_succ_cons]

/-- If one byte is left over after groups of three, the encoding ends in the two characters that are cut off. -/
theorem b64_tail : ∀ b : Bytes, b.length % 3 = 1 → b64 b = text b ++ ['=', '=']
  | [], h => by simp at h
  | [a], _ => rfl
  | [_, _], h => by simp at h
  | a :: b :: c :: r, h => by
    have hr : r.length % 3 = 1 := by simp at h; omega
    rw [text_cons3 a b c r (by rintro rfl; simp at hr), b64, b64_tail r hr]
    rfl

theorem digit_mem : ∀ n < 64, digit n ∈ alphabet := by decide +kernel

theorem text_alphabet : ∀ b : Bytes, b.length % 3 = 1 → ∀ c ∈ text b, c ∈ alphabet
  | [], h => by simp at h
  | [a], _ => by
    have ha := lt_byte a
    intro c hc
    simp only [text, b64, List.length_cons, List.length_nil, Nat.reduceAdd, Nat.reduceSub, List.take_succ_cons, List.take_zero,
      List.mem_cons, List.not_mem_nil, or_false] at hc
    rcases hc with rfl | rfl <;> exact digit_mem _ (by omega)
  | [_, _], h => by simp at h
  | a :: b :: c :: r, h => by
    have ha := lt_byte a
    have hb := lt_byte b
    have hc := lt_byte c
    have hr : r.length % 3 = 1 := by simp at h; omega
    rw [text_cons3 a b c r (by rintro rfl; simp at hr)]
    intro x hx
    simp only [List.mem_cons] at hx
    rcases hx with rfl | rfl | rfl | rfl | hx
    · exact digit_mem _ (by omega)
    · exact digit_mem _ (by omega)
    · exact digit_mem _ (by omega)
    · exact digit_mem _ (by omega)
    · exact text_alphabet r hr x hx

theorem text_inj {x y : Bytes} (hx : x.length % 3 = 1) (hy : y.length % 3 = 1) (h : text x = text y) : x = y :=
  b64_inj x y (by rw [b64_tail x hx, b64_tail y hy, h])

theorem b64_no_colon : ∀ b : Bytes, ':' ∉ b64 b
  | [] => by simp [b64]
  | [a] => by
    have ha := lt_byte a
    simp only [b64, List.mem_cons, List.not_mem_nil, or_false, not_or]
    exact ⟨(digit_plain _ (by omega)).1.symm, (digit_plain _ (by omega)).1.symm, by decide, by decide⟩
  | [a, b] => by
    have ha := lt_byte a
    have hb := lt_byte b
    simp only [b64, List.mem_cons, List.not_mem_nil, or_false, not_or]
    exact ⟨(digit_plain _ (by omega)).1.symm, (digit_plain _ (by omega)).1.symm, (digit_plain _ (by omega)).1.symm, by decide⟩
  | a :: b :: c :: r => by
    have ha := lt_byte a
    have hb := lt_byte b
    have hc := lt_byte c
    simp only [b64, List.mem_cons, not_or]
    exact ⟨(digit_plain _ (by omega)).1.symm, (digit_plain _ (by omega)).1.symm, (digit_plain _ (by omega)).1.symm,
      (digit_plain _ (by omega)).1.symm, b64_no_colon r⟩

theorem text_no_colon (b : Bytes) : ':' ∉ text b := fun h => b64_no_colon b (List.mem_of_mem_take h)

/-! ## Paths are determined by their texts -/

theorem splitC_no_sep (s : Str) : ∀ w ∈ splitC '/' s, '/' ∉ w := by
  induction s with
  | nil => simp [splitC]
  | cons c s ih =>
    unfold splitC
    split
    · intro w hw
      rcases List.mem_cons.1 hw with rfl | hw
      · simp
      · exact ih w hw
    · next hc =>
      split
      · simp; exact fun h => hc h.symm
      · next w ws heq =>
        rw [heq] at ih
        intro v hv
        rcases List.mem_cons.1 hv with rfl | hv
        · simp only [List.mem_cons, not_or]
          exact ⟨fun h => hc h.symm, ih w (by simp)⟩
        · exact ih v (by simp [hv])

/-- Parsed paths. -/
def Proper (p : Symlink.Pure) : Prop :=
  (p.root = [] ∨ p.root = ['/'] ∨ p.root = ['/', '/']) ∧ ∀ w ∈ p.comps, w ≠ [] ∧ w ≠ ['.'] ∧ '/' ∉ w

theorem parse_proper (s : Str) : Proper (Symlink.parse s) := by
  constructor
  · unfold Symlink.parse
    dsimp only
    split <;> simp
  · intro w hw
    simp only [Symlink.parse, List.mem_filter, decide_eq_true_eq] at hw
    exact ⟨hw.2.1, hw.2.2, splitC_no_sep s w hw.1⟩

theorem comps_slash (s : Str) : (Symlink.parse ('/' :: s)).comps = (Symlink.parse s).comps := by
  simp [Symlink.parse, splitC]

theorem joinC_head (cs : List Str) (h : ∀ w ∈ cs, w ≠ [] ∧ w ≠ ['.'] ∧ '/' ∉ w) (s : Str) : joinC '/' cs ≠ '/' :: s := by
  cases cs with
  | nil => simp [joinC]
  | cons w ws =>
    obtain ⟨h1, -, h2⟩ := h w (by simp)
    cases w with
    | nil => exact absurd rfl h1
    | cons c w =>
      intro he
      cases ws with
      | nil => simp [joinC] at he; exact h2 (by simp [he.1])
      | cons v ws => simp [joinC] at he; exact h2 (by simp [he.1])

theorem parse_str {p : Symlink.Pure} (h : Proper p) : Symlink.parse p.str = p := by
  obtain ⟨root, cs⟩ := p
  obtain ⟨hr, hc⟩ := h
  dsimp only at hr hc
  have hcomps : (Symlink.parse (joinC '/' cs)).comps = cs := by
    cases cs with
    | nil => rfl
    | cons w ws => rw [Symlink.parse_joinC _ (by simp) hc]
  have hj := joinC_head cs hc
  rcases hr with rfl | rfl | rfl
  · cases cs with
    | nil => rfl
    | cons w ws =>
      simp only [Symlink.Pure.str, List.nil_append]
      rw [if_neg (by simp), Symlink.parse_joinC _ (by simp) hc]
  · simp only [Symlink.Pure.str]
    rw [if_neg (by simp)]
    show Symlink.parse ('/' :: joinC '/' cs) = _
    have h1 := comps_slash (joinC '/' cs)
    rw [hcomps] at h1
    have h2 : (Symlink.parse ('/' :: joinC '/' cs)).root = ['/'] := by
      unfold Symlink.parse
      dsimp only
      split
      · rfl
      · next he => simp at he; exact absurd he (hj _)
      · rfl
      · next he => exact absurd rfl (he _)
    calc Symlink.parse ('/' :: joinC '/' cs)
        = ⟨(Symlink.parse ('/' :: joinC '/' cs)).root, (Symlink.parse ('/' :: joinC '/' cs)).comps⟩ := rfl
      _ = _ := by rw [h1, h2]
  · simp only [Symlink.Pure.str]
    rw [if_neg (by simp)]
    show Symlink.parse ('/' :: '/' :: joinC '/' cs) = _
    have h1 := comps_slash ('/' :: joinC '/' cs)
    rw [comps_slash (joinC '/' cs), hcomps] at h1
    have h2 : (Symlink.parse ('/' :: '/' :: joinC '/' cs)).root = ['/', '/'] := by
      unfold Symlink.parse
      dsimp only
      split
      · next he => simp at he; exact absurd he (hj _)
      · rfl
      · next h3 h4 => simp only [List.cons.injEq, true_and] at h4; exact absurd h4.symm (h3 _)
      · next h4 _ _ => simp_all
    calc Symlink.parse ('/' :: '/' :: joinC '/' cs)
        = ⟨(Symlink.parse ('/' :: '/' :: joinC '/' cs)).root, (Symlink.parse ('/' :: '/' :: joinC '/' cs)).comps⟩ := rfl
      _ = _ := by rw [h1, h2]

theorem append_colon_inj {s t a b : Str} (hs : ':' ∉ s) (ht : ':' ∉ t) (h : s ++ ':' :: a = t ++ ':' :: b) : s = t ∧ a = b := by
  induction s generalizing t with
  | nil =>
    cases t with
    | nil => simpa using h
    | cons c t => simp at h; simp [h.1.symm] at ht
  | cons c s ih =>
    cases t with
    | nil => simp at h; simp [h.1] at hs
    | cons d t =>
      simp only [List.cons_append, List.cons.injEq] at h
      simp only [List.mem_cons, not_or] at hs ht
      obtain ⟨h1, h2⟩ := ih hs.2 ht.2 h.2
      exact ⟨by rw [h.1, h1], h2⟩

/-- C81: the id of a local path determines the machine and the path: two ids are the same exactly when the (shortened)
digests of the machines are the same and the paths are the same path. -/
theorem C81_id_iff (r r' : Bytes) (hr : r.length = 16) (hr' : r'.length = 16) (a b : Str) :
    localId (text r) a = localId (text r') b ↔ r = r' ∧ Symlink.parse a = Symlink.parse b := by
  constructor
  · intro h
    obtain ⟨h1, h2⟩ := append_colon_inj (text_no_colon r) (text_no_colon r') h
    refine ⟨text_inj (by omega) (by omega) h1, ?_⟩
    rw [← parse_str (parse_proper a), ← parse_str (parse_proper b), h2]
  · rintro ⟨rfl, h⟩
    rw [localId, localId, h]

/-- C81: the id of a machine is 22 letters, digits, dashes and underscores, so that it can be part of a file name. -/
theorem C81_text (r : Bytes) (hr : r.length = 16) :
    (text r).length = 22 ∧ ∀ c ∈ text r, c.isAlphanum = true ∨ c = '-' ∨ c = '_' := by
  have hl := b64_length r
  refine ⟨by simp only [text, List.length_take, hl, hr]; decide, fun c hc => ?_⟩
  have : ∀ c ∈ alphabet, c.isAlphanum = true ∨ c = '-' ∨ c = '_' := by decide +kernel
  exact this c (text_alphabet r (by omega) c hc)

/-- C81: the id that a class is given is such a text, however long the digests are beyond 16 bytes. -/
theorem C81_bound (H : Bytes → Bytes) (hH : ∀ b, 16 ≤ (H b).length) (u : Bytes) (m m' : Machine) (s : Str)
    (h : bindSysid H u none m = (.ok (), some s, m')) :
    s.length = 22 ∧ (∀ c ∈ s, c.isAlphanum = true ∨ c = '-' ∨ c = '_') ∧ ∃ c, s = text ((H c).take 16) := by
  unfold bindSysid at h
  dsimp only at h
  split at h
  · simp at h
  · rename_i r m1 hr
    simp only [Prod.mk.injEq, Option.some.injEq, true_and] at h
    obtain ⟨rfl, rfl⟩ := h
    obtain ⟨c, hc⟩ : ∃ c, r = (H c).take 16 := by
      unfold rawId at hr
      split at hr
      · simp at hr
      · split at hr
        · split at hr
          · rename_i f _ _
            simp only [Prod.mk.injEq, Except.ok.injEq] at hr
            exact ⟨f.content, hr.1.symm⟩
          · simp at hr
        · simp at hr
    have hlen : r.length = 16 := by
      have := hH c
      rw [hc, List.length_take]
      omega
    obtain ⟨h1, h2⟩ := C81_text r hlen
    exact ⟨h1, h2, c, by rw [hc]⟩

example : bindSysid (fun b => b ++ List.replicate 20 0) [1] none ⟨none, none, true⟩ =
    (.ok (), some (lit "AQAAAAAAAAAAAAAAAAAAAA"), ⟨none, some ⟨true, true, [1]⟩, true⟩) := by decide +kernel

example : text (List.replicate 15 0 ++ [255]) = lit "AAAAAAAAAAAAAAAAAAAA_w" := by decide +kernel

example : localId (lit "AAAAAAAAAAAAAAAAAAAA_w") (lit "/a//b/./c/") = lit "AAAAAAAAAAAAAAAAAAAA_w:/a/b/c" := by decide +kernel

/-! ## Windows -/

/-- C82, the part that holds: if the length of digests leaves one byte over after groups of three (blake2b, the default, and
md5), machines whose digests differ have different ids. -/
theorem C82_windows_partial (H : Bytes → Bytes) (hH : ∀ b, (H b).length % 3 = 1) (g g' : Str)
    (h : text (windowsRawId H g) = text (windowsRawId H g')) : H (utf8 g) = H (utf8 g') :=
  text_inj (hH _) (hH _) h

example : (64 : Nat) % 3 = 1 ∧ (16 : Nat) % 3 = 1 := by decide

/-- C82 is false for digests with two bytes left over, like those of sha256: the two characters that are cut off are not only
padding, and digests that differ in the last four bits give the same id. -/
theorem C82_cut_counterexample (b : Bytes) (hb : b.length % 3 = 1) (x y : UInt8) (hxy : x.toNat / 16 = y.toNat / 16) :
    text (b ++ [x]) = text (b ++ [y]) := by
  match b, hb with
  | [], h => simp at h
  | [a], _ => simp [text, b64, hxy]
  | [_, _], h => simp at h
  | a :: c :: d :: r, h =>
    have hr : r.length % 3 = 1 := by simp at h; omega
    simp only [List.cons_append]
    rw [text_cons3 _ _ _ _ (by simp), text_cons3 _ _ _ _ (by simp), C82_cut_counterexample r hr x y hxy]

example : text (List.replicate 31 7 ++ [0]) = text (List.replicate 31 7 ++ [15]) ∧
    (List.replicate 31 7 ++ [(0 : UInt8)]).length = 32 :=
  ⟨C82_cut_counterexample _ (by simp) 0 15 (by decide), by simp⟩

theorem text_prefix : ∀ (p x y : Bytes), p.length % 3 = 0 → x.length = y.length → x ≠ [] → text x = text y → text (p ++ x) = text (p ++ y)
  | [], _, _, _, _, _, h => h
  | [_], _, _, h, _, _, _ => by simp at h
  | [_, _], _, _, h, _, _, _ => by simp at h
  | a :: b :: c :: r, x, y, h, hl, hx, ht => by
    have hy : y ≠ [] := by rintro rfl; exact hx (List.length_eq_zero_iff.1 hl)
    have hr : r.length % 3 = 0 := by simp at h; omega
    simp only [List.cons_append]
    rw [text_cons3 a b c (r ++ x) (by simp [hx]), text_cons3 a b c (r ++ y) (by simp [hy]),
      text_prefix r x y hr hl hx ht]

/-- C82, exactly: the ids tell all digests of a length apart if and only if one byte is left over after groups of three. -/
theorem C82_windows_iff (n : Nat) (hn : 0 < n) :
    (∀ x y : Bytes, x.length = n → y.length = n → text x = text y → x = y) ↔ n % 3 = 1 := by
  constructor
  · intro h
    have h3 : n % 3 = 0 ∨ n % 3 = 1 ∨ n % 3 = 2 := by omega
    rcases h3 with h3 | h3 | h3
    · have := h (List.replicate (n - 3) 0 ++ [0, 0, 0]) (List.replicate (n - 3) 0 ++ [0, 0, 1]) (by simp; omega) (by simp; omega)
        (text_prefix _ _ _ (by simp; omega) rfl (by simp) (by decide +kernel))
      simp at this
    · exact h3
    · have := h (List.replicate (n - 2) 0 ++ [0, 0]) (List.replicate (n - 2) 0 ++ [0, 1]) (by simp; omega) (by simp; omega)
        (text_prefix _ _ _ (by simp; omega) rfl (by simp) (by decide +kernel))
      simp at this
  · intro h x y hx hy
    exact text_inj (by omega) (by omega)

end Verif.SysId
