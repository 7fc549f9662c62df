import Verif.Model.MetaRace
import Verif.Lemmas.Decide

/-!
# C138: metadata of a file that is being changed
-/

namespace Verif.MetaRace

set_option linter.unusedSectionVars false

variable {τ : Type} [DecidableEq τ]

/-! ## What is claimed -/

/-- From `a` to `b` nothing happens to the path and to the file that it leads to. -/
def Settled (W : World τ) (a b : Nat) : Prop :=
  ∀ k, a ≤ k → k ≤ b → W.at_ k = W.at_ a ∧ ∀ i, W.at_ a = some i → W.ino k i = W.ino a i

/-- The times of the file tell whether something happened to it: where they are the same at two moments nothing happened between. -/
def Telling (W : World τ) : Prop :=
  ∀ a b i j, a ≤ b → W.at_ a = some i → W.at_ b = some j → (W.ino a i).stamp = (W.ino b j).stamp → Settled W a b

/-- The metadata of the file with this inode as it is at this moment, with its checksum unless it is a directory. -/
def truth (W : World τ) (h : Bytes → Bytes) (a i : Nat) : Info τ :=
  ⟨(W.ino a i).content.length, i, (W.ino a i).stamp, if (W.ino a i).dir then none else some (h (W.ino a i).content)⟩

/-! ## Proofs -/

theorem Settled.sub {W : World τ} {a b c d : Nat} (h : Settled W a b) (h1 : a ≤ c) (h2 : d ≤ b) : Settled W c d := by
  intro k hk hd
  by_cases hcb : c ≤ b
  · have e1 := h k (by omega) (by omega)
    have e2 := h c h1 hcb
    refine ⟨e1.1.trans e2.1.symm, fun i hi => ?_⟩
    rw [e2.1] at hi
    rw [e1.2 i hi, e2.2 i hi]
  · omega

theorem Settled.at_eq {W : World τ} {a b k : Nat} (h : Settled W a b) (h1 : a ≤ k) (h2 : k ≤ b) : W.at_ k = W.at_ a := (h k h1 h2).1

theorem Settled.ino_eq {W : World τ} {a b k i : Nat} (h : Settled W a b) (h1 : a ≤ k) (h2 : k ≤ b) (hi : W.at_ a = some i) :
    W.ino k i = W.ino a i := (h k h1 h2).2 i hi

theorem readLoop_later {W : World τ} {sizes : Nat → Nat} {n i : Nat} : ∀ {fuel pos got t : Nat} {r : Bytes × Nat},
    readLoop W sizes n i fuel pos got t = some r → t < r.2
  | 0, _, _, _, _, h => by cases h
  | fuel + 1, pos, got, t, r, h => by
    rw [readLoop] at h
    split at h
    · split at h
      · cases h; exact Nat.lt_succ_self t
      · have := readLoop_later h; omega
    · cases hr : readLoop W sizes n i fuel (pos + (((W.ino t i).content.drop pos).take (sizes t)).length)
          ((got + (((W.ino t i).content.drop pos).take (sizes t)).length) % n) (t + 1) with
      | none => rw [hr] at h; cases h
      | some r' =>
        rw [hr] at h
        cases h
        have := readLoop_later hr
        dsimp only
        omega

/-- What is read is what the content that only grows has when the last read finds nothing more. -/
theorem readLoop_grows {W : World τ} {sizes : Nat → Nat} {n i : Nat} (hs : ∀ t, 0 < sizes t) :
    ∀ {fuel pos got t : Nat} {r : Bytes × Nat}, readLoop W sizes n i fuel pos got t = some r →
    (∀ k k', t ≤ k → k ≤ k' → k' < r.2 → (W.ino k i).content <+: (W.ino k' i).content) → pos ≤ (W.ino t i).content.length →
    r.1 = (W.ino (r.2 - 1) i).content.drop pos
  | 0, _, _, _, _, h, _, _ => by cases h
  | fuel + 1, pos, got, t, r, h, hg, hp => by
    have hlt := readLoop_later h
    have hend : ((W.ino t i).content.drop pos).take (sizes t) = [] → (W.ino t i).content.length ≤ pos := by
      intro hc
      have : (((W.ino t i).content.drop pos).take (sizes t)).length = 0 := by rw [hc]; rfl
      rw [List.length_take, List.length_drop] at this
      have := hs t
      omega
    rw [readLoop] at h
    split at h
    · next hc =>
      split at h
      · cases h
        have := hend hc
        dsimp only
        rw [Nat.add_sub_cancel, List.drop_eq_nil_of_le this]
      · have hl := readLoop_later h
        have hpre := (hg t (t + 1) (Nat.le_refl t) (Nat.le_succ t) hl).length_le
        exact readLoop_grows hs h (fun k k' h1 h2 h3 => hg k k' (by omega) h2 h3) (by omega)
    · next hc =>
      generalize hcc : ((W.ino t i).content.drop pos).take (sizes t) = c at h hc
      cases hr : readLoop W sizes n i fuel (pos + c.length) ((got + c.length) % n) (t + 1) with
      | none => rw [hr] at h; cases h
      | some r' =>
        rw [hr] at h
        cases h
        dsimp only at hg hlt ⊢
        have hl := readLoop_later hr
        have hpre := hg t (t + 1) (Nat.le_refl t) (Nat.le_succ t) hl
        have hlen : pos + c.length ≤ (W.ino t i).content.length := by
          have : c.length = min (sizes t) ((W.ino t i).content.length - pos) := by rw [← hcc, List.length_take, List.length_drop]
          omega
        have ih := readLoop_grows hs hr (fun k k' h1 h2 h3 => hg k k' (by omega) h2 h3) (by have := hpre.length_le; omega)
        rw [ih]
        obtain ⟨y, hy⟩ := hg t (r'.2 - 1) (Nat.le_refl t) (by omega) (by omega)
        rw [← hy, List.drop_append_of_le_length hlen, List.drop_append_of_le_length hp, ← List.append_assoc]
        congr 1
        have h1 : c = ((W.ino t i).content.drop pos).take c.length := by
          rw [← hcc, List.length_take]
          rw [List.take_eq_take_iff]
          omega
        rw [← List.drop_drop]
        conv => lhs; arg 1; rw [h1]
        exact List.take_append_drop _ _

theorem checksum_later {W : World τ} {h : Bytes → Bytes} {sizes : Nat → Nat} {n fuel t : Nat} {r : Except PyErr (Option Bytes) × Nat}
    (hr : checksum W h sizes n fuel t = some r) : t < r.2 := by
  unfold checksum at hr
  split at hr
  · cases hr; exact Nat.lt_succ_self t
  · cases hr; exact Nat.lt_succ_self t
  · split at hr
    · cases hr; show t < t + 2; omega
    · next i _ =>
      split at hr
      · cases hr; show t < t + 2; omega
      · cases hl : readLoop W sizes n i fuel 0 0 (t + 2) with
        | none => rw [hl] at hr; cases hr
        | some r' =>
          rw [hl] at hr
          cases hr
          have := readLoop_later hl
          dsimp only
          omega

theorem checksum_settled {W : World τ} {h : Bytes → Bytes} {sizes : Nat → Nat} {n fuel t i : Nat} {r : Except PyErr (Option Bytes) × Nat}
    (hs : ∀ t, 0 < sizes t) (hr : checksum W h sizes n fuel t = some r) (hq : Settled W t r.2) (hi : W.at_ t = some i) :
    r.1 = .ok (truth W h t i).sum := by
  have hlt := checksum_later hr
  unfold checksum at hr
  rw [hi] at hr
  dsimp only [Option.map] at hr
  cases hd : (W.ino t i).dir with
  | true =>
    rw [hd] at hr
    cases hr
    simp [truth, hd]
  | false =>
    rw [hd] at hr
    dsimp only at hr
    have h1 : W.at_ (t + 1) = some i := by
      rw [hq.at_eq (Nat.le_succ t) hlt, hi]
    have h2 : W.ino (t + 1) i = W.ino t i := hq.ino_eq (Nat.le_succ t) hlt hi
    rw [h1] at hr
    dsimp only at hr
    rw [h2, hd] at hr
    simp only [Bool.false_eq_true, if_false] at hr
    cases hl : readLoop W sizes n i fuel 0 0 (t + 2) with
    | none => rw [hl] at hr; cases hr
    | some r' =>
      rw [hl] at hr
      cases hr
      dsimp only at hq hlt ⊢
      have hl2 := readLoop_later hl
      have e : ∀ k, t ≤ k → k < r'.2 → W.ino k i = W.ino t i := fun k h1 h2 => hq.ino_eq h1 (by omega) hi
      have := readLoop_grows hs hl (fun k k' h1 h2 h3 => by
        rw [e k (by omega) (by omega), e k' (by omega) h3]; exact List.prefix_rfl) (Nat.zero_le _)
      rw [this, e (r'.2 - 1) (by omega) (by omega)]
      simp [truth, hd]

/-- What the memo of an object is worth at the time `now`. -/
def Sound (W : World τ) (h : Bytes → Bytes) (memo : Memo τ) (now : Nat) : Prop :=
  ∀ s m, memo.tuple = some s → memo.last = some m →
    ∃ a b i, a ≤ b ∧ b ≤ now ∧ W.at_ a = some i ∧ (W.ino a i).stamp = s ∧ (Settled W a b → m = truth W h a i)

theorem Sound.later {W : World τ} {h : Bytes → Bytes} {memo : Memo τ} {a b : Nat} (hs : Sound W h memo a) (hab : a ≤ b) : Sound W h memo b := by
  intro s m h1 h2
  obtain ⟨x, y, i, e1, e2, e3⟩ := hs s m h1 h2
  exact ⟨x, y, i, e1, by omega, e3⟩

theorem fresh_sound {W : World τ} {h : Bytes → Bytes} {sizes : Nat → Nat} {n fuel i t : Nat} {memo : Memo τ} {r : Res τ × Memo τ × Nat}
    (hs : ∀ t, 0 < sizes t) (hi : W.at_ t = some i) (hr : fresh W h sizes n fuel true memo i t = some r) :
    t < r.2.2 ∧ Sound W h r.2.1 r.2.2 ∧ (Settled W t r.2.2 → r.1 = .info (truth W h t i)) := by
  unfold fresh at hr
  simp only [if_true] at hr
  cases hc : checksum W h sizes n fuel (t + 1) with
  | none => rw [hc] at hr; cases hr
  | some c =>
    rw [hc] at hr
    have hlt := checksum_later hc
    have key : Settled W t c.2 → c.1 = .ok (truth W h t i).sum := by
      intro hq
      have h1 : W.at_ (t + 1) = some i := by rw [hq.at_eq (Nat.le_succ t) (by omega), hi]
      have h2 : W.ino (t + 1) i = W.ino t i := hq.ino_eq (Nat.le_succ t) (by omega) hi
      have := checksum_settled hs hc (hq.sub (Nat.le_succ t) (Nat.le_refl _)) h1
      rw [this]
      simp [truth, h2]
    obtain ⟨c1, c2⟩ := c
    dsimp only at hlt key
    cases c1 with
    | error e =>
      cases hr
      dsimp only
      refine ⟨by omega, ?_, fun hq => by cases key hq⟩
      intro s m h1 h2
      cases h1
      exact ⟨t, c2, i, by omega, Nat.le_refl _, hi, rfl, fun hq => by cases key hq⟩
    | ok c =>
      cases hr
      dsimp only
      have key2 : Settled W t c2 → (⟨(W.ino t i).content.length, i, (W.ino t i).stamp, c⟩ : Info τ) = truth W h t i := by
        intro hq
        have := key hq
        cases this
        rfl
      refine ⟨by omega, ?_, fun hq => by rw [key2 hq]⟩
      intro s m h1 h2
      cases h1
      cases h2
      exact ⟨t, c2, i, by omega, Nat.le_refl _, hi, rfl, key2⟩

theorem lookup_later {W : World τ} {t : Nat} : t ≤ (lookup W t).2 := by
  unfold lookup
  split
  · exact Nat.le_refl t
  · split <;> exact Nat.le_succ t

theorem lookup_at {W : World τ} {t i t' : Nat} (h : lookup W t = (.ok i, t')) : W.at_ t' = some i := by
  unfold lookup at h
  split at h
  · next hi => cases h; exact hi
  · split at h
    · next hi => cases h; exact hi
    · cases h

theorem ask_sound {W : World τ} {h : Bytes → Bytes} {sizes : Nat → Nat} {n fuel t : Nat} {memo : Memo τ} {r : Res τ × Memo τ × Nat}
    (hw : Telling W) (hs : ∀ t, 0 < sizes t) (hm : Sound W h memo t) (hr : ask W h sizes n fuel true memo t = some r) :
    t < r.2.2 ∧ Sound W h r.2.1 r.2.2 ∧
    (Settled W t r.2.2 → r.1 = match W.at_ t with | none => .gone | some i => .info (truth W h t i)) := by
  unfold ask at hr
  cases hi0 : W.at_ t with
  | none =>
    rw [hi0] at hr
    cases hr
    exact ⟨Nat.lt_succ_self t, hm.later (Nat.le_succ t), fun _ => rfl⟩
  | some i0 =>
    rw [hi0] at hr
    dsimp only at hr
    have hle := lookup_later (W := W) (t := t + 1)
    cases hl : lookup W (t + 1) with
    | mk l t1 =>
      rw [hl] at hr hle
      dsimp only at hle
      cases l with
      | error e =>
        cases hr
        dsimp only
        refine ⟨by omega, hm.later (by omega), fun hq => ?_⟩
        have h1 := hq.at_eq (k := t + 1) (by omega) (by omega)
        unfold lookup at hl
        rw [h1, hi0] at hl
        cases hl
      | ok i =>
        dsimp only at hr
        have hi := lookup_at hl
        have conv : ∀ b, t1 ≤ b → Settled W t b → i = i0 ∧ truth W h t1 i = truth W h t i0 := by
          intro b hb hq
          have h1 := hq.at_eq (k := t1) (by omega) hb
          rw [hi, hi0] at h1
          cases h1
          refine ⟨rfl, ?_⟩
          simp [truth, hq.ino_eq (k := t1) (by omega) hb hi0]
        have done : ∀ r', fresh W h sizes n fuel true memo i t1 = some r' →
            t < r'.2.2 ∧ Sound W h r'.2.1 r'.2.2 ∧ (Settled W t r'.2.2 → r'.1 = .info (truth W h t i0)) := by
          intro r' hr'
          obtain ⟨f1, f2, f3⟩ := fresh_sound hs hi hr'
          refine ⟨by omega, f2, fun hq => ?_⟩
          rw [f3 (hq.sub (by omega) (Nat.le_refl _)), (conv _ (by omega) hq).2]
        split at hr
        · next m hlast =>
          split at hr
          · next ht =>
            cases hr
            dsimp only
            refine ⟨by omega, hm.later (by omega), fun hq => ?_⟩
            obtain ⟨a, b, j, e1, e2, e3, e4, e5⟩ := hm _ m ht hlast
            have hset := hw a t1 j i (by omega) e3 hi e4
            have hmt := e5 (hset.sub (Nat.le_refl a) (by omega))
            have h1 := hset.at_eq (k := t1) (by omega) (Nat.le_refl _)
            rw [hi, e3] at h1
            cases h1
            rw [hmt, ← (conv _ (by omega) hq).2]
            simp [truth, hset.ino_eq (k := t1) (by omega) (Nat.le_refl _) e3]
          · exact done r hr
        · exact done r hr

theorem asks_sound {W : World τ} {h : Bytes → Bytes} {sizes : Nat → Nat} {n fuel : Nat} (hw : Telling W) (hs : ∀ t, 0 < sizes t) :
    ∀ {gaps : List (Nat × Bool)} {memo : Memo τ} {t : Nat} {r : Memo τ × Nat}, (∀ g ∈ gaps, g.2 = true) → Sound W h memo t →
    asks W h sizes n fuel gaps memo t = some r → Sound W h r.1 r.2
  | [], memo, t, r, _, hm, h => by cases h; exact hm
  | (gap, want) :: gaps, memo, t, r, hg, hm, hr => by
    have hwant : want = true := hg (gap, want) List.mem_cons_self
    subst hwant
    rw [asks] at hr
    cases ha : ask W h sizes n fuel true memo (t + gap) with
    | none => rw [ha] at hr; cases hr
    | some x =>
      rw [ha] at hr
      have := ask_sound hw hs (hm.later (Nat.le_add_right t gap)) ha
      exact asks_sound hw hs (fun g h => hg g (List.mem_cons_of_mem _ h)) this.2.1 hr

/-- **C138**: an object that is asked for metadata any number of times, whatever other processes did before and between, gives the right metadata
each time that nothing happens to the file from when it is asked to when it answers: its size, inode, times and checksum.  It raises nothing
then. -/
theorem C138_right (W : World τ) (h : Bytes → Bytes) (sizes : Nat → Nat) (n fuel : Nat) (hw : Telling W) (hs : ∀ t, 0 < sizes t)
    {gaps : List (Nat × Bool)} (hg : ∀ g ∈ gaps, g.2 = true) {t0 t t' gap i : Nat} {memo memo' : Memo τ} {res : Res τ}
    (h1 : asks W h sizes n fuel gaps .new t0 = some (memo, t)) (h2 : ask W h sizes n fuel true memo (t + gap) = some (res, memo', t'))
    (hq : Settled W (t + gap) t') (hi : W.at_ (t + gap) = some i) : res = .info (truth W h (t + gap) i) := by
  have hm := asks_sound hw hs hg (memo := .new) (t := t0) (fun s m h => by cases h) h1
  have := (ask_sound hw hs (hm.later (Nat.le_add_right t gap)) h2).2.2 hq
  rw [hi] at this
  exact this

/-- **C138**: if the file is only appended to and stays where it is, then the checksum that a new object gives is that of the content at one moment
between being asked and answering, and the size is not greater than that of this content. -/
theorem C138_growing (W : World τ) (h : Bytes → Bytes) (sizes : Nat → Nat) (n fuel : Nat) (hs : ∀ t, 0 < sizes t) {t t' i : Nat} {memo' : Memo τ}
    {res : Res τ} (hr : ask W h sizes n fuel true .new t = some (res, memo', t')) (hat : ∀ k, t ≤ k → k ≤ t' → W.at_ k = some i)
    (hd : ∀ k, t ≤ k → k ≤ t' → (W.ino k i).dir = false)
    (hg : ∀ k k', t ≤ k → k ≤ k' → k' ≤ t' → (W.ino k i).content <+: (W.ino k' i).content) :
    ∃ m k, res = .info m ∧ t ≤ k ∧ k < t' ∧ m.sum = some (h (W.ino k i).content) ∧ m.size ≤ (W.ino k i).content.length := by
  unfold ask at hr
  have ht : t ≤ t' := by
    cases h0 : W.at_ t with
    | none => rw [h0] at hr; cases hr; exact Nat.le_succ t
    | some j =>
      rw [h0] at hr
      dsimp only at hr
      have hle := lookup_later (W := W) (t := t + 1)
      cases hl : lookup W (t + 1) with
      | mk l t1 =>
        rw [hl] at hr hle
        dsimp only at hle
        cases l with
        | error e => cases hr; omega
        | ok i1 =>
          dsimp only [Memo.new] at hr
          have := (fresh_sound hs (lookup_at hl) hr).1
          dsimp only at this
          omega
  rw [hat t (Nat.le_refl t) ht] at hr
  dsimp only at hr
  have hle := lookup_later (W := W) (t := t + 1)
  cases hl : lookup W (t + 1) with
  | mk l t1 =>
    rw [hl] at hr hle
    dsimp only at hle
    cases l with
    | error e =>
      cases hr
      unfold lookup at hl
      rw [hat (t + 1) (by omega) (by omega)] at hl
      cases hl
    | ok i1 =>
      dsimp only [Memo.new] at hr
      have hi1 := lookup_at hl
      have hlt := (fresh_sound hs hi1 hr).1
      dsimp only at hlt
      rw [hat t1 (by omega) (by omega)] at hi1
      cases hi1
      unfold fresh at hr
      simp only [if_true] at hr
      cases hc : checksum W h sizes n fuel (t1 + 1) with
      | none => rw [hc] at hr; cases hr
      | some c =>
        rw [hc] at hr
        have hlt2 := checksum_later hc
        have hct : c.2 = t' := by
          obtain ⟨c1, c2⟩ := c
          cases c1 <;> (cases hr; rfl)
        have hc' := hc
        unfold checksum at hc
        rw [hat (t1 + 1) (by omega) (by omega)] at hc
        dsimp only [Option.map] at hc
        rw [hd (t1 + 1) (by omega) (by omega)] at hc
        dsimp only at hc
        cases hd2 : W.at_ (t1 + 1 + 1) with
        | none =>
          rw [hd2] at hc
          cases hc
          have := hat (t1 + 1 + 1) (by omega) (by dsimp only at hct; omega)
          rw [hd2] at this
          cases this
        | some i2 =>
          rw [hd2] at hc
          dsimp only at hc
          have hin : t1 + 2 ≤ t' := by
            split at hc
            · cases hc; dsimp only at hct; omega
            · cases hrl : readLoop W sizes n i2 fuel 0 0 (t1 + 1 + 2) with
              | none => rw [hrl] at hc; cases hc
              | some r' =>
                rw [hrl] at hc
                cases hc
                have := readLoop_later hrl
                dsimp only at hct
                omega
          rw [hat (t1 + 1 + 1) (by omega) (by omega)] at hd2
          cases hd2
          rw [hd (t1 + 1 + 1) (by omega) (by omega)] at hc
          simp only [Bool.false_eq_true, if_false] at hc
          cases hrl : readLoop W sizes n i fuel 0 0 (t1 + 1 + 2) with
          | none => rw [hrl] at hc; cases hc
          | some r' =>
            rw [hrl] at hc
            cases hc
            dsimp only at hct hlt2
            subst hct
            have hlr := readLoop_later hrl
            have := readLoop_grows hs hrl (fun k k' h1 h2 h3 => hg k k' (by omega) h2 (by omega)) (Nat.zero_le _)
            rw [List.drop_zero] at this
            cases hr
            refine ⟨_, r'.2 - 1, rfl, by omega, by omega, by dsimp only; rw [this], ?_⟩
            exact (hg t1 (r'.2 - 1) (by omega) (by omega) (by omega)).length_le

theorem readLoop_ends {W : World τ} {sizes : Nat → Nat} {n i : Nat} {c : Bytes} (hs : ∀ t, 0 < sizes t) :
    ∀ {fuel pos got t : Nat}, (∀ k, t ≤ k → (W.ino k i).content = c) → c.length - pos + 2 ≤ fuel →
    ∃ r, readLoop W sizes n i fuel pos got t = some r
  | 0, _, _, _, _, h => by omega
  | fuel + 1, pos, got, t, hc, hf => by
    rw [readLoop, hc t (Nat.le_refl t)]
    by_cases he : (c.drop pos).take (sizes t) = []
    · rw [if_pos he]
      by_cases hgot : got = 0
      · exact ⟨_, if_pos hgot⟩
      · rw [if_neg hgot]
        cases fuel with
        | zero => omega
        | succ fuel =>
          rw [readLoop, hc (t + 1) (by omega)]
          have hnil : c.drop pos = [] := by
            have := hs t
            cases hd : c.drop pos with
            | nil => rfl
            | cons x xs =>
              rw [hd] at he
              cases hst : sizes t with
              | zero => omega
              | succ s => rw [hst] at he; cases he
          rw [hnil, List.take_nil, if_pos rfl, if_pos rfl]
          exact ⟨_, rfl⟩
    · rw [if_neg he]
      have hl : 0 < ((c.drop pos).take (sizes t)).length := List.length_pos_iff.2 he
      have hl2 : ((c.drop pos).take (sizes t)).length ≤ c.length - pos := by
        rw [List.length_take, List.length_drop]; omega
      obtain ⟨r, hr⟩ := readLoop_ends (W := W) (n := n) (i := i) (c := c) hs (fuel := fuel)
        (pos := pos + ((c.drop pos).take (sizes t)).length) (got := (got + ((c.drop pos).take (sizes t)).length) % n) (t := t + 1)
        (fun k hk => hc k (by omega)) (by omega)
      rw [hr]
      exact ⟨_, rfl⟩

/-- **C138**: when nothing happens to the file any more, an object that is asked answers, after at most as many reads as the file has bytes, and two. -/
theorem C138_answers (W : World τ) (h : Bytes → Bytes) (sizes : Nat → Nat) (n fuel : Nat) (hs : ∀ t, 0 < sizes t) (memo : Memo τ) {t i : Nat}
    (hq : ∀ b, Settled W t b) (hi : W.at_ t = some i) (hf : (W.ino t i).content.length + 2 ≤ fuel) :
    ∃ res memo' t', ask W h sizes n fuel true memo t = some (res, memo', t') := by
  have hat : ∀ k, t ≤ k → W.at_ k = some i := fun k hk => by rw [(hq k).at_eq hk (Nat.le_refl k), hi]
  have hino : ∀ k, t ≤ k → W.ino k i = W.ino t i := fun k hk => (hq k).ino_eq hk (Nat.le_refl k) hi
  unfold ask
  rw [hi]
  dsimp only
  have hl : lookup W (t + 1) = (.ok i, t + 1) := by simp [lookup, hat (t + 1) (by omega)]
  rw [hl]
  dsimp only
  have hfr : ∃ r, fresh W h sizes n fuel true memo i (t + 1) = some r := by
    unfold fresh checksum
    simp only [if_true, hat _ (show t ≤ t + 1 + 1 by omega), hat _ (show t ≤ t + 1 + 1 + 1 by omega), Option.map,
      hino _ (show t ≤ t + 1 + 1 by omega), hino _ (show t ≤ t + 1 + 1 + 1 by omega)]
    cases (W.ino t i).dir with
    | true => exact ⟨_, rfl⟩
    | false =>
      obtain ⟨r, hr⟩ := readLoop_ends (W := W) (n := n) (i := i) (c := (W.ino t i).content) hs (fuel := fuel) (pos := 0) (got := 0)
        (t := t + 1 + 1 + 2) (fun k hk => by rw [hino k (by omega)]) (by omega)
      simp only [Bool.false_eq_true, if_false, hr]
      exact ⟨_, rfl⟩
  obtain ⟨r, hr⟩ := hfr
  split
  · split
    · exact ⟨_, _, _, rfl⟩
    · exact ⟨r.1, r.2.1, r.2.2, hr⟩
  · exact ⟨r.1, r.2.1, r.2.2, hr⟩

/-- **C138**: while nothing happens to the file the answer is that of the function of C11, whatever the object remembers and whatever is
asked for. -/
theorem C138_alone (W : World τ) (h : Bytes → Bytes) (sizes : Nat → Nat) (n fuel : Nat) (hs : ∀ t, 0 < sizes t) (memo : Memo τ) (want : Bool)
    {t t' i : Nat} {memo' : Memo τ} {res : Res τ} (hr : ask W h sizes n fuel want memo t = some (res, memo', t')) (hq : Settled W t t')
    (hi : W.at_ t = some i) (hd : (W.ino t i).dir = false) :
    let view : Info τ → Data.Meta τ := fun m => (m.stamp, m.sum)
    let r := Data.metaMaker ⟨memo.tuple, memo.last.map view⟩ ⟨(W.ino t i).stamp, .ok (h (W.ino t i).content), want, false⟩
    ∃ m, res = .info m ∧ r.2 = .ok (view m) ∧ r.1 = ⟨memo'.tuple, memo'.last.map view⟩ := by
  intro view r
  unfold ask at hr
  rw [hi] at hr
  dsimp only at hr
  have hle := lookup_later (W := W) (t := t + 1)
  cases hl : lookup W (t + 1) with
  | mk l t1 =>
    rw [hl] at hr hle
    dsimp only at hle
    cases l with
    | error e =>
      cases hr
      unfold lookup at hl
      rw [hq.at_eq (k := t + 1) (by omega) (by omega), hi] at hl
      cases hl
    | ok i1 =>
      dsimp only at hr
      have hi1 := lookup_at hl
      have hfresh : fresh W h sizes n fuel want memo i1 t1 = some (res, memo', t') → t1 < t' := by
        intro hf
        unfold fresh at hf
        cases want with
        | false => cases hf; exact Nat.lt_succ_self _
        | true =>
          simp only [if_true] at hf
          cases hc : checksum W h sizes n fuel (t1 + 1) with
          | none => rw [hc] at hf; cases hf
          | some c =>
            rw [hc] at hf
            have := checksum_later hc
            obtain ⟨c1, c2⟩ := c
            cases c1 <;> (cases hf; dsimp only at this; omega)
      have hlt : t1 < t' := by
        split at hr
        · split at hr
          · cases hr; exact Nat.lt_succ_self _
          · exact hfresh hr
        · exact hfresh hr
      have e1 := hq.at_eq (k := t1) (by omega) (by omega)
      rw [hi1, hi] at e1
      cases e1
      have e2 := hq.ino_eq (k := t1) (by omega) (by omega) hi
      have hF : fresh W h sizes n fuel want memo i t1 = some (res, memo', t') → ∃ m, res = .info m ∧
          (Data.metaFresh ⟨memo.tuple, memo.last.map view⟩ ⟨(W.ino t i).stamp, .ok (h (W.ino t i).content), want, false⟩).2 = .ok (view m) ∧
          (Data.metaFresh ⟨memo.tuple, memo.last.map view⟩ ⟨(W.ino t i).stamp, .ok (h (W.ino t i).content), want, false⟩).1 =
            ⟨memo'.tuple, memo'.last.map view⟩ := by
        intro hf
        unfold fresh at hf
        cases want with
        | false =>
          cases hf
          refine ⟨_, rfl, ?_, ?_⟩ <;> simp [Data.metaFresh, view, e2]
        | true =>
          simp only [if_true] at hf
          cases hc : checksum W h sizes n fuel (t1 + 1) with
          | none => rw [hc] at hf; cases hf
          | some c =>
            rw [hc] at hf
            have hct : c.2 = t' := by
              obtain ⟨c1, c2⟩ := c
              cases c1 <;> (cases hf; rfl)
            have hlt2 := checksum_later hc
            have hk := checksum_settled hs hc (i := i) (hq.sub (by omega) (by omega)) (by rw [hq.at_eq (by omega) (by omega), hi])
            have e3 := hq.ino_eq (k := t1 + 1) (by omega) (by omega) hi
            obtain ⟨c1, c2⟩ := c
            dsimp only at hk
            subst hk
            cases hf
            refine ⟨_, rfl, ?_, ?_⟩ <;> simp [Data.metaFresh, view, e2, e3, truth, hd, Except.map]
      show ∃ m, res = .info m ∧ (Data.metaMaker _ _).2 = _ ∧ (Data.metaMaker _ _).1 = _
      unfold Data.metaMaker
      cases hm : memo.last with
      | none =>
        rw [hm] at hr
        dsimp only at hr
        have := hF hr
        rw [hm] at this
        exact this
      | some m =>
        rw [hm] at hr
        dsimp only [Option.map] at hr ⊢
        rw [e2] at hr
        by_cases htu : memo.tuple = some (W.ino t i).stamp
        · rw [if_pos htu] at hr ⊢
          cases hr
          exact ⟨m, rfl, rfl, by simp [hm]⟩
        · rw [if_neg htu] at hr ⊢
          have := hF hr
          rw [hm] at this
          exact this

/-! ## What does not hold, and cases -/

/-- A file that is appended to at the time 4, with the times telling. -/
def growing : World Nat := ⟨fun _ => some 7, fun t _ => if t < 4 then ⟨false, [1], 1⟩ else ⟨false, [1, 2], 2⟩⟩

/-- A file of which both bytes are written at the time 5. -/
def rewritten : World Nat := ⟨fun _ => some 7, fun t _ => if t < 5 then ⟨false, [1, 2], 1⟩ else ⟨false, [3, 4], 2⟩⟩

/-- A file that is there at the times that are given. -/
def there (ts : Nat → Bool) : World Nat := ⟨fun t => if ts t then some 7 else none, fun _ _ => ⟨false, [1], 1⟩⟩

/-- **C138 is false** of a file that is changed meanwhile: the size is not that of the content that the checksum is of. -/
theorem C138_mixed_counterexample : Telling growing ∧
    ((ask growing id (fun _ => 1) 4096 9 true .new 0).map (·.1) = some (.info ⟨1, 7, 1, some [1, 2]⟩)) := by
  refine ⟨?_, by decide +kernel⟩
  intro a b i j hab hi hj hst
  cases hi
  cases hj
  intro k h1 h2
  refine ⟨rfl, fun i _ => ?_⟩
  simp only [growing] at hst ⊢
  by_cases ha : a < 4
  · rw [if_pos ha] at hst ⊢
    by_cases hb : b < 4
    · rw [if_pos (by omega)]
    · rw [if_neg hb] at hst
      cases hst
  · rw [if_neg ha, if_neg (by omega)]

/-- **C138 is false** also of the checksum by itself: it can be that of a content which the file never had. -/
theorem C138_never_counterexample :
    ((ask rewritten id (fun _ => 1) 4096 9 true .new 0).map (·.1) = some (.info ⟨2, 7, 1, some [1, 4]⟩)) ∧
    ∀ t, (rewritten.ino t 7).content ≠ [1, 4] := by
  refine ⟨by decide +kernel, fun t => ?_⟩
  simp only [rewritten]
  split <;> decide

/-- **C138**: where the path leads to nothing for a moment, what comes of it is an object without metadata, an `OSError`, a
`FileNotFoundError` or metadata without the checksum that was asked for. -/
theorem C138_vanishing :
    ((ask (there fun t => t != 0) id (fun _ => 1) 4096 9 true .new 0).map (·.1) = some .gone) ∧
    ((ask (there fun t => t = 0) id (fun _ => 1) 4096 9 true .new 0).map (·.1) = some (.raised .osError)) ∧
    ((ask (there fun t => t != 3) id (fun _ => 1) 4096 9 true .new 0).map (·.1) = some (.raised .fileNotFoundError)) ∧
    ((ask (there fun t => t != 2) id (fun _ => 1) 4096 9 true .new 0).map (·.1) = some (.info ⟨1, 7, 1, none⟩)) := by
  refine ⟨by decide +kernel, by decide +kernel, by decide +kernel, by decide +kernel⟩

/-- **C138 is false** if the times do not tell: after a file has been renamed away and back while it was asked for, without new times, the
metadata lacks the checksum from then on, however often it is asked for. -/
theorem C138_stale_counterexample (gaps : List Nat) : ∃ memo t, (asks (there fun t => t != 2) id (fun _ => 1) 4096 9
    ((0, true) :: gaps.map fun g => (g, true)) .new 0 = some (memo, t)) ∧ ∀ gap,
    (ask (there fun t => t != 2) id (fun _ => 1) 4096 9 true memo (t + gap)).map (·.1) = some (.info ⟨1, 7, 1, none⟩) := by
  have key : ∀ t, 3 ≤ t → ask (there fun t => t != 2) id (fun _ => 1) 4096 9 true ⟨some 1, some ⟨1, 7, 1, none⟩⟩ t =
      some (.info ⟨1, 7, 1, none⟩, ⟨some 1, some ⟨1, 7, 1, none⟩⟩, t + 2) := by
    intro t ht
    have h1 : (there fun t => t != 2).at_ t = some 7 := by simp [there]; omega
    have h2 : (there fun t => t != 2).at_ (t + 1) = some 7 := by simp [there]; omega
    unfold ask lookup
    rw [h1, h2]
    rfl
  have first : ask (there fun t => t != 2) id (fun _ => 1) 4096 9 true .new 0 =
      some (.info ⟨1, 7, 1, none⟩, ⟨some 1, some ⟨1, 7, 1, none⟩⟩, 3) := by rfl
  have rest : ∀ (gaps : List Nat) t, 3 ≤ t → ∃ t', 3 ≤ t' ∧ asks (there fun t => t != 2) id (fun _ => 1) 4096 9 (gaps.map fun g => (g, true))
      ⟨some 1, some ⟨1, 7, 1, none⟩⟩ t = some (⟨some 1, some ⟨1, 7, 1, none⟩⟩, t') := by
    intro gaps
    induction gaps with
    | nil => intro t ht; exact ⟨t, ht, rfl⟩
    | cons g gaps ih =>
      intro t ht
      rw [List.map_cons, asks, key (t + g) (by omega)]
      exact ih _ (by omega)
  obtain ⟨t', h3, ht'⟩ := rest gaps 3 (Nat.le_refl 3)
  refine ⟨_, t', ?_, fun gap => by rw [key (t' + gap) (by omega)]; rfl⟩
  rw [asks, Nat.add_zero, first]
  exact ht'

-- C138_right: the file that is appended to is asked for at the time 0, and again when nothing happens to it any more
example : ∃ memo t, asks growing id (fun _ => 1) 4096 9 [(0, true)] .new 0 = some (memo, t) ∧
    ask growing id (fun _ => 1) 4096 9 true memo (t + 0) = some (.info (truth growing id t 7), ⟨some 2, some ⟨2, 7, 2, some [1, 2]⟩⟩, t + 8) ∧
    Settled growing (t + 0) (t + 8) ∧ growing.at_ (t + 0) = some 7 := by
  refine ⟨⟨some 1, some ⟨1, 7, 1, some [1, 2]⟩⟩, 8, by rfl, by rfl, ?_, rfl⟩
  intro k h1 h2
  refine ⟨rfl, fun i _ => ?_⟩
  simp only [growing]
  rw [if_neg (by omega), if_neg (by omega)]

-- C138_growing: the checksum is that of what the file has at the time 6
example : ∃ m k, (Res.info ⟨1, 7, 1, some [1, 2]⟩ : Res Nat) = .info m ∧ 0 ≤ k ∧ k < 8 ∧ m.sum = some ((growing.ino k 7).content) ∧
    m.size ≤ (growing.ino k 7).content.length :=
  C138_growing growing id (fun _ => 1) 4096 9 (fun _ => Nat.one_pos) (t := 0) (t' := 8) (memo' := ⟨some 1, some ⟨1, 7, 1, some [1, 2]⟩⟩) (by rfl)
    (fun _ _ _ => rfl) (fun k _ _ => by simp only [growing]; split <;> rfl) fun k k' _ h _ => by
      simp only [growing]
      by_cases hk : k < 4
      · rw [if_pos hk]
        split
        · exact List.prefix_rfl
        · exact ⟨[2], rfl⟩
      · rw [if_neg hk, if_neg (by omega)]
        exact List.prefix_rfl

/-- What is at the path at a time is a file, or a directory. -/
def IsAt {τ : Type} (W : World τ) (t : Nat) (dir : Bool) : Prop := ∃ i, W.at_ t = some i ∧ (W.ino t i).dir = dir

/-- **C138**, what is raised by an object that remembers nothing, and when: an `OSError` if the path leads to something at first and to nothing the next
two times; and if a checksum is asked for and what is found afterwards is a file at first, a `FileNotFoundError` if nothing is there the next
time, and an `IsADirectoryError` if a directory is. -/
theorem C138_raises {τ : Type} [DecidableEq τ] (W : World τ) (h : Bytes → Bytes) (sizes : Nat → Nat) (n fuel t : Nat) (want : Bool) (e : PyErr) :
    (ask W h sizes n fuel want .new t).map (·.1) = some (.raised e) ↔
      W.at_ t ≠ none ∧
      ((W.at_ (t + 1) = none ∧ W.at_ (t + 2) = none ∧ e = .osError) ∨
        ∃ T, (T = t + 1 ∨ T = t + 2 ∧ W.at_ (t + 1) = none) ∧ W.at_ T ≠ none ∧ want = true ∧ IsAt W (T + 1) false ∧
          (W.at_ (T + 2) = none ∧ e = .fileNotFoundError ∨ IsAt W (T + 2) true ∧ e = .isADirectoryError)) := by
  have hfresh : ∀ i T, (fresh W h sizes n fuel want .new i T).map (·.1) = some (.raised e) ↔
      want = true ∧ IsAt W (T + 1) false ∧ (W.at_ (T + 2) = none ∧ e = .fileNotFoundError ∨ IsAt W (T + 2) true ∧ e = .isADirectoryError) := by
    intro i T
    unfold fresh
    cases want with
    | false => simp
    | true =>
      simp only [if_true, true_and, IsAt]
      unfold checksum
      cases h1 : W.at_ (T + 1) with
      | none => simp
      | some a =>
        simp only [Option.map_some]
        cases h2 : (W.ino (T + 1) a).dir with
        | true => simp [h2]
        | false =>
          simp only
          cases h3 : W.at_ (T + 2) with
          | none => simp [h2, eq_comm (a := e)]
          | some b =>
            simp only
            cases h4 : (W.ino (T + 2) b).dir with
            | true => simp [h2, h4, eq_comm (a := e)]
            | false =>
              simp only [Bool.false_eq_true, if_false]
              cases readLoop W sizes n b fuel 0 0 (T + 2 + 1) <;> simp_all
  unfold ask lookup
  cases h0 : W.at_ t with
  | none => simp
  | some a =>
    simp only
    cases h1 : W.at_ (t + 1) with
    | some i =>
      simp only [Memo.new]
      rw [show (⟨none, none⟩ : Memo τ) = .new from rfl, hfresh]
      constructor
      · rintro ⟨hw, h2, h3⟩
        exact ⟨by simp, .inr ⟨t + 1, .inl rfl, by simp [h1], hw, h2, h3⟩⟩
      · rintro ⟨-, ⟨h, -⟩ | ⟨T, hT | ⟨-, h⟩, -, hw, h2, h3⟩⟩
        · cases h
        · subst hT; exact ⟨hw, h2, h3⟩
        · cases h
    | none =>
      cases h2 : W.at_ (t + 1 + 1) with
      | some i =>
        simp only [Memo.new]
        rw [show (⟨none, none⟩ : Memo τ) = .new from rfl, hfresh]
        constructor
        · rintro ⟨hw, h3, h4⟩
          exact ⟨by simp, .inr ⟨t + 2, .inr ⟨rfl, trivial⟩, by simp [h2], hw, h3, h4⟩⟩
        · rintro ⟨-, ⟨-, h, -⟩ | ⟨T, hT | ⟨hT, -⟩, hn, hw, h3, h4⟩⟩
          · cases h
          · subst hT; exact absurd h1 hn
          · subst hT; exact ⟨hw, h3, h4⟩
      | none =>
        constructor
        · intro h
          simp only [Option.map_some, Option.some.injEq, Res.raised.injEq] at h
          exact ⟨by simp, .inl ⟨rfl, rfl, h.symm⟩⟩
        · rintro ⟨-, ⟨-, -, rfl⟩ | ⟨T, hT | ⟨hT, -⟩, hn, -⟩⟩
          · rfl
          · subst hT; exact absurd h1 hn
          · subst hT; exact absurd h2 hn

end Verif.MetaRace
