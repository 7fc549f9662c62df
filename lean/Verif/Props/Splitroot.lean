import Verif.Model.Splitroot
import Verif.Lemmas.Decide

/-!
# C74: splitting a Windows path loses nothing
-/

namespace Verif.Splitroot
open Verif

/-- The parts put together give the path, up to the number of separators at the root: there is no root
and no separator, or a root for one or more separators, or the path ended after the share of a network
path and the root is implied. -/
def Covers (path : Str) (t : Str × Str × Str) : Prop :=
  (t.2.1 = [] ∧ path = t.1 ++ t.2.2) ∨
  (t.2.1 = ['\\'] ∧ ∃ k, path = t.1 ++ List.replicate (k + 1) '\\' ++ t.2.2) ∨
  (t.2.1 = ['\\'] ∧ path = t.1 ∧ t.2.2 = [] ∧ ['\\', '\\'] <+: t.1)

theorem dropWhile_seps : ∀ s : Str, ∃ k, s = List.replicate k '\\' ++ s.dropWhile (fun c => decide (c = sep)) ∧
    (s.take 1 = [sep] → ∃ j, k = j + 1)
  | [] => ⟨0, rfl, by simp⟩
  | c :: s => by
    by_cases h : c = sep
    · obtain ⟨k, hk, -⟩ := dropWhile_seps s
      refine ⟨k + 1, ?_, fun _ => ⟨k, rfl⟩⟩
      rw [List.dropWhile_cons_of_pos (by simp [h]), List.replicate_succ, List.cons_append, ← hk, h]
      rfl
    · refine ⟨0, ?_, ?_⟩
      · rw [List.dropWhile_cons_of_neg (by simp [h])]; rfl
      · intro e
        simp only [List.take_succ_cons, List.take_zero, List.cons.injEq, and_true] at e
        exact absurd e h

theorem drive_covers (letters : List Str) (pre part : Str) : Covers (pre ++ part) (drive letters pre part) := by
  -- the drive, what is left, and its first character
  have fin : ∀ (drv rest : Str), part = drv ++ rest →
      Covers (pre ++ part) (if rest.take 1 = [sep] then (pre ++ drv, rest.take 1, rest.dropWhile (fun c => decide (c = sep)))
        else (pre ++ drv, [], rest)) := by
    rintro drv rest rfl
    by_cases h : rest.take 1 = [sep]
    · rw [if_pos h]
      obtain ⟨k, hk, hj⟩ := dropWhile_seps rest
      obtain ⟨j, rfl⟩ := hj h
      refine .inr (.inl ⟨h, j, ?_⟩)
      rw [List.append_assoc, List.append_assoc, ← hk]
    · rw [if_neg h]
      exact .inl ⟨rfl, by simp⟩
  unfold drive
  dsimp only
  by_cases h1 : (part.drop 1).take 1 = [':'] ∧ part.take 1 ∈ letters
  · rw [if_pos h1]
    exact fin _ _ (List.take_append_drop 2 part).symm
  · rw [if_neg h1]
    cases h2 : find ':' 0 part with
    | none => exact fin [] part rfl
    | some i1 =>
      dsimp only
      split
      · exact fin _ _ (List.take_append_drop i1 part).symm
      · exact fin [] part rfl

theorem take_sep_drop {part : Str} {k i : Nat} (h : find sep k part = some i) :
    part = part.take i ++ '\\' :: part.drop (i + 1) := by
  unfold find at h
  cases hf : (part.drop k).findIdx? (fun c => decide (c = sep)) with
  | none => rw [hf] at h; cases h
  | some j =>
    rw [hf] at h
    simp only [Option.map_some, Option.some.injEq] at h
    subst h
    obtain ⟨hlt, hp, -⟩ := List.findIdx?_eq_some_iff_getElem.1 hf
    simp only [List.length_drop] at hlt
    simp only [List.getElem_drop, decide_eq_true_eq] at hp
    have hj : j + k < part.length := by omega
    have e : part.drop (j + k) = part[j + k] :: part.drop (j + k + 1) := List.drop_eq_getElem_cons hj
    have hp' : part[j + k] = '\\' := by
      have := hp
      simp only [Nat.add_comm k j] at this
      exact this
    rw [hp'] at e
    rw [← e, List.take_append_drop]

theorem find_ge {c : Char} {s : Str} {k i : Nat} (h : find c k s = some i) : k ≤ i := by
  unfold find at h
  cases hf : (s.drop k).findIdx? (fun x => decide (x = c)) with
  | none => rw [hf] at h; cases h
  | some j => rw [hf] at h; simp at h; omega

theorem two_seps {part : Str} (h1 : (part.drop 1).take 1 = [sep]) (h2 : part.take 1 = [sep]) : ∃ t, part = '\\' :: '\\' :: t := by
  match part, h1, h2 with
  | a :: b :: t, h1, h2 =>
    simp at h1 h2
    exact ⟨t, by rw [h1, h2]; rfl⟩
  | [a], h1, _ => simp at h1
  | [], h1, _ => simp at h1

/-- What the extended prefix leaves: the path is the prefix and the rest, where for a network path
one of the two separators of the rest was added. -/
theorem splitExtended_cases (s : Str) :
    ((splitExtended s).1 = [] ∧ (splitExtended s).2 = s) ∨
    ((splitExtended s).1 ≠ [] ∧ ['\\', '\\'] <+: (splitExtended s).1 ∧
      (s = (splitExtended s).1 ++ (splitExtended s).2 ∨
        ∃ t, (splitExtended s).2 = '\\' :: '\\' :: t ∧ s = (splitExtended s).1 ++ '\\' :: t)) := by
  unfold splitExtended
  split
  · rename_i h
    right
    rw [List.isPrefixOf_iff_prefix] at h
    obtain ⟨t, rfl⟩ := h
    have e4 : lit "\\\\?\\" = ['\\', '\\', '?', '\\'] := by decide
    rw [e4]
    dsimp only
    have ht : (['\\', '\\', '?', '\\'] ++ t).take 4 = ['\\', '\\', '?', '\\'] := by simp
    have hd : (['\\', '\\', '?', '\\'] ++ t).drop 4 = t := by simp
    rw [ht, hd]
    split
    · rename_i h
      rw [List.isPrefixOf_iff_prefix] at h
      obtain ⟨u, rfl⟩ := h
      have eU : lit "UNC\\" = ['U', 'N', 'C', '\\'] := by decide
      rw [eU]
      refine ⟨by simp, ⟨_, rfl⟩, .inr ⟨u, ?_, ?_⟩⟩
      · simp
      · simp
    · exact ⟨by simp, ⟨_, rfl⟩, .inl rfl⟩
  · exact .inl ⟨rfl, rfl⟩

theorem find_zero_sep (t : Str) : find sep 0 ('\\' :: t) = some 0 := by
  rw [find, List.drop_zero, List.findIdx?_cons]
  simp [sep]

/-- A path that starts with two separators has no drive letter. -/
theorem drive_two (letters : List Str) (pre t : Str) : drive letters pre ('\\' :: '\\' :: t) =
    (pre, [sep], ('\\' :: t).dropWhile (fun c => decide (c = sep))) := by
  have e : ∀ i1 : Nat, ¬ (comesFirst i1 (some 0) = true ∧ ('\\' :: '\\' :: t).take i1 ∈ letters) := by
    intro i1 h
    simp [comesFirst] at h
  have e2 : ¬ ((('\\' :: '\\' :: t).drop 1).take 1 = [':'] ∧ ('\\' :: '\\' :: t).take 1 ∈ letters) := by
    simp
  have e3 : ('\\' :: '\\' :: t).take 1 = [sep] := rfl
  have e4 : ('\\' :: '\\' :: t).dropWhile (fun c => decide (c = sep)) = ('\\' :: t).dropWhile (fun c => decide (c = sep)) :=
    List.dropWhile_cons_of_pos (by decide)
  unfold drive
  dsimp only
  rw [if_neg e2, find_zero_sep]
  cases find ':' 0 ('\\' :: '\\' :: t) with
  | none =>
    dsimp only
    rw [if_pos e3, e4, e3, List.append_nil]
  | some i1 =>
    simp only [e i1, if_false]
    rw [if_pos e3, e4, e3, List.append_nil]

theorem splitExtended_odd {s : Str} (h : s = (splitExtended s).1 ++ (splitExtended s).2) (hne : (splitExtended s).1 ≠ [])
    (h2 : ∃ t, (splitExtended s).2 = '\\' :: '\\' :: t) : lit "\\\\?\\\\\\" <+: s := by
  obtain ⟨t, ht⟩ := h2
  unfold splitExtended at h hne ht
  split at hne
  · rename_i hp
    rw [if_pos hp] at h ht
    dsimp only at h ht
    split at ht
    · rename_i hu
      exfalso
      rw [if_pos hu] at h
      have := congrArg List.length h
      rw [List.isPrefixOf_iff_prefix] at hp hu
      have l1 := hp.length_le
      have l2 := hu.length_le
      have e4 : (lit "\\\\?\\").length = 4 := by decide
      have eU : (lit "UNC\\").length = 4 := by decide
      simp only [List.length_append, List.length_take, List.length_drop, List.length_cons] at this l2
      omega
    · rename_i hu
      rw [if_neg hu] at h
      rw [List.isPrefixOf_iff_prefix] at hp
      obtain ⟨u, rfl⟩ := hp
      have e4 : lit "\\\\?\\" = ['\\', '\\', '?', '\\'] := by decide
      have e6 : lit "\\\\?\\\\\\" = ['\\', '\\', '?', '\\', '\\', '\\'] := by decide
      rw [e4] at ht ⊢
      have hd : (['\\', '\\', '?', '\\'] ++ u).drop 4 = u := by simp
      rw [hd] at ht
      subst ht
      rw [e6]
      exact ⟨t, by simp⟩
  · exact absurd rfl hne

/-- C74.  Drive, root and rest of a path together are the path, up to repeated separators at the root.
Missing from the full statement: paths with two separators after the prefix for extended paths. -/
theorem C74_nothing_lost_partial (letters : List Str) (path : Str) (hodd : ¬ lit "\\\\?\\\\\\" <+: path) :
    Covers path (splitroot letters path) := by
  unfold splitroot
  dsimp only
  -- what is split after the extended prefix, and how it relates to the path
  have key : ∀ (pre part : Str),
      ((pre = [] ∧ part = path) ∨ (pre ≠ [] ∧ ['\\', '\\'] <+: pre ∧
        ((path = pre ++ part ∧ ¬ ∃ t, part = '\\' :: '\\' :: t) ∨ ∃ t, part = '\\' :: '\\' :: t ∧ path = pre ++ '\\' :: t))) →
      Covers path (if (part.drop 1).take 1 = [sep] ∧ part.take 1 = [sep] ∧ (part.drop 2).take 1 ≠ [sep] then
        match find sep 2 part with
        | none => drive letters pre part
        | some index =>
          match find sep (index + 1) part with
          | none =>
            if pre ≠ [] then (pre ++ (part.take part.length).drop 1, [sep], part.drop (part.length + 1))
            else (part.take part.length, [sep], part.drop (part.length + 1))
          | some index2 =>
            if index2 ≠ index + 1 then
              if pre ≠ [] then (pre ++ (part.take index2).drop 1, [sep], part.drop (index2 + 1))
              else (part.take index2, [sep], part.drop (index2 + 1))
            else drive letters pre part
        else drive letters pre part) := by
    intro pre part hrel
    have hdrive : Covers path (drive letters pre part) := by
      rcases hrel with ⟨rfl, rfl⟩ | ⟨hne, hpre, ⟨rfl, -⟩ | ⟨t, rfl, rfl⟩⟩
      · exact drive_covers letters [] part
      · exact drive_covers letters pre part
      · rw [drive_two]
        obtain ⟨k, hk, hj⟩ := dropWhile_seps ('\\' :: t)
        obtain ⟨j, rfl⟩ := hj (by simp [sep])
        refine .inr (.inl ⟨rfl, j, ?_⟩)
        rw [List.append_assoc, ← hk]
    split
    · rename_i hunc
      obtain ⟨t, ht⟩ := two_seps hunc.1 hunc.2.1
      split
      · exact hdrive
      · rename_i index hi
        have hige := find_ge hi
        split
        · -- nothing after the share
          rw [List.take_length, List.drop_of_length_le (Nat.le_succ _)]
          refine .inr (.inr ?_)
          rcases hrel with ⟨rfl, rfl⟩ | ⟨hne, hpre, ⟨-, hno⟩ | ⟨u, hu, hp⟩⟩
          · rw [if_neg (by simp)]
            exact ⟨rfl, rfl, rfl, ⟨t, ht.symm⟩⟩
          · exact absurd ⟨t, ht⟩ hno
          · rw [if_pos hne]
            refine ⟨rfl, ?_, rfl, ?_⟩
            · rw [hp, hu]; rfl
            · exact hpre.trans (List.prefix_append _ _)
        · rename_i index2 hi2
          have hge2 := find_ge hi2
          split
          · have e := take_sep_drop hi2
            refine .inr (.inl ?_)
            rcases hrel with ⟨rfl, rfl⟩ | ⟨hne, hpre, ⟨-, hno⟩ | ⟨u, hu, hp⟩⟩
            · rw [if_neg (by simp)]
              refine ⟨rfl, 0, ?_⟩
              dsimp only
              rw [List.append_assoc]
              exact e
            · exact absurd ⟨t, ht⟩ hno
            · rw [if_pos hne]
              refine ⟨rfl, 0, ?_⟩
              dsimp only
              have e1 : part.drop 1 = (part.take index2).drop 1 ++ '\\' :: part.drop (index2 + 1) := by
                conv => lhs; rw [e]
                rw [List.drop_append_of_le_length]
                have hl := congrArg List.length e
                simp only [List.length_append, List.length_cons, List.length_drop, List.length_take] at hl ⊢
                omega
              have e2 : part.drop 1 = '\\' :: u := by rw [hu]; rfl
              rw [hp, ← e2, e1]
              simp
          · exact hdrive
    · exact hdrive
  by_cases hext : (path.drop 1).take 1 = [sep] ∧ path.take 1 = [sep]
  · rw [if_pos hext, if_pos hext]
    refine key _ _ ?_
    rcases splitExtended_cases path with h | ⟨h1, h2, h3 | h3⟩
    · exact .inl h
    · exact .inr ⟨h1, h2, .inl ⟨h3, fun h => hodd (splitExtended_odd h3 h1 h)⟩⟩
    · exact .inr ⟨h1, h2, .inr h3⟩
  · rw [if_neg hext, if_neg hext]
    exact key [] path (.inl ⟨rfl, rfl⟩)

/-- C74 is false of the code for a network path after the prefix for extended paths: a separator is lost. -/
theorem C74_extended_counterexample :
    splitroot [] (lit "\\\\?\\\\\\a\\b\\c") = (lit "\\\\?\\\\a\\b", ['\\'], lit "c") := by decide +kernel

theorem not_ext {c : Char} {t : Str} (h : c ≠ '\\') :
    ¬ (((c :: t).drop 1).take 1 = [sep] ∧ (c :: t).take 1 = [sep]) := by
  rintro ⟨-, e⟩
  simp only [List.take_succ_cons, List.take_zero, List.cons.injEq, and_true] at e
  exact h e

/-- Paths that do not start with a separator are only split into drive, root and rest. -/
theorem splitroot_plain (letters : List Str) {c : Char} {t : Str} (h : c ≠ '\\') :
    splitroot letters (c :: t) = drive letters [] (c :: t) := by
  unfold splitroot
  dsimp only
  rw [if_neg (not_ext h), if_neg (not_ext h), if_neg (fun e => not_ext h ⟨e.1, e.2.1⟩)]

/-- C74.  A drive letter with its colon is the drive, and the path is rooted exactly if a separator
follows. -/
theorem C74_letter (letters : List Str) (c : Char) (rest : Str) (hc : [c] ∈ letters) (hs : c ≠ '\\') :
    splitroot letters (c :: ':' :: rest) =
      if rest.head? = some '\\' then ([c, ':'], ['\\'], rest.dropWhile (· = '\\')) else ([c, ':'], [], rest) := by
  rw [splitroot_plain letters hs, drive]
  have h1 : ((c :: ':' :: rest).drop 1).take 1 = [':'] ∧ (c :: ':' :: rest).take 1 ∈ letters := ⟨by simp, by simpa using hc⟩
  simp only [h1, and_self, if_true]
  cases rest with
  | nil => simp [sep]
  | cons d ds =>
    by_cases hd : d = '\\'
    · simp [hd, sep]; rfl
    · simp [hd, sep]

/-- C74.  A registry hive is the drive without its colon: the colon stays in the rest, and a path in the
registry is never rooted. -/
theorem C74_hive (letters : List Str) (name rest : Str) (hn : name ∈ letters) (h2 : 2 ≤ name.length) (hc : ':' ∉ name)
    (hs : '\\' ∉ name) : splitroot letters (name ++ ':' :: rest) = (name, [], ':' :: rest) := by
  match name, h2 with
  | a :: b :: t, _ =>
    simp only [List.mem_cons, not_or] at hc hs
    rw [List.cons_append, splitroot_plain letters (fun e => hs.1 e.symm), drive]
    have h1 : ¬ (((a :: (b :: t ++ ':' :: rest)).drop 1).take 1 = [':'] ∧ (a :: (b :: t ++ ':' :: rest)).take 1 ∈ letters) := by
      rintro ⟨e, -⟩
      simp only [List.cons_append, List.drop_succ_cons, List.drop_zero, List.take_succ_cons, List.take_zero, List.cons.injEq,
        and_true] at e
      exact hc.2.1 e.symm
    have hfind : ∀ (x : Char) (w u : Str), x ∉ w → find x 0 (w ++ x :: u) = some w.length := by
      intro x w u hw
      rw [find, List.drop_zero]
      have : (w ++ x :: u).findIdx? (fun c => decide (c = x)) = some w.length := by
        rw [List.findIdx?_eq_some_iff_getElem]
        refine ⟨by simp, by simp, fun j hj => ?_⟩
        rw [List.getElem_append_left hj]
        simp only [decide_eq_true_eq]
        intro e
        exact hw (e ▸ List.getElem_mem hj)
      rw [this]; rfl
    have hi : find ':' 0 (a :: (b :: t ++ ':' :: rest)) = some (t.length + 2) := by
      have := hfind ':' (a :: b :: t) rest (by simp only [List.mem_cons, not_or]; exact hc)
      simpa using this
    have hcf : comesFirst (t.length + 2) (find sep 0 (a :: (b :: t ++ ':' :: rest))) = true := by
      cases hf : find sep 0 (a :: (b :: t ++ ':' :: rest)) with
      | none => rfl
      | some i =>
        have e := take_sep_drop hf
        simp only [comesFirst, decide_eq_true_eq]
        refine Classical.byContradiction fun hlt => ?_
        have hlt' : i < t.length + 2 ∨ i = t.length + 2 := by omega
        have hel : (a :: (b :: t ++ ':' :: rest))[i]? = some '\\' := by
          have hil : i < (a :: (b :: t ++ ':' :: rest)).length := by simp; omega
          rw [e, List.getElem?_append_right (by rw [List.length_take]; exact Nat.min_le_left _ _)]
          simp only [List.length_take]
          rw [Nat.min_eq_left (by omega), Nat.sub_self]
          rfl
        have hw : (a :: (b :: t ++ ':' :: rest)) = (a :: b :: t) ++ ':' :: rest := rfl
        rw [hw] at hel
        rcases hlt' with h | h
        · rw [List.getElem?_append_left (by simpa using h)] at hel
          have := List.mem_of_getElem? hel
          simp only [List.mem_cons] at this
          rcases this with h | h | h
          · exact hs.1 h
          · exact hs.2.1 h
          · exact hs.2.2 h
        · subst h
          rw [List.getElem?_append_right (by simp)] at hel
          simp at hel
    have ht : (a :: (b :: t ++ ':' :: rest)).take (t.length + 2) = a :: b :: t := by simp
    have hd : (a :: (b :: t ++ ':' :: rest)).drop (t.length + 2) = ':' :: rest := by simp
    have hcol : ¬ [':'] = [sep] := by decide
    dsimp only
    rw [if_neg h1, hi]
    dsimp only
    have hpos : comesFirst (t.length + 2) (find sep 0 (a :: (b :: t ++ ':' :: rest))) = true ∧
        (a :: (b :: t ++ ':' :: rest)).take (t.length + 2) ∈ letters := ⟨hcf, by rw [ht]; exact hn⟩
    simp only [hpos, and_self, if_true]
    rw [ht, hd, if_neg (by exact hcol)]
    rfl

/-- C74.  The machine and the share of a network path are the drive. -/
theorem C74_share (letters : List Str) (machine share rest : Str) (hm : machine ≠ []) (hs : share ≠ []) (hm' : '\\' ∉ machine)
    (hs' : '\\' ∉ share) (hq : machine ≠ ['?']) :
    splitroot letters ('\\' :: '\\' :: (machine ++ '\\' :: (share ++ '\\' :: rest))) =
      ('\\' :: '\\' :: (machine ++ '\\' :: share), ['\\'], rest) := by
  have hfind : ∀ (k : Nat) (p w u : Str), p.length = k → '\\' ∉ w → find sep k (p ++ (w ++ '\\' :: u)) = some (w.length + k) := by
    intro k p w u hk hw
    subst hk
    rw [find, List.drop_left]
    have : (w ++ '\\' :: u).findIdx? (fun c => decide (c = sep)) = some w.length := by
      rw [List.findIdx?_eq_some_iff_getElem]
      refine ⟨by simp, by simp [sep], fun j hj => ?_⟩
      rw [List.getElem_append_left hj]
      simp only [decide_eq_true_eq]
      intro e
      exact hw (by rw [show ('\\' : Char) = sep from rfl, ← e]; exact List.getElem_mem hj)
    rw [this]; rfl
  have hext : splitExtended ('\\' :: '\\' :: (machine ++ '\\' :: (share ++ '\\' :: rest))) =
      ([], '\\' :: '\\' :: (machine ++ '\\' :: (share ++ '\\' :: rest))) := by
    unfold splitExtended
    rw [if_neg]
    intro h
    rw [List.isPrefixOf_iff_prefix, show lit "\\\\?\\" = ['\\', '\\', '?', '\\'] by decide] at h
    obtain ⟨t, ht⟩ := h
    simp only [List.cons_append, List.nil_append, List.cons.injEq, true_and] at ht
    match machine, hm, hq with
    | [c], _, hq =>
      simp only [List.cons_append, List.nil_append, List.cons.injEq] at ht
      exact hq (by rw [ht.1])
    | c :: d :: t', _, _ =>
      simp only [List.cons_append, List.cons.injEq] at ht
      simp only [List.mem_cons, not_or] at hm'
      exact hm'.2.1 ht.2.1
  have hi1 : find sep 2 ('\\' :: '\\' :: (machine ++ '\\' :: (share ++ '\\' :: rest))) = some (machine.length + 2) :=
    hfind 2 ['\\', '\\'] machine _ rfl hm'
  have hi2 : find sep (machine.length + 2 + 1) ('\\' :: '\\' :: (machine ++ '\\' :: (share ++ '\\' :: rest))) =
      some (share.length + (machine.length + 2 + 1)) := by
    have := hfind (machine.length + 2 + 1) ('\\' :: '\\' :: (machine ++ ['\\'])) share rest (by simp) hs'
    simpa using this
  have h3 : ((('\\' :: '\\' :: (machine ++ '\\' :: (share ++ '\\' :: rest))).drop 2).take 1) ≠ [sep] := by
    match machine, hm with
    | c :: t, _ =>
      simp only [List.mem_cons, not_or] at hm'
      simp only [List.drop_succ_cons, List.drop_zero, List.cons_append, List.take_succ_cons, List.take_zero, ne_eq, List.cons.injEq,
        and_true]
      exact fun e => hm'.1 e.symm
  have hne : share.length + (machine.length + 2 + 1) ≠ machine.length + 2 + 1 := by
    have := List.length_pos_iff.2 hs
    omega
  unfold splitroot
  have hx : (('\\' :: '\\' :: (machine ++ '\\' :: (share ++ '\\' :: rest))).drop 1).take 1 = [sep] := rfl
  have hy : ('\\' :: '\\' :: (machine ++ '\\' :: (share ++ '\\' :: rest))).take 1 = [sep] := rfl
  have htake : ('\\' :: '\\' :: (machine ++ '\\' :: (share ++ '\\' :: rest))).take (share.length + (machine.length + 2 + 1)) =
      '\\' :: '\\' :: (machine ++ '\\' :: share) := by
    have e : '\\' :: '\\' :: (machine ++ '\\' :: (share ++ '\\' :: rest)) = ('\\' :: '\\' :: (machine ++ '\\' :: share)) ++ '\\' :: rest := by simp
    rw [e, List.take_left' (by simp; omega)]
  have hdrop : ('\\' :: '\\' :: (machine ++ '\\' :: (share ++ '\\' :: rest))).drop (share.length + (machine.length + 2 + 1) + 1) =
      rest := by
    have e : '\\' :: '\\' :: (machine ++ '\\' :: (share ++ '\\' :: rest)) = ('\\' :: '\\' :: (machine ++ '\\' :: share) ++ ['\\']) ++ rest := by simp
    rw [e, List.drop_left' (by simp; omega)]
  dsimp only
  generalize hP : '\\' :: '\\' :: (machine ++ '\\' :: (share ++ '\\' :: rest)) = P at *
  have hxy : (P.drop 1).take 1 = [sep] ∧ P.take 1 = [sep] := ⟨hx, hy⟩
  rw [if_pos hxy, if_pos hxy, hext]
  dsimp only
  have hxyz : (P.drop 1).take 1 = [sep] ∧ P.take 1 = [sep] ∧ (P.drop 2).take 1 ≠ [sep] := ⟨hx, hy, h3⟩
  rw [if_pos hxyz, hi1]
  dsimp only
  rw [hi2]
  dsimp only
  rw [if_pos hne, if_neg (by simp), htake, hdrop]
  rfl

/-- The letters on windows with the registry hives that augpathlib adds (core.py 855 and 922). -/
def sampleLetters : List Str := [lit "C", lit "c", lit "hklm", lit "HKLM"]

example : splitroot sampleLetters (lit "C:\\\\Users\\x") = (lit "C:", ['\\'], lit "Users\\x") := by decide +kernel
example : splitroot sampleLetters (lit "hklm:\\Software") = (lit "hklm", [], lit ":\\Software") := by decide +kernel
example : splitroot sampleLetters (lit "\\\\box\\share\\x\\y") = (lit "\\\\box\\share", ['\\'], lit "x\\y") := by decide +kernel
example : ¬ lit "\\\\?\\\\\\" <+: lit "\\\\?\\UNC\\box\\share" := by decide +kernel

theorem find_skip (k : Nat) (p w u : Str) (hk : p.length = k) (hw : '\\' ∉ w) :
    find sep k (p ++ (w ++ '\\' :: u)) = some (w.length + k) := by
  subst hk
  rw [find, List.drop_left]
  have : (w ++ '\\' :: u).findIdx? (fun c => decide (c = sep)) = some w.length := by
    rw [List.findIdx?_eq_some_iff_getElem]
    refine ⟨by simp, by simp [sep], fun j hj => ?_⟩
    rw [List.getElem_append_left hj]
    simp only [decide_eq_true_eq]
    intro e
    exact hw (by rw [show ('\\' : Char) = sep from rfl, ← e]; exact List.getElem_mem hj)
  rw [this]; rfl

theorem find_none (k : Nat) (p w : Str) (hk : p.length = k) (hw : '\\' ∉ w) : find sep k (p ++ w) = none := by
  subst hk
  rw [find, List.drop_left]
  have : w.findIdx? (fun c => decide (c = sep)) = none := by
    rw [List.findIdx?_eq_none_iff]
    intro x hx
    simp only [decide_eq_false_iff_not]
    rintro rfl
    exact hw hx
  rw [this]; rfl

theorem splitroot_extended (letters : List Str) (t : Str) : splitroot letters (lit "\\\\?\\\\\\" ++ t) =
    if t.take 1 ≠ [sep] then
      match find sep 2 ('\\' :: '\\' :: t) with
      | none => drive letters (lit "\\\\?\\") ('\\' :: '\\' :: t)
      | some index =>
        match find sep (index + 1) ('\\' :: '\\' :: t) with
        | none => (lit "\\\\?\\" ++ '\\' :: t, [sep], [])
        | some index2 =>
          if index2 ≠ index + 1 then (lit "\\\\?\\" ++ (('\\' :: '\\' :: t).take index2).drop 1, [sep], ('\\' :: '\\' :: t).drop (index2 + 1))
          else drive letters (lit "\\\\?\\") ('\\' :: '\\' :: t)
    else drive letters (lit "\\\\?\\") ('\\' :: '\\' :: t) := by
  have e : lit "\\\\?\\\\\\" ++ t = '\\' :: '\\' :: '?' :: '\\' :: '\\' :: '\\' :: t := rfl
  have e4 : lit "\\\\?\\" = ['\\', '\\', '?', '\\'] := rfl
  have hs : splitExtended (lit "\\\\?\\\\\\" ++ t) = (lit "\\\\?\\", '\\' :: '\\' :: t) := by
    rw [e, e4]
    simp [splitExtended, lit, List.isPrefixOf]
  unfold splitroot
  dsimp only
  have hext : ((lit "\\\\?\\\\\\" ++ t).drop 1).take 1 = [sep] ∧ (lit "\\\\?\\\\\\" ++ t).take 1 = [sep] := by
    rw [e]; exact ⟨rfl, rfl⟩
  rw [if_pos hext, if_pos hext, hs]
  dsimp only
  have h1 : (('\\' :: '\\' :: t).drop 1).take 1 = [sep] := rfl
  have h2 : ('\\' :: '\\' :: t).take 1 = [sep] := rfl
  have h3 : (('\\' :: '\\' :: t).drop 2).take 1 = t.take 1 := rfl
  have hne : lit "\\\\?\\" ≠ [] := by decide
  rw [h3]
  by_cases ht : t.take 1 ≠ [sep]
  · rw [if_pos ⟨h1, h2, ht⟩, if_pos ht]
    cases find sep 2 ('\\' :: '\\' :: t) with
    | none => rfl
    | some i =>
      dsimp only
      cases find sep (i + 1) ('\\' :: '\\' :: t) with
      | none =>
        dsimp only
        rw [if_pos hne, List.take_length]
        have : ('\\' :: '\\' :: t).drop (('\\' :: '\\' :: t).length + 1) = [] := List.drop_eq_nil_of_le (by omega)
        rw [this]
        rfl
      | some j =>
        dsimp only
        rw [if_pos hne]
  · rw [if_neg ht, if_neg (fun h => ht h.2.2)]

/-- C74, exactly when nothing is lost: unless a network path with two separators follows the prefix for extended paths. -/
theorem C74_nothing_lost_iff (letters : List Str) (path : Str) :
    Covers path (splitroot letters path) ↔
      ¬ ∃ machine more, machine ≠ [] ∧ '\\' ∉ machine ∧ more.head? ≠ some '\\' ∧ path = lit "\\\\?\\\\\\" ++ (machine ++ '\\' :: more) := by
  constructor
  · rintro h ⟨machine, more, hm, hm', hmore, rfl⟩
    have hpre : (splitroot letters (lit "\\\\?\\\\\\" ++ (machine ++ '\\' :: more))).1 <+: lit "\\\\?\\\\\\" ++ (machine ++ '\\' :: more) := by
      rcases h with ⟨-, h⟩ | ⟨-, k, h⟩ | ⟨-, h, -⟩
      · exact ⟨_, h.symm⟩
      · exact ⟨List.replicate (k + 1) '\\' ++ _, by rw [← List.append_assoc]; exact h.symm⟩
      · exact ⟨[], by rw [List.append_nil]; exact h.symm⟩
    clear h
    obtain ⟨m, ms, rfl⟩ : ∃ m ms, machine = m :: ms := by
      cases machine with
      | nil => exact absurd rfl hm
      | cons m ms => exact ⟨m, ms, rfl⟩
    have hms : m ≠ '\\' := fun e => hm' (by simp [e])
    have hms' : '\\' ≠ m := Ne.symm hms
    rw [splitroot_extended, if_pos (by simpa [sep] using hms)] at hpre
    have hf : find sep 2 ('\\' :: '\\' :: (m :: ms ++ '\\' :: more)) = some ((m :: ms).length + 2) :=
      find_skip 2 ['\\', '\\'] (m :: ms) more rfl hm'
    rw [hf] at hpre
    dsimp only at hpre
    have e6 : ∀ x : Str, lit "\\\\?\\\\\\" ++ x = '\\' :: '\\' :: '?' :: '\\' :: '\\' :: '\\' :: x := fun _ => rfl
    have e4 : ∀ x : Str, lit "\\\\?\\" ++ x = '\\' :: '\\' :: '?' :: '\\' :: x := fun _ => rfl
    cases hj : find sep ((m :: ms).length + 2 + 1) ('\\' :: '\\' :: (m :: ms ++ '\\' :: more)) with
    | none =>
      rw [hj] at hpre
      dsimp only at hpre
      rw [e6, e4] at hpre
      simp [List.cons_prefix_cons, hms] at hpre
    | some j =>
      rw [hj] at hpre
      dsimp only at hpre
      have hge := find_ge hj
      have hne : j ≠ (m :: ms).length + 2 + 1 := by
        rintro rfl
        have := take_sep_drop hj
        have hget : ('\\' :: '\\' :: (m :: ms ++ '\\' :: more))[(m :: ms).length + 2 + 1]? = some '\\' := by
          rw [this, List.getElem?_append_right (by simp)]
          simp only [List.length_take]
          have : min ((m :: ms).length + 2 + 1) ('\\' :: '\\' :: (m :: ms ++ '\\' :: more)).length = (m :: ms).length + 2 + 1 := by
            simp
          rw [this]
          simp
        have : more[0]? = some '\\' := by
          have e2 : '\\' :: '\\' :: (m :: ms ++ '\\' :: more) = ('\\' :: '\\' :: (m :: ms ++ ['\\'])) ++ more := by simp
          rw [e2, List.getElem?_append_right (by simp)] at hget
          simpa using hget
        exact hmore (by rw [List.head?_eq_getElem?]; exact this)
      rw [if_pos hne, e6, e4] at hpre
      obtain ⟨j', rfl⟩ : ∃ j', j = j' + 3 := ⟨j - 3, by simp at hge; omega⟩
      simp [List.cons_prefix_cons, hms] at hpre
  · intro h
    by_cases hodd : lit "\\\\?\\\\\\" <+: path
    · obtain ⟨t, rfl⟩ := hodd
      have hdrive : Covers (lit "\\\\?\\\\\\" ++ t) (drive letters (lit "\\\\?\\") ('\\' :: '\\' :: t)) := by
        have e : lit "\\\\?\\\\\\" ++ t = lit "\\\\?\\" ++ ('\\' :: '\\' :: t) := rfl
        rw [e]
        exact drive_covers letters _ _
      rw [splitroot_extended]
      by_cases ht : t.take 1 ≠ [sep]
      · rw [if_pos ht]
        by_cases hs : '\\' ∈ t
        · obtain ⟨w, u, rfl, hw⟩ := List.eq_append_cons_of_mem hs
          have hw0 : w ≠ [] := by
            rintro rfl
            exact ht rfl
          have hu : u.head? = some '\\' := by
            by_cases hu : u.head? = some '\\'
            · exact hu
            · exact absurd ⟨w, u, hw0, hw, hu, rfl⟩ h
          have hf : find sep 2 ('\\' :: '\\' :: (w ++ '\\' :: u)) = some (w.length + 2) := find_skip 2 ['\\', '\\'] w u rfl hw
          obtain ⟨u', rfl⟩ : ∃ u', u = '\\' :: u' := by
            cases u with
            | nil => simp at hu
            | cons c u' => simp at hu; exact ⟨u', by rw [hu]⟩
          have hf2 : find sep (w.length + 2 + 1) ('\\' :: '\\' :: (w ++ '\\' :: '\\' :: u')) = some (w.length + 2 + 1) := by
            have := find_skip (w.length + 2 + 1) ('\\' :: '\\' :: (w ++ ['\\'])) [] u' (by simp) (by simp)
            simpa using this
          rw [hf]
          dsimp only
          rw [hf2]
          dsimp only
          rw [if_neg (by simp)]
          exact hdrive
        · have hf : find sep 2 ('\\' :: '\\' :: t) = none := find_none 2 ['\\', '\\'] t rfl hs
          rw [hf]
          exact hdrive
      · rw [if_neg ht]
        exact hdrive
    · exact C74_nothing_lost_partial letters path hodd

end Verif.Splitroot
