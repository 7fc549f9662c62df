import Verif.Lemmas.Symlink
import Verif.Spec.Symlink

namespace Verif.Symlink
open Verif Verif.Spec

theorem zipDecode_args (v : Int) : ∀ (ord : List Field) (cols : List Str) (kw : List (Str × PyVal)),
    ord.Nodup → zipDecode v ord cols = .ok kw →
    ∃ D : Field → Option PyVal, kw = kwOf D ord ∧
      ∀ f, match columnOf ord cols f with
        | some c => ∃ d, decode f c v = .ok d ∧ D f = some d
        | none => D f = none := by
  intro ord
  induction ord with
  | nil =>
    intro cols kw _ h
    simp [zipDecode] at h
    subst h
    exact ⟨fun _ => none, rfl, by simp [columnOf]⟩
  | cons g ord ih =>
    intro cols kw hn h
    rw [List.nodup_cons] at hn
    cases cols with
    | nil =>
      simp [zipDecode] at h
      subst h
      exact ⟨fun _ => none, by simp [kwOf], by simp [columnOf]⟩
    | cons c cols =>
      simp only [zipDecode] at h
      cases hd : decode g c v with
      | error e => simp [hd] at h
      | ok d =>
        cases hz : zipDecode v ord cols with
        | error e => simp [hd, hz] at h
        | ok l =>
          simp only [hd, hz, Except.ok.injEq] at h
          subst h
          obtain ⟨D, rfl, hD⟩ := ih cols l hn.2 hz
          refine ⟨fun f => if f = g then some d else D f, ?_, ?_⟩
          · rw [kwOf_cons]
            simp only [if_true, List.cons.injEq, true_and]
            apply kwOf_congr
            intro x hx
            have : ¬x = g := fun e => hn.1 (e ▸ hx)
            simp [this]
          · intro f
            by_cases hf : f = g
            · subst hf
              simp [columnOf, hd]
            · have hf' : ¬g = f := fun e => hf e.symm
              have := hD f
              simp only [columnOf, List.zip_cons_cons, List.find?_cons, hf', decide_false, hf, if_false] at this ⊢
              exact this

theorem zipDecode_ok (v : Int) : ∀ (ord : List Field) (cols : List Str), ord.Nodup →
    (∀ f c, columnOf ord cols f = some c → ∃ d, decode f c v = .ok d) →
    ∃ kw, zipDecode v ord cols = .ok kw := by
  intro ord
  induction ord with
  | nil => intro cols _ _; exact ⟨[], rfl⟩
  | cons g ord ih =>
    intro cols hn h
    rw [List.nodup_cons] at hn
    cases cols with
    | nil => exact ⟨[], rfl⟩
    | cons c cols =>
      obtain ⟨d, hd⟩ := h g c (by simp [columnOf])
      obtain ⟨kw, hkw⟩ := ih cols hn.2 (by
        intro f c' hc'
        apply h f c'
        have hne : ¬g = f := by
          intro e
          subst e
          simp only [columnOf, Option.map_eq_some_iff] at hc'
          obtain ⟨p, hp, _⟩ := hc'
          have h1 := List.mem_of_find?_eq_some hp
          have h2 := List.find?_some hp
          simp only [decide_eq_true_eq] at h2
          exact hn.1 (h2 ▸ (List.of_mem_zip h1).1)
        simpa [columnOf, hne] using hc')
      exact ⟨(g.toStr, d) :: kw, by simp [zipDecode, hd, hkw]⟩

theorem mkMeta_given (kw : List (Str × PyVal)) (a : Field → PyVal)
    (hself : dictGet (lit "self") kw = none)
    (ha : ∀ f : Field, (dictGet f.toStr kw).getD .none = a f)
    (hid : a .id = .none ∨ ∃ s, a .id = .str s) (hfile : a .file_id = .none ∨ ∃ i, a .file_id = .int i)
    (hsize : a .size = .none ∨ ∃ i, a .size = .int i)
    (herr : a .errors = .none ∨ ∃ l, a .errors = .strs l) :
    ∃ o, mkMeta kw = .ok o ∧ ∀ f, given o f = orUnset f (a f) := by
  have hf : ¬(!(a .file_id).truthy ∧ a .file_id ≠ .none ∧ a .file_id ≠ .int 0) := by
    rcases hfile with e | ⟨i, e⟩ <;> rw [e] <;> simp [PyVal.truthy]
  have hs : mkSize (a .size) = .ok (orUnset .size (a .size)) := by
    rcases hsize with e | ⟨i, e⟩ <;> rw [e] <;> rfl
  have he : mkErrors (a .errors) = .ok (orUnset .errors (a .errors)) := by
    rcases herr with e | ⟨i, e⟩ <;> rw [e] <;> rfl
  have hg : ∀ o : PathMeta,
      o.plain = (fun f => if f = .size then orUnset .size (a .size) else if f = .errors then
        orUnset .errors (a .errors) else a f) →
      o.created = mkSlot (a .created) → o.updated = mkSlot (a .updated) →
      ∀ f, given o f = orUnset f (a f) := by
    intro o h1 h2 h3 f
    have hdef : ∀ g : Field, g ≠ .errors → orUnset g (a g) = a g := by
      intro g hg
      cases h : a g <;> simp [orUnset]
      cases g <;> simp [unset] at hg ⊢
    have hslot : ∀ v : PyVal, (mkSlot v).ok.getD (mkSlot v).raw = v := by
      intro v; cases v <;> rfl
    cases f <;> simp [given, h1, h2, h3, hdef, hslot]
  unfold mkMeta
  simp only [hself, Option.isSome_none, Bool.false_eq_true, if_false, ha, hf, hs, he]
  rcases hid with e | ⟨s, e⟩
  · rw [e]; exact ⟨_, rfl, hg _ rfl rfl rfl⟩
  · rw [e]; exact ⟨_, rfl, hg _ rfl rfl rfl⟩

theorem decode_shapes (n : Int) (c : Str) (d : PyVal) :
    (decode .size c n = .ok d → d = .none ∨ ∃ i, d = .int i) ∧
    (decode .file_id c n = .ok d → d = .none ∨ ∃ i, d = .int i) ∧
    (decode .errors c n = .ok d → d = .none ∨ ∃ l, d = .strs l) ∧
    (decode .id c n = .ok d → d = .none ∨ ∃ s, d = .str s) := by
  by_cases hc : c = ['#']
  · simp only [decode, hc, if_true, Except.ok.injEq]
    exact ⟨fun h => .inl h.symm, fun h => .inl h.symm, fun h => .inl h.symm, fun h => .inl h.symm⟩
  · simp only [decode, hc, if_false]
    refine ⟨?_, ?_, ?_, ?_⟩
    · intro h
      split at h
      · cases h; exact .inr ⟨_, rfl⟩
      · cases h
    · intro h
      split at h
      · cases h; exact .inr ⟨_, rfl⟩
      · cases h
    · intro h; cases h; exact .inr ⟨_, rfl⟩
    · intro h; cases h; exact .inr ⟨_, rfl⟩

theorem decode_id_ok (n : Int) (c : Str) : ∃ d, decode .id c n = .ok d := by
  by_cases hc : c = ['#'] <;> simp [decode, hc]

end Verif.Symlink
