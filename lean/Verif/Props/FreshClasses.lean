import Verif.Model.FreshClasses
import Verif.Lemmas.Classes
import Verif.Lemmas.Decide

/-!
# C113: the classes of paths with extended attributes from python 3.12 on
-/

namespace Verif.Classes

/-! ## Where a path comes from -/

/-- The path each path goes back to, the number of one that was made by calling a class. -/
def originStep (l : List Nat) : PathOp → List Nat
  | .call _ => l ++ [l.length]
  | .derive i => match l[i]? with
    | some r => l ++ [r]
    | none => l
  | .assign _ _ _ => l

def origins (ops : List PathOp) : List Nat := ops.foldl originStep []

/-- The class that was called for the path each path goes back to. -/
def askedStep (l : List Nat) : PathOp → List Nat
  | .call c => l ++ [c]
  | .derive i => match l[i]? with
    | some c => l ++ [c]
    | none => l
  | .assign _ _ _ => l

def asked (ops : List PathOp) : List Nat := ops.foldl askedStep []

/-- Classes a program has: they come after those they are derived from. -/
def Ordered (w : World) : Prop := ∀ (c : Nat) (k : Class), w[c]? = some k → ∀ x ∈ k.order, x < w.length

/-- The program calls classes it has which do not have the helper yet, and assigns to those only. -/
def PathOp.Fair (h : Nat) (w : World) : PathOp → Prop
  | .call c => c < w.length ∧ h ∉ w.mro c
  | .derive _ => True
  | .assign c _ _ => c < w.length

/-! ## Lookups -/

theorem mro_set (w : World) (c : Nat) (a : Slot) (v : Option Nat) (b : Nat) : (w.set c a v).mro b = w.mro b := by
  have h := shape_set w c a v b
  unfold World.mro
  simp only [shape] at h
  cases h1 : (w.set c a v)[b]? <;> cases h2 : w[b]? <;> simp_all

theorem mro_append {w : World} {c : Nat} (h : c < w.length) (k : Class) : World.mro (w ++ [k]) c = w.mro c := by
  unfold World.mro
  rw [List.getElem?_append_left h]

theorem mro_last (w : World) (k : Class) : World.mro (w ++ [k]) w.length = w.length :: k.order := by
  unfold World.mro; simp

theorem mro_lt {w : World} (hw : Ordered w) {c x : Nat} (hc : c < w.length) (hx : x ∈ w.mro c) : x < w.length := by
  unfold World.mro at hx
  cases hk : w[c]? with
  | none => rw [hk] at hx; simp at hx; rw [hx]; exact hc
  | some k =>
    rw [hk] at hx
    rcases List.mem_cons.1 hx with rfl | hx
    · exact hc
    · exact hw c k hk x hx

/-- What holds after any program: the classes the program started with are still there with what was looked up in them, and every path
has a class of its own kind. -/
structure Inv (h : Nat) (w0 : World) (os : List Nat) (as : List Nat) (s : Paths) : Prop where
  len : w0.length ≤ s.classes.length
  mro : ∀ c, c < w0.length → s.classes.mro c = w0.mro c
  lenO : os.length = s.objs.length
  lenA : as.length = s.objs.length
  below : ∀ (i r : Nat), os[i]? = some r → r < os.length
  called : ∀ (i : Nat) (c a : Nat), s.objs[i]? = some c → as[i]? = some a → a < w0.length ∧ w0.length ≤ c ∧ c < s.classes.length ∧
    s.classes.mro c = c :: (w0.mro a ++ w0.mro h) ∧ (∀ x, s.classes.own c x = none)
  same : ∀ (i j : Nat) (c d : Nat) (r t : Nat), s.objs[i]? = some c → s.objs[j]? = some d → os[i]? = some r → os[j]? = some t → (c = d ↔ r = t)

theorem mem_self_mro (w : World) (c : Nat) : c ∈ w.mro c := by
  unfold World.mro
  cases w[c]? <;> simp

theorem Inv.step {h : Nat} {w0 : World} {os : List Nat} {as : List Nat} {s : Paths} (hi : Inv h w0 os as s) (hw : Ordered w0)
    (hh : h < w0.length) {o : PathOp} (ho : o.Fair h w0) : Inv h w0 (originStep os o) (askedStep as o) (s.step h o) := by
  cases o with
  | assign c a v =>
    have ho : @LT.lt Nat _ c (List.length w0) := ho
    refine ⟨by simpa [Paths.step] using hi.len, fun c hc => by simpa [Paths.step, mro_set] using hi.mro c hc, hi.lenO, hi.lenA, hi.below,
      ?_, hi.same⟩
    intro i d b hd hb
    obtain ⟨h1, h2, h3, h4, h5⟩ := hi.called i d b hd hb
    refine ⟨h1, h2, by simpa [Paths.step] using h3, by simpa [Paths.step, mro_set] using h4, fun x => ?_⟩
    simp only [Paths.step, own_set]
    have : @Ne Nat c d := by omega
    split
    · rename_i hx; exact absurd hx.1 this
    · exact h5 x
  | call c =>
    obtain ⟨hc, hn⟩ := ho
    have hm : s.classes.mro c = w0.mro c := hi.mro c hc
    have hmh : s.classes.mro h = w0.mro h := hi.mro h hh
    have hnew : newEat h s.classes c = (s.classes.length, s.classes ++ [⟨[c, h], w0.mro c ++ w0.mro h, s.classes.flavour c, fun _ => none⟩]) := by
      unfold newEat
      rw [hm, hmh, if_neg (by simpa using hn)]
    simp only [Paths.step, hnew, originStep, askedStep]
    refine ⟨by simpa using Nat.le_succ_of_le hi.len, ?_, by simp [hi.lenO], by simp [hi.lenA], ?_, ?_, ?_⟩
    · intro d hd
      rw [mro_append (Nat.lt_of_lt_of_le hd hi.len)]
      exact hi.mro d hd
    · intro i r hr
      simp only [List.length_append, List.length_singleton]
      rw [List.getElem?_append] at hr
      split at hr
      · have := hi.below i r hr; omega
      · rcases hd : i - os.length with _ | n
        · rw [hd] at hr; simp at hr; omega
        · rw [hd] at hr; simp at hr
    · intro i d b hd hb
      by_cases hi' : i < s.objs.length
      · rw [List.getElem?_append_left hi'] at hd
        rw [List.getElem?_append_left (by rw [hi.lenA]; exact hi')] at hb
        obtain ⟨h1, h2, h3, h4, h5⟩ := hi.called i d b hd hb
        refine ⟨h1, h2, by simp; omega, by rw [mro_append h3]; exact h4, fun x => by rw [own_append h3]; exact h5 x⟩
      · have hlt : i < (s.objs ++ [s.classes.length]).length := by
          rcases Nat.lt_or_ge i (s.objs ++ [s.classes.length]).length with h | h
          · exact h
          · rw [List.getElem?_eq_none h] at hd; simp at hd
        simp only [List.length_append, List.length_singleton] at hlt
        obtain rfl : i = s.objs.length := by omega
        rw [List.getElem?_append_right (Nat.le_refl _)] at hd
        rw [← hi.lenA, List.getElem?_append_right (Nat.le_refl _)] at hb
        simp at hd hb
        subst hd hb
        refine ⟨hc, hi.len, by simp, ?_, fun x => by rw [own_last]⟩
        rw [mro_last]
    · intro i j d e r t hd he hr ht
      have hlt : ∀ {i : Nat} {d : Nat}, (s.objs ++ [s.classes.length])[i]? = some d → i < s.objs.length ∨ i = s.objs.length := by
        intro i d hd
        rcases Nat.lt_or_ge i (s.objs ++ [s.classes.length]).length with h | h
        · simp only [List.length_append, List.length_singleton] at h; omega
        · rw [List.getElem?_eq_none h] at hd; simp at hd
      have hold : ∀ {i : Nat} {d r : Nat}, i < s.objs.length → (s.objs ++ [s.classes.length])[i]? = some d →
          (os ++ [os.length])[i]? = some r → s.objs[i]? = some d ∧ os[i]? = some r ∧ d < s.classes.length ∧ r < os.length := by
        intro i d r h1 h2 h3
        rw [List.getElem?_append_left h1] at h2
        rw [List.getElem?_append_left (by rw [hi.lenO]; exact h1)] at h3
        have ha : ∃ a, as[i]? = some a := ⟨_, List.getElem?_eq_getElem (by rw [hi.lenA]; exact h1)⟩
        obtain ⟨a, ha⟩ := ha
        exact ⟨h2, h3, (hi.called i d a h2 ha).2.2.1, hi.below i r h3⟩
      have hlast : ∀ {d r : Nat}, (s.objs ++ [s.classes.length])[s.objs.length]? = some d →
          (os ++ [os.length])[s.objs.length]? = some r → d = s.classes.length ∧ r = os.length := by
        intro d r h1 h2
        rw [← hi.lenO] at h2
        simp at h1 h2
        exact ⟨h1.symm, h2.symm⟩
      rcases hlt hd with h1 | rfl <;> rcases hlt he with h2 | rfl
      · obtain ⟨a1, a2, _, _⟩ := hold h1 hd hr
        obtain ⟨b1, b2, _, _⟩ := hold h2 he ht
        exact hi.same i j d e r t a1 b1 a2 b2
      · obtain ⟨_, _, a3, a4⟩ := hold h1 hd hr
        obtain ⟨rfl, rfl⟩ := hlast he ht
        constructor <;> intro h <;> omega
      · obtain ⟨_, _, a3, a4⟩ := hold h2 he ht
        obtain ⟨rfl, rfl⟩ := hlast hd hr
        constructor <;> intro h <;> omega
      · obtain ⟨rfl, rfl⟩ := hlast hd hr
        obtain ⟨rfl, rfl⟩ := hlast he ht
        simp
  | derive k =>
    simp only [Paths.step, originStep, askedStep]
    cases hk : s.objs[k]? with
    | none =>
      have hge : s.objs.length ≤ k := by
        rcases Nat.lt_or_ge k s.objs.length with h | h
        · rw [List.getElem?_eq_getElem h] at hk; simp at hk
        · exact h
      rw [List.getElem?_eq_none (by rw [hi.lenO]; exact hge), List.getElem?_eq_none (by rw [hi.lenA]; exact hge)]
      exact hi
    | some c =>
      have hlt : k < s.objs.length := by
        rcases Nat.lt_or_ge k s.objs.length with h | h
        · exact h
        · rw [List.getElem?_eq_none h] at hk; simp at hk
      obtain ⟨r, hr⟩ : ∃ r, os[k]? = some r := ⟨_, List.getElem?_eq_getElem (by rw [hi.lenO]; exact hlt)⟩
      obtain ⟨a, ha⟩ : ∃ a, as[k]? = some a := ⟨_, List.getElem?_eq_getElem (by rw [hi.lenA]; exact hlt)⟩
      obtain ⟨c1, c2, c3, c4, c5⟩ := hi.called k c a hk ha
      have hnew : newEat h s.classes c = (c, s.classes) := by
        unfold newEat
        rw [if_pos]
        rw [c4]
        simp only [List.contains_eq_mem, decide_eq_true_eq]
        exact List.mem_cons_of_mem _ (List.mem_append_right _ (mem_self_mro w0 h))
      simp only [hr, ha, hnew]
      -- the new path has the class and the origin of path `k`
      have hnewAt : ∀ {α : Type} {l : List α} {x : α} {i : Nat} {y : α}, l.length = s.objs.length → l[k]? = some x → (l ++ [x])[i]? = some y →
          l[if i < s.objs.length then i else k]? = some y := by
        intro α l x i y h1 h2 h3
        split
        · rename_i h; rwa [List.getElem?_append_left (by omega)] at h3
        · rename_i h
          rw [List.getElem?_append_right (by omega)] at h3
          rcases hd : i - l.length with _ | n
          · rw [hd] at h3; simp at h3; rw [← h3]; exact h2
          · rw [hd] at h3; simp at h3
      refine ⟨hi.len, hi.mro, by simp [hi.lenO], by simp [hi.lenA], ?_, ?_, ?_⟩
      · intro i r' hr'
        have := hi.below _ _ (hnewAt hi.lenO hr hr')
        simp only [List.length_append, List.length_singleton]; omega
      · intro i d b hd hb
        exact hi.called _ d b (hnewAt rfl hk hd) (hnewAt hi.lenA ha hb)
      · intro i j d e r' t hd he hr' ht
        exact hi.same _ _ d e r' t (hnewAt rfl hk hd) (hnewAt rfl hk he) (hnewAt hi.lenO hr hr') (hnewAt hi.lenO hr ht)

theorem Inv.run {h : Nat} {w0 : World} (hw : Ordered w0) (hh : h < w0.length) : ∀ (ops : List PathOp) {os : List Nat} {as : List Nat}
    {s : Paths}, Inv h w0 os as s → (∀ o ∈ ops, o.Fair h w0) →
    Inv h w0 (ops.foldl originStep os) (ops.foldl askedStep as) (s.run h ops)
  | [], _, _, _, hi, _ => hi
  | o :: ops, _, _, _, hi, hf => Inv.run hw hh ops (hi.step hw hh (hf o (by simp))) fun o ho => hf o (by simp [ho])

theorem inv {h : Nat} {w0 : World} (hw : Ordered w0) (hh : h < w0.length) {ops : List PathOp} (hf : ∀ o ∈ ops, o.Fair h w0) :
    Inv h w0 (origins ops) (asked ops) (Paths.run h ⟨w0, []⟩ ops) :=
  Inv.run hw hh ops ⟨Nat.le_refl _, fun _ _ => rfl, rfl, rfl, by simp, by simp, by simp⟩ hf

/-! ## The claims -/

/-- **C113**: every path is an instance of the class that was called for it and of all the classes that one is derived from, of the
helper for extended attributes, and of no other class the program has. -/
theorem C113_instance {h : Nat} {w0 : World} (hw : Ordered w0) (hh : h < w0.length) {ops : List PathOp} (hf : ∀ o ∈ ops, o.Fair h w0)
    {i : Nat} {c a : Nat} (hc : (Paths.run h ⟨w0, []⟩ ops).objs[i]? = some c) (ha : (asked ops)[i]? = some a) {b : Nat} (hb : b < w0.length) :
    (Paths.run h ⟨w0, []⟩ ops).classes.isInstance c b = true ↔ w0.isInstance a b = true ∨ w0.isInstance h b = true := by
  obtain ⟨h1, h2, h3, h4, h5⟩ := (inv hw hh hf).called i c a hc ha
  unfold World.isInstance
  rw [h4]
  simp only [List.contains_eq_mem, decide_eq_true_eq, List.mem_cons, List.mem_append]
  constructor
  · rintro (rfl | h)
    · omega
    · exact h
  · exact .inr

/-- **C113**: looking up an attribute of a class through a path gives what the class that was called for it has now, whatever was
assigned to classes before or after the path was made. -/
theorem C113_shared {h : Nat} {w0 : World} (hw : Ordered w0) (hh : h < w0.length) {ops : List PathOp} (hf : ∀ o ∈ ops, o.Fair h w0)
    {i : Nat} {c a : Nat} (hc : (Paths.run h ⟨w0, []⟩ ops).objs[i]? = some c) (ha : (asked ops)[i]? = some a) {x : Slot}
    (hx : ∀ b ∈ w0.mro h, (Paths.run h ⟨w0, []⟩ ops).classes.own b x = none) :
    (Paths.run h ⟨w0, []⟩ ops).classes.get c x = (Paths.run h ⟨w0, []⟩ ops).classes.get a x := by
  have hI := inv hw hh hf
  obtain ⟨h1, h2, h3, h4, h5⟩ := hI.called i c a hc ha
  have hget : ∀ {d : Nat}, d < (Paths.run h ⟨w0, []⟩ ops).classes.length → (Paths.run h ⟨w0, []⟩ ops).classes.get d x =
      ((Paths.run h ⟨w0, []⟩ ops).classes.mro d).findSome? fun b => (Paths.run h ⟨w0, []⟩ ops).classes.own b x := by
    intro d hd
    unfold World.get World.mro
    rw [List.getElem?_eq_getElem hd]
  rw [hget h3, hget (Nat.lt_of_lt_of_le h1 hI.len), h4, hI.mro a h1, List.findSome?_cons, h5 x, List.findSome?_append]
  have : (w0.mro h).findSome? (fun b => (Paths.run h ⟨w0, []⟩ ops).classes.own b x) = none := by
    rw [List.findSome?_eq_none_iff]
    exact hx
  simp [this]

/-- **C113**: two paths have the same class exactly if they go back to the same call of a class; `copy_to` and `copy_from` make another
path exactly if they do not. -/
theorem C113_type {h : Nat} {w0 : World} (hw : Ordered w0) (hh : h < w0.length) {ops : List PathOp} (hf : ∀ o ∈ ops, o.Fair h w0)
    {i j : Nat} {c d : Nat} {r t : Nat} (hc : (Paths.run h ⟨w0, []⟩ ops).objs[i]? = some c)
    (hd : (Paths.run h ⟨w0, []⟩ ops).objs[j]? = some d) (hr : (origins ops)[i]? = some r) (ht : (origins ops)[j]? = some t) :
    (c = d ↔ r = t) ∧ (copyCasts c d = true ↔ r ≠ t) := by
  have := (inv hw hh hf).same i j c d r t hc hd hr ht
  refine ⟨this, ?_⟩
  unfold copyCasts
  rw [bne_iff_ne, ne_eq, this]

/-- A path is an instance of the class of another one only if it has that class. -/
theorem isInstance_iff {h : Nat} {w0 : World} (hw : Ordered w0) (hh : h < w0.length) {ops : List PathOp} (hf : ∀ o ∈ ops, o.Fair h w0)
    {i j : Nat} {c d : Nat} (hc : (Paths.run h ⟨w0, []⟩ ops).objs[i]? = some c) (hd : (Paths.run h ⟨w0, []⟩ ops).objs[j]? = some d) :
    (Paths.run h ⟨w0, []⟩ ops).classes.isInstance c d = true ↔ c = d := by
  have hI := inv hw hh hf
  have hat : ∀ {k : Nat} {e : Nat}, (Paths.run h ⟨w0, []⟩ ops).objs[k]? = some e → ∃ a, (asked ops)[k]? = some a := by
    intro k e he
    refine ⟨_, List.getElem?_eq_getElem ?_⟩
    rw [hI.lenA]
    rcases Nat.lt_or_ge k (Paths.run h ⟨w0, []⟩ ops).objs.length with h | h
    · exact h
    · rw [List.getElem?_eq_none h] at he; simp at he
  obtain ⟨a, ha⟩ := hat hc
  obtain ⟨b, hb⟩ := hat hd
  obtain ⟨c1, _, _, c4, _⟩ := hI.called i c a hc ha
  obtain ⟨_, d2, _, _, _⟩ := hI.called j d b hd hb
  unfold World.isInstance
  rw [c4]
  simp only [List.contains_eq_mem, decide_eq_true_eq, List.mem_cons, List.mem_append]
  constructor
  · rintro (rfl | h | h)
    · rfl
    · have := mro_lt hw c1 h; omega
    · have := mro_lt hw hh h; omega
  · rintro rfl; exact .inl rfl

/-- **C113, partial**: `move` without a target raises `TypeError`, unless the cache goes back to the same call of a class as the anchor;
a target is cast unless it goes back to the same call as the cache.  The full claim is that caches of the class of the anchor can be moved,
see `C113_move_counterexample`. -/
theorem C113_move_partial {h : Nat} {w0 : World} (hw : Ordered w0) (hh : h < w0.length) {ops : List PathOp} (hf : ∀ o ∈ ops, o.Fair h w0)
    {i j : Nat} {c d : Nat} {r t : Nat} (hc : (Paths.run h ⟨w0, []⟩ ops).objs[i]? = some c)
    (hd : (Paths.run h ⟨w0, []⟩ ops).objs[j]? = some d) (hr : (origins ops)[i]? = some r) (ht : (origins ops)[j]? = some t) :
    moveCheck (Paths.run h ⟨w0, []⟩ ops).classes c d = (if r = t then .ok () else .error .typeError) ∧
    doCast (Paths.run h ⟨w0, []⟩ ops).classes c d = decide (r ≠ t) := by
  have h1 := isInstance_iff hw hh hf hc hd
  have h2 := (inv hw hh hf).same i j c d r t hc hd hr ht
  unfold moveCheck doCast
  by_cases e : r = t
  · rw [h1.2 (h2.2 e), if_pos rfl, if_pos e]
    simp [e]
  · have : (Paths.run h ⟨w0, []⟩ ops).classes.isInstance c d = false := by
      rw [Bool.eq_false_iff]
      exact fun hx => e (h2.1 (h1.1 hx))
    rw [this, if_neg (by simp), if_neg e]
    simp [e]

/-- **C113, disproved in general**: with an anchor and a cache that were each made by calling the same class, `move` raises `TypeError`,
whatever the class; before 3.12 both have the same class (`C104_same_class`). -/
theorem C113_move_counterexample {h : Nat} {w0 : World} (hw : Ordered w0) (hh : h < w0.length) {c : Nat} (hc : c < w0.length)
    (hn : h ∉ w0.mro c) : ∃ a b, (Paths.run h ⟨w0, []⟩ [.call c, .call c]).objs = [a, b] ∧
      moveCheck (Paths.run h ⟨w0, []⟩ [.call c, .call c]).classes a b = .error .typeError := by
  have hf : ∀ o ∈ [PathOp.call c, PathOp.call c], o.Fair h w0 := by
    intro o ho
    simp at ho
    subst ho
    exact ⟨hc, hn⟩
  refine ⟨_, _, rfl, ?_⟩
  rw [(C113_move_partial hw hh hf (i := 0) (j := 1) (r := 0) (t := 1) rfl rfl rfl rfl).1]
  rfl

/-- Class 0 is a path, class 1 a helper, class 2 a cache below class 0. -/
def eatWorld : World := [⟨[], [], none, fun _ => none⟩, ⟨[], [], none, fun _ => none⟩, ⟨[0], [0], none, fun _ => none⟩]

theorem eatWorld_ordered : Ordered eatWorld := by
  intro c k hk x hx
  rcases c with _ | _ | _ | c <;> simp [eatWorld] at hk <;> subst hk <;> simp at hx
  subst hx
  decide

/-! An anchor, a path below it, and the cache a local path makes for the same class: the first two can be told apart from the third. -/

example : (∀ o ∈ [PathOp.call 2, .derive 0, .assign 2 .anchor (some 0), .call 2], o.Fair 1 eatWorld) ∧
    (Paths.run 1 ⟨eatWorld, []⟩ [.call 2, .derive 0, .assign 2 .anchor (some 0), .call 2]).objs = [3, 3, 4] ∧
    origins [.call 2, .derive 0, .assign 2 .anchor (some 0), .call 2] = [0, 0, 2] ∧
    asked [.call 2, .derive 0, .assign 2 .anchor (some 0), .call 2] = [2, 2, 2] ∧
    moveCheck (Paths.run 1 ⟨eatWorld, []⟩ [.call 2, .derive 0, .assign 2 .anchor (some 0), .call 2]).classes 3 3 = .ok () ∧
    moveCheck (Paths.run 1 ⟨eatWorld, []⟩ [.call 2, .derive 0, .assign 2 .anchor (some 0), .call 2]).classes 3 4 = .error .typeError ∧
    World.get (Paths.run 1 ⟨eatWorld, []⟩ [.call 2, .derive 0, .assign 2 .anchor (some 0), .call 2]).classes 3 .anchor = some 0 := by
  refine ⟨?_, by decide⟩
  intro o ho
  simp at ho
  rcases ho with rfl | rfl | rfl | rfl <;> simp [PathOp.Fair] <;> decide

example : Ordered eatWorld ∧ (1 : Nat) < eatWorld.length ∧ (2 : Nat) < eatWorld.length ∧ (1 : Nat) ∉ eatWorld.mro 2 :=
  ⟨eatWorld_ordered, by decide, by decide, by decide⟩

end Verif.Classes
