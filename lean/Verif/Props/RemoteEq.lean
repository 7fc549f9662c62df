import Verif.Model.RemoteEq
import Verif.Lemmas.MetaObj
import Verif.Lemmas.Decide

/-!
# C115: comparing remotes
-/

namespace Verif.RemoteEq
open Sweep

/-- **Remotes are equal exactly if their ids are**, whatever their classes are; `!=` is the opposite. -/
theorem C115_eq (i j : PyVal) (p q : Option Str) :
    (Obj.remote i p).eq (.remote j q) = .ok (.bool (pyEq i j)) ∧ (Obj.remote i p).remoteNe (.remote j q) = .ok (!pyEq i j) :=
  ⟨rfl, rfl⟩

/-- **So that equality of remotes is an equivalence relation.** -/
theorem C115_equivalence :
    Equivalence fun a b : PyVal × Option Str => (Obj.remote a.1 a.2).eq (.remote b.1 b.2) = .ok (.bool true) := by
  have key : ∀ a b : PyVal × Option Str, (Obj.remote a.1 a.2).eq (.remote b.1 b.2) = .ok (.bool true) ↔ pyEq a.1 b.1 = true := by
    intro a b
    rw [(C115_eq _ _ _ _).1]
    simp
  constructor
  · exact fun a => (key a a).2 (pyEq_refl _)
  · intro a b h
    exact (key b a).2 (by rw [pyEq_comm]; exact (key a b).1 h)
  · intro a b c h h'
    exact (key a c).2 (pyEq_trans ((key a b).1 h) ((key b c).1 h'))

/-- **What else a remote is equal to**: exactly what is not empty and has its id. -/
theorem C115_other (i : PyVal) (p : Option Str) (o : Obj) :
    (∃ r, (Obj.remote i p).eq o = .ok r ∧ r.truth = true) ↔ o.truthy = true ∧ ∃ j, o.id = .ok j ∧ pyEq i j = true := by
  have e : (Obj.remote i p).eq o = remoteEq i o := by
    unfold Obj.eq Obj.eqMethod
    dsimp only
    cases h : remoteEq i o with
    | error e => rfl
    | ok r =>
      cases r with
      | notImplemented =>
        unfold remoteEq at h
        split at h
        · cases h
        · split at h <;> cases h
      | bool b => rfl
      | itself o => rfl
      | none => rfl
  rw [e]
  unfold remoteEq
  cases ht : o.truthy with
  | false =>
    simp only [Bool.not_false, if_true, Except.ok.injEq, Bool.false_eq_true, false_and, iff_false]
    rintro ⟨r, rfl, h⟩
    simp [Answer.truth, ht] at h
  | true =>
    simp only [Bool.not_true, Bool.false_eq_true, if_false, true_and]
    cases o.id with
    | error e => simp
    | ok j => simp [Answer.truth]

/-- **Compared with something else that is not empty and has no id, a remote raises.** -/
theorem C115_raises (i : PyVal) (p : Option Str) (o : Obj) (e : PyErr) :
    (Obj.remote i p).eq o = .error e ↔ e = .attributeError ∧ o.truthy = true ∧ ∀ j, o.id ≠ .ok j := by
  cases o with
  | none => simp [Obj.eq, Obj.eqMethod, remoteEq, Obj.truthy]
  | remote j q => simp [Obj.eq, Obj.eqMethod, remoteEq, Obj.truthy, Obj.id]
  | path t id =>
    cases id with
    | none => simp [Obj.eq, Obj.eqMethod, remoteEq, Obj.truthy, Obj.id, eq_comm]
    | some j => simp [Obj.eq, Obj.eqMethod, remoteEq, Obj.truthy, Obj.id]
  | info m =>
    cases h : metaBool m <;> simp [Obj.eq, Obj.eqMethod, remoteEq, Obj.truthy, Obj.id, h]
  | plain b =>
    cases b <;> simp [Obj.eq, Obj.eqMethod, remoteEq, Obj.truthy, Obj.id, eq_comm]

/-- **A remote that is no path compares with a path the same way from both sides.**  (Full claim: every remote compares with everything
the same way from both sides; false, see the counterexamples.) -/
theorem C115_symmetric_partial (i : PyVal) (o : Obj) (h : ∀ m, o ≠ .info m) : (Obj.remote i none).eq o = o.eq (.remote i none) ∨
    ∃ j q, o = .remote j q := by
  cases o with
  | none => left; rfl
  | remote j q => right; exact ⟨j, q, rfl⟩
  | path t id => left; cases id <;> rfl
  | info m => exact absurd rfl (h m)
  | plain b => left; cases b <;> rfl

example : (Obj.remote (.str (lit "N:1")) none).eq (.path (lit "/data/x") (some (.str (lit "N:1")))) = .ok (.bool true) ∧
    (Obj.path (lit "/data/x") (some (.str (lit "N:1")))).eq (.remote (.str (lit "N:1")) none) = .ok (.bool true) := ⟨rfl, rfl⟩

/-- It is false for remotes that are paths too: the remote looks at the ids, and the cache looks at the paths, so that any combination
of answers is possible. -/
theorem C115_symmetric_counterexample (i j : PyVal) (t u : Str) :
    (Obj.remote i (some t)).eq (.path u (some j)) = .ok (.bool (pyEq i j)) ∧
    (Obj.path u (some j)).eq (.remote i (some t)) = .ok (.bool (u = t)) := ⟨rfl, rfl⟩

/-- It is false for metadata: a remote is equal to all metadata with its id that are not empty, which are never equal to it. -/
theorem C115_meta_counterexample (i : PyVal) (p : Option Str) (m : Meta) (hm : metaBool m = true) (hi : m .id = i) :
    (Obj.remote i p).eq (.info m) = .ok (.bool true) ∧ (Obj.info m).eq (.remote i p) = .ok .none := by
  refine ⟨?_, rfl⟩
  simp [Obj.eq, Obj.eqMethod, remoteEq, Obj.truthy, Obj.id, hm, hi, pyEq_refl]

example : ∃ m : Meta, metaBool m = true ∧ m .id = .str (lit "N:1") :=
  ⟨fun f => if f = .id then .str (lit "N:1") else .none, by decide, rfl⟩

/-! ## Sets -/

/-- **The instances of a class have a hash exactly if the first class that says how they are compared or hashed says how they are
hashed**, or no class says anything. -/
theorem C115_hash (mro : List Body) :
    hashable mro = true ↔ ∀ l b r, mro = l ++ b :: r → (∀ c ∈ l, c = noneOfThem) → b ≠ noneOfThem → b.hash = true := by
  induction mro with
  | nil => simp [hashable]
  | cons c cs ih =>
    unfold hashable
    obtain ⟨ce, ch⟩ := c
    cases ch with
    | true =>
      simp only [if_true, true_iff]
      intro l b r h hl hb
      cases l with
      | nil => simp at h; rw [← h.1]
      | cons d l =>
        simp only [List.cons_append, List.cons.injEq] at h
        have := hl d List.mem_cons_self
        rw [← h.1] at this
        cases this
    | false =>
      cases ce with
      | true =>
        simp only [Bool.false_eq_true, if_false, if_true, false_iff]
        intro h
        have := h [] ⟨true, false⟩ cs rfl (by simp) (by decide)
        cases this
      | false =>
        simp only [Bool.false_eq_true, if_false]
        rw [ih]
        constructor
        · intro h l b r e hl hb
          cases l with
          | nil => simp at e; rw [← e.1] at hb; exact absurd rfl hb
          | cons d l =>
            simp only [List.cons_append, List.cons.injEq] at e
            exact h l b r e.2 (fun c hc => hl c (List.mem_cons_of_mem _ hc)) hb
        · intro h l b r e hl hb
          refine h (⟨false, false⟩ :: l) b r (by rw [e]; rfl) ?_ hb
          intro c hc
          cases hc with
          | head => rfl
          | tail _ hc => exact hl c hc

/-- **Remotes have no hash, unless a subclass defines one**: whatever comes after `RemotePath` in the order of the lookup, also
`pathlib.PurePath`, whose paths have one. -/
theorem C115_unhashable (before after : List Body) (h : ∀ b ∈ before, b.hash = false) :
    hashable (before ++ remotePath :: after) = false := by
  induction before with
  | nil => rfl
  | cons b bs ih =>
    show (if b.hash then true else if b.eq then false else hashable (bs ++ remotePath :: after)) = false
    rw [h b List.mem_cons_self, ih fun c hc => h c (List.mem_cons_of_mem _ hc)]
    cases b.eq <;> rfl

example : sshRemote = [noneOfThem] ++ remotePath :: [purePath] ∧ hashable sshRemote = false ∧ hashable [noneOfThem, purePath] = true := by
  decide

/-- **A recursive bootstrap goes through the local directories** as C99 says if the remotes have a hash, or there are no directories on the
remote, or none here.  (Full claim: for all remotes.) -/
theorem C115_sweep_partial {σ : Type} (mro : List Body) (W : World σ) (fuel : Nat) (s : σ) (dirs : List Rel)
    (h : hashable mro = true ∨ W.remote = [] ∨ dirs = []) : sweepFrom mro W fuel s dirs = W.sweep fuel s dirs := by
  unfold sweepFrom
  cases dirs with
  | nil =>
    unfold World.sweep
    cases fuel <;> simp [World.loop, World.old]
  | cons d ds =>
    rcases h with h | h | h
    · simp [h]
    · simp [h]
    · cases h

/-- It is false for the classes here: as soon as there is a directory on both sides the bootstrap ends with a `TypeError`, and nothing
is refreshed or cleared away. -/
theorem C115_sweep_counterexample {σ : Type} (before after : List Body) (hb : ∀ b ∈ before, b.hash = false) (W : World σ) (fuel : Nat)
    (s : σ) (dirs : List Rel) (hr : W.remote ≠ []) (hd : dirs ≠ []) :
    sweepFrom (before ++ remotePath :: after) W fuel s dirs = .raised .typeError ⟨s, dirs, []⟩ := by
  unfold sweepFrom
  simp [hr, hd, C115_unhashable before after hb]

example : [[lit "data"]] ≠ ([] : List Rel) ∧ ∀ b ∈ ([] : List Body), b.hash = false := by simp

/-- **C115**: metadata are equal when all their attributes are; to everything that is not metadata the answer is `None`, which is not true, so that
a comparison of metadata with something else says that they are different. -/
theorem C115_metadata (m : Meta) (o : Obj) :
    (∀ n, o = .info n → ∃ b, (Obj.info m).eq o = .ok (.bool b) ∧ (b = true ↔ ∀ f, pyEq (m f) (n f) = true)) ∧
    ((∀ n, o ≠ .info n) → ∃ r, (Obj.info m).eq o = .ok r ∧ r.truth = false) := by
  refine ⟨fun n h => ?_, fun h => ?_⟩
  · subst h
    refine ⟨_, rfl, ?_⟩
    rw [List.all_eq_true]
    exact ⟨fun h f => h f f.mem_all, fun h f _ => h f⟩
  · cases o with
    | info n => exact absurd rfl (h n)
    | _ => exact ⟨_, rfl, rfl⟩

/-- **C115**: two things that are neither remotes nor metadata are equal only if both are paths with the same text, or both are `None`. -/
theorem C115_neither (a b : Obj) (ha : (∀ i p, a ≠ .remote i p) ∧ ∀ m, a ≠ .info m) (hb : (∀ i p, b ≠ .remote i p) ∧ ∀ m, b ≠ .info m) :
    ∃ r, a.eq b = .ok r ∧ (r.truth = true ↔ (∃ t i j, a = .path t i ∧ b = .path t j) ∨ (a = .none ∧ b = .none)) := by
  cases a with
  | remote i p => exact absurd rfl (ha.1 i p)
  | info m => exact absurd rfl (ha.2 m)
  | none =>
    cases b with
    | remote i p => exact absurd rfl (hb.1 i p)
    | info m => exact absurd rfl (hb.2 m)
    | none => exact ⟨_, rfl, by simp [Answer.truth]⟩
    | path t j => exact ⟨_, rfl, by simp [Answer.truth]⟩
    | plain b => exact ⟨_, rfl, by simp [Answer.truth]⟩
  | path t i =>
    cases b with
    | remote i p => exact absurd rfl (hb.1 i p)
    | info m => exact absurd rfl (hb.2 m)
    | none => exact ⟨_, rfl, by simp [Answer.truth]⟩
    | path u j =>
      refine ⟨.bool (t = u), rfl, ?_⟩
      simp only [Answer.truth, decide_eq_true_eq]
      constructor
      · rintro rfl; exact .inl ⟨_, _, _, rfl, rfl⟩
      · rintro (⟨t', i', j', h1, h2⟩ | ⟨h, -⟩)
        · cases h1; cases h2; rfl
        · cases h
    | plain b => exact ⟨_, rfl, by simp [Answer.truth]⟩
  | plain c =>
    cases b with
    | remote i p => exact absurd rfl (hb.1 i p)
    | info m => exact absurd rfl (hb.2 m)
    | none => exact ⟨_, rfl, by simp [Answer.truth]⟩
    | path u j => exact ⟨_, rfl, by simp [Answer.truth]⟩
    | plain b => exact ⟨_, rfl, by simp [Answer.truth]⟩

example : ((Obj.path (lit "a") none).eq (.path (lit "a") none)).toOption.map Answer.truth = some true ∧
    ((Obj.plain true).eq (.plain true)).toOption.map Answer.truth = some false := ⟨by decide, rfl⟩

/-- **C115**: paths whose classes define neither, as the caches and the local paths, keep the hash of the standard library. -/
theorem C115_paths_hashable (before after : List Body) (h : ∀ b ∈ before, b = noneOfThem) : hashable (before ++ purePath :: after) = true := by
  induction before with
  | nil => rfl
  | cons b bs ih => rw [h b List.mem_cons_self]; exact ih fun c hc => h c (List.mem_cons_of_mem _ hc)

example : hashable [noneOfThem, noneOfThem, purePath] = true := C115_paths_hashable [noneOfThem, noneOfThem] [] (by simp)

end Verif.RemoteEq
