import Verif.Model.Disk

/-!
Reasoning about programs on a disk: `Hoare P m Q R` says that from a disk with `P` the program `m` ends with
a result and a disk in `Q`, or with an exception and a disk in `R`.
-/

namespace Verif.FS
variable {ν α β : Type}

def Hoare (P : Disk ν → Prop) (m : Prog ν α) (Q : α → Disk ν → Prop) (R : PyErr → Disk ν → Prop) : Prop :=
  ∀ s : Machine ν, P s.disk → match m s with
    | (.ok a, s') => Q a s'.disk
    | (.error e, s') => R e s'.disk

namespace Hoare
variable {P P' : Disk ν → Prop} {Q : α → Disk ν → Prop} {Q' : β → Disk ν → Prop} {R R' : PyErr → Disk ν → Prop}

theorem pure_ {a : α} (h : ∀ d, P d → Q a d) : Hoare P (Prog.pure a) Q R := fun s hs => h s.disk hs

theorem throw_ {e : PyErr} (h : ∀ d, P d → R e d) : Hoare P (Prog.throw e : Prog ν α) Q R := fun s hs => h s.disk hs

theorem bind_ {m : Prog ν α} {f : α → Prog ν β} {Q : α → Disk ν → Prop} {Q' : β → Disk ν → Prop}
    (hm : Hoare P m Q R) (hf : ∀ a, Hoare (Q a) (f a) Q' R) :
    Hoare P (Prog.bind m f) Q' R := by
  intro s hs
  have := hm s hs
  simp only [Prog.bind]
  generalize m s = r at this ⊢
  obtain ⟨r, s'⟩ := r
  cases r with
  | ok a => exact hf a s' this
  | error e => exact this

theorem try_ {m : Prog ν α} {h : PyErr → Prog ν α} (hm : Hoare P m Q R) (hh : ∀ e, Hoare (R e) (h e) Q R') :
    Hoare P (Prog.catch_ m h) Q R' := by
  intro s hs
  have := hm s hs
  simp only [Prog.catch_]
  generalize m s = r at this ⊢
  obtain ⟨r, s'⟩ := r
  cases r with
  | ok a => exact this
  | error e => exact hh e s' this

theorem ite_ {c : Prop} [Decidable c] {m m' : Prog ν α} (h : c → Hoare P m Q R) (h' : ¬ c → Hoare P m' Q R) :
    Hoare P (if c then m else m') Q R := by
  split
  · exact h ‹_›
  · exact h' ‹_›

theorem mono {Q₁ : α → Disk ν → Prop} {m : Prog ν α} (h : Hoare P m Q₁ R) (hp : ∀ d, P' d → P d)
    (hq : ∀ a d, Q₁ a d → Q a d) (hr : ∀ e d, R e d → R' e d) : Hoare P' m Q R' := by
  intro s hs
  have := h s (hp _ hs)
  generalize m s = r at this ⊢
  obtain ⟨r, s'⟩ := r
  cases r with
  | ok a => exact hq _ _ this
  | error e => exact hr _ _ this

theorem pre {m : Prog ν α} (h : Hoare P m Q R) (hp : ∀ d, P' d → P d) : Hoare P' m Q R :=
  h.mono hp (fun _ _ h => h) (fun _ _ h => h)

theorem look_ {F : Nat → Option PyErr} {f : Disk ν → Except PyErr α} (hok : ∀ d a, P d → f d = .ok a → Q a d)
    (herr : ∀ e d, P d → R e d) : Hoare P (Prog.look F f) Q R := by
  intro s hs
  simp only [Prog.look, Prog.sys]
  cases F s.tick with
  | some e => exact herr e _ hs
  | none =>
    simp only
    cases h : f s.disk with
    | ok a => exact hok _ _ hs h
    | error e => exact herr e _ hs

theorem act_ {F : Nat → Option PyErr} {f : Disk ν → Except PyErr (Disk ν)} {Q : Unit → Disk ν → Prop}
    (hok : ∀ d d', P d → f d = .ok d' → Q () d') (herr : ∀ e d, P d → R e d) : Hoare P (Prog.act F f) Q R := by
  intro s hs
  simp only [Prog.act, Prog.sys]
  cases F s.tick with
  | some e => exact herr e _ hs
  | none =>
    simp only
    cases h : f s.disk with
    | ok a => exact hok _ _ hs h
    | error e => exact herr e _ hs

/-- The rules with what is known about the error. -/
theorem act_err {F : Nat → Option PyErr} {f : Disk ν → Except PyErr (Disk ν)} {Q : Unit → Disk ν → Prop}
    (hok : ∀ d d', P d → f d = .ok d' → Q () d')
    (herr : ∀ e d, P d → (∃ n, F n = some e) ∨ f d = .error e → R e d) : Hoare P (Prog.act F f) Q R := by
  intro s hs
  simp only [Prog.act, Prog.sys]
  cases hf : F s.tick with
  | some e => exact herr e _ hs (.inl ⟨_, hf⟩)
  | none =>
    simp only
    cases h : f s.disk with
    | ok a => exact hok _ _ hs h
    | error e => exact herr e _ hs (.inr h)

theorem look_err {F : Nat → Option PyErr} {f : Disk ν → Except PyErr α} (hok : ∀ d a, P d → f d = .ok a → Q a d)
    (herr : ∀ e d, P d → (∃ n, F n = some e) ∨ f d = .error e → R e d) : Hoare P (Prog.look F f) Q R := by
  intro s hs
  simp only [Prog.look, Prog.sys]
  cases hf : F s.tick with
  | some e => exact herr e _ hs (.inl ⟨_, hf⟩)
  | none =>
    simp only
    cases h : f s.disk with
    | ok a => exact hok _ _ hs h
    | error e => exact herr e _ hs (.inr h)

/-- A fact that does not depend on the disk may be taken out of the precondition. -/
theorem of_pre {c : Prop} {m : Prog ν α} (h : c → Hoare P m Q R) : Hoare (fun d => c ∧ P d) m Q R :=
  fun s hs => h hs.1 s hs.2

/-- A loop that keeps an invariant. -/
theorem each_ {γ : Type} {f : γ → Prog ν Unit} {R : PyErr → Disk ν → Prop} : ∀ {xs : List γ}, (∀ x ∈ xs, Hoare P (f x) (fun _ => P) R) →
    Hoare P (Prog.each f xs) (fun _ => P) R
  | [], _ => .pure_ fun _ h => h
  | x :: xs, h => .bind_ (h x List.mem_cons_self) fun _ => each_ fun y hy => h y (List.mem_cons_of_mem _ hy)

/-- A loop whose invariant depends on what was done already. -/
theorem each_fold {γ σ : Type} {f : γ → Prog ν Unit} {I : σ → Disk ν → Prop} {g : σ → γ → σ} {R : PyErr → Disk ν → Prop} :
    ∀ (xs : List γ) (a : σ), (∀ x ∈ xs, ∀ a, Hoare (I a) (f x) (fun _ => I (g a x)) R) →
    Hoare (I a) (Prog.each f xs) (fun _ => I (xs.foldl g a)) R
  | [], _, _ => .pure_ fun _ h => h
  | x :: xs, a, h => .bind_ (h x List.mem_cons_self a) fun _ =>
      each_fold xs (g a x) fun y hy => h y (List.mem_cons_of_mem _ hy)

/-- What the triple says about a run. -/
theorem result {m : Prog ν α} (h : Hoare P m Q R) {s : Machine ν} (hs : P s.disk) :
    (∀ a, (m s).1 = .ok a → Q a (m s).2.disk) ∧ (∀ e, (m s).1 = .error e → R e (m s).2.disk) := by
  have := h s hs
  generalize m s = r at this ⊢
  obtain ⟨r, s'⟩ := r
  cases r with
  | ok a => simpa using this
  | error e => simpa using this

end Hoare

/-- The same with the number of calls made so far. -/
def HoareT (P : Machine ν → Prop) (m : Prog ν α) (Q : α → Machine ν → Prop) (R : PyErr → Machine ν → Prop) : Prop :=
  ∀ s : Machine ν, P s → match m s with
    | (.ok a, s') => Q a s'
    | (.error e, s') => R e s'

namespace HoareT
variable {P : Machine ν → Prop} {Q : α → Machine ν → Prop} {R R' : PyErr → Machine ν → Prop}

theorem lift {P : Disk ν → Prop} {m : Prog ν α} {Q : α → Disk ν → Prop} {R : PyErr → Disk ν → Prop} (h : Hoare P m Q R) :
    HoareT (fun s => P s.disk) m (fun a s => Q a s.disk) (fun e s => R e s.disk) := h

theorem pure_ {a : α} (h : ∀ s, P s → Q a s) : HoareT P (Prog.pure a) Q R := fun s hs => h s hs

theorem throw_ {e : PyErr} (h : ∀ s, P s → R e s) : HoareT P (Prog.throw e : Prog ν α) Q R := fun s hs => h s hs

theorem bind_ {m : Prog ν α} {f : α → Prog ν β} {Q' : β → Machine ν → Prop}
    (hm : HoareT P m Q R) (hf : ∀ a, HoareT (Q a) (f a) Q' R) : HoareT P (Prog.bind m f) Q' R := by
  intro s hs
  have := hm s hs
  simp only [Prog.bind]
  generalize m s = r at this ⊢
  obtain ⟨r, s'⟩ := r
  cases r with
  | ok a => exact hf a s' this
  | error e => exact this

theorem try_ {m : Prog ν α} {h : PyErr → Prog ν α} (hm : HoareT P m Q R) (hh : ∀ e, HoareT (R e) (h e) Q R') :
    HoareT P (Prog.catch_ m h) Q R' := by
  intro s hs
  have := hm s hs
  simp only [Prog.catch_]
  generalize m s = r at this ⊢
  obtain ⟨r, s'⟩ := r
  cases r with
  | ok a => exact this
  | error e => exact hh e s' this

theorem mono {P' : Machine ν → Prop} {Q₁ : α → Machine ν → Prop} {m : Prog ν α} (h : HoareT P m Q₁ R) (hp : ∀ d, P' d → P d)
    (hq : ∀ a d, Q₁ a d → Q a d) (hr : ∀ e d, R e d → R' e d) : HoareT P' m Q R' := by
  intro s hs
  have := h s (hp _ hs)
  generalize m s = r at this ⊢
  obtain ⟨r, s'⟩ := r
  cases r with
  | ok a => exact hq _ _ this
  | error e => exact hr _ _ this

theorem act_ {F : Nat → Option PyErr} {f : Disk ν → Except PyErr (Disk ν)} {Q : Unit → Machine ν → Prop}
    (hok : ∀ d n d', P ⟨d, n⟩ → F n = none → f d = .ok d' → Q () ⟨d', n + 1⟩)
    (hfail : ∀ d n e, P ⟨d, n⟩ → F n = some e → R e ⟨d, n + 1⟩)
    (herr : ∀ d n e, P ⟨d, n⟩ → F n = none → f d = .error e → R e ⟨d, n + 1⟩) : HoareT P (Prog.act F f) Q R := by
  rintro ⟨d, n⟩ hs
  simp only [Prog.act, Prog.sys]
  cases hf : F n with
  | some e => exact hfail _ _ _ hs hf
  | none =>
    simp only
    cases h : f d with
    | ok a => exact hok _ _ _ hs hf h
    | error e => exact herr _ _ _ hs hf h

theorem look_ {F : Nat → Option PyErr} {f : Disk ν → Except PyErr α}
    (hok : ∀ d n a, P ⟨d, n⟩ → F n = none → f d = .ok a → Q a ⟨d, n + 1⟩)
    (hfail : ∀ d n e, P ⟨d, n⟩ → F n = some e → R e ⟨d, n + 1⟩)
    (herr : ∀ d n e, P ⟨d, n⟩ → F n = none → f d = .error e → R e ⟨d, n + 1⟩) : HoareT P (Prog.look F f) Q R := by
  rintro ⟨d, n⟩ hs
  simp only [Prog.look, Prog.sys]
  cases hf : F n with
  | some e => exact hfail _ _ _ hs hf
  | none =>
    simp only
    cases h : f d with
    | ok a => exact hok _ _ _ hs hf h
    | error e => exact herr _ _ _ hs hf h

theorem of_pre {c : Prop} {m : Prog ν α} (h : c → HoareT P m Q R) : HoareT (fun d => c ∧ P d) m Q R :=
  fun s hs => h hs.1 s hs.2

theorem pre {P' : Machine ν → Prop} {m : Prog ν α} (h : HoareT P m Q R) (hp : ∀ d, P' d → P d) : HoareT P' m Q R :=
  h.mono hp (fun _ _ h => h) (fun _ _ h => h)

theorem result {m : Prog ν α} (h : HoareT P m Q R) {s : Machine ν} (hs : P s) :
    (∀ a, (m s).1 = .ok a → Q a (m s).2) ∧ (∀ e, (m s).1 = .error e → R e (m s).2) := by
  have := h s hs
  generalize m s = r at this ⊢
  obtain ⟨r, s'⟩ := r
  cases r with
  | ok a => simpa using this
  | error e => simpa using this

end HoareT
end Verif.FS
