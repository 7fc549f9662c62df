import Verif.Model.Refresh
import Verif.Lemmas.Decide

/-!
# C116: refreshing a cache
-/

namespace Verif.Refresh

variable {σ ρ : Type} (W : World σ ρ)

/-- What the remote is to be told: that the cache is to be updated, the data too if that is asked for or if they are here already, and the
limit and the flag that were given. -/
def Told (W : World σ ρ) (updateData : Bool) (sizeLimit : Option Int) (force : Bool) (s : σ) (r : Request) : Prop :=
  r.updateCache = true ∧ r.updateData = updateData ∧ (r.updateDataOnCache = true ↔ W.isFile s = true ∧ W.exists_ s = true) ∧
  r.sizeLimit = sizeLimit ∧ r.force = force

/-- The arguments that the method has to take by name. -/
def wanted : List Str := [lit "force", lit "size_limit_mb", lit "update_cache", lit "update_data", lit "update_data_on_cache"]

theorem mem_wanted (k : Str) : k ∈ wanted ↔ k ∈ keywords := by
  simp only [wanted, keywords, List.mem_cons, List.not_mem_nil, or_false]
  constructor <;> rintro (h | h | h | h | h) <;> simp only [h, true_or, or_true]

/-- The metadata are known, and the limit can be compared with the size. -/
def Ready (W : World σ ρ) (sizeLimit : Option Int) (s : σ) : Prop :=
  ∃ size, W.size s = some size ∧ (sizeLimit = none → size = none ∨ size = some 0)

theorem limit_ok {size : Option Nat} {sizeLimit : Option Int} (h : sizeLimit = none → size = none ∨ size = some 0) :
    ∃ l, limit size sizeLimit = .ok l := by
  unfold limit
  split
  · exact ⟨_, rfl⟩
  · exact ⟨_, rfl⟩
  · rename_i n hn
    cases sizeLimit with
    | none =>
      rcases h rfl with h | h
      · cases h
      · cases h; exact absurd rfl hn
    | some l => dsimp only; split <;> exact ⟨_, rfl⟩

/-- **The remote is asked once, and the cache goes to the trash exactly if the remote says that it is gone.**  What the remote answers is what
`refresh` gives, and nothing is changed but by the remote and by the move to the trash. -/
theorem C116_refresh (updateData force : Bool) (sizeLimit : Option Int) (s : σ) (hr : Ready W sizeLimit s) (names : List Str)
    (hn : W.accepts = some names) (hk : ∀ k ∈ wanted, k ∈ names) :
    ∃ r, Told W updateData sizeLimit force s r ∧
    match W.run r s with
    | (.ok (some new), t) => W.refresh updateData sizeLimit force s = (.ok (some new), [.asked r], t)
    | (.error e, t) => W.refresh updateData sizeLimit force s = (.error e, [.asked r], t)
    | (.ok none, t) => (W.refresh updateData sizeLimit force s).2 = ([.asked r, .crumpled], (W.crumple t).2) ∧
        ((W.refresh updateData sizeLimit force s).1 = match (W.crumple t).1 with | .ok _ => .ok none | .error e => .error e) := by
  obtain ⟨size, hs, hl⟩ := hr
  obtain ⟨l, hl⟩ := limit_ok hl
  have hall : (keywords.all fun k => names.contains k) = true := by simpa [mem_wanted] using hk
  refine ⟨⟨true, updateData, W.isFile s && W.exists_ s, sizeLimit, force⟩, ⟨rfl, rfl, by simp, rfl, rfl⟩, ?_⟩
  unfold World.refresh
  rw [hs]; dsimp only
  rw [hl]; dsimp only
  rw [hn]; dsimp only
  rw [if_pos hall]
  cases hrun : W.run ⟨true, updateData, W.isFile s && W.exists_ s, sizeLimit, force⟩ s with
  | mk a t =>
    cases a with
    | error e => rfl
    | ok a =>
      cases a with
      | some new => rfl
      | none =>
        dsimp only
        cases hc : W.crumple t with
        | mk b u => cases b <;> exact ⟨rfl, rfl⟩

/-- **Otherwise it raises before anything is asked or changed.** -/
theorem C116_refused (updateData force : Bool) (sizeLimit : Option Int) (s : σ)
    (h : ¬ Ready W sizeLimit s ∨ W.accepts = none ∨ ∃ names, W.accepts = some names ∧ ∃ k ∈ wanted, k ∉ names) :
    ∃ e, W.refresh updateData sizeLimit force s = (.error e, [], s) ∧ (e = .attributeError ∨ e = .typeError) := by
  unfold World.refresh
  cases hs : W.size s with
  | none => exact ⟨_, rfl, .inl rfl⟩
  | some size =>
    dsimp only
    cases hl : limit size sizeLimit with
    | error e =>
      refine ⟨_, rfl, .inr ?_⟩
      unfold limit at hl
      split at hl
      · cases hl
      · cases hl
      · split at hl
        · cases hl; rfl
        · split at hl <;> cases hl
    | ok l =>
      dsimp only
      cases ha : W.accepts with
      | none => exact ⟨_, rfl, .inl rfl⟩
      | some names =>
        dsimp only
        by_cases hk : (keywords.all fun k => names.contains k) = true
        · exfalso
          rcases h with h | h | ⟨names', h, k, hk1, hk2⟩
          · apply h
            refine ⟨size, hs, ?_⟩
            rintro rfl
            unfold limit at hl
            split at hl
            · exact .inl rfl
            · exact .inr rfl
            · cases hl
          · rw [ha] at h; cases h
          · rw [ha] at h
            cases h
            rw [List.all_eq_true] at hk
            exact hk2 (by simpa using hk k ((mem_wanted k).1 hk1))
        · rw [if_neg hk]
          exact ⟨_, rfl, .inr rfl⟩

/-- What the limit is for: what is here already may be refreshed whatever its size is. -/
def Enough (size : Option Nat) (told : Option Int) : Prop :=
  ∀ n l, size = some n → told = some l → 0 < n → (n : Int) < l * 1024 ^ 2

/-- **The limit that is computed is enough for the file**: it is the one that was given, or a megabyte more than the size. -/
theorem C116_limit (size : Option Nat) (sizeLimit l : Option Int) (h : limit size sizeLimit = .ok l) (n : Nat) (hn : size = some n)
    (h0 : 0 < n) : ∃ b g, l = some b ∧ (n : Int) < b ∧ sizeLimit = some g ∧ (b = g * 1024 ^ 2 ∨ (g * 1024 ^ 2 ≤ n ∧ b = n + 1024 ^ 2)) := by
  subst hn
  unfold limit at h
  split at h
  · rename_i hx; cases hx
  · rename_i hx; cases hx; omega
  · rename_i m _ hx
    cases hx
    cases sizeLimit with
    | none => cases h
    | some l' =>
      dsimp only at h
      split at h
      · cases h; exact ⟨_, _, rfl, by omega, rfl, .inl rfl⟩
      · cases h; exact ⟨_, _, rfl, by omega, rfl, .inr ⟨by omega, rfl⟩⟩

/-- **The limit that the remote is told is enough for files that are smaller than the limit that was given.**  (Full claim: for all
files, which is what `limit` is computed for; false.) -/
theorem C116_limit_partial (updateData force : Bool) (l : Int) (s : σ) (r : Request) (n : Nat) (hs : W.size s = some (some n))
    (h : Told W updateData (some l) force s r) (hn : (n : Int) < l * 1024 ^ 2) : Enough (some n) r.sizeLimit := by
  obtain ⟨_, _, _, h4, _⟩ := h
  intro m l' hm hl _
  cases hm
  rw [h4] at hl
  cases hl
  exact hn

/-- The full claim is false: the limit that is computed is not the one that the remote is told.  For each file that is not smaller than the
limit that was given, the remote is told a limit that is not enough. -/
theorem C116_limit_counterexample (updateData force : Bool) (l : Int) (s : σ) (n : Nat) (hs : W.size s = some (some n)) (h0 : 0 < n)
    (hn : l * 1024 ^ 2 ≤ n) (names : List Str) (ha : W.accepts = some names) (hk : ∀ k ∈ wanted, k ∈ names) :
    ∃ r, Event.asked r ∈ (W.refresh updateData (some l) force s).2.1 ∧ ¬ Enough (some n) r.sizeLimit := by
  obtain ⟨r, ht, hm⟩ := C116_refresh W updateData force (some l) s ⟨some n, hs, fun h => nomatch h⟩ names ha hk
  refine ⟨r, ?_, ?_⟩
  · split at hm
    · rw [hm]; simp
    · rw [hm]; simp
    · rw [hm.1]; simp
  · intro he
    have := he n l rfl ht.2.2.2.1 h0
    omega

/-- **None of the remotes here can be refreshed through a cache**: their methods take no arguments. -/
theorem C116_here_counterexample (updateData force : Bool) (sizeLimit : Option Int) (s : σ) (ha : W.accepts = some remoteRefresh) :
    ∃ e, W.refresh updateData sizeLimit force s = (.error e, [], s) ∧ (Ready W sizeLimit s → e = .typeError) := by
  obtain ⟨e, h, he⟩ := C116_refused W updateData force sizeLimit s
    (.inr (.inr ⟨_, ha, lit "force", by decide, by decide⟩))
  refine ⟨e, h, ?_⟩
  rintro ⟨size, hs, hl⟩
  obtain ⟨l, hl⟩ := limit_ok hl
  unfold World.refresh at h
  rw [hs] at h; dsimp only at h
  rw [hl] at h; dsimp only at h
  rw [ha] at h; dsimp only at h
  rw [if_neg (by decide)] at h
  simp only [Prod.mk.injEq, Except.error.injEq] at h
  exact h.1.symm

/-- A file of three megabytes whose remote is gone. -/
def sample : World Nat Unit :=
  { size := fun _ => some (some (3 * 1024 ^ 2)), isFile := fun _ => true, exists_ := fun _ => true, accepts := some wanted,
    run := fun _ n => (.ok none, n + 1), crumple := fun n => (.ok (), n + 10) }

example : Ready sample (some 2) 0 ∧ sample.accepts = some wanted ∧ (2 : Int) * 1024 ^ 2 ≤ (3 * 1024 ^ 2 : Nat) ∧
    sample.refresh false (some 2) false 0 = (.ok none, [.asked ⟨true, false, true, some 2, false⟩, .crumpled], 11) :=
  ⟨⟨_, rfl, fun h => nomatch h⟩, rfl, by decide, by rfl⟩

example : ¬ Ready sample none 0 := by
  rintro ⟨size, h, h'⟩
  cases h
  rcases h' rfl with h | h <;> cases h

end Verif.Refresh
