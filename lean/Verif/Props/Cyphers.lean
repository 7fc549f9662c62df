import Verif.Model.Cyphers
import Verif.Props.Fetch
import Verif.Props.Validate

/-!
# C111: which cypher a checksum is made and checked with
-/

namespace Verif.Cache
open Verif.Data Verif.FS

variable {κ : Type} [DecidableEq κ]

/-- The cyphers are named: the two tables belong together. -/
def Cyphers.Named (A : Cyphers κ) : Prop := ∀ c s, A.algo c = some s ↔ A.lookup s = some c

/-- **C111**, what is used: for a name in the metadata the cypher with that name, except that the default cypher is taken to mean
the cypher of the class (or of the local class, if the class has the default one); without a name it is the cypher of the class, or, if that is the default one, that of the
local class; a name that nothing has raises. -/
theorem C111_law (A : Cyphers κ) (cls : κ) (own : Option κ) (name : PyVal) (h : Bytes → Bytes) :
    A.check cls own name = .ok h ↔
      ∃ c, (name = .none ∧ c = cls ∨ ∃ s, name = .str s ∧ A.lookup s = some c) ∧
        h = A.hash (if c ≠ A.dflt then c else if cls ≠ A.dflt then cls else own.getD A.dflt) := by
  have hp : ∀ c, pickCypher A.dflt (some cls) own c = if c ≠ A.dflt then c else if cls ≠ A.dflt then cls else own.getD A.dflt := by
    intro c
    unfold pickCypher
    by_cases hc : c = A.dflt
    · subst hc
      simp only [ne_eq, not_true_eq_false, if_false]
      split
      · rfl
      · cases own with
        | none => rfl
        | some s =>
          dsimp only [Option.getD]
          split
          · rfl
          · rename_i hs
            exact (Decidable.not_not.1 hs).symm
    · simp [hc]
  unfold Cyphers.check Cyphers.instance_
  cases name with
  | none =>
    simp only [Except.map, Except.ok.injEq, hp]
    constructor
    · rintro rfl; exact ⟨cls, .inl ⟨trivial, rfl⟩, rfl⟩
    · rintro ⟨c, ⟨-, rfl⟩ | ⟨s, hs, -⟩, rfl⟩
      · rfl
      · cases hs
  | str s =>
    cases hl : A.lookup s with
    | none =>
      simp only [Except.map, hl]
      constructor
      · intro h; cases h
      · rintro ⟨c, ⟨hs, -⟩ | ⟨s', hs, h2⟩, -⟩
        · cases hs
        · cases hs; rw [hl] at h2; cases h2
    | some c =>
      simp only [Except.map, hl, Except.ok.injEq, hp]
      constructor
      · rintro rfl; exact ⟨c, .inr ⟨s, rfl, hl⟩, rfl⟩
      · rintro ⟨c', ⟨hs, -⟩ | ⟨s', hs, h2⟩, rfl⟩
        · cases hs
        · cases hs; rw [hl] at h2; cases h2; rfl
  | _ =>
    simp only [Except.map]
    constructor
    · intro h; cases h
    · rintro ⟨c, ⟨hs, -⟩ | ⟨s', hs, h2⟩, -⟩ <;> cases hs

/-- **C111**: the cypher that the metadata names is the one that is used, if it is not the default one or the class has the default one
too. -/
theorem C111_named_partial (A : Cyphers κ) (cls c : κ) (s : Str) (hs : A.lookup s = some c) (hc : c ≠ A.dflt ∨ cls = A.dflt) :
    A.check cls none (.str s) = .ok (A.hash c) := by
  rw [C111_law]
  refine ⟨c, .inr ⟨s, rfl, hs⟩, ?_⟩
  split
  · rfl
  · next h =>
    rw [Decidable.not_not] at h
    rcases hc with hc | hc
    · exact absurd h hc
    · rw [if_neg (by simp [hc]), h]; rfl

/-- **C111**: an unknown name is refused before anything is read. -/
theorem C111_unknown (A : Cyphers κ) (cls : κ) (own : Option κ) (s : Str) (hs : A.lookup s = none) :
    A.check cls own (.str s) = .error .notImplementedError := by
  simp [Cyphers.check, Cyphers.instance_, hs, Except.map]

/-- **C111**: the checksum in the metadata of a local file is made with the cypher that is named there, which is that of the cache class. -/
theorem C111_local_partial (A : Cyphers κ) (hA : A.Named) (cls : Option κ) (content x : Bytes) (s : Str)
    (h : A.localSum cls none content = .ok (x, s)) :
    A.lookup s = some (cls.getD A.dflt) ∧ x = A.hash (cls.getD A.dflt) content := by
  unfold Cyphers.localSum at h
  dsimp only at h
  cases ha : A.algo (cls.getD A.dflt) with
  | none => rw [ha] at h; cases h
  | some n =>
    rw [ha] at h
    cases h
    refine ⟨(hA _ _).1 ha, ?_⟩
    congr 1
    unfold pickCypher
    cases cls with
    | none => simp
    | some c => by_cases hc : c = A.dflt <;> simp [hc]

/-- **C111**: metadata that was made locally passes the check of the same class on the same content. -/
theorem C111_own (A : Cyphers κ) (hA : A.Named) (cls : κ) (content x : Bytes) (s : Str)
    (h : A.localSum (some cls) none content = .ok (x, s)) :
    ∃ f, A.check cls none (.str s) = .ok f ∧ f content = x := by
  obtain ⟨h1, h2⟩ := C111_local_partial A hA _ _ _ _ h
  refine ⟨_, C111_named_partial A cls cls s h1 ?_, h2.symm⟩
  by_cases hc : cls = A.dflt
  · exact .inr hc
  · exact .inl hc

/-- **C111** for a fetch: if it returns, then the data has the checksum that is recorded, made with the cypher that is recorded, or the mismatch is noted. -/
theorem C111_fetch_partial (A : Cyphers κ) (cls c : κ) (C : PEnv) (hC : C.cypher = A.check cls none) {q : Path} {limit : Option Int}
    {m : Meta} {n : Str} {s s' : Machine CObj} (hrec : Recorded s.disk q m)
    (hm : metaBool m = true) (hdir : InDir s.disk q) (hid : m .file_id ≠ .none) (hall : Allowed limit m)
    (hn : m .checksum_cypher = .str n) (hne : n ≠ []) (hl : A.lookup n = some c) (hc : c ≠ A.dflt ∨ cls = A.dflt)
    (hrun : C.fetch q limit s = (.ok (), s')) :
    ∃ (cs : List Bytes) (m' : Meta), C.chunks = cs.map .ok ∧ s'.disk.at_ q = some (.file cs.flatten (some m')) ∧
      (m' .checksum = .none ∨ (∃ l, m' .errors = .strs l ∧ lit "checksum-mismatch" ∈ l) ∨ m' .checksum = .bytes (A.hash c cs.flatten)) := by
  obtain ⟨cs, m', h1, -, h3, ⟨-, h4⟩, h5, -⟩ := C34_verified C hrec hm hdir hid hall hrun
  refine ⟨cs, m', h1, h3, ?_⟩
  rcases h4 with h4 | h4 | ⟨h, h6, h7⟩
  · exact .inl h4
  · exact .inr (.inl h4)
  · refine .inr (.inr ?_)
    have hcy : m' .checksum_cypher = .str n := by
      rcases h5.1 .checksum_cypher (by decide) with h | ⟨h, -⟩
      · rw [h, hn]
      · rw [hn] at h
        cases n with
        | nil => exact absurd rfl hne
        | cons a as => simp [PyVal.emptyIterable] at h
    rw [hC, hcy, C111_named_partial A cls c n hl hc] at h6
    cases h6
    exact h7

/-- Two cyphers: the first byte (the default one) and the last byte. -/
def two : Cyphers Bool where
  dflt := false
  lookup := fun s => if s = lit "first" then some false else if s = lit "last" then some true else none
  algo := fun c => some (if c then lit "last" else lit "first")
  hash := fun c b => if c then b.drop (b.length - 1) else b.take 1

/-- Metadata of a file of three bytes that names its cypher. -/
def threeNamed (n : Str) (c : Bytes) : Meta := Verif.setField (threeBytes c) .checksum_cypher (.str n)

/-- **C111 is false**: metadata that names the default cypher is checked with the cypher of the class.  A file whose content has the recorded
checksum is fetched and then marked as having a wrong one. -/
theorem C111_default_counterexample :
    two.check true none (.str (lit "first")) = .ok (two.hash true) ∧
    (let C := { simple with cypher := two.check true none }
     let s : Machine CObj := ⟨[([], .dir none), ([['t']], .dir none), ([['a']], .file [] (some (threeNamed (lit "first") [1])))], 0⟩
     two.hash false [1, 2, 3] = [1] ∧ (C.fetch [['a']] none s).1 = .ok () ∧
     ∃ m, (C.fetch [['a']] none s).2.disk.at_ [['a']] = some (.file [1, 2, 3] (some m)) ∧
       m .errors = .strs [lit "checksum-mismatch"] ∧ m .checksum = .bytes [1] ∧ m .checksum_cypher = .str (lit "first")) := by
  refine ⟨rfl, by decide, by decide +kernel, ?_⟩
  refine ⟨_, by rfl, by with_unfolding_all rfl, by rfl, by rfl⟩

/-- **C111 is false** for validation too: a file that has the recorded checksum does not pass. -/
theorem C111_validate_counterexample :
    let C := { simple with cypher := two.check true none }
    (C.validate (fun _ b => .ok (b, 1)) [['a']] ⟨[([], .dir none), ([['a']], .file [1, 2, 3] (some (threeNamed (lit "first") [1])))], 0⟩).1 =
      .error .attributeError := by
  decide +kernel

/-- **C111 is false** if the class of local paths has a cypher of its own: the metadata names another cypher than the one that the checksum was made
with. -/
theorem C111_own_cypher_counterexample :
    two.localSum (some false) (some true) [1, 2, 3] = .ok ([3], lit "first") ∧ two.hash false [1, 2, 3] ≠ [3] := by
  decide +kernel

example : two.Named := by
  intro c s
  have h1 : lit "last" ≠ lit "first" := by decide
  cases c
  · simp only [two, Bool.false_eq_true, if_false, Option.some.injEq]
    constructor
    · rintro rfl; rw [if_pos rfl]
    · intro h
      split at h
      · next hs => exact hs.symm
      · split at h <;> cases h
  · simp only [two, if_true, Option.some.injEq]
    constructor
    · rintro rfl; rw [if_neg h1, if_pos rfl]
    · intro h
      split at h
      · cases h
      · split at h
        · next hs => exact hs.symm
        · cases h
example : two.localSum (some true) none [1, 2, 3] = .ok ([3], lit "last") ∧ two.check true none (.str (lit "last")) = .ok (two.hash true) :=
  ⟨by decide +kernel, rfl⟩

example : let C := { simple with cypher := two.check true none }
    let s : Machine CObj := ⟨[([], .dir none), ([['a']], .file [] (some (threeNamed (lit "last") [3])))], 0⟩
    Recorded s.disk [['a']] (threeNamed (lit "last") [3]) ∧ metaBool (threeNamed (lit "last") [3]) = true ∧ InDir s.disk [['a']] ∧
    (C.fetch [['a']] none s).1 = .ok () ∧ (shown (C.fetch [['a']] none s).2.disk [['a']]).map (·.1) = some [1, 2, 3] :=
  ⟨.inl ⟨[], rfl⟩, by decide, ⟨by simp, none, rfl⟩, by decide +kernel, by decide +kernel⟩

/-- **C111**, what is recorded for a local file: the name is that of the cypher of the cache class, or of the default one without one; the checksum is
made with that cypher, except that for the default one a cypher of the local class is used. -/
theorem C111_local_law {κ : Type} [DecidableEq κ] (A : Cyphers κ) (cls own : Option κ) (content x : Bytes) (s : Str) :
    A.localSum cls own content = .ok (x, s) ↔
      A.algo (cls.getD A.dflt) = some s ∧ x = A.hash (if cls.getD A.dflt ≠ A.dflt then cls.getD A.dflt else own.getD A.dflt) content := by
  have hp : pickCypher A.dflt cls own (cls.getD A.dflt) = if cls.getD A.dflt ≠ A.dflt then cls.getD A.dflt else own.getD A.dflt := by
    unfold pickCypher
    by_cases hc : cls.getD A.dflt = A.dflt
    · have ho : (match own with | some s => if s ≠ A.dflt then s else A.dflt | none => A.dflt) = own.getD A.dflt := by
        cases own with
        | none => rfl
        | some s => by_cases hs : s = A.dflt <;> simp [hs]
      rw [hc, if_neg (by simp), if_neg (by simp)]
      cases cls with
      | none => exact ho
      | some c =>
        have hc : c = A.dflt := hc
        simp only [hc, ne_eq, not_true_eq_false, if_false]
        exact ho
    · rw [if_pos hc, if_pos hc]
  unfold Cyphers.localSum
  dsimp only
  rw [hp]
  cases A.algo (cls.getD A.dflt) with
  | none => exact ⟨fun h => by (cases h), fun h => by cases h.1⟩
  | some n =>
    simp only [Except.ok.injEq, Prod.mk.injEq, Option.some.injEq]
    exact ⟨fun h => ⟨h.2, h.1.symm⟩, fun h => ⟨h.2.symm, h.1⟩⟩

end Verif.Cache
