import Verif.Model.AttrFail
import Verif.Lemmas.Decide

/-!
# C114: what becomes of failures when attributes are asked for
-/

namespace Verif.Attrs
open Verif.FS (Path)

/-! ## What should be raised -/

/-- A failure comes through as what it is: as `NoStreamError` if the attribute is not there, as it came otherwise. -/
def Faithful (P : Platform) (e : Nat) (f : Failure) : Prop := f = if e = P.missing then .noStream else .os e

/-- Numbers this platform gives for reasons other than a missing attribute are not taken for it, and it knows both names. -/
structure Platform.Both (P : Platform) : Prop where
  enodata : ∃ d, P.enodata = some d
  enoattr : ∃ a, P.enoattr = some a
  missing : P.enodata = some P.missing ∨ P.enoattr = some P.missing

/-- **C114**: an attribute that is there is returned. -/
theorem C114_get (P : Platform) (v : Bytes) : get P (.ok v) = .ok v := rfl

/-- **C114**: where the `errno` module has `ENODATA`, the platform's number for a missing attribute gives `NoStreamError`, whatever else it
has (on Linux as well as on macOS). -/
theorem C114_missing {P : Platform} {d : Nat} (hd : P.enodata = some d) (hm : P.missing = d ∨ P.enoattr = some P.missing) :
    get P (.error P.missing) = .error .noStream := by
  simp only [get, hd]
  by_cases h : P.missing = d
  · rw [if_pos h]
  · rw [if_neg h, hm.resolve_left h]
    simp

/-- **C114, partial**: where the `errno` module has both numbers, a failure which is neither of them comes through as it is.  The full
claim is that this is so on every platform, see `C114_linux_counterexample`. -/
theorem C114_faithful_partial {P : Platform} (hP : P.Both) {e : Nat} (he : e = P.missing ∨ P.enodata ≠ some e ∧ P.enoattr ≠ some e) :
    ∃ f, get P (.error e) = .error f ∧ Faithful P e f := by
  obtain ⟨d, hd⟩ := hP.enodata
  obtain ⟨a, ha⟩ := hP.enoattr
  have hm := hP.missing
  rw [hd, ha] at hm
  simp only [Option.some.injEq] at hm
  simp only [get, hd, ha, Faithful]
  by_cases h : e = P.missing
  · refine ⟨_, ?_, rfl⟩
    rw [if_pos h]
    by_cases h1 : e = d
    · rw [if_pos h1]
    · rw [if_neg h1, if_pos (by omega)]
  · obtain ⟨h1, h2⟩ := he.resolve_left h
    refine ⟨_, ?_, rfl⟩
    rw [hd, ne_eq, Option.some.injEq] at h1
    rw [ha, ne_eq, Option.some.injEq] at h2
    rw [if_neg h, if_neg (fun x => h1 x.symm), if_neg (fun x => h2 x.symm)]

example : macOS.Both ∧ (2 = macOS.missing ∨ macOS.enodata ≠ some 2 ∧ macOS.enoattr ≠ some 2) ∧
    get macOS (.error 2) = .error (.os 2) ∧ get macOS (.error 93) = .error .noStream :=
  ⟨⟨⟨_, rfl⟩, ⟨_, rfl⟩, .inr rfl⟩, by decide, rfl, rfl⟩

/-- **C114, disproved on Linux**: every failure other than a missing attribute, such as a file that is not there or that may not be read,
becomes `AttributeError`, as there is no `errno.ENOATTR`. -/
theorem C114_linux_counterexample {e : Nat} (he : e ≠ linux.missing) :
    get linux (.error e) = .error .attributeError ∧ ¬ Faithful linux e .attributeError := by
  have he : e ≠ 61 := he
  refine ⟨by simp [get, linux, he], ?_⟩
  unfold Faithful
  rw [if_neg (show e ≠ linux.missing from he)]
  simp

/-! ## Deleting -/

/-- **C114**: deleting an attribute raises what the system raised, or nothing: nothing exactly if the system had nothing to raise, or it
was number 61 and failing was not asked for. -/
theorem C114_del (fail : Bool) (r : Except Nat Unit) :
    (del fail r = .ok () ↔ r = .ok () ∨ r = .error 61 ∧ fail = false) ∧ ∀ f, del fail r = .error f → ∃ e, r = .error e ∧ f = .os e := by
  cases r with
  | ok u => simp [del]
  | error e =>
    simp only [del]
    cases fail <;> by_cases h : e = 61 <;> simp [h]

/-- **C114**: on Linux deleting an attribute that is not there is silent, unless failing was asked for. -/
theorem C114_del_linux (fail : Bool) :
    del fail (.error linux.missing) = if fail then .error (.os linux.missing) else .ok () := by
  cases fail <;> rfl

/-- **C114, disproved on macOS**: deleting an attribute that is not there raises although failing was not asked for. -/
theorem C114_del_counterexample : del false (.error macOS.missing) = .error (.os 93) := rfl

/-! ## Sparseness -/

theorem sparseRoot_congr {f g : Path → Except PyErr Bytes} (base : Path) : ∀ (n : Nat) (p : Path), p.length ≤ n →
    (∀ q, q ≠ [] → q <+: p → f (base ++ q) = g (base ++ q)) → FS.sparseRoot f base p = FS.sparseRoot g base p
  | 0, p, hn, _ => by
    obtain rfl : p = [] := List.length_eq_zero_iff.1 (Nat.le_zero.1 hn)
    rw [FS.sparseRoot.eq_def f, FS.sparseRoot.eq_def g]
    simp
  | n + 1, p, hn, h => by
    rw [FS.sparseRoot.eq_def f, FS.sparseRoot.eq_def g]
    by_cases hp : p = []
    · simp [hp]
    · rw [dif_neg hp, dif_neg hp, h p hp (List.prefix_refl p)]
      have ih := sparseRoot_congr (f := f) (g := g) base n (FS.parentOf p)
        (by have := List.length_pos_iff.2 hp; simp [FS.parentOf]; omega)
        (fun q hq hqp => h q hq (hqp.trans (List.dropLast_prefix p)))
      cases g (base ++ p) with
      | ok v => rfl
      | error e => cases e <;> first | rfl | exact ih

/-- **C114**: where every path from the given one up can be asked, `is_sparse` is what `C41` says of it. -/
theorem C114_sparse {P : Platform} {d : Nat} (hd : P.enodata = some d) (hm : P.missing = d ∨ P.enoattr = some P.missing)
    (named : Nat → PyErr) {fails : Path → Option Nat} (m : FS.Marks) {base p : Path}
    (hf : ∀ q, q ≠ [] → q <+: p → fails (base ++ q) = none) :
    isSparse P named fails m base p = FS.isSparse (FS.getMark m) base p := by
  unfold isSparse FS.isSparse
  rw [sparseRoot_congr (g := FS.getMark m) base p.length p (Nat.le_refl _)]
  intro q hq hqp
  simp only [answer, hf q hq hqp, FS.getMark]
  cases m (base ++ q) with
  | some v => rfl
  | none => simp only [C114_missing hd hm]; rfl

/-- **C114, disproved on Linux**: of a path that is not there, or cannot be asked for another reason, `is_sparse` raises
`AttributeError`, whatever is marked above it. -/
theorem C114_sparse_counterexample (named : Nat → PyErr) {fails : Path → Option Nat} (m : FS.Marks) {base p : Path} (hp : p ≠ [])
    {e : Nat} (hf : fails (base ++ p) = some e) (he : e ≠ linux.missing) : isSparse linux named fails m base p = .error .attributeError := by
  unfold isSparse FS.isSparse
  rw [FS.sparseRoot, dif_neg hp]
  simp only [answer, hf, (C114_linux_counterexample he).1, toPy, Failure.toPy]

/-- **C114**: on macOS it raises what the system raised. -/
theorem C114_sparse_mac {named : Nat → PyErr} {fails : Path → Option Nat} (m : FS.Marks) {base p : Path} (hp : p ≠ [])
    {e : Nat} (hf : fails (base ++ p) = some e) (he : e ≠ 93 ∧ e ≠ 96) (hn : named e ≠ .noStreamError) :
    isSparse macOS named fails m base p = .error (named e) := by
  unfold isSparse FS.isSparse
  rw [FS.sparseRoot, dif_neg hp]
  have : get macOS (.error e) = .error (.os e) := by simp [get, macOS, he.1, he.2]
  simp only [answer, hf, this, toPy, Failure.toPy]

/-! A directory that is marked, a file in it which is there, and one which is not. -/

example : isSparse linux (fun _ => .fileNotFoundError) (fun q => if q.getLast? = some (lit "c") then some 2 else none)
      (fun q => if q = [lit "a"] then some [49] else none) [] [lit "a", lit "b"] = .ok true ∧
    isSparse linux (fun _ => .fileNotFoundError) (fun q => if q.getLast? = some (lit "c") then some 2 else none)
      (fun q => if q = [lit "a"] then some [49] else none) [] [lit "a", lit "c"] = .error .attributeError ∧
    isSparse macOS (fun _ => .fileNotFoundError) (fun q => if q.getLast? = some (lit "c") then some 2 else none)
      (fun q => if q = [lit "a"] then some [49] else none) [] [lit "a", lit "c"] = .error .fileNotFoundError := by decide +kernel

end Verif.Attrs
