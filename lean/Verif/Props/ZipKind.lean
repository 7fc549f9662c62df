import Verif.Model.ZipKind
import Verif.Props.Zip
import Verif.Lemmas.Decide

/-!
# C120: what kind of thing a path through archives is
-/

namespace Verif.Zip
open Verif.Symlink Verif.Zip.Spec

/-- What a path is: a file on disk, or one in an archive (entries as C65 has it). -/
def Spec.FileThere (d : Disk) (p : List Str) : Prop :=
  d p = .file ∨ ∃ names z rel, Archive d names z p ∧ p = rel ++ z ∧ isDir names ⟨[], rel.reverse⟩ = false

theorem relOf_append (rel z : List Str) : relOf z (rel ++ z) = ⟨[], rel.reverse⟩ := by simp [relOf]

/-- C120 (part): away from archives what is there is a file or a directory and not both, and is opened exactly when it is a file.
(Full claim: also in archives.) -/
theorem C120_outside_partial (d : Disk) (p : List Str) (hz : zipPath d p = .ok none) (hroot : isZipfile d [] = false) (hp : d p ≠ .missing) :
    osIsFile d p = !osIsDir d p ∧ (zipOpens d p = .ok () ↔ osIsFile d p = true) ∧ (osIsFile d p = true ↔ FileThere d p) := by
  have hno : ∀ names z, ¬ Archive d names z p := by
    rintro names z ⟨hs, hd⟩
    have hzf : isZipfile d z = true := by simp [isZipfile, hd]
    by_cases hzn : z = []
    · subst hzn; rw [hroot] at hzf; exact nomatch hzf
    · rw [zipPath_none hz z hs hzn] at hzf; exact nomatch hzf
  have hft : FileThere d p ↔ d p = .file := by
    refine ⟨?_, .inl⟩
    rintro (h | ⟨names, z, rel, ha, -⟩)
    · exact h
    · exact absurd ha (hno _ _)
  rw [hft]
  cases hd : d p with
  | missing => exact absurd hd hp
  | dir => simp [osIsFile, osIsDir, zipOpens, hz, hd]
  | file => simp [osIsFile, osIsDir, zipOpens, hz, hd]
  | zip names => exact absurd ⟨List.suffix_refl _, hd⟩ (hno names p)

/-- C120: whatever is at or below an archive is opened exactly when it is a file there. -/
theorem C120_opens_iff (d : Disk) (p : List Str) (ht : Tree d) (names : List Str) (z : List Str) (hz : zipPath d p = .ok (some z)) (hd : d z = .zip names) :
    zipOpens d p = .ok () ↔ FileThere d p := by
  obtain ⟨⟨rel, rfl⟩, -⟩ := zipPath_some hz
  simp only [zipOpens, hz, hd, relOf_append]
  constructor
  · intro h
    cases hi : isDir names ⟨[], rel.reverse⟩ with
    | true => simp [hi] at h
    | false => exact .inr ⟨names, z, rel, ⟨⟨rel, rfl⟩, hd⟩, rfl, hi⟩
  · rintro (h | ⟨ns, z', rel', ha, hr, hi⟩)
    · by_cases he : rel = []
      · subst he; rw [List.nil_append, hd] at h; exact nomatch h
      · have := tree_above ht ⟨rel, rfl⟩ (p := rel ++ z) (fun h' => he (by simpa using h'.symm)) (by rw [h]; exact nofun)
        rw [hd] at this; exact nomatch this
    · obtain ⟨rfl, rfl⟩ := archive_unique ht ha ⟨⟨rel, rfl⟩, hd⟩
      have : rel' = rel := (List.append_cancel_right hr).symm
      subst this
      simp [hi]

/-- C120 (fails): what an archive holds exists and can be opened or listed, but is neither a file nor a directory. -/
theorem C120_inside_counterexample (d : Disk) (p z : List Str) (names : List Str) (ht : Tree d) (ha : Archive d names z p) (hne : z ≠ p) :
    osIsFile d p = false ∧ osIsDir d p = false := by
  have : d p = .missing := by
    cases hp : d p with
    | missing => rfl
    | _ =>
      have := tree_above ht ha.1 hne (by rw [hp]; exact nofun)
      rw [ha.2] at this; exact nomatch this
  simp [osIsFile, osIsDir, this]

/-- C120 (fails): an archive is a file and no directory, and opening it says that it is a directory. -/
theorem C120_archive_counterexample (d : Disk) (p : List Str) (names : List Str) (hz : zipPath d p = .ok (some p)) (hd : d p = .zip names)
    (hn : ∀ n ∈ names, (parse n).comps ≠ []) :
    osIsFile d p = true ∧ osIsDir d p = false ∧ zipOpens d p = .error .isADirectoryError := by
  refine ⟨by simp [osIsFile, hd], by simp [osIsDir, hd], ?_⟩
  have hdir : isDir names ⟨[], []⟩ = true := by
    cases hi : isDir names ⟨[], []⟩ with
    | true => rfl
    | false =>
      obtain ⟨-, b, n, a, he, hp, -⟩ := (C65_file_iff _ _).1 hi
      exact absurd (by rw [hp]) (hn n (by rw [he]; simp))
  simp [zipOpens, hz, hd, relOf, hdir]

/-- C120 (fails): the paths inside themselves cannot be asked whether they are files. -/
theorem C120_internal_counterexample (p : Pure) : internalIsFile p = .error .typeError := rfl

example : zipPath sampleDisk [lit "b", lit "a", lit "x.zip"] = .ok (some [lit "x.zip"]) ∧
    zipOpens sampleDisk [lit "b", lit "a", lit "x.zip"] = .ok () ∧ osIsFile sampleDisk [lit "b", lit "a", lit "x.zip"] = false ∧
    zipPath sampleDisk [] = .ok none := by decide +kernel

/-- **C120**: why a path outside of archives cannot be opened -/
theorem C120_refused (d : Disk) (p : List Str) (hz : zipPath d p = .ok none) (e : PyErr) :
    zipOpens d p = .error e ↔ (d p = .missing ∧ e = .fileNotFoundError) ∨ (d p = .dir ∧ e = .isADirectoryError) := by
  simp only [zipOpens, hz]
  cases d p <;> simp [eq_comm]

/-- **C120**: a path in an archive that is not opened: the archive has no file there. -/
theorem C120_refused_inside (d : Disk) (p : List Str) (ht : Tree d) (names : List Str) (z : List Str) (hz : zipPath d p = .ok (some z)) (hd : d z = .zip names)
    (e : PyErr) : zipOpens d p = .error e ↔ e = .isADirectoryError ∧ ¬ FileThere d p := by
  rw [← C120_opens_iff d p ht names z hz hd]
  simp only [zipOpens, hz, hd]
  cases isDir names (relOf z p) <;> simp [eq_comm]
example : zipPath sampleDisk [] = .ok none ∧ zipOpens sampleDisk [] = .error .isADirectoryError := by decide +kernel

end Verif.Zip
