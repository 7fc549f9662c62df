import Verif.Lemmas.FS
import Verif.Lemmas.Decide
import Verif.Lemmas.Versions
import Verif.Lemmas.Samples
import Verif.Props.Symlink

/-!
# C19 and C52: metadata links never resolve, existence tests answer
-/

namespace Verif.FS
open Verif.Spec

/-! ## C52 -/

/-- **C52**: `exists()` is true exactly when the path leads to an object. -/
theorem C52_exists_iff (L : Limits) (t : Tree) (cwd : Path) (p : UserPath) :
    pathExists L t cwd p = .ok true ↔ ∃ x, LeadsTo L t cwd p x := by
  rw [pathExists, test_true_iff]
  simp [stat_ok_iff]

/-- **C52**: `is_file()` is true exactly when the path leads to a regular file. -/
theorem C52_is_file_iff (L : Limits) (t : Tree) (cwd : Path) (p : UserPath) :
    isFile L t cwd p = .ok true ↔ ∃ d, LeadsTo L t cwd p (.file d) := by
  rw [isFile, test_true_iff]
  simp only [stat_ok_iff]
  constructor
  · rintro ⟨x, h, hk⟩
    cases x <;> simp at hk
    exact ⟨_, h⟩
  · rintro ⟨d, h⟩; exact ⟨_, h, rfl⟩

/-- **C52**: `is_dir()` is true exactly when the path leads to a directory. -/
theorem C52_is_dir_iff (L : Limits) (t : Tree) (cwd : Path) (p : UserPath) :
    isDir L t cwd p = .ok true ↔ ∃ s, LeadsTo L t cwd p (.dir s) := by
  rw [isDir, test_true_iff]
  simp only [stat_ok_iff]
  constructor
  · rintro ⟨x, h, hk⟩
    cases x <;> simp at hk
    exact ⟨_, h⟩
  · rintro ⟨d, h⟩; exact ⟨_, h, rfl⟩

/-- **C52**: the three tests raise exactly when looking at the path is denied (a directory on the way
is not searchable, or a name is too long); in every other case in which the path does not lead to an
object of the kind they answer `False`, also for symlink loops and files used as directories.
Partial: the full claim has no exception for denied paths, see the counterexample. -/
theorem C52_false_partial (L : Limits) (t : Tree) (cwd : Path) (p : UserPath) :
    (¬Refused L t cwd p →
      (pathExists L t cwd p = .ok false ↔ ¬∃ x, LeadsTo L t cwd p x) ∧
      (isFile L t cwd p = .ok false ↔ ¬∃ d, LeadsTo L t cwd p (.file d)) ∧
      (isDir L t cwd p = .ok false ↔ ¬∃ s, LeadsTo L t cwd p (.dir s))) ∧
    (Refused L t cwd p ↔ ∃ e, pathExists L t cwd p = .error e) ∧
    (Refused L t cwd p ↔ ∃ e, isFile L t cwd p = .error e) ∧
    (Refused L t cwd p ↔ ∃ e, isDir L t cwd p = .error e) := by
  refine ⟨fun h => ⟨?_, ?_, ?_⟩, ?_, ?_, ?_⟩
  · rw [← C52_exists_iff]; exact test_false_iff fun hh => h ((stat_denied_iff ..).1 hh)
  · rw [← C52_is_file_iff]; exact test_false_iff fun hh => h ((stat_denied_iff ..).1 hh)
  · rw [← C52_is_dir_iff]; exact test_false_iff fun hh => h ((stat_denied_iff ..).1 hh)
  all_goals rw [← stat_denied_iff]; exact (test_error_iff ..).symm

/-- **C52**: what is raised is a `PermissionError` for a directory that is not searchable, and a plain `OSError` for a name that is too
long. -/
theorem C52_exceptions (L : Limits) (t : Tree) (cwd : Path) (p : UserPath) :
    (RefusedFor .search L t cwd p → pathExists L t cwd p = .error .permissionError ∧
      isFile L t cwd p = .error .permissionError ∧ isDir L t cwd p = .error .permissionError) ∧
    (RefusedFor .long L t cwd p → pathExists L t cwd p = .error .osError ∧
      isFile L t cwd p = .error .osError ∧ isDir L t cwd p = .error .osError) := by
  constructor
  · intro h
    have := (stat_refused_iff .search L t cwd p).2 h
    exact ⟨(test_denied_iff ..).1.2 this, (test_denied_iff ..).1.2 this, (test_denied_iff ..).1.2 this⟩
  · intro h
    have := (stat_refused_iff .long L t cwd p).2 h
    exact ⟨(test_denied_iff ..).2.2 this, (test_denied_iff ..).2.2 this, (test_denied_iff ..).2.2 this⟩

/-- **C52 is false** for denied paths: a path below a directory without search permission, and a path
with an overlong name, do not lead anywhere but the test raises instead of answering. -/
theorem C52_denied_counterexample :
    (∃ t : Tree, pathExists ⟨255, 40⟩ t [] ⟨true, [lit "a", lit "b"]⟩ = .error .permissionError ∧
      ¬∃ x, LeadsTo ⟨255, 40⟩ t [] ⟨true, [lit "a", lit "b"]⟩ x) ∧
    (∃ (t : Tree) (n : Name), pathExists ⟨255, 40⟩ t [] ⟨true, [n]⟩ = .error .osError ∧
      ¬∃ x, LeadsTo ⟨255, 40⟩ t [] ⟨true, [n]⟩ x) := by
  refine ⟨⟨fun p => if p = [] then some (.dir true) else if p = [lit "a"] then some (.dir false) else none,
    ?_⟩, ⟨fun p => if p = [] then some (.dir true) else none, List.replicate 256 'a', ?_⟩⟩
  · have : pathExists ⟨255, 40⟩ (fun p => if p = [] then some (.dir true) else
        if p = [lit "a"] then some (.dir false) else none) [] ⟨true, [lit "a", lit "b"]⟩ =
        .error .permissionError := by simp [pathExists, test, stat, walk, start, ignored, Errno.py, lit, utf8, Char.utf8Size]
    refine ⟨this, ?_⟩
    rw [← C52_exists_iff, this]; simp
  · have : pathExists ⟨255, 40⟩ (fun p => if p = [] then some (.dir true) else none) []
        ⟨true, [List.replicate 256 'a']⟩ = .error .osError := by
      have h1 : (List.replicate 256 'a' : List Char) ≠ ['.'] := by decide
      have h2 : (List.replicate 256 'a' : List Char) ≠ ['.', '.'] := by decide
      have h3 : 255 < (utf8 (List.replicate 256 'a')).length := by decide +kernel
      simp only [pathExists, test, stat, walk, start, ↓reduceIte, h1, h2, h3]
      rfl
    refine ⟨this, ?_⟩
    rw [← C52_exists_iff, this]; simp

/-- **C52**: `is_symlink()` is true exactly when the last component names a symlink, and
`is_broken_symlink()` exactly when that link does not lead to an object (and looking is not
denied). -/
theorem C52_is_broken_symlink_iff (L : Limits) (t : Tree) (cwd : Path) (p : UserPath)
    (hp : ∀ n ∈ p.comps.getLast?, n ≠ ['.'] ∧ n ≠ ['.', '.']) (hne : p.comps ≠ []) :
    (isSymlink L t cwd p = .ok true ↔ ∃ l, NamesLink L t cwd p l) ∧
    (isBrokenSymlink L t cwd p = .ok true ↔
      (∃ l, NamesLink L t cwd p l) ∧ (¬∃ x, LeadsTo L t cwd p x) ∧ ¬Refused L t cwd p) := by
  have h1 : isSymlink L t cwd p = .ok true ↔ ∃ l, NamesLink L t cwd p l := by
    rw [isSymlink, test_true_iff]
    constructor
    · rintro ⟨x, h, hk⟩
      cases x <;> simp at hk
      exact ⟨_, (lstat_link_iff L t cwd p _ (fun n hn => hp n hn) hne).1 h⟩
    · rintro ⟨l, h⟩
      exact ⟨_, (lstat_link_iff L t cwd p l (fun n hn => hp n hn) hne).2 h, rfl⟩
  refine ⟨h1, ?_⟩
  rw [← h1]
  obtain ⟨hf, hr, _⟩ := C52_false_partial L t cwd p
  unfold isBrokenSymlink
  cases hs : isSymlink L t cwd p with
  | error e => simp
  | ok b =>
    cases b with
    | false => simp
    | true =>
      cases he : pathExists L t cwd p with
      | error e =>
        have : Refused L t cwd p := hr.2 ⟨e, he⟩
        simp [this]
      | ok b =>
        have hnr : ¬Refused L t cwd p := by rw [hr, he]; rintro ⟨e, h⟩; cases h
        have := (C52_exists_iff L t cwd p)
        rw [he] at this
        cases b with
        | true =>
          simp only [true_iff] at this
          simp [this]
        | false =>
          have h2 := (hf hnr).1
          simp only [he, true_iff] at h2
          simp only [Bool.not_false, true_and, true_iff]
          exact ⟨h2, hnr⟩

/-- C52: `exists_not_symlink` holds of the paths that lead to something and do not name a symlink, unless it is not allowed
to look. -/
theorem C52_exists_not_symlink_iff (L : Limits) (t : Tree) (cwd : Path) (p : UserPath)
    (hp : ∀ n ∈ p.comps.getLast?, n ≠ ['.'] ∧ n ≠ ['.', '.']) (hne : p.comps ≠ []) :
    (existsNotSymlink L t cwd p = .ok true → (∃ x, LeadsTo L t cwd p x) ∧ ¬∃ l, NamesLink L t cwd p l) ∧
    ((∃ x, LeadsTo L t cwd p x) → (∃ l, NamesLink L t cwd p l) → existsNotSymlink L t cwd p = .ok false) ∧
    ((∃ x, LeadsTo L t cwd p x) → (¬∃ l, NamesLink L t cwd p l) → (∀ e, isSymlink L t cwd p ≠ .error e) →
      existsNotSymlink L t cwd p = .ok true) := by
  rw [← (C52_is_broken_symlink_iff L t cwd p hp hne).1, ← C52_exists_iff]
  unfold existsNotSymlink
  cases he : pathExists L t cwd p with
  | error e => simp
  | ok b => cases b with
    | false => simp
    | true => cases hs : isSymlink L t cwd p with
      | error e => simp
      | ok b => cases b <;> simp

example : ∃ t : Tree, pathExists ⟨255, 3⟩ t [] ⟨true, [lit "l"]⟩ = .ok false ∧
    isBrokenSymlink ⟨255, 3⟩ t [] ⟨true, [lit "l"]⟩ = .ok true ∧
    isFile ⟨255, 3⟩ t [] ⟨true, [lit "k", lit "..", lit "f"]⟩ = .ok true ∧
    pathExists ⟨255, 3⟩ t [] ⟨true, [lit "f", lit "g"]⟩ = .ok false :=
  ⟨fun p => if p = [] then some (.dir true) else if p = [lit "l"] then some (.link ⟨false, [lit "l", lit "x"]⟩)
      else if p = [lit "d"] then some (.dir true)
      else if p = [lit "k"] then some (.link ⟨true, [lit "d"]⟩)
      else if p = [lit "f"] then some (.file [1]) else none, by
        simp [pathExists, isFile, isBrokenSymlink, isSymlink, lstat, test, stat, walk, start, node, ignored, lit, utf8, Char.utf8Size]⟩

/-! ## C19 -/

/-- **C19**: if what is at a path is a symlink whose text starts with its own name, then the path does
not lead to anything; the tests answer `False` and it is a broken symlink.  Whatever else is on disk,
whatever follows in the text, however the directory of the link was reached. -/
theorem C19_never_resolves (L : Limits) (t : Tree) (cwd : Path) (p : UserPath) (parent : List Name)
    (n : Name) (rest : List Name) (hp : p.comps = parent ++ [n]) (d : Path) (hf : FitsName L n)
    (k : Nat) (hk : k ≤ L.maxLinks) (hd : Leads L t k (start cwd p.absolute) parent d)
    (hdir : t d = some (.dir true)) (hlink : t (d ++ [n]) = some (.link ⟨false, n :: rest⟩)) :
    (¬∃ x, LeadsTo L t cwd p x) ∧ pathExists L t cwd p = .ok false ∧ isFile L t cwd p = .ok false ∧
      isDir L t cwd p = .ok false ∧ isBrokenSymlink L t cwd p = .ok true := by
  have hstat : stat L t cwd p = .error .ELOOP := by
    unfold stat
    rw [hp, walk_append hk hd]
    rw [walk_self_link hdir hf hlink]
  have hl : lstat L t cwd p = .ok (.link ⟨false, n :: rest⟩) := by
    rw [lstat_link_iff]
    · exact ⟨parent, n, d, k, hp, hf, hk, hd, hdir, hlink⟩
    · intro m hm
      rw [hp, List.getLast?_concat] at hm
      cases hm
      exact ⟨hf.1, hf.2.1⟩
    · simp [hp]
  refine ⟨?_, ?_, ?_, ?_, ?_⟩
  · rintro ⟨x, hx⟩
    rw [← stat_ok_iff, hstat] at hx
    cases hx
  · simp [pathExists, test, hstat, ignored]
  · simp [isFile, test, hstat, ignored]
  · simp [isDir, test, hstat, ignored]
  · simp [isBrokenSymlink, isSymlink, pathExists, test, hstat, hl, ignored]

/-- **C19** for the links the library writes: a link with the metadata of any object that has an id
other than the empty text (and no slash in its error messages), written under the name that was given
as local name, never resolves. -/
theorem C19_metadata_link (env : Env) (m : Meta) (ht : WellTyped m) (n : Name) (hn : IsName n)
    (hid : m .id ≠ .str []) (herr : ∀ l, m .errors = .strs l → ∀ x ∈ l, '/' ∉ x)
    (q : Symlink.Pure) (hq : Symlink.asSymlink env m (some n) = .ok q)
    (L : Limits) (t : Tree) (cwd : Path) (p : UserPath) (parent : List Name)
    (hp : p.comps = parent ++ [n]) (d : Path) (hf : FitsName L n) (k : Nat) (hk : k ≤ L.maxLinks)
    (hd : Leads L t k (start cwd p.absolute) parent d) (hdir : t d = some (.dir true))
    (hlink : t (d ++ [n]) = some (.link ⟨q.root ≠ [], q.comps⟩)) :
    pathExists L t cwd p = .ok false ∧ isBrokenSymlink L t cwd p = .ok true := by
  obtain ⟨id, data, _, _, _, hpp⟩ := Symlink.C17_three_components_partial env m ht n hn hid herr q hq
  subst hpp
  have := C19_never_resolves L t cwd p parent n [id, data] hp d hf k hk hd hdir (by simpa using hlink)
  exact ⟨this.2.1, this.2.2.2.2⟩

/-- **C19**, why the link has to start with its own name: with the empty text as id the link the
library writes is absolute, and resolves when a file of that name is in the root directory. -/
theorem C19_empty_id_counterexample :
    ∃ (m : Meta) (q : Symlink.Pure) (t : Tree), WellTyped m ∧
      Symlink.asSymlink sampleEnv m (some (lit "n")) = .ok q ∧
      t [lit "n"] = some (.link ⟨q.root ≠ [], q.comps⟩) ∧
      pathExists ⟨255, 40⟩ t [] ⟨true, [lit "n"]⟩ = .ok true := by
  let m1 : Meta := fun f => if f = .id then .str [] else if f = .errors then .strs [] else .none
  have h1 : WellTyped m1 := by intro f; cases f <;> simp [m1, HasType]
  refine ⟨m1, ⟨['/'], [lit ".mdv6.#.#.#.#.#.#.#.#.#.#.#.#.#.#.#..#"]⟩, fun p => if p = [] then some (.dir true) else
    if p = [lit "n"] then some (.link ⟨true, [lit ".mdv6.#.#.#.#.#.#.#.#.#.#.#.#.#.#.#..#"]⟩) else some (.file []), h1, by rfl, ?_, ?_⟩
  · rfl
  · have h3 : (utf8 (lit ".mdv6.#.#.#.#.#.#.#.#.#.#.#.#.#.#.#..#")).length = 38 := by decide +kernel
    simp [pathExists, test, stat, walk, start, node, ignored, h3]
    simp [lit, utf8, Char.utf8Size]

/-- the hypotheses are met by a link in a directory that is itself reached through a symlink -/
example : ∃ t : Tree, t [lit "d", lit "n"] = some (.link ⟨false, [lit "n", lit "id", lit "x"]⟩) ∧
    isBrokenSymlink ⟨255, 40⟩ t [lit "d"] ⟨true, [lit "k", lit "n"]⟩ = .ok true := by
  refine ⟨fun p => if p = [] then some (.dir true) else
    if p = [lit "d"] then some (.dir true) else
    if p = [lit "k"] then some (.link ⟨true, [lit "d"]⟩) else
    if p = [lit "d", lit "n"] then some (.link ⟨false, [lit "n", lit "id", lit "x"]⟩) else
    some (.file [7]), by rfl, ?_⟩
  exact (C19_never_resolves _ _ _ _ [lit "k"] (lit "n") [lit "id", lit "x"] rfl [lit "d"]
    ⟨by decide, by decide, by decide⟩ 1 (by decide)
    (.follow (by rfl) ⟨by decide, by decide, by decide⟩ (l := ⟨true, [lit "d"]⟩) (by rfl)
      (.down (x := .dir true) (by rfl) ⟨by decide, by decide, by decide⟩ (by rfl) (by intro l; simp)
        (.here _))) (by rfl) (by rfl)).2.2.2.2

/-- The name `n` in the directory that `parent` leads to cannot be looked up, as `w` says. -/
def NameRefused (w : Denial) (L : Limits) (t : Tree) (cwd : Path) (absolute : Bool) (parent : List Name) (n : Name) : Prop :=
  RefusedFor w L t cwd ⟨absolute, parent⟩ ∨ ∃ k d, k ≤ L.maxLinks ∧ Leads L t k (start cwd absolute) parent d ∧
    match w with
    | .search => t d = some (.dir false)
    | .long => t d = some (.dir true) ∧ L.nameMax < (utf8 n).length

theorem lstat_refused_iff (w : Denial) (L : Limits) (t : Tree) (cwd : Path) (a : Bool) (parent : List Name) (n : Name)
    (hn : n ≠ ['.'] ∧ n ≠ ['.', '.']) :
    lstat L t cwd ⟨a, parent ++ [n]⟩ = .error (denialErrno w) ↔ NameRefused w L t cwd a parent n := by
  unfold NameRefused RefusedFor
  simp only [← walk_denied_iff]
  simp only [lstat, List.getLast?_append, List.getLast?_singleton, Option.some_or, hn.1, hn.2, or_self, if_false, List.dropLast_concat]
  have key : ∀ P : Path → Prop, (∃ k d, k ≤ L.maxLinks ∧ Leads L t k (start cwd a) parent d ∧ P d) ↔
      ∃ d, walk L t L.maxLinks (start cwd a) parent = .ok d ∧ P d := by
    intro P
    simp only [walk_ok_iff]
    constructor
    · rintro ⟨k, d, h1, h2, h3⟩; exact ⟨d, ⟨k, h1, h2⟩, h3⟩
    · rintro ⟨d, ⟨k, h1, h2⟩, h3⟩; exact ⟨k, d, h1, h2, h3⟩
  rw [key]
  cases hw : walk L t L.maxLinks (start cwd a) parent with
  | error e => simp
  | ok d =>
    simp only [reduceCtorEq, false_or, Except.ok.injEq, exists_eq_left']
    cases hd : t d with
    | none => cases w <;> simp [denialErrno]
    | some x =>
      cases x with
      | dir b =>
        cases b with
        | false => cases w <;> simp [denialErrno]
        | true =>
          simp only
          split
          · next h => cases w <;> simp [denialErrno, h]
          · next h =>
            unfold node
            cases t (d ++ [n]) <;> cases w <;> simp [denialErrno, h]
      | _ => cases w <;> simp [denialErrno]

/-- **C52**: `is_symlink()` does not follow the last component; it raises exactly when that name cannot be looked up: a `PermissionError`
if a directory on the way to it, or the one it is in, is not searchable, and a plain `OSError` if a name on the way, or its own, is too
long; nothing else is raised. -/
theorem C52_is_symlink_exceptions (L : Limits) (t : Tree) (cwd : Path) (a : Bool) (parent : List Name) (n : Name)
    (hn : n ≠ ['.'] ∧ n ≠ ['.', '.']) :
    (isSymlink L t cwd ⟨a, parent ++ [n]⟩ = .error .permissionError ↔ NameRefused .search L t cwd a parent n) ∧
    (isSymlink L t cwd ⟨a, parent ++ [n]⟩ = .error .osError ↔ NameRefused .long L t cwd a parent n) ∧
    ∀ e, isSymlink L t cwd ⟨a, parent ++ [n]⟩ = .error e → e = .permissionError ∨ e = .osError := by
  refine ⟨?_, ?_, ?_⟩
  · rw [← lstat_refused_iff _ _ _ _ _ _ _ hn]; exact (test_denied_iff ..).1
  · rw [← lstat_refused_iff _ _ _ _ _ _ _ hn]; exact (test_denied_iff ..).2
  · intro e h
    unfold isSymlink test at h
    split at h
    · cases h
    · rename_i x _
      cases x <;> simp [ignored, Errno.py] at h <;> simp [← h]

example : NameRefused .search ⟨255, 40⟩ (fun p => if p = [] then some (.dir true) else if p = [['a']] then some (.dir false) else none) []
    true [['a']] ['b'] := by
  refine .inr ⟨0, [['a']], by decide, ?_, rfl⟩
  exact .down rfl ⟨by decide, by decide, by decide⟩ (x := .dir false) rfl (by simp) (.here _)

end Verif.FS
