import Verif.Model.Versions
import Verif.Lemmas.Decide

/-!
# C83 – C85: Names of refs, versions of files, and changes
-/

namespace Verif.Versions
open Verif Git

/-! ## Names of refs -/

theorem splitSlash_none {s : Str} : splitSlash s = none ↔ '/' ∉ s := by
  induction s with
  | nil => simp [splitSlash]
  | cons c s ih =>
    simp only [splitSlash]
    by_cases hc : c = '/'
    · simp [hc]
    · rw [if_neg hc]
      simp only [Option.map_eq_none_iff, ih, List.mem_cons, not_or]
      exact ⟨fun h => ⟨fun h' => hc h'.symm, h⟩, fun h => h.2⟩

theorem splitSlash_append {a b : Str} (ha : '/' ∉ a) : splitSlash (a ++ '/' :: b) = some (a, b) := by
  induction a with
  | nil => simp [splitSlash]
  | cons c a ih =>
    simp only [List.mem_cons, not_or] at ha
    simp only [List.cons_append, splitSlash]
    rw [if_neg fun h => ha.1 h.symm, ih ha.2]
    rfl

theorem splitSlash_some {s a b : Str} (h : splitSlash s = some (a, b)) : s = a ++ '/' :: b ∧ '/' ∉ a := by
  induction s generalizing a with
  | nil => simp [splitSlash] at h
  | cons c s ih =>
    simp only [splitSlash] at h
    by_cases hc : c = '/'
    · rw [if_pos hc] at h
      simp only [Option.some.injEq, Prod.mk.injEq] at h
      obtain ⟨rfl, rfl⟩ := h
      simp [hc]
    · rw [if_neg hc] at h
      cases hs : splitSlash s with
      | none => simp [hs] at h
      | some p =>
        obtain ⟨a', b'⟩ := p
        simp only [hs, Option.map_some, Option.some.injEq, Prod.mk.injEq] at h
        obtain ⟨rfl, rfl⟩ := h
        obtain ⟨rfl, h2⟩ := ih hs
        exact ⟨by simp, by simp only [List.mem_cons, not_or]; exact ⟨fun h => hc h.symm, h2⟩⟩

/-- A ref that git would accept, as far as it matters here: no tilde in its name, and no branch in a folder called like one
of the two that git puts other refs in. -/
def Plain : Ref → Prop
  | .head n => '~' ∉ n ∧ ∀ s, n ≠ ['t', 'a', 'g', 's', '/'] ++ s
  | .remote n => '~' ∉ n
  | .tag n => '~' ∉ n

/-- `getRef` with this name gives the ref with this name. -/
theorem getRef_ok {refs : List Ref} {r : Ref} (h : r ∈ refs) : ∃ r', getRef refs (refName r) = .ok r' ∧ refName r' = refName r := by
  unfold getRef
  cases hf : refs.find? fun r' => refName r' = refName r with
  | none =>
    rw [List.find?_eq_none] at hf
    have := hf r h
    simp at this
  | some r' => exact ⟨r', rfl, by simpa using List.find?_some hf⟩

theorem C83_getRef (refs : List Ref) (name : Str) :
    (∀ r, getRef refs name = .ok r → r ∈ refs ∧ refName r = name) ∧
    ((∃ r ∈ refs, refName r = name) → ∃ r, getRef refs name = .ok r) := by
  constructor
  · intro r h
    unfold getRef at h
    split at h
    · next r' hf =>
      cases h
      exact ⟨List.mem_of_find?_eq_some hf, by simpa using List.find?_some hf⟩
    · cases h
  · rintro ⟨r, hr, rfl⟩
    obtain ⟨r', h, -⟩ := getRef_ok hr
    exact ⟨r', h⟩

/-- C83, the part that holds: on a branch the name is that of the branch; on a detached head which is exactly at a tag, or at a
branch with a slash in its name, the name is that of the tag or branch.  So `getRef` finds a ref of this name.  (Full claim:
every name that is returned is that of a ref at the current commit, see the counterexamples.) -/
theorem C83_name_partial (refs : List Ref) :
    (∀ n, currentRefName (.branch n) = some n ∧ (.head n ∈ refs → ∃ r, getRef refs n = .ok r ∧ refName r = n)) ∧
    (∀ n, .tag n ∈ refs → currentRefName (.detached (some (.tag n, []))) = some n ∧ ∃ r, getRef refs n = .ok r ∧ refName r = n) ∧
    (∀ n, .head n ∈ refs → Plain (.head n) → '/' ∈ n →
      currentRefName (.detached (some (.head n, []))) = some n ∧ ∃ r, getRef refs n = .ok r ∧ refName r = n) := by
  refine ⟨fun n => ⟨rfl, fun h => getRef_ok (r := .head n) h⟩, fun n h => ⟨?_, getRef_ok (r := .tag n) h⟩,
    fun n h hp hs => ⟨?_, getRef_ok (r := .head n) h⟩⟩
  · have : nameRev (some (.tag n, [])) = ['t', 'a', 'g', 's'] ++ '/' :: n := by simp [nameRev, shortName]
    simp only [currentRefName, this]
    rw [splitSlash_append (by decide)]
    simp
  · have hn : nameRev (some (.head n, [])) = n := by simp [nameRev, shortName]
    simp only [currentRefName, hn]
    cases hsp : splitSlash n with
    | none => exact absurd hs (splitSlash_none.1 hsp)
    | some p =>
      obtain ⟨a, b⟩ := p
      obtain ⟨he, -⟩ := splitSlash_some hsp
      dsimp only
      rw [if_neg, if_neg]
      · intro hb
        exact hp.1 (by rw [he]; simp [hb])
      · rintro rfl
        exact hp.2 b (by rw [he]; simp)

theorem splitSlash_more {s a b : Str} (w : Str) (h : splitSlash s = some (a, b)) : splitSlash (s ++ w) = some (a, b ++ w) := by
  obtain ⟨rfl, ha⟩ := splitSlash_some h
  rw [List.append_assoc, List.cons_append, splitSlash_append ha]

/-- C83: a name that counts back from a branch is not returned. -/
theorem C83_not_counted (r : Ref) (way : Str) (hr : ∀ n, r ≠ .tag n) (hp : Plain r) (hw : '~' ∈ way) (hs : '/' ∉ way) :
    currentRefName (.detached (some (r, way))) = none := by
  simp only [currentRefName, nameRev]
  cases hsp : splitSlash (shortName r) with
  | none =>
    have : splitSlash (shortName r ++ way) = none := by
      rw [splitSlash_none] at hsp ⊢
      simp [hsp, hs]
    rw [this]
  | some p =>
    obtain ⟨a, b⟩ := p
    rw [splitSlash_more way hsp]
    dsimp only
    rw [if_neg, if_pos (by simp [hw])]
    rintro rfl
    obtain ⟨he, -⟩ := splitSlash_some hsp
    cases r with
    | tag n => exact hr n rfl
    | remote n => exact absurd (congrArg List.head? he) (by simp [shortName])
    | head n => exact hp.2 b (by simpa [shortName] using he)

/-- C83 is false for tags: the name counts back from the tag, or has the mark of an annotated tag at its end (`v1^0`), and
there is no ref of this name. -/
theorem C83_tag_counterexample (refs : List Ref) (n way : Str) (hn : ∀ r ∈ refs, refName r ≠ n ++ way) :
    currentRefName (.detached (some (.tag n, way))) = some (n ++ way) ∧ getRef refs (n ++ way) = .error .valueError := by
  constructor
  · have : nameRev (some (.tag n, way)) = ['t', 'a', 'g', 's'] ++ '/' :: (n ++ way) := by simp [nameRev, shortName]
    simp only [currentRefName, this]
    rw [splitSlash_append (by decide)]
    simp
  · unfold getRef
    rw [List.find?_eq_none.2 (by simpa using hn)]

/-- C83 is false for branches of remotes: the name that is returned has `remotes/` before the name of the ref. -/
theorem C83_remote_counterexample (refs : List Ref) (n : Str) (hn : '~' ∉ n) (hr : ∀ r ∈ refs, refName r ≠ ['r', 'e', 'm', 'o', 't', 'e', 's', '/'] ++ n) :
    currentRefName (.detached (some (.remote n, []))) = some (['r', 'e', 'm', 'o', 't', 'e', 's', '/'] ++ n) ∧
    getRef refs (['r', 'e', 'm', 'o', 't', 'e', 's', '/'] ++ n) = .error .valueError := by
  constructor
  · have : nameRev (some (.remote n, [])) = ['r', 'e', 'm', 'o', 't', 'e', 's'] ++ '/' :: n := by simp [nameRev, shortName]
    simp only [currentRefName, this]
    rw [splitSlash_append (by decide)]
    dsimp only
    rw [if_neg (by decide), if_neg hn]
    rfl
  · unfold getRef
    rw [List.find?_eq_none.2 (by simpa using hr)]

/-- C83: no name is returned for a head that is detached at a branch without a slash in its name. -/
theorem C83_branch_counterexample (n : Str) (hn : '/' ∉ n) : currentRefName (.detached (some (.head n, []))) = none := by
  have : splitSlash (nameRev (some (.head n, []))) = none := by simpa [nameRev, shortName, splitSlash_none] using hn
  simp only [currentRefName, this]

/-- C83: no name is returned for a commit that no ref leads to. -/
theorem C83_nowhere : nameRev none = lit "undefined" ∧ currentRefName (.detached none) = none := by decide +kernel

example : currentRefName (.detached (some (.tag (lit "v1"), lit "~2"))) = some (lit "v1~2") ∧
    getRef [.head (lit "main"), .tag (lit "v1")] (lit "v1~2") = .error .valueError ∧
    currentRefName (.detached (some (.head (lit "fix/a"), lit "~2"))) = none ∧
    currentRefName (.detached none) = none := by decide +kernel

/-! ## Versions of a file -/

theorem ofNat_toNat' (a : UInt8) (n : Nat) (h : n = a.toNat) : UInt8.ofNat n = a := by subst h; simp

theorem encodePoint_front (a : UInt8) (r : Bytes) : encodePoint (front a r).1 = .ok (a :: r.take (front a r).2) := by
  have ha := a.toNat_lt
  have one : a.toNat < 0x80 → encodePoint a.toNat = .ok [a] := by
    intro h
    simp [encodePoint, h]
  have esc : ¬a.toNat < 0x80 → encodePoint (0xDC00 + a.toNat) = .ok [a] := by
    intro h
    unfold encodePoint
    rw [if_neg (by omega), if_neg (by omega), if_pos (by omega), ofNat_toNat' a _ (by omega)]
  have two : ∀ b : UInt8, (0xC2 ≤ a.toNat ∧ a.toNat ≤ 0xDF ∧ cont b = true) →
      encodePoint ((a.toNat - 0xC0) * 64 + (b.toNat - 0x80)) = .ok [a, b] := by
    rintro b ⟨h1, h2, h3⟩
    simp only [cont, Bool.and_eq_true, decide_eq_true_eq] at h3
    unfold encodePoint
    rw [if_neg (by omega), if_pos (by omega), ofNat_toNat' a _ (by omega), ofNat_toNat' b _ (by omega)]
  have thr : ∀ b c : UInt8, (three a b = true ∧ cont c = true) →
      encodePoint ((a.toNat - 0xE0) * 4096 + (b.toNat - 0x80) * 64 + (c.toNat - 0x80)) = .ok [a, b, c] := by
    rintro b c ⟨h1, h2⟩
    simp only [three, cont, Bool.and_eq_true, Bool.or_eq_true, decide_eq_true_eq] at h1 h2
    unfold encodePoint
    rw [if_neg (by omega), if_neg (by omega), if_neg (by omega), if_neg (by omega), if_pos (by omega),
      ofNat_toNat' a _ (by omega), ofNat_toNat' b _ (by omega), ofNat_toNat' c _ (by omega)]
  have fou : ∀ b c d : UInt8, (four a b = true ∧ cont c = true ∧ cont d = true) →
      encodePoint ((a.toNat - 0xF0) * 262144 + (b.toNat - 0x80) * 4096 + (c.toNat - 0x80) * 64 + (d.toNat - 0x80)) =
        .ok [a, b, c, d] := by
    rintro b c d ⟨h1, h2, h3⟩
    simp only [four, cont, Bool.and_eq_true, Bool.or_eq_true, decide_eq_true_eq] at h1 h2 h3
    unfold encodePoint
    rw [if_neg (by omega), if_neg (by omega), if_neg (by omega), if_neg (by omega), if_neg (by omega),
      ofNat_toNat' a _ (by omega), ofNat_toNat' b _ (by omega), ofNat_toNat' c _ (by omega), ofNat_toNat' d _ (by omega)]
  match r with
  | [] => simp only [front]; split <;> simp_all
  | [b] =>
    simp only [front]
    split
    · simpa using one (by assumption)
    · split
      · simpa using two b (by assumption)
      · simpa using esc (by assumption)
  | [b, c] =>
    simp only [front]
    split
    · simpa using one (by assumption)
    · split
      · simpa using two b (by assumption)
      · split
        · simpa using thr b c (by assumption)
        · simpa using esc (by assumption)
  | b :: c :: d :: r =>
    simp only [front]
    split
    · simpa using one (by assumption)
    · split
      · simpa using two b (by assumption)
      · split
        · simpa using thr b c (by assumption)
        · split
          · simpa using fou b c d (by assumption)
          · simpa using esc (by assumption)

/-- Every sequence of bytes comes back from decoding and encoding. -/
theorem encode_decode (b : Bytes) : encodeEscape (decodeEscape b) = .ok b := by
  induction hn : b.length using Nat.strongRecOn generalizing b with
  | ind n ih =>
    cases b with
    | nil => simp [decodeEscape, encodeEscape]
    | cons a r =>
      rw [decodeEscape, encodeEscape, encodePoint_front]
      have := ih (r.drop (front a r).2).length (by rw [← hn]; simp; omega) _ rfl
      rw [this]
      simp

/-- Beside C84: what is decoded on the way is text, with the bytes that are not UTF-8 as surrogates. -/
theorem C84_points (b : Bytes) : ∀ x ∈ decodeEscape b, x < 0xD800 ∨ (0xDC80 ≤ x ∧ x ≤ 0xDCFF) ∨ (0xE000 ≤ x ∧ x ≤ 0x10FFFF) := by
  have hf : ∀ (a : UInt8) (r : Bytes), (front a r).1 < 0xD800 ∨ (0xDC80 ≤ (front a r).1 ∧ (front a r).1 ≤ 0xDCFF) ∨
      (0xE000 ≤ (front a r).1 ∧ (front a r).1 ≤ 0x10FFFF) := by
    intro a r
    have ha := a.toNat_lt
    unfold front
    split <;> repeat' split
    all_goals
      simp_all only [three, four, cont, Bool.and_eq_true, Bool.or_eq_true, decide_eq_true_eq]
      omega
  generalize hn : b.length = n
  induction n using Nat.strongRecOn generalizing b with
  | _ n ih =>
    cases b with
    | nil => simp [decodeEscape]
    | cons a r =>
      intro x hx
      rw [decodeEscape, List.mem_cons] at hx
      rcases hx with rfl | hx
      · exact hf a r
      · exact ih (r.drop (front a r).2).length (by rw [← hn]; simp; omega) _ rfl x hx

example : decodeEscape [0xF4, 0x8F, 0xBF, 0xBF] = [0x10FFFF] ∧ decodeEscape [0xF4, 0x90, 0x80, 0x80] = [0xDCF4, 0xDC90, 0xDC80, 0xDC80] := by
  decide +kernel

theorem stripNewline_cases (b : Bytes) : b = stripNewline b ++ [10] ∨ stripNewline b = b := by
  unfold stripNewline
  split
  · next h =>
    obtain ⟨c, rfl⟩ := List.getLast?_eq_some_iff.1 h
    exact .inl (by simp)
  · exact .inr rfl

theorem stripNewline_iff (b : Bytes) : stripNewline b = b ↔ b.getLast? ≠ some 10 := by
  unfold stripNewline
  split
  · next h =>
    obtain ⟨c, rfl⟩ := List.getLast?_eq_some_iff.1 h
    simp only [List.dropLast_concat, h]
    exact ⟨fun he => absurd (congrArg List.length he) (by simp), fun h => absurd rfl h⟩
  · simpa

theorem showFile_ref {r : Repo} {v : Version} {p : File} {b : Bytes} (hv : v ≠ .work) (h : v.tree r p = some b) :
    showFile r v p = .ok (stripNewline b) := by
  cases v with
  | work => exact absurd rfl hv
  | index => simp [showFile, h, encode_decode]
  | commit c => simp [showFile, h, encode_decode]

/-- A version has a file with these bytes (`none`: does not have it): the working directory, the index, or a commit. -/
inductive Has (r : Repo) (p : File) : Version → Option Bytes → Prop
  | work : Has r p .work (r.work p)
  | index : Has r p .index (r.index p)
  | commit (t : Tree) (c : Option Commit) : Has r p (.commit (.mk t c)) (t p)

theorem Has.tree {r : Repo} {p : File} {v : Version} {b : Option Bytes} (h : Has r p v b) : v.tree r p = b := by
  cases h <;> rfl

/-- C84: what is shown of a file, whatever its bytes: the file itself is shown as it is; a version in the index or in a commit
is shown as it is exactly when it does not end in a newline; otherwise exactly this newline is missing. -/
theorem C84_show_partial (r : Repo) (v : Version) (p : File) (b : Bytes) (hb : Has r p v (some b)) :
    (v = .work → showFile r v p = .ok b) ∧
    (v ≠ .work → (showFile r v p = .ok b ↔ b.getLast? ≠ some 10)) ∧
    (v ≠ .work → ∀ c, b = c ++ [10] → showFile r v p = .ok c) := by
  have h := hb.tree
  refine ⟨?_, ?_, ?_⟩
  · rintro rfl
    have : r.work p = some b := h
    simp [showFile, this]
  · intro hv
    rw [showFile_ref hv h, ← stripNewline_iff]
    simp
  · rintro hv c rfl
    rw [showFile_ref hv h]
    simp [stripNewline]

/-- C84: a file that is not in the version cannot be shown: git says so, and of the working directory the system does. -/
theorem C84_missing (r : Repo) (v : Version) (p : File) (hb : Has r p v none) :
    (v = .work → showFile r v p = .error .fileNotFoundError) ∧ (v ≠ .work → showFile r v p = .error .gitError) := by
  have h := hb.tree
  cases v with
  | work => exact ⟨fun _ => by simp only [showFile]; rw [show r.work p = none from h], fun h => absurd rfl h⟩
  | index => exact ⟨fun h => (by cases h), fun _ => by simp only [showFile, h]⟩
  | commit c => exact ⟨fun h => (by cases h), fun _ => by simp only [showFile, h]⟩

/-- C84 is false for every file that ends in a newline: a commit with the file and one with the file without its last
newline cannot be told apart. -/
theorem C84_newline_counterexample (r : Repo) (t : Tree) (p : File) (c : Bytes) (hc : c.getLast? ≠ some 10) :
    showFile r (.commit (.mk (fun q => if q = p then some (c ++ [10]) else t q) none)) p = .ok c ∧
    showFile r (.commit (.mk (fun q => if q = p then some c else t q) none)) p = .ok c := by
  constructor
  · rw [showFile_ref (b := c ++ [10]) (by simp) (by simp [Version.tree, Commit.tree])]
    simp [stripNewline]
  · rw [showFile_ref (b := c) (by simp) (by simp [Version.tree, Commit.tree]), (stripNewline_iff c).2 hc]

example : encodeEscape (decodeEscape [0x61, 0xE2, 0x82, 0xAC, 0xE2, 0x82, 0x98, 0xFF, 0xF0, 0x9F, 0x98, 0x80]) =
    .ok [0x61, 0xE2, 0x82, 0xAC, 0xE2, 0x82, 0x98, 0xFF, 0xF0, 0x9F, 0x98, 0x80] := encode_decode _

/-! ## Changes -/

/-- C85, the part that holds: of a file that is there and is in the index, `modified` reports a change exactly if it differs
from the index, and `has_uncommitted_changes` exactly if it differs from the last commit, with both contents.  (Full claim: of
every file, see the counterexamples.) -/
theorem C85_changes_partial (r : Repo) (p : File) (w i : Bytes) (hw : r.work p = some w) (hi : r.index p = some i) :
    (modified r p = .ok none ↔ w = i) ∧ (w ≠ i → modified r p = .ok (some (some i, some w))) ∧
    (hasUncommitted r p = .ok none ↔ r.tree p = some w) ∧
    (r.tree p ≠ some w → hasUncommitted r p = .ok (some (r.tree p, some w))) := by
  simp only [modified, hasUncommitted, doDiff, hw, hi, seen, entry, Option.isSome_some, if_true]
  refine ⟨?_, ?_, ?_, ?_⟩
  · by_cases h : w = i
    · simp [h]
    · simp [h, Ne.symm h]
  · intro h
    simp [Ne.symm h]
  · by_cases h : r.tree p = some w
    · simp [h]
    · simp [h]
  · intro h
    simp [h]

/-- C85: a file that differs from the last commit was changed since it was added, or what was added differs. -/
theorem C85_uncommitted (r : Repo) (p : File) (x : Option Bytes × Option Bytes) (h : hasUncommitted r p = .ok (some x)) :
    (∃ y, modified r p = .ok (some y)) ∨ r.index p ≠ r.tree p := by
  by_cases hi : r.index p = r.tree p
  · refine .inl ⟨x, ?_⟩
    rw [← h, modified, hasUncommitted, doDiff, doDiff, hi]
  · exact .inr hi

/-- C85: the converse is false (`has_uncommitted_changes` is described as "indexed or modified"): a change that was added and
then taken back in the file is not reported. -/
theorem C85_undone_counterexample (r : Repo) (p : File) (a i : Bytes) (hai : a ≠ i) (ht : r.tree p = some a)
    (hi : r.index p = some i) (hw : r.work p = some a) :
    hasUncommitted r p = .ok none ∧ modified r p = .ok (some (some i, some a)) ∧ r.index p ≠ r.tree p := by
  obtain ⟨-, h1, h2, -⟩ := C85_changes_partial r p a i hw hi
  exact ⟨h2.2 ht, h1 hai, by rw [hi, ht]; simpa using fun h => hai h.symm⟩

/-- C85 is false for a file that was deleted (this raises) and for a file that was never added (no change is reported). -/
theorem C85_deleted_counterexample (r : Repo) (p : File) :
    (r.work p = none → modified r p = .error .fileNotFoundError ∧ hasUncommitted r p = .error .fileNotFoundError) ∧
    (∀ w, r.work p = some w → r.index p = none → r.tree p = none → modified r p = .ok none ∧ hasUncommitted r p = .ok none) := by
  constructor
  · intro h
    simp [modified, hasUncommitted, doDiff, h]
  · intro w hw hi ht
    simp [modified, hasUncommitted, doDiff, hw, hi, ht, seen, entry]

/-- C85 is false for a file that was taken out of the index: it is reported as deleted although it is there, unchanged. -/
theorem C85_uncached_counterexample (r : Repo) (p : File) (a : Bytes) (hw : r.work p = some a) (ht : r.tree p = some a)
    (hi : r.index p = none) : hasUncommitted r p = .ok (some (some a, none)) := by
  simp [hasUncommitted, doDiff, hw, hi, ht, seen, entry]

/-- A repository with one file on which the hypotheses can be met. -/
def oneFile (t i w : Option Bytes) : Repo :=
  { refs := fun _ => some (.mk (fun _ => t) none), head := .branch (lit "main"), index := fun _ => i, work := fun _ => w, stash := [] }

example : (oneFile (some [1]) (some [2]) (some [1])).tree (lit "f") = some [1] ∧
    (oneFile (some [1]) none (some [1])).tree (lit "f") = some [1] := ⟨rfl, rfl⟩

/-- What `modified` and `has_uncommitted_changes` should say about a file that is `a` there and `b` in the working directory: whether it
differs, and if so both contents. -/
def Reports (a b : Option Bytes) (x : Except PyErr (Option (Option Bytes × Option Bytes))) : Prop :=
  (a = b → x = .ok none) ∧ (a ≠ b → x = .ok (some (a, b)))

/-- **C85**, exactly where it holds: both answers are right if and only if the file is there and is in the index, and each of them alone is
right under no weaker condition; and then there are uncommitted changes exactly if it is indexed or modified, unless what was added was
taken back in the file. -/
theorem C85_changes_iff (r : Repo) (p : File) :
    (Reports (r.index p) (r.work p) (modified r p) ↔ r.work p ≠ none ∧ r.index p ≠ none) ∧
    (Reports (r.tree p) (r.work p) (hasUncommitted r p) ↔ r.work p ≠ none ∧ r.index p ≠ none) ∧
    (r.work p ≠ none → r.index p ≠ none →
      (((∃ x, hasUncommitted r p = .ok (some x)) ↔ r.index p ≠ r.tree p ∨ ∃ y, modified r p = .ok (some y)) ↔
        ¬ (r.tree p = r.work p ∧ r.index p ≠ r.work p))) := by
  unfold Reports modified hasUncommitted doDiff entry seen
  cases hw : r.work p <;> cases hi : r.index p <;> cases ht : r.tree p <;> simp
  all_goals grind

example : ∃ (r : Repo) (p : File), r.work p ≠ none ∧ r.index p ≠ none ∧ r.tree p = r.work p ∧ r.index p ≠ r.work p :=
  ⟨{ refs := fun _ => none, stash := [], head := .detached (.mk (fun _ => some [1]) none), index := fun _ => some [2], work := fun _ => some [1] }, [], by simp, by simp, rfl, by simp⟩

theorem front_one (a : UInt8) (r : Bytes) (h : a.toNat < 0x80) : front a r = (a.toNat, 0) := by
  unfold front
  split <;> rw [if_pos h]

theorem front_two (a b : UInt8) (r : Bytes) (h1 : 0xC2 ≤ a.toNat) (h2 : a.toNat ≤ 0xDF) (hb : cont b = true) :
    front a (b :: r) = ((a.toNat - 0xC0) * 64 + (b.toNat - 0x80), 1) := by
  have h0 : ¬ a.toNat < 0x80 := by omega
  rcases r with _ | ⟨c, _ | ⟨d, r⟩⟩ <;> simp only [front, if_neg h0, if_pos (And.intro h1 (And.intro h2 hb))]

theorem front_three (a b c : UInt8) (r : Bytes) (h0 : 0xE0 ≤ a.toNat) (hb : three a b = true) (hc : cont c = true) :
    front a (b :: c :: r) = ((a.toNat - 0xE0) * 4096 + (b.toNat - 0x80) * 64 + (c.toNat - 0x80), 2) := by
  have h1 : ¬ a.toNat < 0x80 := by omega
  have h2 : ¬ (0xC2 ≤ a.toNat ∧ a.toNat ≤ 0xDF ∧ cont b = true) := by omega
  rcases r with _ | ⟨d, r⟩ <;> simp only [front, if_neg h1, if_neg h2, if_pos (And.intro hb hc)]

theorem front_four (a b c d : UInt8) (r : Bytes) (h0 : 0xF0 ≤ a.toNat) (hb : four a b = true) (hc : cont c = true) (hd : cont d = true) :
    front a (b :: c :: d :: r) =
      ((a.toNat - 0xF0) * 262144 + (b.toNat - 0x80) * 4096 + (c.toNat - 0x80) * 64 + (d.toNat - 0x80), 3) := by
  have h1 : ¬ a.toNat < 0x80 := by omega
  have h2 : ¬ (0xC2 ≤ a.toNat ∧ a.toNat ≤ 0xDF ∧ cont b = true) := by omega
  have h3 : ¬ (three a b = true ∧ cont c = true) := by
    simp only [three, Bool.and_eq_true, Bool.or_eq_true, decide_eq_true_eq]
    omega
  simp only [front, if_neg h1, if_neg h2, if_neg h3, if_pos (And.intro hb (And.intro hc hd))]

theorem byte (n : Nat) (h : n < 256) : (UInt8.ofNat n).toNat = n := by
  rw [UInt8.toNat_ofNat']
  exact Nat.mod_eq_of_lt h

theorem decode_char (c : Char) (r : Bytes) : decodeEscape (String.utf8EncodeChar c ++ r) = c.toNat :: decodeEscape r := by
  have hv : c.toNat < 0xD800 ∨ (0xDFFF < c.toNat ∧ c.toNat < 0x110000) := c.valid
  have hval : c.val.toNat = c.toNat := rfl
  unfold String.utf8EncodeChar
  dsimp only
  rw [hval]
  generalize c.toNat = v at hv
  by_cases h1 : v ≤ 0x7f
  · rw [if_pos h1, List.cons_append, decodeEscape, front_one _ _ (by rw [byte _ (by omega)]; omega), byte _ (by omega)]
    rfl
  by_cases h2 : v ≤ 0x7ff
  · rw [if_neg h1, if_pos h2]
    simp only [List.cons_append, List.nil_append]
    rw [decodeEscape, front_two _ _ _ (by rw [byte _ (by omega)]; omega) (by rw [byte _ (by omega)]; omega)
      (by simp only [cont, byte _ (show v % 64 + 128 < 256 by omega), Bool.and_eq_true, decide_eq_true_eq]; omega)]
    rw [byte _ (by omega), byte _ (by omega)]
    simp only [List.drop_succ_cons, List.drop_zero, List.cons.injEq, and_true]
    omega
  by_cases h3 : v ≤ 0xffff
  · rw [if_neg h1, if_neg h2, if_pos h3]
    simp only [List.cons_append, List.nil_append]
    rw [decodeEscape, front_three _ _ _ _ (by rw [byte _ (by omega)]; omega)
      (by
        simp only [three, cont, byte _ (show v / 64 % 64 + 128 < 256 by omega), byte _ (show v / 4096 % 16 + 224 < 256 by omega),
          Bool.and_eq_true, Bool.or_eq_true, decide_eq_true_eq]
        omega)
      (by simp only [cont, byte _ (show v % 64 + 128 < 256 by omega), Bool.and_eq_true, decide_eq_true_eq]; omega)]
    rw [byte _ (by omega), byte _ (by omega), byte _ (by omega)]
    simp only [List.drop_succ_cons, List.drop_zero, List.cons.injEq, and_true]
    omega
  · rw [if_neg h1, if_neg h2, if_neg h3]
    simp only [List.cons_append, List.nil_append]
    rw [decodeEscape, front_four _ _ _ _ _ (by rw [byte _ (by omega)]; omega)
      (by
        simp only [four, cont, byte _ (show v / 4096 % 64 + 128 < 256 by omega), byte _ (show v / 262144 % 8 + 240 < 256 by omega),
          Bool.and_eq_true, Bool.or_eq_true, decide_eq_true_eq]
        omega)
      (by simp only [cont, byte _ (show v / 64 % 64 + 128 < 256 by omega), Bool.and_eq_true, decide_eq_true_eq]; omega)
      (by simp only [cont, byte _ (show v % 64 + 128 < 256 by omega), Bool.and_eq_true, decide_eq_true_eq]; omega)]
    rw [byte _ (by omega), byte _ (by omega), byte _ (by omega), byte _ (by omega)]
    simp only [List.drop_succ_cons, List.drop_zero, List.cons.injEq, and_true]
    omega

/-- C84: what is in between is a text: the bytes of every text decode to its characters, whatever comes after them. -/
theorem C84_text (s : Str) (r : Bytes) : decodeEscape (utf8 s ++ r) = s.map Char.toNat ++ decodeEscape r := by
  induction s with
  | nil => rfl
  | cons c s ih =>
    show decodeEscape ((String.utf8EncodeChar c ++ utf8 s) ++ r) = _
    rw [List.append_assoc, decode_char, ih]
    rfl

/-- C84: a byte that starts no UTF-8 sequence becomes one of the 128 lone surrogates. -/
theorem C84_escape (a : UInt8) (r : Bytes) (h : (0x80 ≤ a.toNat ∧ a.toNat < 0xC2) ∨ 0xF5 ≤ a.toNat) :
    decodeEscape (a :: r) = (0xDC00 + a.toNat) :: decodeEscape r := by
  have h1 : ¬ a.toNat < 0x80 := by omega
  have h2 : ∀ b, ¬ (0xC2 ≤ a.toNat ∧ a.toNat ≤ 0xDF ∧ cont b = true) := by intro b; omega
  have h3 : ∀ b c, ¬ (three a b = true ∧ cont c = true) := by
    intro b c
    simp only [three, Bool.and_eq_true, Bool.or_eq_true, decide_eq_true_eq]
    omega
  have h4 : ∀ b c d, ¬ (four a b = true ∧ cont c = true ∧ cont d = true) := by
    intro b c d
    simp only [four, Bool.and_eq_true, Bool.or_eq_true, decide_eq_true_eq]
    omega
  have : front a r = (0xDC00 + a.toNat, 0) := by
    rcases r with _ | ⟨b, _ | ⟨c, _ | ⟨d, r⟩⟩⟩ <;> simp only [front, if_neg h1, if_neg (h2 _), if_neg (h3 _ _), if_neg (h4 _ _ _)]
  rw [decodeEscape, this]
  rfl

example : decodeEscape (utf8 (lit "é😀") ++ [0xFF]) = [0xE9, 0x1F600, 0xDCFF] := by
  rw [C84_text, C84_escape 0xFF [] (by decide), decodeEscape]
  decide

theorem currentRefName_iff (s : Option (Ref × Str)) (x : Str) :
    currentRefName (.detached s) = some x ↔
      (nameRev s = lit "tags/" ++ x ∨
        (nameRev s = x ∧ ∃ a b, x = a ++ '/' :: b ∧ '/' ∉ a ∧ a ≠ lit "tags" ∧ '~' ∉ b)) := by
  have hl : lit "tags/" = lit "tags" ++ ['/'] := by decide +kernel
  have ht : lit "tags" = ['t', 'a', 'g', 's'] := by decide +kernel
  simp only [currentRefName]
  cases hs : splitSlash (nameRev s) with
  | none =>
    have hn := splitSlash_none.1 hs
    constructor
    · exact nofun
    · rintro (h | ⟨h, a, b, rfl, -⟩)
      · rw [h, hl] at hn; simp at hn
      · rw [h] at hn; simp at hn
  | some p =>
    obtain ⟨a, b⟩ := p
    obtain ⟨he, ha⟩ := splitSlash_some hs
    dsimp only
    have huniq : ∀ a' b', nameRev s = a' ++ '/' :: b' → '/' ∉ a' → a' = a ∧ b' = b := by
      intro a' b' h1 h2
      rw [h1, splitSlash_append h2] at hs
      simpa using hs
    by_cases h1 : a = ['t', 'a', 'g', 's']
    · rw [if_pos h1, he, h1]
      constructor
      · rintro ⟨⟩; left; rw [hl, ht]; simp
      · rintro (h | ⟨h, a', b', rfl, h2, h3, -⟩)
        · rw [hl, ht] at h; simp at h; rw [h]
        · have := (huniq a' b' (by rw [he, h1]; exact h) h2).1
          rw [ht] at h3; exact absurd (this.trans h1) h3
    · rw [if_neg h1]
      have hnt : nameRev s ≠ lit "tags/" ++ x := by
        intro h
        exact h1 ((huniq ['t', 'a', 'g', 's'] x (by rw [h, hl, ht]; simp) (by decide)).1).symm
      by_cases h2 : '~' ∈ b
      · rw [if_pos h2]
        constructor
        · exact nofun
        · rintro (h | ⟨h, a', b', rfl, h3, h4, h5⟩)
          · exact absurd h hnt
          · rw [(huniq a' b' h h3).2] at h5; exact absurd h2 h5
      · rw [if_neg h2]
        constructor
        · rintro h
          have h : nameRev s = x := by simpa using h
          exact .inr ⟨h, a, b, by rw [← h, he], ha, by rw [ht]; exact h1, h2⟩
        · rintro (h | ⟨h, -⟩)
          · exact absurd h hnt
          · rw [h]

/-- C83: a detached head has the name of the ref that git names it after exactly if it is at a tag itself, or at a branch itself
that has a slash in its name. -/
theorem C83_own_name_iff (r : Ref) (way : Str) (hp : Plain r) (hw : '/' ∉ way) :
    currentRefName (.detached (some (r, way))) = some (refName r) ↔
      way = [] ∧ ((∃ n, r = .tag n) ∨ ∃ n, r = .head n ∧ '/' ∈ n) := by
  rw [currentRefName_iff]
  have hl : lit "tags/" = ['t', 'a', 'g', 's', '/'] := by decide +kernel
  have ht : lit "tags" = ['t', 'a', 'g', 's'] := by decide +kernel
  rw [hl, ht]
  cases r with
  | tag n =>
    simp only [nameRev, shortName, refName]
    constructor
    · rintro (h | ⟨h, -⟩)
      · simp at h; exact ⟨h, .inl ⟨n, rfl⟩⟩
      · have := congrArg List.length h; simp at this; omega
    · rintro ⟨rfl, -⟩; left; simp
  | remote n =>
    simp only [nameRev, shortName, refName]
    constructor
    · rintro (h | ⟨h, -⟩)
      · simp at h
      · have := congrArg List.length h; simp at this; omega
    · rintro ⟨-, ⟨m, h⟩ | ⟨m, h, -⟩⟩ <;> exact nomatch h
  | head n =>
    simp only [nameRev, shortName, refName]
    constructor
    · rintro (h | ⟨h, a, b, rfl, -⟩)
      · rcases List.append_eq_append_iff.1 h with ⟨x, h1, h2⟩ | ⟨x, h1, h2⟩
        · have hs : '/' ∈ n ++ x := by rw [← h1]; simp
          rcases List.mem_append.1 hs with hs | hs
          · exfalso
            have h3 : n = ['t', 'a', 'g', 's', '/'] := by
              have hx : n <+: ['t', 'a', 'g', 's', '/'] := ⟨x, h1.symm⟩
              obtain ⟨y, z, rfl⟩ := List.append_of_mem hs
              simp only [List.prefix_iff_eq_take] at hx
              have hl5 : (y ++ '/' :: z).length ≤ 5 := by
                have := congrArg List.length h1; simp at this ⊢; omega
              match hlen : (y ++ '/' :: z).length, hl5 with
              | 0, _ => simp at hlen
              | 1, _ => rw [hlen] at hx; rw [hx] at hs; simp at hs
              | 2, _ => rw [hlen] at hx; rw [hx] at hs; simp at hs
              | 3, _ => rw [hlen] at hx; rw [hx] at hs; simp at hs
              | 4, _ => rw [hlen] at hx; rw [hx] at hs; simp at hs
              | 5, _ => rw [hlen] at hx; rw [hx]; rfl
            exact hp.2 [] (by rw [h3]; rfl)
          · exact absurd (by rw [h2]; simp [hs]) hw
        · exact absurd h1 (hp.2 x)
      · simp at h; exact ⟨h, .inr ⟨_, rfl, by simp⟩⟩
    · rintro ⟨rfl, ⟨m, h⟩ | ⟨m, h, hs⟩⟩
      · exact nomatch h
      · cases h
        right
        refine ⟨by simp, ?_⟩
        cases hsp : splitSlash n with
        | none => exact absurd hs (splitSlash_none.1 hsp)
        | some q =>
          obtain ⟨a, b⟩ := q
          obtain ⟨he, ha⟩ := splitSlash_some hsp
          refine ⟨a, b, he, ha, ?_, ?_⟩
          · rintro rfl; exact hp.2 b (by rw [he]; simp)
          · intro hb; exact hp.1 (by rw [he]; simp [hb])

/-- C83: a detached head has no name exactly if git names it after no ref, after a branch without a slash, or counts back from a
branch. -/
theorem C83_no_name_iff (rev : Option (Ref × Str)) (hp : ∀ r way, rev = some (r, way) → Plain r ∧ '/' ∉ way) :
    currentRefName (.detached rev) = none ↔
      rev = none ∨ ∃ r way, rev = some (r, way) ∧ (∀ n, r ≠ .tag n) ∧ ('~' ∈ way ∨ ∃ n, r = .head n ∧ '/' ∉ n) := by
  cases rev with
  | none => simp [C83_nowhere.2]
  | some p =>
    obtain ⟨r, way⟩ := p
    obtain ⟨hr, hw⟩ := hp r way rfl
    have hout : (∃ r' way', some (r, way) = some (r', way') ∧ (∀ n, r' ≠ .tag n) ∧ ('~' ∈ way' ∨ ∃ n, r' = .head n ∧ '/' ∉ n)) ↔
        ((∀ n, r ≠ .tag n) ∧ ('~' ∈ way ∨ ∃ n, r = .head n ∧ '/' ∉ n)) := by
      constructor
      · rintro ⟨r', way', h, h2⟩; cases h; exact h2
      · intro h; exact ⟨r, way, rfl, h⟩
    rw [hout]
    simp only [reduceCtorEq, false_or]
    constructor
    · intro h
      have hno : ∀ x, ¬ currentRefName (.detached (some (r, way))) = some x := fun x hx => by rw [h] at hx; exact nomatch hx
      have hl : lit "tags/" = ['t', 'a', 'g', 's', '/'] := by decide +kernel
      have ht : lit "tags" = ['t', 'a', 'g', 's'] := by decide +kernel
      simp only [currentRefName_iff, hl, ht] at hno
      refine ⟨fun n hn => ?_, ?_⟩
      · subst hn; exact hno (n ++ way) (.inl (by simp [nameRev, shortName]))
      · cases r with
        | tag n => exact absurd (.inl (by simp [nameRev, shortName])) (hno (n ++ way))
        | remote n =>
          refine Classical.byContradiction fun hc => hno _ (.inr ⟨rfl, ['r', 'e', 'm', 'o', 't', 'e', 's'], n ++ way, by simp [nameRev, shortName], by decide, by decide, ?_⟩)
          simp only [List.mem_append, not_or]
          exact ⟨hr, fun h => hc (.inl h)⟩
        | head n =>
          refine Classical.byContradiction fun hc => ?_
          have hs : '/' ∈ n := Classical.byContradiction fun h => hc (.inr ⟨n, rfl, h⟩)
          cases hsp : splitSlash n with
          | none => exact absurd hs (splitSlash_none.1 hsp)
          | some q =>
            obtain ⟨a, b⟩ := q
            obtain ⟨he, ha⟩ := splitSlash_some hsp
            refine hno (n ++ way) (.inr ⟨by simp [nameRev, shortName], a, b ++ way, by rw [he]; simp, ha, ?_, ?_⟩)
            · rintro rfl; exact hr.2 b (by rw [he]; simp)
            · simp only [List.mem_append, not_or]
              exact ⟨fun hb => hr.1 (by rw [he]; simp [hb]), fun h => hc (.inl h)⟩
    · rintro ⟨h1, h2 | ⟨n, rfl, h2⟩⟩
      · exact C83_not_counted r way h1 hr h2 hw
      · have : splitSlash (nameRev (some (.head n, way))) = none := by
          rw [splitSlash_none]; simp [nameRev, shortName, h2, hw]
        simp only [currentRefName, this]

example : Plain (.head (lit "topic/x")) ∧ currentRefName (.detached (some (.head (lit "topic/x"), []))) = some (lit "topic/x") ∧
    currentRefName (.detached (some (.head (lit "topic/x"), lit "~2"))) = none := by
  refine ⟨⟨by decide, fun s h => ?_⟩, by decide +kernel, by decide +kernel⟩
  have : lit "topic/x" = ['t', 'o', 'p', 'i', 'c', '/', 'x'] := by decide +kernel
  rw [this] at h
  simp at h

/-- C84: texts with surrogates other than those that stand for bytes have no bytes: they are refused with a `UnicodeEncodeError`, a `ValueError`. -/
theorem C84_refused (s t : List Nat) (b : Bytes) (n : Nat) (hs : encodeEscape s = .ok b)
    (h : (0xD800 ≤ n ∧ n < 0xDC80) ∨ (0xDD00 ≤ n ∧ n ≤ 0xDFFF)) : encodeEscape (s ++ n :: t) = .error .valueError := by
  induction s generalizing b with
  | nil =>
    have : encodePoint n = .error .valueError := by
      unfold encodePoint
      rw [if_neg (by omega), if_neg (by omega), if_neg (by omega), if_pos (by omega)]
    show encodeEscape (n :: t) = _
    rw [encodeEscape, this]
  | cons a s ih =>
    show encodeEscape (a :: (s ++ n :: t)) = _
    rw [encodeEscape] at hs ⊢
    cases ha : encodePoint a with
    | error e => rw [ha] at hs; cases hs
    | ok x =>
      rw [ha] at hs
      dsimp only at hs ⊢
      cases he : encodeEscape s with
      | error e => rw [he] at hs; cases hs
      | ok y => rw [ih y he]

example : encodeEscape [0x41, 0xDCFF] = .ok [0x41, 0xFF] := by decide

end Verif.Versions
