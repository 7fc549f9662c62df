import Verif.Model.Kind
import Verif.Props.DataDir
import Verif.Lemmas.Ancestors
import Verif.Lemmas.Str
import Verif.Lemmas.Decide

/-!
# C110: what a name says about a file
-/

namespace Verif.Kind

open Verif.FS Verif.Spec

/-! ## Specification -/

/-- What a name says the type is. -/
def says (T : Tables) (extra : List Str → Option Str) (n : Name) : Option Str :=
  match (guessType T (quote n)).1 with
  | some m => some m
  | none => extra (suffixes n)

/-- What a name says the encoding is. -/
def codes (T : Tables) (n : Name) : Option Str := (guessType T (quote n)).2

/-- The characters that are written as they are in a uri. -/
def unreserved : List Char := "ABCDEFGHIJKLMNOPQRSTUVWXYZabcdefghijklmnopqrstuvwxyz0123456789_.-~".toList

/-- A name of such characters. -/
def Simple (n : Name) : Prop := ∀ c ∈ n, c ∈ unreserved

/-- Something that can stand before a suffix: not only dots. -/
def Base (b : Str) : Prop := ∃ c ∈ b, c ≠ '.'

/-! ## Names -/

theorem quote_append (a b : Name) : quote (a ++ b) = quote a ++ quote b := by simp [quote, utf8_append]

theorem quote_char : ∀ c ∈ unreserved, quote [c] = [c] := by decide +kernel

theorem quote_simple {n : Name} (h : Simple n) : quote n = n := by
  induction n with
  | nil => rfl
  | cons c cs ih =>
    rw [show c :: cs = [c] ++ cs from rfl, quote_append, quote_char c (h c (by simp)), ih fun x hx => h x (by simp [hx])]

theorem splitext_suffix {b e : Str} (hb : Base b) (he : '.' ∉ e) : splitext (b ++ '.' :: e) = (b, '.' :: e) := by
  unfold splitext
  rw [rsplit1_append he]
  obtain ⟨c, hc, hne⟩ := hb
  have : b.all (· = '.') = false := by
    rw [List.all_eq_false]
    exact ⟨c, hc, by simpa using hne⟩
  simp only [this, Bool.false_eq_true, if_false]

/-- C110: the type of a name with one suffix is that of the suffix, whatever its case. -/
theorem C110_suffix (T : Tables) (extra : List Str → Option Str) (b e : Str) (hn : Simple (b ++ '.' :: e)) (hb : Base b) (he : '.' ∉ e)
    (hs : T.suffixMap (T.lower ('.' :: e)) = none) (hz : T.encodings ('.' :: e) = none) :
    codes T (b ++ '.' :: e) = none ∧ (∀ m, T.types (T.lower ('.' :: e)) = some m → says T extra (b ++ '.' :: e) = some m) ∧
    (T.types (T.lower ('.' :: e)) = none → says T extra (b ++ '.' :: e) = extra (suffixes (b ++ '.' :: e))) := by
  simp only [codes, says, quote_simple hn, guessType, splitext_suffix hb he, hs, hz]
  exact ⟨trivial, fun m hm => by rw [hm], fun hm => by rw [hm]⟩

/-- C110: the type of a compressed file is that of the suffix before, and the encoding that of the last suffix. -/
theorem C110_encoded (T : Tables) (extra : List Str → Option Str) (b e z : Str) (hn : Simple (b ++ '.' :: e ++ '.' :: z)) (hb : Base b)
    (he : '.' ∉ e) (hz : '.' ∉ z) (hs : T.suffixMap (T.lower ('.' :: z)) = none) (x : Str) (hx : T.encodings ('.' :: z) = some x) :
    codes T (b ++ '.' :: e ++ '.' :: z) = some x ∧
    (∀ m, T.types (T.lower ('.' :: e)) = some m → says T extra (b ++ '.' :: e ++ '.' :: z) = some m) ∧
    (T.types (T.lower ('.' :: e)) = none →
      says T extra (b ++ '.' :: e ++ '.' :: z) = extra (suffixes (b ++ '.' :: e ++ '.' :: z))) := by
  have hb' : Base (b ++ '.' :: e) := hb.imp fun c h => ⟨by simp [h.1], h.2⟩
  simp only [codes, says, quote_simple hn, guessType, splitext_suffix hb' hz, splitext_suffix hb he, hs, hx]
  exact ⟨trivial, fun m hm => by rw [hm], fun hm => by rw [hm]⟩

/-- C110: a suffix that stands for two (as `.tgz` does for `.tar.gz`) is taken for them. -/
theorem C110_short (T : Tables) (b e l : Str) (hn : Simple (b ++ '.' :: e)) (hb : Base b) (he : '.' ∉ e)
    (hl : T.suffixMap (T.lower ('.' :: e)) = some l) (hnl : Simple (b ++ l))
    (hs : T.suffixMap (T.lower (splitext (b ++ l)).2) = none) :
    guessType T (quote (b ++ '.' :: e)) = guessType T (quote (b ++ l)) := by
  rw [quote_simple hn, quote_simple hnl]
  unfold guessType
  rw [splitext_suffix hb he]
  simp only [hl, hs]

/-- C110: a name without a suffix says nothing about the encoding, and of the type no more than the table of the class. -/
theorem C110_no_suffix (T : Tables) (extra : List Str → Option Str) (n : Str) (hn : Simple n) (hd : '.' ∉ n)
    (ht : T.types (T.lower []) = none) (hs : T.suffixMap (T.lower []) = none) (hz : T.encodings [] = none) :
    codes T n = none ∧ says T extra n = extra [] := by
  have hsp : splitext n = (n, []) := by
    unfold splitext rsplit1
    rw [splitC_of_not_mem hd]
  have hsuf : suffixes n = [] := by
    unfold suffixes
    split
    · rfl
    · rw [splitC_of_not_mem (fun h => hd ((List.dropWhile_sublist _).subset h))]
      rfl
  simp only [codes, says, quote_simple hn, guessType, hsp, hs, hz, ht, hsuf]
  exact ⟨trivial, trivial⟩

/-! ## Paths -/

/-- C110: the type of a directory is that of directories, whatever its name. -/
theorem C110_directory (T : Tables) (extra : List Str → Option Str) (L : Limits) (t : Tree) (cwd : Path) (p : UserPath)
    (h : isDir L t cwd p = .ok true) : mimetype T extra L t cwd p = .ok (some (lit "inode/directory")) := by
  unfold mimetype
  rw [h]
  rfl

/-- C110: for an absolute path that is not a directory it is the name that counts, and nothing on disk. -/
theorem C110_absolute (T : Tables) (extra : List Str → Option Str) (L : Limits) (t : Tree) (cwd : Path) (d : List Name) (n : Name)
    (h : isDir L t cwd ⟨true, d ++ [n]⟩ = .ok false) :
    mimetype T extra L t cwd ⟨true, d ++ [n]⟩ = .ok (says T extra n) ∧ encoding T L t cwd ⟨true, d ++ [n]⟩ = .ok (codes T n) := by
  have hl : lastName (d ++ [n]) = n := by simp [lastName]
  constructor
  · simp only [mimetype, h, if_true, hl, says]
    cases (guessType T (quote n)).1 <;> rfl
  · simp only [encoding, if_true, hl, codes]

theorem walk_split {L : Limits} {t : Tree} {b : Nat} {cur : Path} {xs : List Name} {n : Name} {q : Path}
    (h : walk L t b cur (xs ++ [n]) = .ok q) : ∃ d, walk L t b cur xs = .ok d ∧ t d = some (.dir true) ∧
      (n ≠ ['.'] → n ≠ ['.', '.'] → ¬ L.nameMax < (utf8 n).length ∧ ∃ x, t (d ++ [n]) = some x) := by
  obtain ⟨k, hk, hl⟩ := (walk_ok_iff ..).1 h
  obtain ⟨k1, k2, d, hk', h1, h2⟩ := leads_split hl xs [n] rfl
  refine ⟨d, (walk_ok_iff ..).2 ⟨k1, by omega, h1⟩, ?_⟩
  cases h2 with
  | dot h' _ => exact ⟨h', fun hne => absurd rfl hne⟩
  | up h' _ => exact ⟨h', fun _ hne => absurd rfl hne⟩
  | down h' hn hx _ _ => exact ⟨h', fun _ _ => ⟨by have := hn.2.2; omega, _, hx⟩⟩
  | follow h' hn hx _ => exact ⟨h', fun _ _ => ⟨by have := hn.2.2; omega, _, hx⟩⟩

/-- What the system finds is no broken symlink. -/
theorem not_broken {L : Limits} {t : Tree} {cwd q : Path} {p : UserPath} {x : Node}
    (h : walk L t L.maxLinks (start cwd p.absolute) p.comps = .ok q) (hx : t q = some x) : isBrokenSymlink L t cwd p = .ok false := by
  have hst : stat L t cwd p = .ok x := by simp [stat, h, node, hx]
  have hex : pathExists L t cwd p = .ok true := by simp [pathExists, test, hst]
  have hl : ∃ y, lstat L t cwd p = .ok y := by
    unfold lstat
    cases hc : p.comps.getLast? with
    | none =>
      have : p.comps = [] := List.getLast?_eq_none_iff.1 hc
      rw [this, walk] at h
      cases h
      exact ⟨x, by simp [node, hx]⟩
    | some n =>
      have hpn : p.comps = p.comps.dropLast ++ [n] := by
        obtain ⟨ys, hy⟩ := List.getLast?_eq_some_iff.1 hc
        rw [hy, List.dropLast_concat]
      simp only
      split
      · exact ⟨x, hst⟩
      · rename_i hn
        rw [hpn] at h
        obtain ⟨d, hw, hd, hd'⟩ := walk_split h
        obtain ⟨hm, y, hy⟩ := hd' (fun e => hn (.inl e)) (fun e => hn (.inr e))
        rw [hw]
        simp only [hd, if_neg hm]
        exact ⟨y, by simp [node, hy]⟩
  obtain ⟨y, hl⟩ := hl
  have hs : ∃ b, isSymlink L t cwd p = .ok b := by simp [isSymlink, test, hl]
  obtain ⟨b, hs⟩ := hs
  cases b <;> simp [isBrokenSymlink, hs, hex]

/-- C110: for a relative path it is the name of the file that it leads to that counts. -/
theorem C110_relative (T : Tables) (extra : List Str → Option Str) (L : Limits) (t : Tree) (cwd : Path) (comps : List Name) (q : Path)
    (x : Node) (h : walk L t L.maxLinks cwd comps = .ok q) (hx : t q = some x) (hd : ∀ b, x ≠ .dir b) :
    mimetype T extra L t cwd ⟨false, comps⟩ = .ok (says T extra (lastName q)) ∧
    encoding T L t cwd ⟨false, comps⟩ = .ok (codes T (lastName q)) := by
  have hst : stat L t cwd ⟨false, comps⟩ = .ok x := by simp [stat, start, h, node, hx]
  have hdir : isDir L t cwd ⟨false, comps⟩ = .ok false := by
    simp only [isDir, test, hst]
  have hb := not_broken (L := L) (t := t) (cwd := cwd) (p := ⟨false, comps⟩) (by simpa [start] using h) hx
  have hr := C90_agrees L t L.maxLinks cwd comps q h
  constructor
  · simp only [mimetype, hdir, Bool.false_eq_true, if_false, hb, hr, says]
    cases (guessType T (quote (lastName q))).1 <;> rfl
  · simp only [encoding, Bool.false_eq_true, if_false, hr, codes]

/-- **C110** (partial: a file that is there and is no symlink): the type and the encoding are those that its name says, for the relative
path as for the absolute one.  (Full claim: for all files.) -/
theorem C110_same_partial (T : Tables) (extra : List Str → Option Str) (L : Limits) (t : Tree) (cwd : Path) (xs : List Name) (n : Name)
    (hc : Reachable L t cwd) (hn : n ≠ ['.'] ∧ n ≠ ['.', '.']) (x : Node)
    (h : lstat L t cwd ⟨false, xs ++ [n]⟩ = .ok x) (hx : (∃ b, x = .file b) ∨ x = .other) :
    mimetype T extra L t cwd ⟨false, xs ++ [n]⟩ = .ok (says T extra n) ∧ encoding T L t cwd ⟨false, xs ++ [n]⟩ = .ok (codes T n) ∧
    mimetype T extra L t cwd ⟨true, cwd ++ (xs ++ [n])⟩ = .ok (says T extra n) ∧
    encoding T L t cwd ⟨true, cwd ++ (xs ++ [n])⟩ = .ok (codes T n) := by
  unfold lstat at h
  simp only [List.getLast?_concat, hn.1, hn.2, or_self, if_false, List.dropLast_concat, start, Bool.false_eq_true] at h
  cases hw : walk L t L.maxLinks cwd xs with
  | error e => rw [hw] at h; cases h
  | ok d =>
    rw [hw] at h
    simp only at h
    cases hd : t d with
    | none => rw [hd] at h; cases h
    | some y =>
      rw [hd] at h
      cases y with
      | file b => cases h
      | link l => cases h
      | other => cases h
      | dir s =>
        cases s with
        | false => cases h
        | true =>
          simp only at h
          split at h
          · cases h
          · rename_i hm
            have hdn : t (d ++ [n]) = some x := by
              unfold node at h
              split at h <;> simp at h
              rename_i h'; rw [h', h]
            have hlx : ∀ l, x ≠ .link l := by rintro l rfl; rcases hx with ⟨_, h⟩ | h <;> cases h
            have hdx : ∀ b, x ≠ .dir b := by rintro l rfl; rcases hx with ⟨_, h⟩ | h <;> cases h
            obtain ⟨k, hk, hl⟩ := (walk_ok_iff ..).1 hw
            have hw2 : walk L t L.maxLinks cwd (xs ++ [n]) = .ok (d ++ [n]) := by
              rw [walk_append hk hl]
              exact (walk_ok_iff ..).2 ⟨0, Nat.zero_le _, .down hd ⟨hn.1, hn.2, by omega⟩ hdn hlx (.here _)⟩
            obtain ⟨h1, h2⟩ := C110_relative T extra L t cwd _ _ x hw2 hdn hdx
            have hlast : lastName (d ++ [n]) = n := by simp [lastName]
            rw [hlast] at h1 h2
            refine ⟨h1, h2, ?_⟩
            rw [← List.append_assoc]
            apply C110_absolute
            have : stat L t cwd ⟨true, cwd ++ xs ++ [n]⟩ = .ok x := by
              simp only [stat, start, if_true, List.append_assoc]
              rw [walk_reachable hc, hw2]
              simp [node, hdn]
            simp only [isDir, test, this]

/-- C110: the type of a broken symlink is what the name of the link says, for the relative path as for the absolute one. -/
theorem C110_broken (T : Tables) (extra : List Str → Option Str) (L : Limits) (t : Tree) (cwd : Path) (xs : List Name) (n : Name)
    (hc : Reachable L t cwd) (hb : isBrokenSymlink L t cwd ⟨false, xs ++ [n]⟩ = .ok true)
    (hd : isDir L t cwd ⟨false, xs ++ [n]⟩ = .ok false) :
    mimetype T extra L t cwd ⟨false, xs ++ [n]⟩ = .ok (says T extra n) ∧
    mimetype T extra L t cwd ⟨true, cwd ++ (xs ++ [n])⟩ = .ok (says T extra n) := by
  have hlast : lastName (cwd ++ (xs ++ [n])) = n := by
    rw [← List.append_assoc]; simp [lastName]
  constructor
  · simp only [mimetype, hd, Bool.false_eq_true, if_false, hb, hlast, says]
    cases (guessType T (quote n)).1 <;> rfl
  · rw [← List.append_assoc]
    refine (C110_absolute T extra L t cwd _ _ ?_).1
    have hs : stat L t cwd ⟨true, cwd ++ xs ++ [n]⟩ = stat L t cwd ⟨false, xs ++ [n]⟩ := by
      simp only [stat, start, if_true, List.append_assoc, Bool.false_eq_true, if_false]
      rw [walk_reachable hc]
    simp only [isDir, hs] at hd ⊢
    exact hd

/-! ## Cases -/

/-- Some of the tables of the library. -/
def sampleTables : Tables :=
  { types := fun s => if s = lit ".txt" then some (lit "text/plain") else if s = lit ".png" then some (lit "image/png")
      else if s = lit ".tar" then some (lit "application/x-tar") else if s = lit ".ü" then some (lit "x/u") else none
    encodings := fun s => if s = lit ".gz" then some (lit "gzip") else none
    suffixMap := fun s => if s = lit ".tgz" then some (lit ".tar.gz") else none
    lower := fun s => s }

example : says sampleTables (fun _ => none) (lit "a.b.tar.gz") = some (lit "application/x-tar") ∧
    codes sampleTables (lit "a.tgz") = some (lit "gzip") ∧ says sampleTables (fun _ => none) (lit "a.tgz") = some (lit "application/x-tar") := by
  decide +kernel
example : Simple (lit "a.b.tar.gz") := by unfold Simple; decide +kernel
example : Base (lit ".a") := ⟨'a', by decide, by decide⟩
example : says sampleTables (fun s => if s = [lit ".x", lit ".y"] then some (lit "x/y") else none) (lit "a.x.y") = some (lit "x/y") := by
  decide +kernel

/-- In `/w`, `a.txt` leads to `b.png`, `c.txt` to `d.gz`, which is not there, and `l` to itself. -/
def sampleTree : Tree := fun q =>
  if q = [] ∨ q = [['w']] then some (.dir true)
  else if q = [['w'], lit "a.txt"] then some (.link ⟨false, [lit "b.png"]⟩)
  else if q = [['w'], lit "b.png"] then some (.file [1])
  else if q = [['w'], lit "c.txt"] then some (.link ⟨false, [lit "d.gz"]⟩)
  else if q = [['w'], ['l']] then some (.link ⟨false, [['l']]⟩)
  else none

theorem sample_reachable : Reachable ⟨255, 40⟩ sampleTree [['w']] := by
  refine ⟨?_, ?_⟩
  · intro e he
    rcases List.prefix_cons_iff.1 he with rfl | ⟨r, rfl, hr⟩
    · rfl
    · rw [List.prefix_nil.1 hr]; rfl
  · simp [FitsName, utf8]
    decide

/-- **C110 is false** for a symlink: the type of the relative path is that of the file it leads to, the type of the absolute path is what
the name of the link says. -/
theorem C110_link_counterexample : mimetype sampleTables (fun _ => none) ⟨255, 40⟩ sampleTree [['w']] ⟨false, [lit "a.txt"]⟩ = .ok (some (lit "image/png")) ∧
    mimetype sampleTables (fun _ => none) ⟨255, 40⟩ sampleTree [['w']] ⟨true, [['w'], lit "a.txt"]⟩ = .ok (some (lit "text/plain")) := by
  have h1 : walk ⟨255, 40⟩ sampleTree 40 [['w']] [lit "a.txt"] = .ok [['w'], lit "b.png"] := by
    simp [walk, sampleTree, lit, start, utf8, Char.utf8Size]
  have h2 : isDir ⟨255, 40⟩ sampleTree [['w']] ⟨true, [['w'], lit "a.txt"]⟩ = .ok false := by
    simp [isDir, stat, walk, sampleTree, lit, start, utf8, Char.utf8Size, test, node]
  have e1 : says sampleTables (fun _ => none) (lit "b.png") = some (lit "image/png") := by decide +kernel
  have e2 : says sampleTables (fun _ => none) (lit "a.txt") = some (lit "text/plain") := by decide +kernel
  rw [← e1, ← e2]
  exact ⟨(C110_relative sampleTables (fun _ => none) ⟨255, 40⟩ sampleTree [['w']] _ _ (.file [1]) h1 (by decide) (by simp)).1,
    (C110_absolute sampleTables (fun _ => none) ⟨255, 40⟩ sampleTree [['w']] [['w']] (lit "a.txt") h2).1⟩

/-- **C110 is false** for a broken symlink: its type is what its name says, its encoding is that of the file that is not there; and for a
symlink to itself the encoding raises. -/
theorem C110_broken_counterexample :
    encoding sampleTables ⟨255, 40⟩ sampleTree [['w']] ⟨false, [lit "c.txt"]⟩ = .ok (some (lit "gzip")) ∧
    mimetype sampleTables (fun _ => none) ⟨255, 40⟩ sampleTree [['w']] ⟨false, [lit "c.txt"]⟩ = .ok (some (lit "text/plain")) ∧
    encoding sampleTables ⟨255, 40⟩ sampleTree [['w']] ⟨true, [['w'], lit "c.txt"]⟩ = .ok none ∧
    encoding sampleTables ⟨255, 40⟩ sampleTree [['w']] ⟨false, [['l']]⟩ = .error .runtimeError := by
  have h1 : isBrokenSymlink ⟨255, 40⟩ sampleTree [['w']] ⟨false, [] ++ [lit "c.txt"]⟩ = .ok true := by
    simp [isBrokenSymlink, isSymlink, pathExists, lstat, stat, walk, sampleTree, lit, start, utf8, Char.utf8Size, test, node, ignored]
  have h2 : isDir ⟨255, 40⟩ sampleTree [['w']] ⟨false, [] ++ [lit "c.txt"]⟩ = .ok false := by
    simp [isDir, stat, walk, sampleTree, lit, start, utf8, Char.utf8Size, test, node, ignored]
  have h3 : realpath sampleTree 40 [['w']] [lit "c.txt"] = .ok [['w'], lit "d.gz"] := by
    simp [realpath, sampleTree, lit, start]
  have h4 : ∀ b, realpath sampleTree b [['w']] [['l']] = .error .runtimeError := by
    intro b
    induction b with
    | zero => simp [realpath, sampleTree, lit, start]
    | succ b ih =>
      rw [realpath]
      simpa [sampleTree, lit, start] using ih
  have e1 : says sampleTables (fun _ => none) (lit "c.txt") = some (lit "text/plain") := by decide +kernel
  have e2 : codes sampleTables (lit "d.gz") = some (lit "gzip") := by decide +kernel
  have e3 : codes sampleTables (lit "c.txt") = none := by decide +kernel
  rw [← e1, ← e2, ← e3]
  refine ⟨?_, (C110_broken sampleTables (fun _ => none) ⟨255, 40⟩ sampleTree [['w']] [] (lit "c.txt") sample_reachable h1 h2).1, ?_, ?_⟩
  · simp only [encoding, Bool.false_eq_true, if_false, h3]
    rfl
  · rfl
  · simp only [encoding, Bool.false_eq_true, if_false, h4]

/-- **C110 is false** for suffixes with other characters: the table has the suffix, but in a uri it is spelled differently. -/
theorem C110_quoted_counterexample : sampleTables.types (lit ".ü") = some (lit "x/u") ∧ says sampleTables (fun _ => none) (lit "a.ü") = none := by
  decide +kernel

theorem suffixes_of (k : Nat) (b : Str) (hb : b ≠ []) (hd : '.' ∉ b) : ∀ (es : List Str), (∀ e ∈ es, '.' ∉ e) → es.getLast? ≠ some [] →
    suffixes (List.replicate k '.' ++ b ++ es.flatMap ('.' :: ·)) = es.map ('.' :: ·) := by
  intro es he hl
  have hlast : (List.replicate k '.' ++ b ++ es.flatMap ('.' :: ·)).getLast? ≠ some '.' := by
    intro h
    obtain ⟨ys, h⟩ := List.getLast?_eq_some_iff.1 h
    cases hes : es.getLast? with
    | none =>
      rw [List.getLast?_eq_none_iff.1 hes] at h
      have : b.getLast? = some '.' := by
        have h' : (List.replicate k '.' ++ b).getLast? = some '.' := by simp at h; rw [h]; simp
        rw [List.getLast?_append] at h'
        cases hbl : b.getLast? with
        | none => exact absurd (List.getLast?_eq_none_iff.1 hbl) hb
        | some c => rw [hbl] at h'; simpa using h'
      exact hd (List.mem_of_getLast? this)
    | some e =>
      obtain ⟨fs, rfl⟩ := List.getLast?_eq_some_iff.1 hes
      have hne : e ≠ [] := by rintro rfl; exact hl hes
      have h' : e.getLast? = some '.' := by
        have h' : (List.replicate k '.' ++ b ++ (fs ++ [e]).flatMap ('.' :: ·)).getLast? = some '.' := by rw [h]; simp
        rw [List.flatMap_append, ← List.append_assoc, List.getLast?_append] at h'
        cases hbl : e.getLast? with
        | none => exact absurd (List.getLast?_eq_none_iff.1 hbl) hne
        | some c => simp [List.getLast?_cons, hbl] at h'; simpa using h'
      exact he e (by simp) (List.mem_of_getLast? h')
  unfold suffixes
  rw [if_neg hlast]
  have hdrop : (List.replicate k '.' ++ b ++ es.flatMap ('.' :: ·)).dropWhile (· = '.') = b ++ es.flatMap ('.' :: ·) := by
    induction k with
    | zero =>
      cases b with
      | nil => exact absurd rfl hb
      | cons c b =>
        have : c ≠ '.' := by rintro rfl; exact hd (by simp)
        simp [this]
    | succ k ih =>
      have := ih (by
        intro h
        apply hlast
        rw [List.replicate_succ, List.cons_append, List.cons_append, List.getLast?_cons, h]
        rfl)
      rw [List.replicate_succ, List.cons_append, List.cons_append, List.dropWhile_cons]
      simpa using this
  rw [hdrop]
  have hs : ∀ (es : List Str) (b : Str), '.' ∉ b → (∀ e ∈ es, '.' ∉ e) → splitC '.' (b ++ es.flatMap ('.' :: ·)) = b :: es := by
    intro es
    induction es with
    | nil => intro b hd _; simpa using splitC_of_not_mem hd
    | cons e es ih =>
      intro b hd he
      rw [List.flatMap_cons, List.cons_append, splitC_append_sep hd, ih e (he e (by simp)) fun x hx => he x (by simp [hx])]
  rw [hs es b hd he]
  rfl

/-- C110: where the tables have nothing for a name, the table of the class is asked for all of its suffixes; dots at the start are no
suffixes. -/
theorem C110_extra (T : Tables) (extra : List Str → Option Str) (k : Nat) (b : Str) (es : List Str) (hb : b ≠ []) (hd : '.' ∉ b)
    (he : ∀ e ∈ es, '.' ∉ e) (hl : es.getLast? ≠ some []) (n : Name) (hn : n = List.replicate k '.' ++ b ++ es.flatMap ('.' :: ·))
    (h : (guessType T (quote n)).1 = none) : says T extra n = extra (es.map ('.' :: ·)) := by
  simp only [says, h]
  rw [hn, suffixes_of k b hb hd es he hl]

example : (guessType ⟨fun _ => none, fun _ => none, fun _ => none, id⟩ (quote (lit ".a.x.y"))).1 = none ∧
    lit ".a.x.y" = List.replicate 1 '.' ++ ['a'] ++ [['x'], ['y']].flatMap ('.' :: ·) := by decide +kernel

/-- The value of a hexadecimal digit in upper case. -/
def hexVal (c : Char) : Option Nat :=
  if '0'.toNat ≤ c.toNat ∧ c.toNat ≤ '9'.toNat then some (c.toNat - '0'.toNat)
  else if 'A'.toNat ≤ c.toNat ∧ c.toNat ≤ 'F'.toNat then some (c.toNat - 'A'.toNat + 10) else none

/-- The bytes that a component of a uri stands for: `%` is followed by two digits, and nothing but unreserved characters is written as it is. -/
def unquoted : Str → Option Bytes
  | [] => some []
  | '%' :: a :: b :: r => do
    let x ← hexVal a
    let y ← hexVal b
    let r ← unquoted r
    pure (UInt8.ofNat (16 * x + y) :: r)
  | c :: r => if c ∈ unreserved then (unquoted r).map (UInt8.ofNat c.toNat :: ·) else none

theorem quoteByte_cases (b : UInt8) : (∃ c ∈ unreserved, quoteByte b = [c] ∧ c ≠ '%' ∧ UInt8.ofNat c.toNat = b) ∨
    ∃ h l, quoteByte b = ['%', h, l] ∧ ∃ x y, hexVal h = some x ∧ hexVal l = some y ∧ UInt8.ofNat (16 * x + y) = b := by
  have h : ∀ n : Fin 256, (∃ c ∈ unreserved, quoteByte (UInt8.ofNat n) = [c] ∧ c ≠ '%' ∧ UInt8.ofNat c.toNat = UInt8.ofNat n) ∨
      (quoteByte (UInt8.ofNat n) = ['%', quoteByte.upHex (n / 16), quoteByte.upHex (n % 16)] ∧ hexVal (quoteByte.upHex (n / 16)) = some (n.val / 16) ∧
        hexVal (quoteByte.upHex (n % 16)) = some (n.val % 16)) := by decide +kernel
  have hb : UInt8.ofNat (⟨b.toNat, b.toNat_lt⟩ : Fin 256).val = b := by simp
  rcases h ⟨b.toNat, b.toNat_lt⟩ with h | ⟨h1, h2, h3⟩
  · rw [hb] at h; exact .inl h
  · rw [hb] at h1
    exact .inr ⟨_, _, h1, _, _, h2, h3, by rw [Nat.div_add_mod, hb]⟩

/-- C110: the name that is asked about is the name of the file as a component of a uri: it consists of unreserved characters and of bytes
written as two digits, and these are the bytes of the name.  So the names of two files are never asked about as the same one. -/
theorem C110_quoted (n : Name) : unquoted (quote n) = some (utf8 n) ∧ ∀ n', quote n' = quote n → n' = n := by
  have h : ∀ bs : Bytes, unquoted (bs.flatMap quoteByte) = some bs := by
    intro bs
    induction bs with
    | nil => rfl
    | cons b bs ih =>
      rw [List.flatMap_cons]
      rcases quoteByte_cases b with ⟨c, hc, hq, hne, hb⟩ | ⟨h, l, hq, x, y, hx, hy, hb⟩
      · rw [hq, List.singleton_append, unquoted, if_pos hc, ih, hb]
        · rfl
        · intro a b r he _
          exact hne he
      · rw [hq]
        simp only [List.cons_append, List.nil_append, unquoted, hx, hy, ih, hb, Option.bind_eq_bind, Option.bind_some, Option.pure_def]
  refine ⟨h _, fun n' hn => ?_⟩
  have h1 := h (utf8 n)
  have h2 := h (utf8 n')
  rw [show (utf8 n').flatMap quoteByte = (utf8 n).flatMap quoteByte from hn, h1] at h2
  exact (utf8_injective (Option.some.inj h2)).symm

example : quote (lit "é a.x") = lit "%C3%A9%20a.x" ∧ unquoted (lit "%C3%A9%20a.x") = some (utf8 (lit "é a.x")) ∧ unquoted (lit "é") = none := by
  decide +kernel

end Verif.Kind
