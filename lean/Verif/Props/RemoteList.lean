import Verif.Lemmas.Remote
import Verif.Lemmas.Decide
import Verif.Props.Ssh

/-!
# C72: the listing of a remote directory, C73: looking at a remote path
-/

namespace Verif.Ssh
open Verif Verif.Ssh.Spec

/-! ## C73 -/

/-- C73.  What stat prints about a file is read back, and the file exists.  Missing from the full
statement: names with gaps in them and times before 1970 (see C55). -/
theorem C73_found_partial (f : File) (hok : f.ok) (hmod : f.modern) (hname : NoGap f.name) :
    remoteStat f.print = .ok f.result ∧ remoteExists f.print = .ok true := by
  have h := C55_parse_partial f hok hmod hname
  have h1 : remoteStat f.print = .ok f.result := by rw [remoteStat, h]
  exact ⟨h1, by rw [remoteExists, h1]⟩

theorem noGap_missing : NoGap (lit "No such file or directory") :=
  ⟨fun h => absurd ((contains_iff _ _).2 h) (by decide), by decide⟩

theorem noGap_denied : NoGap (lit "Permission denied") :=
  ⟨fun h => absurd ((contains_iff _ _).2 h) (by decide), by decide⟩

theorem endsWith_append (s t : Str) : endsWith t (s ++ t) = true := by
  rw [endsWith, List.isSuffixOf_iff_suffix]
  exact List.suffix_append s t

theorem not_endsWith (s t u : Str) (h : u.getLast? ≠ t.getLast?) (hu : u ≠ []) (ht : t ≠ []) : endsWith u (s ++ t) = false := by
  cases he : endsWith u (s ++ t) with
  | false => rfl
  | true =>
    rw [endsWith, List.isSuffixOf_iff_suffix] at he
    obtain ⟨p, hp⟩ := he
    have := congrArg List.getLast? hp
    rw [List.getLast?_append, List.getLast?_append] at this
    cases hx : u.getLast? with
    | none => exact absurd (List.getLast?_eq_none_iff.1 hx) hu
    | some a =>
      cases hy : t.getLast? with
      | none => exact absurd (List.getLast?_eq_none_iff.1 hy) ht
      | some b =>
        rw [hx, hy] at this h
        exact absurd this h

/-- C73.  Whatever the path, if there is nothing at it then stat says so and the path does not exist. -/
theorem C73_missing (cmd path : Str) :
    remoteStat (missing cmd path) = .error .fileNotFoundError ∧ remoteExists (missing cmd path) = .ok false := by
  have e : lit "': No such file or directory" = lit "': " ++ lit "No such file or directory" := by decide
  have h1 : remoteStat (missing cmd path) = .error .fileNotFoundError := by
    rw [missing, e, ← List.append_assoc, remoteStat,
      parseStat_none _ _ noGap_missing (by decide) 'N' (by decide) (by decide) (by decide)]
    dsimp only
    rw [not_endsWith _ _ _ (by decide) (by simp) (by simp), endsWith_append]
    rfl
  exact ⟨h1, by rw [remoteExists, h1]⟩

/-- C73.  Whatever the path, if it cannot be reached that is what is raised, and whether the path exists
is not answered. -/
theorem C73_denied (cmd path : Str) :
    remoteStat (denied cmd path) = .error .permissionError ∧ remoteExists (denied cmd path) = .error .permissionError := by
  have e : lit "': Permission denied" = lit "': " ++ lit "Permission denied" := by decide
  have h1 : remoteStat (denied cmd path) = .error .permissionError := by
    rw [denied, e, ← List.append_assoc, remoteStat,
      parseStat_none _ _ noGap_denied (by decide) 'P' (by decide) (by decide) (by decide)]
    dsimp only
    rw [endsWith_append]
    rfl
  exact ⟨h1, by rw [remoteExists, h1]⟩

/-- C73.  The type of a file: directories are exactly what is taken for a directory, and files with
something in them are exactly what is taken for a file. -/
theorem C73_types_partial (k : Kind) (size : Nat) :
    (remoteIsDir (typeText k size) = true ↔ k = .directory) ∧
    (remoteIsFile (typeText k size) = true ↔ k = .regular ∧ size ≠ 0) := by
  have text : ∀ t : Str, (remoteIsDir t = true ↔ t = lit "directory") ∧ (remoteIsFile t = true ↔ t = lit "regular file") :=
    fun t => ⟨beq_iff_eq, beq_iff_eq⟩
  rw [(text _).1, (text _).2]
  by_cases hk : k = .regular
  · subst hk
    by_cases h : size = 0
    · have e : typeText .regular size = lit "regular empty file" := if_pos h
      rw [e]
      exact ⟨by decide +kernel, fun e => absurd e (by decide +kernel), fun e => absurd h e.2⟩
    · have e : typeText .regular size = lit "regular file" := if_neg h
      rw [e]
      exact ⟨by decide +kernel, fun _ => ⟨rfl, h⟩, fun _ => rfl⟩
  · have e : typeText k size = typeText k 1 := by cases k <;> first | rfl | exact absurd rfl hk
    have hf : typeText k 1 ≠ lit "regular file" := by
      revert hk
      cases k <;> decide +kernel
    have hd : typeText k 1 = lit "directory" ↔ k = .directory := by
      cases k <;> decide +kernel
    rw [e]
    exact ⟨hd, fun h => absurd h hf, fun h => absurd h.1 hk⟩

/-- C73.  If there is nothing at a path or it cannot be reached it is neither a directory nor a file. -/
theorem C73_types_missing (cmd path : Str) :
    (remoteIsDir (missing cmd path) = false ∧ remoteIsFile (missing cmd path) = false) ∧
    remoteIsDir (denied cmd path) = false ∧ remoteIsFile (denied cmd path) = false := by
  have long : ∀ (x t u : Str), u.length < t.length → (x ++ t == u) = false := by
    intro x t u h
    rw [beq_eq_false_iff_ne]
    intro e
    have := congrArg List.length e
    rw [List.length_append] at this
    omega
  unfold remoteIsDir remoteIsFile missing denied
  exact ⟨⟨long _ _ _ (by decide), long _ _ _ (by decide)⟩, long _ _ _ (by decide), long _ _ _ (by decide)⟩

/-- C73 is false of the code: an empty file is not taken for a file. -/
theorem C73_empty_file_counterexample :
    remoteIsFile (typeText .regular 0) = false ∧ remoteIsDir (typeText .regular 0) = false := by decide

/-! ## C72 -/

/-- The bytes that `strip` removes. -/
def isSpaceByte (b : UInt8) : Bool := b ∈ [32, 9, 10, 13, 11, 12]

theorem dropWhile_head {p : UInt8 → Bool} {b : Bytes} (h : ∀ x, b.head? = some x → p x = false) : b.dropWhile p = b := by
  cases b with
  | nil => rfl
  | cons x xs => simp [List.dropWhile, h x rfl]

/-- C72.  The reply to a command is its output: the echo of the command and the line ends around the
output are removed. -/
theorem C72_reply (cols : Nat) (cmd : Str) (out : Bytes) (hlen : cmd.length ≤ cols) (hne : out ≠ [])
    (hfirst : ∀ x, out.head? = some x → isSpaceByte x = false) (hlast : ∀ x, out.getLast? = some x → isSpaceByte x = false) :
    sshReply cols cmd (utf8 cmd ++ [13, 10] ++ out ++ [13, 10]) = .ok out := by
  have hd : (utf8 cmd ++ [13, 10] ++ out ++ [13, 10]).drop ((utf8 cmd).length + 1 + 1) = out ++ [13, 10] := by
    rw [List.append_assoc, List.append_assoc, List.drop_append, List.drop_of_length_le (by omega)]
    have : (utf8 cmd).length + 1 + 1 - (utf8 cmd).length = 2 := by omega
    rw [this]
    rfl
  rw [sshReply, if_neg (by omega), hd]
  have h1 : (out ++ [13, 10]).dropWhile isSpaceByte = out ++ [13, 10] := by
    refine dropWhile_head fun x hx => hfirst x ?_
    cases out with
    | nil => exact absurd rfl hne
    | cons a as => simpa using hx
  have h2 : ((out ++ [13, 10]).reverse).dropWhile isSpaceByte = out.reverse := by
    have e : (out ++ [13, 10]).reverse = 10 :: 13 :: out.reverse := by simp
    rw [e]
    have : (out.reverse).dropWhile isSpaceByte = out.reverse :=
      dropWhile_head fun x hx => hlast x (by simpa using hx)
    simp only [List.dropWhile, isSpaceByte]
    simpa [isSpaceByte] using this
  change Except.ok (((out ++ [13, 10]).dropWhile isSpaceByte).reverse.dropWhile isSpaceByte).reverse = _
  rw [h1, h2, List.reverse_reverse]

/-- C72.  A command that does not fit on the line of the terminal is refused. -/
theorem C72_too_long (cols : Nat) (cmd : Str) (before : Bytes) (h : cols < cmd.length) :
    sshReply cols cmd before = .error .valueError := by rw [sshReply, if_pos h]

/-- An entry whose lines can be told apart. -/
def Entry.ok (e : Entry) : Prop :=
  e.file.ok ∧ e.file.modern ∧ NoGap e.file.name ∧ '\r' ∉ e.file.print ∧ '\r' ∉ e.file.name ∧
    (e.sum ≠ none → '\\' ∉ e.file.name ∧ ¬ lit "Is a directory" <:+: e.file.name)

theorem parseStats_print : ∀ (es : List Entry), (∀ e ∈ es, Entry.ok e) →
    parseStats (es.map (·.file.print)) = some (es.map fun e => (e.file.name, e.file.result))
  | [], _ => rfl
  | e :: es, h => by
    have he := h e (by simp)
    rw [List.map_cons, parseStats, C55_parse_partial e.file he.1 he.2.1 he.2.2.1,
      parseStats_print es (fun x hx => h x (List.mem_cons_of_mem _ hx))]
    rfl

theorem print_ne_rule (f : File) : f.print ≠ lit "----" := by
  intro h
  have : ' ' ∈ f.print := by
    unfold File.print File.fields
    simp only [spaced, List.mem_append]
    exact .inl (.inr (by simp))
  rw [h] at this
  revert this; decide

theorem directory_infix {b : Bytes} {name : Str} (h : lit "Is a directory" <:+: hex b ++ ' ' :: ' ' :: name) :
    lit "Is a directory" <:+: name := by
  have key : ∀ w : Str, 'I' ∉ w → lit "Is a directory" <:+: w ++ name → lit "Is a directory" <:+: name := by
    intro w
    induction w with
    | nil => intro _ h; exact h
    | cons c w ih =>
      intro hw h
      simp only [List.mem_cons, not_or] at hw
      rcases List.infix_cons_iff.1 h with h | h
      · exfalso
        obtain ⟨t, ht⟩ := h
        have e : lit "Is a directory" = 'I' :: lit "s a directory" := by decide
        rw [e, List.cons_append, List.cons.injEq] at ht
        exact hw.1 ht.1
      · exact ih hw.2 h
  have hi : 'I' ∉ hex b ++ [' ', ' '] := by
    rw [List.mem_append]
    rintro (h | h)
    · exact hex_not_mem b (by decide) h
    · revert h; decide
  refine key (hex b ++ [' ', ' ']) hi ?_
  simpa using h

/-- The checksums of the files among the entries. -/
def sums : List Entry → List (Str × Bytes)
  | [] => []
  | e :: es => match e.sum with
    | none => sums es
    | some b => (e.file.name, b) :: sums es

theorem parseChecks_check (cypher : Str) : ∀ (es : List Entry), (∀ e ∈ es, Entry.ok e) →
    parseChecks (es.map (Entry.check cypher)) = some (sums es)
  | [], _ => rfl
  | e :: es, h => by
    have he := h e (by simp)
    have ih := parseChecks_check cypher es (fun x hx => h x (List.mem_cons_of_mem _ hx))
    rw [List.map_cons, parseChecks]
    cases hs : e.sum with
    | none =>
      have hc : contains (lit "Is a directory") (Entry.check cypher e) = true := by
        rw [contains_iff, Entry.check, hs]
        refine ⟨cypher ++ lit ": " ++ e.file.name ++ lit ": ", [], ?_⟩
        have e' : lit ": Is a directory" = lit ": " ++ lit "Is a directory" := by decide
        dsimp only
        rw [e']
        simp only [List.append_assoc, List.append_nil]
      rw [if_pos hc, ih, sums, hs]
    | some b =>
      obtain ⟨hb, hd⟩ := he.2.2.2.2.2 (by rw [hs]; simp)
      have hck : Entry.check cypher e = hex b ++ ' ' :: ' ' :: e.file.name := by
        rw [Entry.check, hs]
        dsimp only
        rw [if_neg hb]
      have hc : ¬ contains (lit "Is a directory") (Entry.check cypher e) = true := by
        rw [contains_iff, hck]
        exact fun h => hd (directory_infix h)
      rw [if_neg hc, hck, splitTwo1_append (hex_not_mem b (by decide))]
      dsimp only
      rw [fromHex_hex, ih, sums, hs]

theorem check_line (cypher : Str) (hc : '\r' ∉ cypher) (e : Entry) (he : Entry.ok e) :
    '\r' ∉ Entry.check cypher e ∧ Entry.check cypher e ≠ lit "----" := by
  have hsp : ∀ s : Str, ' ' ∈ s → s ≠ lit "----" := by
    rintro s hs rfl
    revert hs; decide
  cases hs : e.sum with
  | none =>
    have hck : Entry.check cypher e = cypher ++ lit ": " ++ e.file.name ++ lit ": Is a directory" := by
      rw [Entry.check, hs]
    rw [hck]
    refine ⟨?_, hsp _ ?_⟩
    · simp only [List.mem_append, not_or]
      exact ⟨⟨⟨hc, by decide⟩, he.2.2.2.2.1⟩, by decide⟩
    · exact List.mem_append_right _ (by decide)
  | some b =>
    obtain ⟨hb, -⟩ := he.2.2.2.2.2 (by rw [hs]; simp)
    have hck : Entry.check cypher e = hex b ++ ' ' :: ' ' :: e.file.name := by
      rw [Entry.check, hs]
      dsimp only
      rw [if_neg hb]
    rw [hck]
    refine ⟨?_, hsp _ (by simp)⟩
    simp only [List.mem_append, List.mem_cons, not_or]
    exact ⟨hex_not_mem b (by decide), by decide, by decide, he.2.2.2.2.1⟩

/-- C72.  The listing of a remote directory gives what stat knows about every entry, and the checksum of
every file, each under its name.  Missing from the full statement: directories without a plain name in
them, and names that confuse one of the two formats. -/
theorem C72_listing_partial (cmd cypher : Str) (hcy : '\r' ∉ cypher) (dotted plain : List Entry) (hplain : plain ≠ [])
    (hok : ∀ e ∈ dotted ++ plain, Entry.ok e) :
    parseChildren (listing cmd cypher dotted plain) =
      some ((dotted ++ plain).map fun e => (e.file.name, e.file.result), sums (dotted ++ plain)) := by
  have e1 : dotted.map (·.file.print) ++ (if plain = [] then [missing cmd ['*']] else plain.map (·.file.print)) =
      (dotted ++ plain).map (·.file.print) := by rw [if_neg hplain, List.map_append]
  have e2 : dotted.map (Entry.check cypher) ++
      (if plain = [] then [cypher ++ lit ": '*': No such file or directory"] else plain.map (Entry.check cypher)) =
      (dotted ++ plain).map (Entry.check cypher) := by rw [if_neg hplain, List.map_append]
  have hne : dotted ++ plain ≠ [] := by simp [hplain]
  rw [listing, e1, e2]
  generalize dotted ++ plain = es at hok hne
  have hl : ∀ l ∈ es.map (·.file.print), '\r' ∉ l ∧ l ≠ lit "----" := by
    intro l hl
    obtain ⟨e, he, rfl⟩ := List.mem_map.1 hl
    exact ⟨(hok e he).2.2.2.1, print_ne_rule _⟩
  have hm : ∀ l ∈ es.map (Entry.check cypher), '\r' ∉ l ∧ l ≠ lit "----" := by
    intro l hl
    obtain ⟨e, he, rfl⟩ := List.mem_map.1 hl
    exact check_line cypher hcy e (hok e he)
  have hsplit := splitOn_rule (es.map (·.file.print)) (es.map (Entry.check cypher)) (by simpa using hne) (by simpa using hne) hl hm
  rw [parseChildren]
  change (match splitOn rule (lines (es.map (·.file.print)) ++ rule ++ lines (es.map (Entry.check cypher))) with
    | [stats, checks] => _
    | _ => none) = _
  rw [hsplit]
  dsimp only
  rw [splitOn_lines (by simpa using hne) (fun l h => (hl l h).1), splitOn_lines (by simpa using hne) (fun l h => (hm l h).1),
    parseStats_print es hok, parseChecks_check cypher es hok]

/-- A directory with itself, its parent and a file with spaces in its name. -/
def sampleEntries : List Entry × List Entry :=
  ([⟨sampleFile (lit ".") 5 7, none⟩, ⟨sampleFile (lit "..") 5 7, none⟩], [⟨sampleFile (lit "a b") 5 7, some [1, 2, 255]⟩])

theorem sample_modern (name : Str) : (sampleFile name 5 7).modern := by
  refine ⟨by simp [sampleFile, sampleMoment], by simp [sampleFile, sampleMoment], by simp [sampleFile, sampleMoment], ?_⟩
  rintro t ht
  simp only [sampleFile, Option.some.injEq] at ht
  subst ht
  simp [sampleMoment]

/-- The sample meets the hypotheses of `C72_listing_partial`. -/
example : sampleEntries.2 ≠ [] ∧ ∀ e ∈ sampleEntries.1 ++ sampleEntries.2, Entry.ok e := by
  refine ⟨by simp [sampleEntries], fun e he => ?_⟩
  simp only [sampleEntries, List.cons_append, List.nil_append, List.mem_cons, List.not_mem_nil, or_false] at he
  rcases he with rfl | rfl | rfl
  · exact ⟨sampleFile_ok _ _ _ (by decide), sample_modern _, noGap_of_not_mem (by decide), by decide +kernel, by decide,
      fun h => absurd rfl h⟩
  · exact ⟨sampleFile_ok _ _ _ (by decide), sample_modern _, noGap_of_not_mem (by decide), by decide +kernel, by decide,
      fun h => absurd rfl h⟩
  · exact ⟨sampleFile_ok _ _ _ (by decide), sample_modern _,
      noGap_join (a := ['a']) (b := ['b']) (by decide) (noGap_of_not_mem (by decide)) (by simp) (by decide),
      by decide +kernel, by decide, fun _ => ⟨by decide, fun h => absurd ((contains_iff _ _).2 h) (by decide +kernel)⟩⟩

theorem parseStats_none {l : Str} (h : parseStat l = none) : ∀ {ls : List Str}, l ∈ ls → parseStats ls = none
  | [], hm => by simp at hm
  | m :: ls, hm => by
    rw [parseStats]
    rcases List.mem_cons.1 hm with rfl | hm
    · rw [h]
    · rw [parseStats_none h hm]
      cases parseStat m <;> rfl

theorem parseChildren_none {ls ms : List Str} (hl : ls ≠ []) (hm : ms ≠ []) (hls : ∀ l ∈ ls, '\r' ∉ l ∧ l ≠ lit "----")
    (hms : ∀ l ∈ ms, '\r' ∉ l ∧ l ≠ lit "----") (h : parseStats ls = none ∨ parseChecks ms = none) :
    parseChildren (lines ls ++ rule ++ lines ms) = none := by
  rw [parseChildren]
  change (match splitOn rule (lines ls ++ rule ++ lines ms) with
    | [stats, checks] => _
    | _ => none) = _
  rw [splitOn_rule ls ms hl hm hls hms]
  dsimp only
  rw [splitOn_lines hl (fun l h => (hls l h).1), splitOn_lines hm (fun l h => (hms l h).1)]
  rcases h with h | h
  · rw [h]
  · rw [h]
    cases parseStats ls <;> rfl

/-- C72 is false of the code: a directory that is empty, or has only names with a leading dot in it,
cannot be listed at all, whatever they are. -/
theorem C72_empty_counterexample (cmd cypher : Str) (hcmd : '\r' ∉ cmd) (hcy : '\r' ∉ cypher) (dotted : List Entry)
    (hok : ∀ e ∈ dotted, Entry.ok e) : parseChildren (listing cmd cypher dotted []) = none := by
  have hsp : ∀ s : Str, ' ' ∈ s → s ≠ lit "----" := by
    rintro s hs rfl
    revert hs; decide
  rw [listing, if_pos rfl, if_pos rfl]
  refine parseChildren_none (by simp) (by simp) ?_ ?_ (.inl (parseStats_none (l := missing cmd ['*']) ?_ (by simp)))
  · intro l hl
    rcases List.mem_append.1 hl with hl | hl
    · obtain ⟨e, he, rfl⟩ := List.mem_map.1 hl
      exact ⟨(hok e he).2.2.2.1, print_ne_rule _⟩
    · rw [List.mem_singleton] at hl
      subst hl
      refine ⟨?_, hsp _ (List.mem_append_right _ (by decide))⟩
      simp only [missing, List.mem_append, not_or]
      exact ⟨⟨⟨hcmd, by decide⟩, by decide⟩, by decide⟩
  · intro l hl
    rcases List.mem_append.1 hl with hl | hl
    · obtain ⟨e, he, rfl⟩ := List.mem_map.1 hl
      exact check_line cypher hcy e (hok e he)
    · rw [List.mem_singleton] at hl
      subst hl
      refine ⟨?_, hsp _ (List.mem_append_right _ (by decide))⟩
      simp only [List.mem_append, not_or]
      exact ⟨hcy, by decide⟩
  · have e : lit "': No such file or directory" = lit "': " ++ lit "No such file or directory" := by decide
    rw [missing, e, ← List.append_assoc]
    exact parseStat_none _ _ noGap_missing (by decide) 'N' (by decide) (by decide) (by decide)

/-- C72 is false of the code: a file whose name has the words of the error message in it has no
checksum. -/
theorem C72_directory_name_counterexample :
    parseChecks [Entry.check (lit "b2sum") ⟨sampleFile (lit "What Is a directory.txt") 5 7, some [1, 2]⟩] = some [] := by
  decide +kernel

/-- C72 is false of the code: a file with a backslash in its name makes the listing fail. -/
theorem C72_backslash_counterexample :
    parseChecks [Entry.check (lit "b2sum") ⟨sampleFile (lit "a\\b") 5 7, some [1, 2]⟩] = none := by
  decide +kernel

/-- C72 is false of the code: a file that cannot be read makes the listing fail, whatever else is in the
directory. -/
theorem C72_unreadable_counterexample (front after : List Str) :
    parseChecks (front ++ lit "b2sum: private: Permission denied" :: after) = none := by
  have h1 : ∀ ms, parseChecks (lit "b2sum: private: Permission denied" :: ms) = none := by
    intro ms
    have hc : ¬ contains (lit "Is a directory") (lit "b2sum: private: Permission denied") = true := by decide +kernel
    have hs : splitTwo1 (lit "b2sum: private: Permission denied") = none := by decide +kernel
    rw [parseChecks, if_neg hc, hs]
  induction front with
  | nil => exact h1 after
  | cons l ls ih =>
    rw [List.cons_append, parseChecks]
    split
    · exact ih
    · split
      · rfl
      · rw [ih]
        split
        · rename_i h; cases h
        · rfl

/-- C73, exactly: stat gives what the remote printed about a file under the conditions of C55, and under no others. -/
theorem C73_found_iff (f : File) (hok : f.ok) :
    remoteStat f.print = .ok f.result ↔
      NoGap f.name ∧ (0 ≤ f.access.sec ∨ f.access.nsec = 0) ∧ (0 ≤ f.modified.sec ∨ f.modified.nsec = 0) ∧
      (0 ≤ f.changed.sec ∨ f.changed.nsec = 0) ∧ ∀ t, f.birth = some t → t.sec ≠ 0 ∧ (0 ≤ t.sec ∨ t.nsec = 0) := by
  rw [← C55_parse_iff f hok]
  unfold remoteStat
  cases parseStat f.print with
  | some r => simp
  | none =>
    simp only [reduceCtorEq, iff_false]
    split
    · simp
    · split <;> simp

/-- What a directive of the stat command stands for (the manual of coreutils). -/
def directive (f : File) : Char → Str
  | 'n' => f.name
  | 'i' => natStr f.ino
  | 'o' => natStr f.blksize
  | 's' => natStr f.size
  | 'w' => match f.birth with | none => ['-'] | some t => t.human
  | 'W' => match f.birth with | none => ['0'] | some t => t.secs
  | 'x' => f.access.human
  | 'X' => f.access.secs
  | 'y' => f.modified.human
  | 'Y' => f.modified.secs
  | 'z' => f.changed.human
  | 'Z' => f.changed.secs
  | 'g' => natStr f.gid
  | 'u' => natStr f.uid
  | 'f' => natHex f.mode
  | _ => ['?']

/-- What the stat command prints for a format when the directives stand for `v`. -/
def printed (v : Char → Str) : Str → Str
  | [] => []
  | [c] => [c]
  | c :: d :: cs => if c = '%' then v d ++ printed v cs else c :: printed v (d :: cs)

/-- **C55**: the format that is sent asks for the fields that are read, in their order. -/
theorem C55_format (f : File) : printed (directive f) statFields = f.print := by
  have h : ∀ v : Char → Str, printed v statFields =
      spaced [v 'n', v 'i', v 'o', v 's', v 'w', v 'W', v 'x', v 'X', v 'y', v 'Y', v 'z', v 'Z', v 'g', v 'u', v 'f'] := by
    intro v
    have h1 : ∀ d cs, printed v ('%' :: d :: cs) = v d ++ printed v cs := fun d cs => by rw [printed, if_pos rfl]
    have h2 : ∀ d cs, printed v (' ' :: d :: cs) = ' ' :: printed v (d :: cs) := fun d cs => by rw [printed, if_neg (by decide)]
    have h3 : printed v [] = [] := rfl
    have h0 : statFields = ['%', 'n', ' ', ' ', '%', 'i', ' ', ' ', '%', 'o', ' ', ' ', '%', 's', ' ', ' ', '%', 'w', ' ', ' ', '%', 'W', ' ', ' ', '%', 'x', ' ', ' ', '%', 'X', ' ', ' ', '%', 'y', ' ', ' ', '%', 'Y', ' ', ' ', '%', 'z', ' ', ' ', '%', 'Z', ' ', ' ', '%', 'g', ' ', ' ', '%', 'u', ' ', ' ', '%', 'f'] := rfl
    rw [h0]
    simp only [h1, h2, h3, spaced, List.append_nil, List.append_assoc, List.cons_append, List.nil_append]
  rw [h]
  rfl

/-- **C55**, from the command to the result: what is printed for the format that is sent is read as what the file is. -/
theorem C55_sent_partial (f : File) (hok : f.ok) (hmod : f.modern) (hname : NoGap f.name) :
    parseStat (printed (directive f) statFields) = some f.result := by
  rw [C55_format]
  exact C55_parse_partial f hok hmod hname

end Verif.Ssh
