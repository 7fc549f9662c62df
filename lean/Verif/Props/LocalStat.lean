import Verif.Model.LocalStat
import Verif.Props.Ssh
import Verif.Lemmas.Decide

/-!
# C106: the size of a local path and what the stat command says
-/

namespace Verif.Ssh
open Verif.Ssh.Spec

/-- What `stat path -c format` writes, if `file` is what is at the path (a link is not followed), for a path that does not start with a
dash: the line in the quotes of the format, or a message. -/
def written (file : Option File) (message : Str) : Str × Str :=
  match file with
  | some f => ('"' :: f.print ++ ['"', '\n'], [])
  | none => ([], message)

/-- The name without the quotes at its start. -/
def bare (f : File) : File := { f with name := f.name.dropWhile (· = '"') }

theorem spaced_ends (w : Str) : ∀ (l : List Str) (a : Str), ∃ s, spaced (a :: (l ++ [w])) = a ++ ' ' :: s ++ w
  | [], a => ⟨[' '], by simp [spaced]⟩
  | b :: l, a => by
    obtain ⟨s, hs⟩ := spaced_ends w l b
    refine ⟨' ' :: b ++ ' ' :: s, ?_⟩
    rw [List.cons_append, spaced, hs]
    · simp
    · simp

theorem print_eq (f : File) : ∃ s, f.print = f.name ++ ' ' :: s ++ natHex f.mode :=
  spaced_ends (natHex f.mode) [natStr f.ino, natStr f.blksize, natStr f.size,
    (match f.birth with | none => ['-'] | some t => t.human),
    (match f.birth with | none => ['0'] | some t => t.secs),
    f.access.human, f.access.secs, f.modified.human, f.modified.secs, f.changed.human, f.changed.secs,
    natStr f.gid, natStr f.uid] f.name

theorem dropWhile_through {p : Char → Bool} : ∀ {a b : Str}, (∃ c ∈ a, p c = false) → (a ++ b).dropWhile p = a.dropWhile p ++ b
  | [], _, h => by simp at h
  | c :: a, b, h => by
    rw [List.cons_append, List.dropWhile_cons, List.dropWhile_cons]
    split
    · refine dropWhile_through ?_
      obtain ⟨d, hd, hp⟩ := h
      rcases List.mem_cons.1 hd with rfl | hd
      · rename_i hc; rw [hp] at hc; simp at hc
      · exact ⟨d, hd, hp⟩
    · rfl

theorem hexChar_plain : ∀ n < 16, hexChar n ≠ '"' := by decide

theorem natHex_last (n : Nat) : ∃ s c, natHex n = s ++ [c] ∧ c ≠ '"' := by
  rw [natHex]
  split
  · next h => exact ⟨[], _, rfl, hexChar_plain n h⟩
  · exact ⟨_, _, rfl, hexChar_plain _ (Nat.mod_lt _ (by decide))⟩

theorem print_bare (f : File) : f.print.dropWhile (· = '"') = (bare f).print := by
  have h : ∀ rest : Str, (f.name ++ ' ' :: rest).dropWhile (· = '"') = f.name.dropWhile (· = '"') ++ ' ' :: rest := by
    intro rest
    rw [show f.name ++ ' ' :: rest = (f.name ++ [' ']) ++ rest by simp, dropWhile_through ⟨' ', by simp, by decide⟩]
    have : ∀ s : Str, (s ++ [' ']).dropWhile (· = '"') = s.dropWhile (· = '"') ++ [' '] := by
      intro s
      induction s with
      | nil => rfl
      | cons c s ih => rw [List.cons_append, List.dropWhile_cons, List.dropWhile_cons]; split <;> simp_all
    rw [this]
    simp
  simp only [File.print, File.fields, spaced, bare]
  simp only [List.append_assoc, List.cons_append, List.nil_append] at h ⊢
  exact h _

theorem stripped (f : File) : rstripQuotes (rstripSpace (stripQuotes ('"' :: f.print ++ ['"', '\n']))) = (bare f).print := by
  obtain ⟨s, hs⟩ := print_eq f
  obtain ⟨t, hcs⟩ := print_eq (bare f)
  obtain ⟨u, c, hu, hc⟩ := natHex_last f.mode
  have h1 : ('"' :: f.print ++ ['"', '\n']).dropWhile (· = '"') = (bare f).print ++ ['"', '\n'] := by
    rw [List.cons_append, List.dropWhile_cons, if_pos (by simp), dropWhile_through, print_bare]
    exact ⟨' ', by rw [hs]; simp, by decide⟩
  have h2 : (bare f).print = ((bare f).name ++ ' ' :: t ++ u) ++ [c] := by
    rw [hcs]
    show _ ++ natHex f.mode = _
    rw [hu]
    simp
  unfold stripQuotes
  rw [h1, h2]
  simp [rstripQuotes, rstripSpace, hc]

/-- **C106**: what is read of the output about a file, whatever its name: as over ssh, but the quotes at the start of the name are gone. -/
theorem C106_law (f : File) : localStat (written (some f) []).1 (written (some f) []).2 =
    match parseStat (bare f).print with | some r => .ok r | none => .error .valueError := by
  unfold localStat
  simp only [written, stripped]
  rw [if_neg (by simp)]
  cases parseStat (bare f).print <;> rfl

/-- **C106**: the record is exactly that of the file, if and only if the path does not start with a quote, has no two spaces in a row and
no space at its end, and the times are ones that can be read. -/
theorem C106_stat_iff (f : File) (hok : f.ok) (message : Str) : localStat (written (some f) message).1 (written (some f) message).2 = .ok f.result ↔
    f.name.head? ≠ some '"' ∧ NoGap f.name ∧ (0 ≤ f.access.sec ∨ f.access.nsec = 0) ∧ (0 ≤ f.modified.sec ∨ f.modified.nsec = 0) ∧
      (0 ≤ f.changed.sec ∨ f.changed.nsec = 0) ∧ ∀ t, f.birth = some t → t.sec ≠ 0 ∧ (0 ≤ t.sec ∨ t.nsec = 0) := by
  have hw : written (some f) message = written (some f) [] := rfl
  rw [hw, C106_law, ← C55_parse_iff f hok]
  have hstart : ∀ s : Str, s.dropWhile (· = '"') = s ↔ s.head? ≠ some '"' := by
    intro s
    cases s with
    | nil => simp
    | cons c s =>
      rw [List.dropWhile_cons]
      by_cases hc : c = '"'
      · subst hc
        simp only [decide_true, if_true, List.head?_cons, ne_eq, not_true_eq_false, iff_false]
        intro h
        have := congrArg List.length h
        have h2 := (List.dropWhile_sublist (fun x : Char => decide (x = '"')) (l := s)).length_le
        simp only [List.length_cons] at this
        omega
      · simp [hc]
  constructor
  · intro h
    have hp : parseStat (bare f).print = some f.result := by
      cases hx : parseStat (bare f).print with
      | none => rw [hx] at h; simp at h
      | some r => rw [hx] at h; simp only [Except.ok.injEq] at h; rw [h]
    have hn : (bare f).name = f.name := by
      have hb := hp
      unfold parseStat at hb
      split at hb
      · rename_i name ino hint size hb' birth hac acc hm modified hc changed gid uid rawMode hsplit
        have hname : name = f.name := by
          simp only [Option.bind_eq_bind, Option.bind_eq_some_iff] at hb
          obtain ⟨_, _, _, _, _, _, _, _, _, _, _, _, _, _, _, _, _, _, h⟩ := hb
          split at h
          · obtain ⟨b, _, h⟩ := Option.bind_eq_some_iff.1 h
            simp only [Option.some.injEq] at h
            exact (congrArg StatResult.name h)
          · simp only [Option.some.injEq] at h
            exact (congrArg StatResult.name h)
        rw [hname] at hsplit
        obtain ⟨-, t, ht⟩ := splitTwo_head _ _ _ _ hsplit
        refine (hstart _).2 fun hq => ?_
        obtain ⟨u, hu⟩ := print_eq (bare f)
        rw [hu] at ht
        have h1 : ((bare f).name ++ ' ' :: u ++ natHex (bare f).mode).head? = some '"' := by
          rw [← ht]
          cases hn : f.name with
          | nil => rw [hn] at hq; simp at hq
          | cons c r => rw [hn] at hq; simpa using hq
        cases hd : (bare f).name with
        | nil => rw [hd] at h1; simp at h1
        | cons c r =>
          rw [hd] at h1
          have hc : c = '"' := by simpa using h1
          have := List.head?_dropWhile_not (fun x : Char => decide (x = '"')) f.name
          have hd' : f.name.dropWhile (fun x : Char => decide (x = '"')) = c :: r := hd
          rw [hd'] at this
          simp [hc] at this
      · cases hb
    have he : bare f = f := by cases f; simp only [bare, File.mk.injEq, and_true] at hn ⊢; exact hn
    exact ⟨(hstart _).1 hn, by rw [he] at hp; exact hp⟩
  · rintro ⟨h1, h2⟩
    have he : bare f = f := by
      have := (hstart f.name).2 h1
      cases f; simp only [bare, File.mk.injEq, and_true] at this ⊢; exact this
    rw [he, h2]

/-- What the stat command takes from its arguments: the paths and the format; nothing for other options.  Options may come after
paths. -/
def arguments : List Str → Option (List Str × Option Str)
  | [] => some ([], none)
  | a :: rest =>
    if a = lit "--" then some (rest, none)
    else if a = lit "-c" then match rest with
      | [] => none
      | f :: rest => (arguments rest).map fun r => (r.1, r.2.or (some f))
    else if a.head? = some '-' ∧ a ≠ lit "-" then none
    else (arguments rest).map fun r => (a :: r.1, r.2)

/-- **C106**: the command asks about the path, with the format of the record, if and only if the path does not start with a dash. -/
theorem C106_command (path : Str) (hp : path ≠ lit "-") :
    (∃ args, localStatCmd path = lit "stat" :: args ∧ arguments args = some ([path], some statFormat)) ↔ path.head? ≠ some '-' := by
  have h1 : ∀ s : Str, s.head? ≠ some '-' → s ≠ lit "--" ∧ s ≠ lit "-c" := by
    intro s hs
    exact ⟨by rintro rfl; exact hs rfl, by rintro rfl; exact hs rfl⟩
  have e : arguments [lit "-c", statFormat] = some ([], some statFormat) := by decide +kernel
  constructor
  · rintro ⟨args, ha, hr⟩ hd
    simp only [localStatCmd, List.cons.injEq, true_and] at ha
    rw [← ha, arguments] at hr
    split at hr
    · simp only [Option.some.injEq, Prod.mk.injEq] at hr
      exact absurd hr.1 (by simp)
    · split at hr
      · simp [arguments, lit, statFormat] at hr
      · rw [if_pos ⟨hd, hp⟩] at hr
        simp at hr
  · intro hd
    refine ⟨_, rfl, ?_⟩
    rw [arguments, if_neg (h1 _ hd).1, if_neg (h1 _ hd).2, if_neg (fun h => hd h.1), e]
    rfl

/-- **C106**: a path with nothing at it is an `OSError`. -/
theorem C106_missing (message : Str) (hm : message ≠ []) : localStat (written none message).1 (written none message).2 = .error .osError := by
  simp [localStat, written, stripQuotes, rstripQuotes, rstripSpace, hm]

/-- **C106**: the size of a path is that of the file it leads to; if it leads nowhere, that of the link at the path, if its name can be
read; if there is none, it is an `OSError`.  (Full claim: without the condition on the name, see the counterexample.) -/
theorem C106_size_partial (st : Except PyErr Nat) (file : Option File) (message : Str) (hm : message ≠ [])
    (hf : ∀ f, file = some f → f.ok ∧ NoGap (f.name.dropWhile (· = '"'))) :
    localSize st (written file message).1 (written file message).2 = match st with
      | .ok n => .ok (n : Int)
      | .error _ => match file with
        | some f => .ok (f.size : Int)
        | none => .error .osError := by
  unfold localSize
  cases st with
  | ok n => rfl
  | error e =>
    dsimp only
    cases file with
    | none => rw [C106_missing message hm]; rfl
    | some f =>
      obtain ⟨hok, hn⟩ := hf f rfl
      have hw : written (some f) message = written (some f) [] := rfl
      rw [hw, C106_law, C55_law (bare f) hok hn]
      rfl

/-- **C106**: for a path that leads to a file the command is not asked: nothing of its output matters. -/
theorem C106_size_followed (n : Nat) (out errs : Str) : localSize (.ok n) out errs = .ok (n : Int) := rfl

/-- **C106, disproved for names with two spaces**: the size of a broken link with such a name is a `ValueError`. -/
theorem C106_gap_counterexample : localSize (.error .fileNotFoundError) (written (some (sampleFile (lit "a  b") 5 6)) []).1 [] = .error .valueError := by
  decide +kernel

/-- **C106, disproved for names that start with a quote**: the record has another name. -/
theorem C106_quote_counterexample : (localStat (written (some (sampleFile (lit "\"a\"b") 5 6)) []).1 []).map StatResult.name = .ok (lit "a\"b") := by
  decide +kernel

/-- The conditions are met: a broken link of seven characters. -/
example : localSize (.error .fileNotFoundError) (written (some (sampleFile (lit "a b\"") 5 6)) (lit "?")).1 [] = .ok 7 ∧
    localStat (written (some (sampleFile (lit "a b\"") 5 6)) (lit "?")).1 [] = .ok (sampleFile (lit "a b\"") 5 6).result ∧
    localSize (.ok 3) [] [] = .ok 3 := by decide +kernel

end Verif.Ssh
