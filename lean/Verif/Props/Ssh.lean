import Verif.Lemmas.Decide
import Verif.Lemmas.Ssh

/-!
# C54, C55, C56: remote permissions, remote stat, ids
-/

namespace Verif.Ssh

open Verif.Ssh.Spec

/-! ## C54 -/

/-- C54 (part): on a file whose permission triples are ordered (as in every usual mode: 0644, 0755,
0600, ...), for anybody but the superuser, the answer is the POSIX check. -/
theorem C54_access_partial (st : Stat) (me : Nat) (gids : List Nat) (m : Mode) (hme : me ≠ 0)
    (ho : Ordered st.mode) :
    ∃ b, access (.ok st) me gids m = .ok b ∧ (b = true ↔ Granted st.mode st.uid st.gid me gids m) := by
  refine ⟨_, access_eq st me gids m, ?_⟩
  unfold Granted
  cases hb : bit m with
  | none => simp
  | some b =>
    have hb3 : b < 3 := by cases m <;> simp_all [bit] <;> omega
    obtain ⟨h1, h2⟩ := ho b hb3
    have e : ∀ P : Nat → Prop, (∃ b', (some b = some b') ∧ P b') ↔ P b := by
      intro P; constructor
      · rintro ⟨b', h, hp⟩; simp only [Option.some.injEq] at h; subst h; exact hp
      · intro h; exact ⟨b, rfl, h⟩
    rw [e, if_neg hme]
    by_cases hu : st.uid = me <;> by_cases hg : st.gid ∈ gids <;> simp [hu, hg]
    all_goals grind

example : Ordered 0o100644 ∧ (1000 : Nat) ≠ 0 := by
  refine ⟨?_, by decide⟩
  intro b hb
  have : b = 0 ∨ b = 1 ∨ b = 2 := by omega
  rcases this with h | h | h <;> subst h <;> decide

/-- C54, exactly when it holds: the answers for all users other than the superuser and all their groups are right if and only if the
triples are ordered. -/
theorem C54_access_iff (st : Stat) (hu : st.uid ≠ 0) :
    (∀ me gids m, me ≠ 0 → (access (.ok st) me gids m = .ok true ↔ Granted st.mode st.uid st.gid me gids m)) ↔ Ordered st.mode := by
  constructor
  · intro h b hb
    have hm : ∃ m, bit m = some b := by
      have : b = 0 ∨ b = 1 ∨ b = 2 := by omega
      rcases this with rfl | rfl | rfl
      · exact ⟨.execute, rfl⟩
      · exact ⟨.write, rfl⟩
      · exact ⟨.read, rfl⟩
    obtain ⟨m, hm⟩ := hm
    constructor
    · intro ho
      obtain ⟨b', hb', hg⟩ := (h (st.uid + 1) [st.gid] m (by omega)).1 (by rw [access_eq, hm]; simp [ho])
      rw [hm] at hb'
      cases hb'
      rw [if_neg (by omega), if_neg (by omega), if_pos (by simp)] at hg
      exact hg
    · intro ho
      obtain ⟨b', hb', hg⟩ := (h st.uid [st.gid] m hu).1 (by rw [access_eq, hm]; simp [ho])
      rw [hm] at hb'
      cases hb'
      rw [if_neg hu, if_pos rfl] at hg
      exact hg
  · intro ho me gids m hme
    obtain ⟨b, h1, h2⟩ := C54_access_partial st me gids m hme ho
    rw [h1, ← h2]
    simp

/-- C54 (part): whatever the mode, nobody but the superuser is refused what POSIX grants. -/
theorem C54_no_false_denial (st : Stat) (me : Nat) (gids : List Nat) (m : Mode) (hme : me ≠ 0)
    (h : Granted st.mode st.uid st.gid me gids m) : access (.ok st) me gids m = .ok true := by
  rw [access_eq]
  obtain ⟨b, hb, h⟩ := h
  rw [hb]
  rw [if_neg hme] at h
  by_cases hu : st.uid = me <;> by_cases hg : st.gid ∈ gids <;> simp_all

example : Granted 0o100640 1000 100 1000 [100] .write := ⟨1, rfl, by simp; decide⟩

/-- C54 (part): a grant by the code is backed by a bit of the triple of the owner (only for the
owner), of the group (only for members) or of the others; a mode outside read, write and execute is
never granted, and an unreachable or missing file grants nothing. -/
theorem C54_grant_backed (st : Stat) (me : Nat) (gids : List Nat) (m : Mode)
    (h : access (.ok st) me gids m = .ok true) :
    ∃ b, bit m = some b ∧ ((st.uid = me ∧ st.mode.testBit (6 + b)) ∨
      (st.gid ∈ gids ∧ st.mode.testBit (3 + b)) ∨ st.mode.testBit b) := by
  rw [access_eq] at h
  cases hb : bit m with
  | none => rw [hb] at h; simp at h
  | some b =>
    rw [hb] at h
    simp at h
    refine ⟨b, rfl, ?_⟩
    rcases h with (h | h) | h
    · exact .inl ⟨h.2, h.1⟩
    · exact .inr (.inl ⟨h.2, h.1⟩)
    · exact .inr (.inr h)

example : access (.ok ⟨0o100640, 1000, 100⟩) 1001 [100] .read = .ok true := by decide

/-- C54: no information, no access. -/
theorem C54_unreachable (e : PyErr) (me : Nat) (gids : List Nat) (m : Mode)
    (he : e = .permissionError ∨ e = .fileNotFoundError) :
    access (.error e) me gids m = .ok false := by
  rcases he with h | h <;> subst h <;> rfl

/-- C54 is false in general: an owner without the bit is let in through the group's or the others'
bits, although POSIX stops at the owner's triple. -/
theorem C54_class_precedence_counterexample :
    access (.ok ⟨0o100077, 1000, 100⟩) 1000 [100] .read = .ok true ∧
    ¬ Granted 0o100077 1000 100 1000 [100] .read := by
  refine ⟨by decide, ?_⟩
  rintro ⟨b, hb, h⟩
  simp only [bit, Option.some.injEq] at hb
  subst hb
  simp at h
  exact absurd h (by decide)

/-- C54 is false for the superuser, who is refused files of others without the bits. -/
theorem C54_superuser_counterexample :
    access (.ok ⟨0o100600, 1000, 100⟩) 0 [0] .read = .ok false ∧
    Granted 0o100600 1000 100 0 [0] .read := ⟨by decide, 2, rfl, by simp⟩

/-! ## C55 -/

/-- C55 (part): what the stat command prints for a file is read back exactly, if the name has no two
spaces in a row and does not end in a space, and the times are not before 1970. -/
theorem C55_parse_partial (f : File) (hok : f.ok) (hmod : f.modern) (hname : NoGap f.name) :
    parseStat f.print = some f.result := by
  obtain ⟨ha, hm, hc, hb, hm1, hm2⟩ := hok
  obtain ⟨ma, mm, mc, mb⟩ := hmod
  have gi : ∀ n, NoGap (natStr n) := fun n => noGap_of_not_mem (natStr_not_mem n (by decide))
  have gs : ∀ t : Moment, NoGap t.secs := fun t => noGap_of_not_mem (intStr_not_mem _ (by decide) (by decide))
  have gx : NoGap (natHex f.mode) := noGap_of_not_mem (natHex_not_mem _)
  have hsplit : splitTwo f.print = f.fields := by
    refine splitTwo_spaced _ (by simp [File.fields]) ?_
    intro w hw
    simp only [File.fields, List.mem_cons, List.not_mem_nil, or_false] at hw
    rcases hw with h | h | h | h | h | h | h | h | h | h | h | h | h | h | h <;> subst h
    · exact hname
    · exact gi _
    · exact gi _
    · exact gi _
    · cases hbirth : f.birth with
      | none => exact noGap_of_not_mem (by simp)
      | some t => exact noGap_human (hb t hbirth)
    · cases hbirth : f.birth with
      | none => exact noGap_of_not_mem (by simp)
      | some t => exact gs t
    · exact noGap_human ha
    · exact gs _
    · exact noGap_human hm
    · exact gs _
    · exact noGap_human hc
    · exact gs _
    · exact gi _
    · exact gi _
    · exact gx
  rw [parseStat, hsplit, File.fields]
  simp only [pyInt_natStr, stamp_human ha ma, stamp_human hm mm, stamp_human hc mc, mode_natHex hm1 hm2]
  cases hbirth : f.birth with
  | none => simp [File.result, hbirth]
  | some t =>
    have h1 : t.human ≠ ['-'] := by
      intro h
      have : ' ' ∈ t.human := by rw [human_eq]; simp
      rw [h] at this
      simp at this
    have h2 : t.secs ≠ ['0'] := by
      intro h
      have := pyInt_intStr t.sec
      simp only [Moment.secs] at h
      rw [h] at this
      have h0 : pyInt ['0'] = some 0 := by decide +kernel
      rw [h0] at this
      have := mb t hbirth
      simp_all
    simp [stamp_human (hb t hbirth) (Int.le_of_lt (mb t hbirth)), File.result, hbirth, h1, h2]

/-- The value that is read for a point in time: before 1970 the fraction is counted backwards. -/
def readValue (t : Moment) : Dec := ⟨t.sec * 10 ^ 9 + (if 0 ≤ t.sec then (t.nsec : Int) else -t.nsec), 9⟩

theorem stamp_read {t : Moment} (h : t.ok) : stamp t.secs t.human = some (readValue t) := by
  by_cases hs : 0 ≤ t.sec
  · rw [stamp_human h hs]; simp [readValue, hs, Moment.value]
  · rw [stamp_before h (by omega)]; simp [readValue, hs, Int.sub_eq_add_neg]

theorem readValue_iff (t : Moment) : readValue t = t.value ↔ 0 ≤ t.sec ∨ t.nsec = 0 := by
  unfold readValue Moment.value
  simp only [Dec.mk.injEq, and_true]
  split <;> omega

/-- The first field is not followed by an earlier place to split at. -/
theorem splitTwo_head : ∀ (s w v : Str) (ws : List Str), splitTwo s = w :: v :: ws → NoGap w ∧ (w ++ [' ', ' ']) <+: s := by
  intro s
  induction s using splitTwo.induct with
  | case1 => intro w v ws h; simp [splitTwo] at h
  | case2 cs ih =>
    intro w v ws h
    simp only [splitTwo, List.cons.injEq] at h
    obtain ⟨rfl, _⟩ := h
    exact ⟨⟨by simp, by simp⟩, by simp⟩
  | case3 c cs hne hnil ih => intro w v ws h; rw [splitTwo] at h; rw [hnil] at h; simp at h; exact hne
  | case4 c cs hne w0 ws0 hcons ih =>
    intro w v ws h
    rw [splitTwo, hcons] at h
    · simp only [List.cons.injEq] at h
      obtain ⟨rfl, hw⟩ := h
      obtain ⟨⟨h1, h2⟩, h3⟩ := ih w0 v ws (by rw [hcons, hw])
      have hc : c = ' ' → w0.head? ≠ some ' ' ∧ w0 ≠ [] := by
        rintro rfl
        constructor
        · intro hh
          cases w0 with
          | nil => simp at hh
          | cons d r =>
            simp only [List.head?_cons, Option.some.injEq] at hh
            subst hh
            obtain ⟨t, ht⟩ := h3
            exact hne _ rfl ht.symm
        · rintro rfl
          obtain ⟨t, ht⟩ := h3
          exact hne _ rfl ht.symm
      refine ⟨⟨?_, ?_⟩, by simpa using h3⟩
      · intro hi
        rcases List.infix_cons_iff.1 hi with hp | hi
        · obtain ⟨t, ht⟩ := hp
          simp only [List.cons_append, List.nil_append, List.cons.injEq] at ht
          exact (hc ht.1.symm).1 (by rw [← ht.2]; rfl)
        · exact h1 hi
      · intro hl
        cases w0 with
        | nil =>
          simp only [List.getLast?_singleton, Option.some.injEq] at hl
          exact (hc hl).2 rfl
        | cons d r => rw [List.getLast?_cons_cons] at hl; exact h2 hl
    · exact hne

/-- C55, what is read for every name without a gap. -/
theorem C55_law (f : File) (hok : f.ok) (hname : NoGap f.name) :
    parseStat f.print = some ⟨f.name, f.ino, f.blksize, f.size, readValue f.access, readValue f.modified, readValue f.changed, f.gid, f.uid,
      f.mode, match f.birth with | none => none | some t => if t.sec = 0 then none else some (readValue t)⟩ := by
  obtain ⟨ha, hm, hc, hb, hm1, hm2⟩ := hok
  have gi : ∀ n, NoGap (natStr n) := fun n => noGap_of_not_mem (natStr_not_mem n (by decide))
  have gs : ∀ t : Moment, NoGap t.secs := fun t => noGap_of_not_mem (intStr_not_mem _ (by decide) (by decide))
  have gx : NoGap (natHex f.mode) := noGap_of_not_mem (natHex_not_mem _)
  have hsplit : splitTwo f.print = f.fields := by
    refine splitTwo_spaced _ (by simp [File.fields]) ?_
    intro w hw
    simp only [File.fields, List.mem_cons, List.not_mem_nil, or_false] at hw
    rcases hw with h | h | h | h | h | h | h | h | h | h | h | h | h | h | h <;> subst h
    · exact hname
    · exact gi _
    · exact gi _
    · exact gi _
    · cases hbirth : f.birth with
      | none => exact noGap_of_not_mem (by simp)
      | some t => exact noGap_human (hb t hbirth)
    · cases hbirth : f.birth with
      | none => exact noGap_of_not_mem (by simp)
      | some t => exact gs t
    · exact noGap_human ha
    · exact gs _
    · exact noGap_human hm
    · exact gs _
    · exact noGap_human hc
    · exact gs _
    · exact gi _
    · exact gi _
    · exact gx
  rw [parseStat, hsplit, File.fields]
  simp only [pyInt_natStr, stamp_read ha, stamp_read hm, stamp_read hc, mode_natHex hm1 hm2]
  cases hbirth : f.birth with
  | none => simp
  | some t =>
    have h1 : t.human ≠ ['-'] := by
      intro h
      have : ' ' ∈ t.human := by rw [human_eq]; simp
      rw [h] at this
      simp at this
    have h2 : t.secs = ['0'] ↔ t.sec = 0 := by
      constructor
      · intro h
        have := pyInt_intStr t.sec
        simp only [Moment.secs] at h
        rw [h] at this
        have h0 : pyInt ['0'] = some 0 := by decide +kernel
        rw [h0] at this
        simp at this
        exact this.symm
      · intro h; simp only [Moment.secs, h]; decide +kernel
    by_cases h0 : t.sec = 0
    · simp [h1, h2, h0]
    · simp [stamp_read (hb t hbirth), h1, h2, h0]

/-- C55, exactly when it holds: the name has no two spaces in a row and no space at the end, times before 1970 are whole seconds,
and the file was not born in the first second of 1970. -/
theorem C55_parse_iff (f : File) (hok : f.ok) :
    parseStat f.print = some f.result ↔
      NoGap f.name ∧ (0 ≤ f.access.sec ∨ f.access.nsec = 0) ∧ (0 ≤ f.modified.sec ∨ f.modified.nsec = 0) ∧
      (0 ≤ f.changed.sec ∨ f.changed.nsec = 0) ∧ ∀ t, f.birth = some t → t.sec ≠ 0 ∧ (0 ≤ t.sec ∨ t.nsec = 0) := by
  have key : NoGap f.name → (parseStat f.print = some f.result ↔
      (0 ≤ f.access.sec ∨ f.access.nsec = 0) ∧ (0 ≤ f.modified.sec ∨ f.modified.nsec = 0) ∧
      (0 ≤ f.changed.sec ∨ f.changed.nsec = 0) ∧ ∀ t, f.birth = some t → t.sec ≠ 0 ∧ (0 ≤ t.sec ∨ t.nsec = 0)) := by
    intro hname
    rw [C55_law f hok hname]
    simp only [File.result, Option.some.injEq, StatResult.mk.injEq, true_and, readValue_iff]
    have hb : ((match f.birth with | none => none | some t => if t.sec = 0 then none else some (readValue t)) =
        f.birth.map Moment.value) ↔ ∀ t, f.birth = some t → t.sec ≠ 0 ∧ (0 ≤ t.sec ∨ t.nsec = 0) := by
      cases hbirth : f.birth with
      | none => simp
      | some t =>
        by_cases h0 : t.sec = 0
        · simp [h0]
        · simp only [h0, if_false, Option.map_some, Option.some.injEq, readValue_iff]
          exact ⟨fun h t' ht => ht ▸ ⟨h0, h⟩, fun h => (h t rfl).2⟩
    rw [hb]
  constructor
  · intro h
    have hname : NoGap f.name := by
      unfold parseStat at h
      split at h
      · rename_i name ino hint size hb birth hac acc hm modified hc changed gid uid rawMode hs
        have hn : name = f.name := by
          simp only [Option.bind_eq_bind, Option.bind_eq_some_iff] at h
          obtain ⟨_, _, _, _, _, _, _, _, _, _, _, _, _, _, _, _, _, _, h⟩ := h
          split at h
          · obtain ⟨b, _, h⟩ := Option.bind_eq_some_iff.1 h
            simp only [Option.some.injEq] at h
            exact (congrArg StatResult.name h)
          · simp only [Option.some.injEq] at h
            exact (congrArg StatResult.name h)
        rw [← hn]
        exact (splitTwo_head _ _ _ _ hs).1
      · cases h
    exact ⟨hname, (key hname).1 h⟩
  · rintro ⟨hname, h⟩
    exact (key hname).2 h

/-- A moment for the examples. -/
def sampleMoment (s : Int) (n : Nat) : Moment := ⟨s, n, lit "2026-11-17", lit "03:26:00", lit "+0000"⟩

/-- A file for the examples. -/
def sampleFile (name : Str) (s : Int) (n : Nat) : File :=
  ⟨name, 12, 4096, 7, some (sampleMoment 5 6), sampleMoment s n, sampleMoment s n, sampleMoment s n, 100,
    1000, 0o100644⟩

theorem sampleMoment_ok (s : Int) (n : Nat) (h : n < 10 ^ 9) : (sampleMoment s n).ok :=
  ⟨h, by simp [sampleMoment, lit], by simp [sampleMoment, lit], by simp [sampleMoment, lit],
    by simp [sampleMoment, lit], by simp [sampleMoment, lit]⟩

theorem sampleFile_ok (name : Str) (s : Int) (n : Nat) (h : n < 10 ^ 9) : (sampleFile name s n).ok :=
  ⟨sampleMoment_ok s n h, sampleMoment_ok s n h, sampleMoment_ok s n h,
    by rintro t ht; simp only [sampleFile, Option.some.injEq] at ht; subst ht; exact sampleMoment_ok 5 6 (by decide),
    by simp [sampleFile], by simp [sampleFile]⟩

example : (sampleFile (lit "a b.txt") 1700000000 25).ok ∧ (sampleFile (lit "a b.txt") 1700000000 25).modern ∧
    NoGap (sampleFile (lit "a b.txt") 1700000000 25).name := by
  refine ⟨sampleFile_ok _ _ _ (by decide), ⟨by simp [sampleFile, sampleMoment], by simp [sampleFile, sampleMoment],
    by simp [sampleFile, sampleMoment], ?_⟩, ?_⟩
  · rintro t ht; simp only [sampleFile, Option.some.injEq] at ht; subst ht; simp [sampleMoment]
  · exact noGap_join (a := ['a']) (b := lit "b.txt") (by decide) (noGap_of_not_mem (by simp [lit])) (by simp [lit]) (by simp [lit])

/-- C55 is false for names with two spaces in a row: the output cannot be parsed at all. -/
theorem C55_double_space_counterexample :
    parseStat (sampleFile (lit "a  b") 5 6).print = none := by decide +kernel

/-- C55 is false for names that end in a space: the file's name loses it (and the number after it
survives only because `int` strips spaces). -/
theorem C55_trailing_space_counterexample :
    (parseStat (sampleFile (lit "a ") 5 6).print).map StatResult.name = some (lit "a") := by decide +kernel

/-- C55 is false for every time before 1970 that is not a whole second: the fraction is counted in
the wrong direction. -/
theorem C55_before_epoch_counterexample (t : Moment) (h : t.ok) (hs : t.sec < 0) (hn : 0 < t.nsec) :
    stamp t.secs t.human ≠ some t.value := by
  rw [stamp_before h hs]
  simp only [Moment.value, ne_eq, Option.some.injEq, Dec.mk.injEq, and_true]
  omega

example : (sampleMoment (-2) 500000000).ok ∧ (sampleMoment (-2) 500000000).sec < 0 :=
  ⟨sampleMoment_ok _ _ (by decide), by decide⟩

/-! ## C56 -/

/-- The text of an absolute path with these names. -/
def posixText (p : List Str) : Str := '/' :: joinC '/' p

/-- C56: an ssh id determines host and path, and the two ways the code takes an id apart (`init` and
`__new__`) give them back. -/
theorem C56_ssh_id (host path : Str) (hh : ':' ∉ host) :
    splitColon (sshId host path) = some (host, path) ∧ newPath host (sshId host path) = path ∧
    ∀ host' path', ':' ∉ host' → sshId host path = sshId host' path' → host = host' ∧ path = path' := by
  have h1 : splitColon (sshId host path) = some (host, path) := splitColon_append hh
  refine ⟨h1, ?_, ?_⟩
  · have : (host ++ [':']).isPrefixOf (sshId host path) = true := by
      rw [List.isPrefixOf_iff_prefix]
      exact ⟨path, by simp [sshId]⟩
    rw [newPath, if_pos this, h1]
  · intro host' path' hh' he
    rw [he, show splitColon (sshId host' path') = some (host', path') from splitColon_append hh'] at h1
    simp at h1
    exact ⟨h1.1.symm, h1.2.symm⟩

example : splitColon (sshId (lit "server") (lit "/data/a:b")) = some (lit "server", lit "/data/a:b") :=
  (C56_ssh_id _ _ (by simp [lit])).1

/-- C56: the id of a local path determines the machine (the first sixteen bytes of the checksum of
its machine id file) and the path. -/
theorem C56_local_id (machine machine' : Bytes) (path path' : Str) (hm : 16 ≤ machine.length)
    (hm' : 16 ≤ machine'.length) :
    localId (sysid machine) path = localId (sysid machine') path' ↔
      machine.take 16 = machine'.take 16 ∧ path = path' := by
  constructor
  · intro h
    have h1 := splitColon_append (p := path) (sysid_not_mem machine)
    have h2 := splitColon_append (p := path') (sysid_not_mem machine')
    simp only [localId] at h
    rw [h, h2] at h1
    simp at h1
    exact ⟨sysid_inj hm hm' h1.1.symm, h1.2.symm⟩
  · rintro ⟨h, rfl⟩
    rw [localId, localId, sysid, sysid, h]

example : sysid (List.replicate 16 255) = lit "_____________________w" := by decide +kernel

/-- C56: the path text in an id determines the path: different absolute paths have different
texts. -/
theorem C56_path_text (p q : List Str) (hp : ∀ n ∈ p, n ≠ [] ∧ '/' ∉ n) (hq : ∀ n ∈ q, n ≠ [] ∧ '/' ∉ n)
    (h : posixText p = posixText q) : p = q := by
  simp only [posixText, List.cons.injEq, true_and] at h
  have nil : ∀ r : List Str, (∀ n ∈ r, n ≠ [] ∧ '/' ∉ n) → joinC '/' r = [] → r = [] := by
    intro r hr he
    match r with
    | [] => rfl
    | [w] => simp only [joinC] at he; exact absurd he (hr w (by simp)).1
    | w :: v :: ws => simp [joinC] at he
  by_cases h1 : p = []
  · subst h1; exact (nil q hq h.symm).symm
  by_cases h2 : q = []
  · subst h2; exact nil p hp h
  rw [← splitC_joinC h1 (fun w hw => (hp w hw).2), h, splitC_joinC h2 (fun w hw => (hq w hw).2)]

example : ∀ n ∈ [lit "data", lit "a:b"], n ≠ [] ∧ '/' ∉ n := by simp [lit]

end Verif.Ssh
