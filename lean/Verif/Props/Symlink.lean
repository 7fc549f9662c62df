import Verif.Lemmas.Versions
import Verif.Lemmas.Samples

/-!
# C15 – C18: metadata as symlinks
-/

namespace Verif.Symlink
open Verif Verif.Spec

/-! ## C15 -/

/-- **C15**, the part that holds: a well typed metadata object all of whose fields are representable
is written, under every link name, to a link from which reading (with the name check on) gives back
every field.  Missing from the full claim: the values excluded by `SymlinkStorable`, each of which is
shown to be necessary in C16. -/
theorem C15_symlink_round_trip_partial (env : Env) (hp : ParsesIso env) (m : Meta)
    (ht : WellTyped m) (hs : ∀ f, SymlinkStorable f (m f)) (name : Str) (hn : IsName name) :
    ∃ p o, asSymlink env m (some name) = .ok p ∧ fromSymlink name p.str true = .ok o ∧
      o.Shows env m := by
  obtain ⟨id, hid, hidd, hidn⟩ := encode_decode env .id (m .id) (ht .id) (hs .id)
  have hidn := hidn rfl
  have hidc := (encode_chars env .id _ (ht .id) _ hid).1 (by decide)
  obtain ⟨cols, h1, h2, h3, h4⟩ := columns_ok env m ht hs order
  obtain ⟨h, hh, hh1, hh2⟩ := hrColumn_ok m
  have hcols : ∀ c ∈ cols ++ [h], '/' ∉ c ∧ '.' ∉ c := by
    intro c hc
    rcases List.mem_append.1 hc with hc | hc
    · exact h2 c hc
    · simp at hc; subst hc; exact ⟨hh1, hh2⟩
  have hne : cols ++ [h] ≠ [] := by simp
  have hd := dataText_ne (cols ++ [h])
  have hds := dataText_slash fun c hc => (hcols c hc).1
  have hidclean : id ≠ [] ∧ id ≠ ['.'] ∧ '/' ∉ id :=
    ⟨hidn, fun e => hidc.2 (by rw [e]; simp), hidc.1⟩
  have hdclean : dataText (cols ++ [h]) ≠ [] ∧ dataText (cols ++ [h]) ≠ ['.'] ∧
      '/' ∉ dataText (cols ++ [h]) := ⟨hd.1, hd.2, hds⟩
  have hparse : parse (id ++ '/' :: dataText (cols ++ [h])) = ⟨[], [id, dataText (cols ++ [h])]⟩ := by
    have := parse_joinC [id, dataText (cols ++ [h])] (by simp) (by simp [hidclean, hdclean])
    simpa [joinC] using this
  have hname := parse_single name hn
  refine ⟨⟨[], [name, id, dataText (cols ++ [h])]⟩, ?_⟩
  have hlink : parse (Pure.str ⟨[], [name, id, dataText (cols ++ [h])]⟩) =
      ⟨[], [name, id, dataText (cols ++ [h])]⟩ := by
    have := parse_joinC [name, id, dataText (cols ++ [h])] (by simp) (by
      intro w hw
      simp at hw
      rcases hw with rfl | rfl | rfl
      · exact hn
      · exact hidclean
      · exact hdclean)
    simpa [Pure.str] using this
  have hsplit : splitC '.' (dataText (cols ++ [h])) = [] :: lit "mdv6" :: (cols ++ [h]) := by
    rw [dataText_eq _ hne]
    apply splitC_joinC (by simp)
    intro w hw
    rcases List.mem_cons.1 hw with rfl | hw
    · simp
    · rcases List.mem_cons.1 hw with rfl | hw
      · decide
      · exact (hcols w hw).2
  have hkw : kwOf (fun f => some (decoded (m f))) order ++ [(Field.id.toStr, decoded (m .id))] =
      kwOf (fun f => some (decoded (m f))) (order ++ [.id]) := by
    simp [kwOf]
  obtain ⟨o, ho, hshow, _⟩ := mkMeta_shows env (kwOf (fun f => some (decoded (m f))) (order ++ [.id])) m
    (dictGet_self_kwOf _ _) (by
      intro f
      rw [dictGet_kwOf _ _ _ (by decide), if_pos (by cases f <;> decide)]
      exact argOK env hp f (m f) (ht f))
  refine ⟨o, ?_, ?_, hshow⟩
  · simp [asSymlink, hid, h1, hh, hparse, hname, Pure.join]
  · have hv : pyInt ((lit "mdv6").drop 3) = some 6 := by decide
    have hlook : versions.lookup (lit "mdv6") = some order := by decide
    have hfp : fromParts [id, dataText (cols ++ [h])] = .ok o := by
      unfold fromParts
      simp only [List.getLast?_cons_cons, List.getLast?_singleton, hsplit, hv, hlook, h4 [h],
        ofParts_pair id _ hidclean hdclean, hidd, hkw, ho]
    unfold fromSymlink
    simp only [hlink, Pure.parts, if_true]
    simp [hfp]

example : ∃ m env, WellTyped m ∧ (∀ f, SymlinkStorable f (m f)) ∧ ParsesIso env ∧
    IsName (lit "data.tar.gz") ∧ m .id = .str (lit "N:pack/age:2.5") ∧ m .size = .int 123456 := by
  refine ⟨fun f => if f = .id then .str (lit "N:pack/age:2.5") else sampleMeta f,
    sampleEnv, ?_, ?_, sampleEnv_parses, by simp [IsName, lit], rfl, rfl⟩
  · intro f
    have := sampleMeta_wellTyped f
    cases f <;> simp_all [HasType]
  · intro f
    cases f <;> simp [sampleMeta, SymlinkStorable, lit, pyInt, strip, isWs, digitsGo, digitVal?]

/-! ## C16 -/

/-- **C16**, when a text value is rejected: exactly when it contains a separator together with its
escape character, or is a name with a slash. -/
theorem C16_rejected_iff (env : Env) (f : Field) (s : Str) (ht : HasType f (.str s)) :
    encode env f (.str s) = .error .valueError ↔
      (('/' ∈ s ∧ '|' ∈ s) ∨ ('/' ∈ s ∧ f = .name) ∨ ('.' ∈ s ∧ '!' ∈ s)) := by
  have key : ∀ b : Bool, escape b s = .error .valueError ↔
      (('/' ∈ s ∧ '|' ∈ s) ∨ ('/' ∈ s ∧ b = true) ∨ ('.' ∈ s ∧ '!' ∈ s)) := by
    intro b
    have e1 : ('.' ∈ replaceC '/' '|' s) ↔ '.' ∈ s := mem_replaceC_iff (by decide) (by decide)
    have e2 : ('!' ∈ replaceC '/' '|' s) ↔ '!' ∈ s := mem_replaceC_iff (by decide) (by decide)
    unfold escape
    simp only [e1, e2]
    by_cases h1 : '/' ∈ s ∧ '|' ∈ s
    · simp [h1]
    · by_cases h2 : '/' ∈ s ∧ b = true
      · simp [h2]
      · by_cases h3 : '.' ∈ s ∧ '!' ∈ s <;> simp [h1, h2, h3]
  cases f <;> simp [HasType] at ht <;> simp [encode, key]

/-- **C16**, the part that holds, with the exact guard: a text value of a field is either rejected or
survives decoding, unless it is the placeholder `#`, or (names and ids) contains `|` or `!`, or (user
ids and cyphers, whose escapes are never undone) contains `/` or `.`, or (user ids) reads as a
number.  In all those cases a link is written that decodes to something else. -/
theorem C16_rejected_or_survives_partial (env : Env) (f : Field) (s e : Str)
    (ht : HasType f (.str s)) (he : encode env f (.str s) = .ok e) :
    decode f e 6 = .ok (.str s) ↔
      s ≠ ['#'] ∧
      (f ∈ [.name, .id, .mode, .old_id, .parent_id] → '|' ∉ s ∧ '!' ∉ s) ∧
      (f ∈ [.user_id, .checksum_cypher] → '/' ∉ s ∧ '.' ∉ s) ∧
      (f = .user_id → pyInt s = none) := by
  have hesc : ∃ b, escape b s = .ok e ∧ (f = .name → b = true) := by
    cases f <;> simp [HasType] at ht <;> simp [encode] at he <;>
      first
        | exact ⟨_, he, fun _ => rfl⟩
        | exact ⟨_, he, by simp⟩
  obtain ⟨b, hb, hname⟩ := hesc
  -- the shape of the encoded text
  have hshape : e = replaceC '.' '!' (replaceC '/' '|' s) ∧ ¬('/' ∈ s ∧ '|' ∈ s) ∧
      ¬('/' ∈ s ∧ b = true) ∧ ¬('.' ∈ s ∧ '!' ∈ s) := by
    have e1 : ('.' ∈ replaceC '/' '|' s) ↔ '.' ∈ s := mem_replaceC_iff (by decide) (by decide)
    have e2 : ('!' ∈ replaceC '/' '|' s) ↔ '!' ∈ s := mem_replaceC_iff (by decide) (by decide)
    unfold escape at hb
    split at hb
    · cases hb
    · split at hb
      · cases hb
      · dsimp only at hb
        split at hb
        · cases hb
        · rename_i h1 h2 h3
          simp only [Except.ok.injEq] at hb
          rw [e1, e2] at h3
          exact ⟨hb.symm, h1, h2, h3⟩
  obtain ⟨hshape, _, hnslash, _⟩ := hshape
  have hhash : e = ['#'] ↔ s = ['#'] := by
    constructor
    · intro h; rw [hshape] at h
      exact replaceC_eq_hash (by decide) (replaceC_eq_hash (by decide) h)
    · intro h; rw [hshape, h]; decide
  by_cases hs : s = ['#']
  · simp [decode, hhash.2 hs, hs]
  · have he' : e ≠ ['#'] := fun h => hs (hhash.1 h)
    -- characters of the result of unescaping
    have hun : replaceC '!' '.' (replaceC '|' '/' e) = s ↔ '|' ∉ s ∧ '!' ∉ s := by
      constructor
      · intro h
        constructor
        · rw [← h, mem_replaceC_iff (by decide) (by decide)]; exact not_mem_replaceC (by decide)
        · rw [← h]; exact not_mem_replaceC (by decide)
      · intro h; rw [hshape]; exact unescape h.1 h.2
    have hplain : e = s ↔ '/' ∉ s ∧ '.' ∉ s := by
      constructor
      · intro h
        have := escape_chars hb
        rw [h] at this; exact this
      · intro h
        rw [hshape, replaceC_eq_self h.1, replaceC_eq_self h.2]
    have h5 : (5 : Int) ≤ 6 := by decide
    cases f <;> simp [HasType] at ht
    case name =>
      have hb' : b = true := hname rfl
      have hns : '/' ∉ s := fun h => hnslash ⟨h, hb'⟩
      have e0 : e = replaceC '.' '!' s := by rw [hshape, replaceC_eq_self hns]
      have ebar : '|' ∈ e ↔ '|' ∈ s := by rw [e0, mem_replaceC_iff (by decide) (by decide)]
      by_cases hbar : '|' ∈ s
      · simp [decode, he', ebar.2 hbar, hbar]
      · have hbe : '|' ∉ e := fun h => hbar (ebar.1 h)
        simp only [decode, he', if_false, hbe, false_and, h5, if_true, replaceC_eq_self hbe,
          Except.ok.injEq, PyVal.str.injEq]
        rw [replaceC_eq_self hbe] at hun
        -- '|' to '/' is the identity on e
        have hun' : replaceC '!' '.' e = s ↔ '|' ∉ s ∧ '!' ∉ s := hun
        simp [hun', hs]
    case checksum_cypher => simp [decode, he', hplain, hs]
    case user_id =>
      cases hpi : pyInt e with
      | none =>
        simp only [decode, he', if_false, hpi, Except.ok.injEq, PyVal.str.injEq, hplain]
        constructor
        · intro h
          have := hplain.2 h
          rw [this] at hpi
          simp [hs, h, hpi]
        · intro h
          simpa using h.2.2.1
      | some i =>
        simp only [decode, he', if_false, hpi]
        constructor
        · intro h; simp at h
        · intro h
          have h1 : '/' ∉ s ∧ '.' ∉ s := by simpa using h.2.2.1
          have := hplain.2 h1
          rw [this] at hpi
          simp [h.2.2.2] at hpi
    all_goals simp [decode, he', h5, hun, hs]

/-- **C16 is false**: `a|b` is accepted as an id and decodes to `a/b`; a name with `!` decodes to one
with a dot; a user id with a dot comes back with a bang; the name `a|b` is written but cannot be read
at all. -/
theorem C16_corrupted_counterexample (env : Env) :
    (∃ e, encode env .id (.str (lit "a|b")) = .ok e ∧ decode .id e 6 = .ok (.str (lit "a/b"))) ∧
    (∃ e, encode env .name (.str (lit "a!b")) = .ok e ∧ decode .name e 6 = .ok (.str (lit "a.b"))) ∧
    (∃ e, encode env .user_id (.str (lit "a.b")) = .ok e ∧
      decode .user_id e 6 = .ok (.str (lit "a!b"))) ∧
    (∃ e, encode env .name (.str (lit "a|b")) = .ok e ∧ decode .name e 6 = .error .valueError) ∧
    (∃ e, encode env .mode (.str (lit "#")) = .ok e ∧ decode .mode e 6 = .ok .none) :=
  ⟨⟨lit "a|b", rfl, rfl⟩, ⟨lit "a!b", rfl, rfl⟩, ⟨lit "a!b", rfl, by rfl⟩, ⟨lit "a|b", rfl, rfl⟩,
    ⟨lit "#", rfl, rfl⟩⟩

example (env : Env) : HasType .id (.str (lit "a/b.c")) ∧
    encode env .id (.str (lit "a/b.c")) = .ok (lit "a|b!c") ∧
    decode .id (lit "a|b!c") 6 = .ok (.str (lit "a/b.c")) := ⟨trivial, rfl, rfl⟩

/-! ## C17 -/

/-- **C17**, the part that holds: unless the id is the empty text or an error message contains a
slash, a link that `as_symlink` produces is a relative path with exactly three components: the link
name, the (non-empty) encoded id, and a component that starts with the version tag. -/
theorem C17_three_components_partial (env : Env) (m : Meta) (ht : WellTyped m) (name : Str)
    (hn : IsName name) (hid : m .id ≠ .str [])
    (herr : ∀ l, m .errors = .strs l → ∀ x ∈ l, '/' ∉ x)
    (p : Pure) (hp : asSymlink env m (some name) = .ok p) :
    ∃ id data, splitC '/' p.str = [name, id, data] ∧ id ≠ [] ∧ lit ".mdv6." <+: data ∧
      p = ⟨[], [name, id, data]⟩ := by
  unfold asSymlink at hp
  cases h1 : encode env .id (m .id) with
  | error e => simp [h1] at hp
  | ok id =>
    cases h2 : columns env m order with
    | error e => simp [h1, h2] at hp
    | ok cols =>
      obtain ⟨h, hh, hh1, hh2⟩ := hrColumn_ok m
      simp only [h1, h2, hh, Except.ok.injEq] at hp
      have hcols : ∀ (fs : List Field) cols, columns env m fs = .ok cols → ∀ c ∈ cols, '/' ∉ c := by
        intro fs
        induction fs with
        | nil => intro cols hc; simp [columns] at hc; subst hc; simp
        | cons f fs ih =>
          intro cols hc
          simp only [columns] at hc
          cases he : encode env f (m f) with
          | error _ => simp [he] at hc
          | ok s =>
            cases hr : columns env m fs with
            | error _ => simp [he, hr] at hc
            | ok ss =>
              simp only [he, hr, Except.ok.injEq] at hc
              subst hc
              intro c hc
              rcases List.mem_cons.1 hc with rfl | hc
              · by_cases hf : f = .errors
                · subst hf
                  have hte := ht .errors
                  cases hm : m .errors with
                  | strs l => exact (encode_chars env _ _ hte _ he).2 l hm (herr l hm)
                  | _ => rw [hm] at hte; simp [HasType] at hte
                · exact ((encode_chars env f _ (ht f) _ he).1 hf).1
              · exact ih ss hr c hc
      have hds : '/' ∉ dataText (cols ++ [h]) := by
        apply dataText_slash
        intro c hc
        rcases List.mem_append.1 hc with hc | hc
        · exact hcols _ _ h2 c hc
        · simp at hc; subst hc; exact hh1
      have hidc := (encode_chars env .id _ (ht .id) _ h1).1 (by decide)
      have hidn : id ≠ [] := by
        intro e
        subst e
        have hti := ht .id
        cases hm : m .id with
        | none => rw [hm] at h1; simp [encode] at h1
        | str s =>
          rw [hm] at h1 hid
          simp only [encode] at h1
          have hs : s ≠ [] := fun e => hid (by rw [e])
          have : escape false s = .ok [] := h1
          unfold escape at this
          split at this
          · cases this
          · split at this
            · cases this
            · dsimp only at this
              split at this
              · cases this
              · simp only [Except.ok.injEq] at this
                have := congrArg List.length this
                simp [length_replaceC] at this
                exact hs this
        | _ => rw [hm] at hti; simp [HasType] at hti
      have hidclean : id ≠ [] ∧ id ≠ ['.'] ∧ '/' ∉ id :=
        ⟨hidn, fun e => hidc.2 (by rw [e]; simp), hidc.1⟩
      have hd := dataText_ne (cols ++ [h])
      have hparse : parse (id ++ '/' :: dataText (cols ++ [h])) =
          ⟨[], [id, dataText (cols ++ [h])]⟩ := by
        have := parse_joinC [id, dataText (cols ++ [h])] (by simp) (by simp [hidclean, hd, hds])
        simpa [joinC] using this
      rw [hparse, parse_single name hn] at hp
      simp [Pure.join] at hp
      subst hp
      refine ⟨id, _, ?_, hidn, ⟨_, rfl⟩, rfl⟩
      simp only [Pure.str, List.nil_append]
      apply splitC_joinC (by simp)
      intro w hw
      simp at hw
      rcases hw with rfl | rfl | rfl
      · exact hn.2.2
      · exact hidclean.2.2
      · exact hds

/-- **C17**, the name check: with name matching on, reading a link with at least three components
whose first one is not the name of the link raises. -/
theorem C17_name_checked (name link : Str) (first : Str) (rest : List Str)
    (hparts : (parse link).parts = first :: rest) (hlen : rest.length ≠ 1) (hne : name ≠ first) :
    fromSymlink name link true = .error .circularSymlinkNameError := by
  unfold fromSymlink
  rw [hparts]
  split
  · simp_all
  · simp_all
  · rename_i h
    simp only [List.cons.injEq] at h
    rw [← h.1]
    simp [hne]

/-- **C17 is false** in two ways: with the empty text as id the link is an absolute path without the
link name, and an error message with a slash adds components. -/
theorem C17_three_components_counterexample (env : Env) :
    (∃ m, WellTyped m ∧ ∃ p, asSymlink env m (some (lit "n")) = .ok p ∧ p.root = ['/'] ∧
      p.comps.length = 1) ∧
    (∃ m, WellTyped m ∧ ∃ p, asSymlink env m (some (lit "n")) = .ok p ∧ p.comps.length = 4) := by
  let m1 : Meta := fun f => if f = .id then .str [] else if f = .errors then .strs [] else .none
  let m2 : Meta := fun f => if f = .id then .str (lit "i") else if f = .errors then
    .strs [lit "no /x"] else .none
  have h1 : WellTyped m1 := by intro f; cases f <;> simp [m1, HasType]
  have h2 : WellTyped m2 := by intro f; cases f <;> simp [m2, HasType]
  refine ⟨⟨m1, h1, ?_⟩, ⟨m2, h2, ?_⟩⟩
  · exact ⟨_, rfl, by decide +kernel, by decide +kernel⟩
  · exact ⟨_, rfl, by decide +kernel⟩

/-- **C17**, the name check is skipped for links with two components (the form without link name):
such a link is read under every name even with name matching on. -/
theorem C17_name_unchecked_counterexample (name : Str) :
    fromSymlink name (lit "id/.mdv6.#") true = fromSymlink (lit "other") (lit "id/.mdv6.#") true ∧
    ∃ o, fromSymlink name (lit "id/.mdv6.#") true = .ok o := by
  have : parse (lit "id/.mdv6.#") = ⟨[], [lit "id", lit ".mdv6.#"]⟩ := by decide +kernel
  refine ⟨by simp [fromSymlink, this, Pure.parts], ?_⟩
  simp only [fromSymlink, this, Pure.parts, if_true]
  exact ⟨_, rfl⟩

example : IsName (lit "a.txt") ∧ (∃ p, asSymlink sampleEnv
    (fun f => if f = .id then .str (lit "N:1") else if f = .errors then .strs [lit "e.f"] else .none)
      (some (lit "a.txt")) = .ok p ∧ p.comps.length = 3) := by
  refine ⟨by simp [IsName, lit], _, rfl, by decide +kernel⟩

/-! ## C18 -/

/-- **C18**, the part that holds: for every version tag `mdv1` … `mdv6`, every id component and every
list of columns (texts without the separators), the link can be read if each column can be decoded
for its field; and whenever it is read, every field has the value its own column decodes to (unset if
the column holds the placeholder) and every field without a column is unset.  Missing from the full
claim: the oldest tag `meta`. -/
theorem C18_versions_partial (ver : Str) (n : Int) (hv : (ver, n) ∈ numbered)
    (ord : List Field) (hord : (ver, ord) ∈ versions) (id : Str) (cols : List Str)
    (hid : IsName id) (hne : cols ≠ []) (hcols : ∀ c ∈ cols, '.' ∉ c ∧ '/' ∉ c) :
    ((∀ f c, columnOf ord cols f = some c → ∃ d, decode f c n = .ok d) →
      ∃ o, fromParts [id, '.' :: (ver ++ '.' :: joinC '.' cols)] = .ok o) ∧
    ∀ o, fromParts [id, '.' :: (ver ++ '.' :: joinC '.' cols)] = .ok o →
      decode .id id n = .ok (given o .id) ∧
      ∀ f, f ≠ .id →
        match columnOf ord cols f with
        | some c => ∃ d, decode f c n = .ok d ∧ given o f = orUnset f d
        | none => given o f = unset f := by
  have hver : pyInt (ver.drop 3) = some n ∧ versions.lookup ver = some ord ∧ '.' ∉ ver ∧
      '/' ∉ ver ∧ ord.Nodup ∧ .id ∉ ord := by
    have : ∀ p ∈ numbered, ∀ q ∈ versions, q.1 = p.1 → pyInt (p.1.drop 3) = some p.2 ∧
        versions.lookup p.1 = some q.2 ∧ '.' ∉ p.1 ∧ '/' ∉ p.1 ∧ q.2.Nodup ∧ .id ∉ q.2 := by
      decide +kernel
    exact this _ hv _ hord rfl
  obtain ⟨hn, hlook, hdot, hslash, hnodup, hidord⟩ := hver
  have hdata : '.' :: (ver ++ '.' :: joinC '.' cols) = joinC '.' ([] :: ver :: cols) := by
    cases cols with
    | nil => exact absurd rfl hne
    | cons c cs => simp [joinC]
  have hsplit : splitC '.' ('.' :: (ver ++ '.' :: joinC '.' cols)) = [] :: ver :: cols := by
    rw [hdata]
    apply splitC_joinC (by simp)
    intro w hw
    rcases List.mem_cons.1 hw with rfl | hw
    · simp
    · rcases List.mem_cons.1 hw with rfl | hw
      · exact hdot
      · exact (hcols w hw).1
  have hclean : '.' :: (ver ++ '.' :: joinC '.' cols) ≠ [] ∧
      '.' :: (ver ++ '.' :: joinC '.' cols) ≠ ['.'] ∧
      '/' ∉ '.' :: (ver ++ '.' :: joinC '.' cols) := by
    refine ⟨by simp, by simp, ?_⟩
    simp only [List.mem_cons, List.mem_append, not_or]
    refine ⟨by decide, hslash, by decide, ?_⟩
    intro hm
    rcases mem_joinC hm with h | ⟨w, hw, h⟩
    · exact absurd h (by decide)
    · exact (hcols w hw).2 h
  obtain ⟨idv, hdid⟩ := decode_id_ok n id
  have hred : fromParts [id, '.' :: (ver ++ '.' :: joinC '.' cols)] =
      match zipDecode n ord cols with
      | .error e => .error e
      | .ok kw => mkMeta (kw ++ [(Field.id.toStr, idv)]) := by
    unfold fromParts
    simp only [List.getLast?_cons_cons, List.getLast?_singleton, hsplit, hn, hlook,
      ofParts_pair id _ hid hclean, hdid]
    cases zipDecode n ord cols <;> rfl
  -- every successful decoding of the columns gives an object with the described fields
  have main : ∀ kw, zipDecode n ord cols = .ok kw →
      ∃ o, mkMeta (kw ++ [(Field.id.toStr, idv)]) = .ok o ∧ decode .id id n = .ok (given o .id) ∧
      ∀ f, f ≠ .id →
        match columnOf ord cols f with
        | some c => ∃ d, decode f c n = .ok d ∧ given o f = orUnset f d
        | none => given o f = unset f := by
    intro kw hz
    obtain ⟨D, rfl, hD⟩ := zipDecode_args n ord cols kw hnodup hz
    have hDnone : ∀ f, f ∉ ord → D f = none := by
      intro f hf
      have := hD f
      have hc : columnOf ord cols f = none := by
        simp only [columnOf, Option.map_eq_none_iff, List.find?_eq_none]
        intro p hp
        have := (List.of_mem_zip hp).1
        simp only [decide_eq_true_eq]
        intro e
        exact hf (e ▸ this)
      rw [hc] at this
      exact this
    have harg : ∀ f : Field, (dictGet f.toStr (kwOf D ord ++ [(Field.id.toStr, idv)])).getD .none =
        if f = .id then idv else (D f).getD .none := by
      intro f
      rw [dictGet_append, dictGet_kwOf _ _ _ hnodup]
      by_cases hf : f = .id
      · subst hf; simp [dictGet]
      · have : Field.id.toStr ≠ f.toStr := fun h => hf (Field.toStr_injective h).symm
        by_cases hm : f ∈ ord
        · simp [dictGet, this, hf, hm]
        · simp [dictGet, this, hf, hm, hDnone f hm]
    have hshape : ∀ f, (D f).getD .none = .none ∨ ∃ c, decode f c n = .ok ((D f).getD .none) := by
      intro f
      have := hD f
      cases hc : columnOf ord cols f with
      | none => rw [hc] at this; simp [this]
      | some c =>
        rw [hc] at this
        obtain ⟨d, h1, h2⟩ := this
        exact .inr ⟨c, by simp [h2, h1]⟩
    obtain ⟨o, ho, hgiven⟩ := mkMeta_given (kwOf D ord ++ [(Field.id.toStr, idv)])
      (fun f => if f = .id then idv else (D f).getD .none)
      (by
        apply dictGet_none_of
        intro kv hkv
        rcases List.mem_append.1 hkv with hkv | hkv
        · obtain ⟨f, _, h⟩ := kwOf_keys D ord kv hkv
          rw [h]; exact f.toStr_ne_self
        · simp at hkv; subst hkv; exact Field.id.toStr_ne_self)
      harg
      (by simpa using (decode_shapes n id idv).2.2.2 hdid)
      (by
        rcases hshape .file_id with h | ⟨c, h⟩
        · left; simpa using h
        · simpa using (decode_shapes n c _).2.1 h)
      (by
        rcases hshape .size with h | ⟨c, h⟩
        · left; simpa using h
        · simpa using (decode_shapes n c _).1 h)
      (by
        rcases hshape .errors with h | ⟨c, h⟩
        · left; simpa using h
        · simpa using (decode_shapes n c _).2.2.1 h)
    refine ⟨o, ho, ?_, ?_⟩
    · have := hgiven .id
      simp only [if_true] at this
      rw [this, hdid]
      rcases (decode_shapes n id idv).2.2.2 hdid with e | ⟨s, e⟩ <;> rw [e] <;> rfl
    · intro f hf
      have hg := hgiven f
      simp only [hf, if_false] at hg
      have := hD f
      cases hc : columnOf ord cols f with
      | none =>
        rw [hc] at this
        simp only
        rw [hg, this]
        rfl
      | some c =>
        rw [hc] at this
        obtain ⟨d, h1, h2⟩ := this
        exact ⟨d, h1, by rw [hg, h2]; rfl⟩
  constructor
  · intro hdec
    obtain ⟨kw, hkw⟩ := zipDecode_ok n ord cols hnodup hdec
    obtain ⟨o, ho, _⟩ := main kw hkw
    exact ⟨o, by rw [hred, hkw]; exact ho⟩
  · intro o ho
    rw [hred] at ho
    cases hz : zipDecode n ord cols with
    | error e => simp [hz] at ho
    | ok kw =>
      obtain ⟨o', ho', hrest⟩ := main kw hz
      simp only [hz] at ho
      rw [ho] at ho'
      cases ho'
      exact hrest

/-- **C18**: the columns of each numbered version are those of the history of the format. -/
theorem C18_columns (ver : Str) (n : Int) (hv : (ver, n) ∈ numbered) :
    versions.lookup ver = some (history n.toNat) ∧ versions.lookup (lit "meta") = some (history 0) := by
  have : ∀ p ∈ numbered, versions.lookup p.1 = some (history p.2.toNat) := by decide +kernel
  exact ⟨this _ hv, by decide +kernel⟩

/-- **C18**: text in the columns of every version means what its characters stand for in that version; only the bar in a
name is an error since version 5. -/
theorem C18_texts (n : Int) (f : Field) (c : Str) (hf : f ∈ [.id, .mode, .old_id, .parent_id, .name]) (hc : c ≠ ['#']) :
    (¬(f = .name ∧ '|' ∈ c ∧ 5 ≤ n) → decode f c n = .ok (.str (c.map (standsFor n f)))) ∧
    (f = .name ∧ '|' ∈ c ∧ 5 ≤ n → decode f c n = .error .valueError) := by
  simp only [List.mem_cons, List.not_mem_nil, or_false] at hf
  constructor
  · intro hnot
    rcases hf with rfl | rfl | rfl | rfl | rfl
    case inr.inr.inr.inr =>
      have hnot' : ¬('|' ∈ c ∧ 5 ≤ n) := fun h => hnot ⟨rfl, h⟩
      simp only [decode, if_neg hc, if_neg hnot', replaceC]
      by_cases h5 : 5 ≤ n
      · simp only [if_pos h5, List.map_map, Except.ok.injEq, PyVal.str.injEq]
        apply List.map_congr_left
        intro x hx
        simp only [Function.comp, standsFor, h5]
        by_cases h1 : x = '|'
        · simp [h1]
        · simp [h1]
      · simp only [if_neg h5, Except.ok.injEq, PyVal.str.injEq]
        apply List.map_congr_left
        intro x hx
        simp [standsFor, h5]
    all_goals
      simp only [decode, if_neg hc, replaceC]
      by_cases h5 : 5 ≤ n
      · simp only [if_pos h5, List.map_map, Except.ok.injEq, PyVal.str.injEq]
        apply List.map_congr_left
        intro x hx
        simp only [Function.comp, standsFor, h5]
        by_cases h1 : x = '|'
        · simp [h1]
        · simp [h1]
      · simp only [if_neg h5, Except.ok.injEq, PyVal.str.injEq]
        apply List.map_congr_left
        intro x hx
        simp [standsFor, h5]
  · rintro ⟨rfl, hb, h5⟩
    simp [decode, hc, hb, h5]

example : decode .name (lit "a|txt") 4 = .ok (.str (lit "a.txt")) ∧ decode .parent_id (lit "N:1|2") 3 = .ok (.str (lit "N:1/2")) := by
  constructor
  · rw [(C18_texts 4 .name (lit "a|txt") (by simp) (by decide)).1 (by decide)]; rfl
  · rw [(C18_texts 3 .parent_id (lit "N:1|2") (by simp) (by decide)).1 (by decide)]; rfl

/-- **C18 is false** for the oldest version in the table: its tag `meta` has no number, so every link
that uses it is unreadable, whatever its columns. -/
theorem C18_meta_counterexample (id rest : Str) :
    (lit "meta", [.file_id, .size, .created, .updated, .checksum, .old_id, .gid, .user_id, .mode,
      Field.errors]) ∈ versions ∧
    fromParts [id, lit ".meta." ++ rest] = .error .valueError := by
  refine ⟨by decide, ?_⟩
  have hs : splitC '.' (lit ".meta." ++ rest) = [] :: lit "meta" :: splitC '.' rest := by
    simp [lit, splitC]
  have hv : pyInt ((lit "meta").drop 3) = none := by decide
  simp only [fromParts, List.getLast?_cons_cons, List.getLast?_singleton, hs, hv]

example : (lit "mdv2", 2) ∈ numbered ∧ IsName (lit "N:1") ∧
    columnOf (versions.lookup (lit "mdv2") |>.getD []) [lit "7", lit "12", lit "#"] .size = some (lit "12") ∧
    (∃ o, fromParts [lit "N:1", lit ".mdv2.7.12.#"] = .ok o ∧ given o .size = .int 12 ∧
      given o .checksum = .none) := by
  refine ⟨by decide, by simp [IsName, lit], by decide, ?_⟩
  exact ⟨_, by rfl, by rfl, by rfl⟩

/-! ### Exactly which metadata survive -/

theorem zipDecode_mem (n : Int) : ∀ (fs : List Field) (ss : List Str) {kw : List (Str × PyVal)}, zipDecode n fs ss = .ok kw →
    ∀ k v, (k, v) ∈ kw → ∃ f c, k = f.toStr ∧ c ∈ ss ∧ decode f c n = .ok v
  | [], ss, kw, h => by simp [zipDecode] at h; subst h; simp
  | f :: fs, [], kw, h => by simp [zipDecode] at h; subst h; simp
  | f :: fs, s :: ss, kw, h => by
    rw [zipDecode] at h
    cases hd : decode f s n with
    | error e => rw [hd] at h; simp at h
    | ok v =>
      rw [hd] at h
      dsimp only at h
      cases hz : zipDecode n fs ss with
      | error e => rw [hz] at h; simp at h
      | ok l =>
        rw [hz] at h
        simp only [Except.ok.injEq] at h
        subst h
        intro k w hk
        rcases List.mem_cons.1 hk with hk | hk
        · simp only [Prod.mk.injEq] at hk
          exact ⟨f, s, hk.1, by simp, hk.2 ▸ hd⟩
        · obtain ⟨f', c, h1, h2, h3⟩ := zipDecode_mem n fs ss hz k w hk
          exact ⟨f', c, h1, by simp [h2], h3⟩

theorem mem_of_splitC {sep c : Char} : ∀ {s w : Str}, w ∈ splitC sep s → c ∈ w → c ∈ s := by
  intro s w hw hc
  rw [← joinC_splitC sep s]
  generalize splitC sep s = ws at hw
  induction ws with
  | nil => simp at hw
  | cons x xs ih =>
    cases xs with
    | nil => simp at hw; subst hw; simpa [joinC] using hc
    | cons y ys =>
      simp only [joinC, List.mem_append, List.mem_cons]
      rcases List.mem_cons.1 hw with rfl | hw
      · exact .inl hc
      · exact .inr (.inr (ih hw))

theorem dictGet_mem {α β : Type} [DecidableEq α] (k : α) : ∀ (l : List (α × β)) {v : β}, dictGet k l = some v → (k, v) ∈ l
  | [], v, h => by simp [dictGet] at h
  | (k', w) :: l, v, h => by
    rw [dictGet] at h
    cases hl : dictGet k l with
    | some u => rw [hl] at h; simp only [Option.some.injEq] at h; subst h; exact List.mem_cons_of_mem _ (dictGet_mem k l hl)
    | none =>
      rw [hl] at h
      dsimp only at h
      split at h
      · next hk => simp only [Option.some.injEq] at h; subst h; subst hk; exact List.mem_cons_self
      · simp at h

/-- Whatever is read, the errors have no slash and no dot. -/
theorem fromParts_errors {parts : List Str} {o : PathMeta} (h : fromParts parts = .ok o) (hp : ∀ data, parts.getLast? = some data → '/' ∉ data ∨ data = ['/'] ∨ data = ['/', '/'])
    {l : List Str} (hl : o.plain .errors = .strs l) : ∀ x ∈ l, '/' ∉ x ∧ '.' ∉ x := by
  unfold fromParts at h
  cases hlast : parts.getLast? with
  | none => rw [hlast] at h; simp at h
  | some data =>
    rw [hlast] at h
    dsimp only at h
    have hslash : '/' ∉ data := by
      rcases hp data hlast with h' | h' | h'
      · exact h'
      · subst h'
        have : splitC '.' ['/'] = [['/']] := by decide
        rw [this] at h; simp at h
      · subst h'
        have : splitC '.' ['/', '/'] = [['/', '/']] := by decide
        rw [this] at h; simp at h
    cases hs : splitC '.' data with
    | nil => rw [hs] at h; simp at h
    | cons a rest =>
      cases rest with
      | nil => rw [hs] at h; simp at h
      | cons version suffixes =>
        rw [hs] at h
        dsimp only at h
        have hsuf : ∀ c ∈ suffixes, '/' ∉ c ∧ '.' ∉ c := by
          intro c hc
          have hm : c ∈ splitC '.' data := by rw [hs]; simp [hc]
          exact ⟨fun hx => hslash (mem_of_splitC hm hx), splitC_not_mem '.' data c hm⟩
        cases hv : pyInt (version.drop 3) with
        | none => rw [hv] at h; simp at h
        | some vint =>
        rw [hv] at h; dsimp only at h
        cases ho : versions.lookup version with
        | none => rw [ho] at h; simp at h
        | some ord =>
        rw [ho] at h; dsimp only at h
        cases hz : zipDecode vint ord suffixes with
        | error e => rw [hz] at h; simp at h
        | ok kw =>
        rw [hz] at h; dsimp only at h
        cases hi : decode .id (ofParts parts).parent.str vint with
        | error e => rw [hi] at h; simp at h
        | ok idv =>
        rw [hi] at h; dsimp only at h
        have herr : o.plain .errors = .strs [] ∨ ∃ v, (Field.errors.toStr, v) ∈ kw ++ [(Field.id.toStr, idv)] ∧ mkErrors v = .ok (o.plain .errors) := by
          unfold mkMeta at h
          dsimp only at h
          split at h
          · simp at h
          · split at h
            · simp at h
            · split at h
              · split at h
                · next hse =>
                  simp only [Except.ok.injEq] at h
                  subst h
                  simp only [reduceCtorEq, if_false, if_true]
                  cases hg : dictGet Field.errors.toStr (kw ++ [(Field.id.toStr, idv)]) with
                  | none => rw [hg] at hse; simp [mkErrors, PyVal.truthy] at hse; exact .inl hse.symm
                  | some v => rw [hg] at hse; exact .inr ⟨v, dictGet_mem _ _ hg, hse⟩
                · simp at h
                · simp at h
              · split at h
                · next hse =>
                  simp only [Except.ok.injEq] at h
                  subst h
                  simp only [reduceCtorEq, if_false, if_true]
                  cases hg : dictGet Field.errors.toStr (kw ++ [(Field.id.toStr, idv)]) with
                  | none => rw [hg] at hse; simp [mkErrors, PyVal.truthy] at hse; exact .inl hse.symm
                  | some v => rw [hg] at hse; exact .inr ⟨v, dictGet_mem _ _ hg, hse⟩
                · simp at h
                · simp at h
              · simp at h
        rcases herr with he | ⟨v, hv, he⟩
        · rw [hl] at he; simp only [PyVal.strs.injEq] at he; subst he; simp
        · rcases List.mem_append.1 hv with hv | hv
          · obtain ⟨f, c, h1, h2, h3⟩ := zipDecode_mem vint ord suffixes hz _ _ hv
            have hf : f = .errors := by revert h1; cases f <;> decide
            subst hf
            unfold decode at h3
            split at h3
            · simp only [Except.ok.injEq] at h3
              subst h3
              simp [mkErrors, PyVal.truthy] at he
              rw [hl] at he; simp only [PyVal.strs.injEq] at he; subst he; simp
            · simp only [Except.ok.injEq] at h3
              subst h3
              simp only [mkErrors, Except.ok.injEq] at he
              rw [hl] at he; simp only [PyVal.strs.injEq] at he; subst he
              intro x hx
              have hx := (List.mem_filter.1 hx).1
              exact ⟨fun h' => (hsuf c h2).1 (mem_of_splitC hx h'), fun h' => (hsuf c h2).2 (mem_of_splitC hx h')⟩
          · simp at hv; exact absurd hv.1 (by decide)

theorem parse_last (s : Str) (data : Str) : (parse s).parts.getLast? = some data → '/' ∉ data ∨ data = ['/'] ∨ data = ['/', '/'] := by
  have hroot : (parse s).root = [] ∨ (parse s).root = ['/'] ∨ (parse s).root = ['/', '/'] := by
    unfold parse
    dsimp only
    split <;> simp
  have hc : ∀ c ∈ (parse s).comps, '/' ∉ c := fun c hc => splitC_not_mem '/' s c (List.mem_filter.1 hc).1
  generalize parse s = p at *
  intro h
  have hm := List.mem_of_getLast? h
  unfold Pure.parts at hm
  split at hm
  · exact .inl (hc _ hm)
  · rcases List.mem_cons.1 hm with rfl | hm
    · rcases hroot with h' | h' | h'
      · contradiction
      · exact .inr (.inl h')
      · exact .inr (.inr h')
    · exact .inl (hc _ hm)

theorem fromSymlink_errors {name link : Str} {b : Bool} {o : PathMeta} (h : fromSymlink name link b = .ok o) {l : List Str}
    (hl : o.plain .errors = .strs l) : ∀ x ∈ l, '/' ∉ x ∧ '.' ∉ x := by
  have hlast := parse_last link
  unfold fromSymlink at h
  cases hp : (parse link).parts with
  | nil => rw [hp] at h; simp at h
  | cons a rest =>
    rw [hp] at h hlast
    cases rest with
    | nil =>
      dsimp only at h
      split at h
      · simp at h
      · simp [fromParts] at h
    | cons c rest =>
      have hl2 : ∀ data, (c :: rest).getLast? = some data → '/' ∉ data ∨ data = ['/'] ∨ data = ['/', '/'] := by
        intro data hd
        exact hlast data (by rw [List.getLast?_cons_cons]; exact hd)
      cases rest with
      | nil =>
        dsimp only at h
        exact fromParts_errors h (by intro data hd; rw [List.getLast?_cons_cons] at hd; exact hl2 data hd) hl
      | cons e rest =>
        dsimp only at h
        split at h
        · simp at h
        · exact fromParts_errors h hl2 hl

theorem columns_columnOf (env : Env) (m : Meta) (rest : List Str) (f : Field) : ∀ (fs : List Field) (cols : List Str), columns env m fs = .ok cols → f ∈ fs →
    ∃ e, columnOf fs (cols ++ rest) f = some e ∧ encode env f (m f) = .ok e
  | [], cols, h, hf => by simp at hf
  | g :: fs, cols, h, hf => by
    rw [columns] at h
    cases he : encode env g (m g) with
    | error e => rw [he] at h; simp at h
    | ok s =>
      rw [he] at h
      dsimp only at h
      cases hc : columns env m fs with
      | error e => rw [hc] at h; simp at h
      | ok ss =>
        rw [hc] at h
        simp only [Except.ok.injEq] at h
        subst h
        by_cases hg : g = f
        · subst hg
          exact ⟨s, by simp [columnOf], he⟩
        · obtain ⟨e, h1, h2⟩ := columns_columnOf env m rest f fs ss hc (by
            rcases List.mem_cons.1 hf with h | h
            · exact absurd h.symm hg
            · exact h)
          refine ⟨e, ?_, h2⟩
          rw [← h1]
          simp [columnOf, hg]

theorem columns_mem (env : Env) (m : Meta) : ∀ (fs : List Field) (cols : List Str), columns env m fs = .ok cols → ∀ c ∈ cols, ∃ f, encode env f (m f) = .ok c
  | [], cols, h => by simp [columns] at h; subst h; simp
  | g :: fs, cols, h => by
    rw [columns] at h
    cases he : encode env g (m g) with
    | error e => rw [he] at h; simp at h
    | ok s =>
      rw [he] at h
      dsimp only at h
      cases hc : columns env m fs with
      | error e => rw [hc] at h; simp at h
      | ok ss =>
        rw [hc] at h
        simp only [Except.ok.injEq] at h
        subst h
        intro c hcm
        rcases List.mem_cons.1 hcm with rfl | hcm
        · exact ⟨g, he⟩
        · exact columns_mem env m fs ss hc c hcm

/-- A value that comes back from its column is one that can be stored. -/
theorem storable_of_decoded (env : Env) (f : Field) (v : PyVal) (ht : HasType f v) {e : Str} {d : PyVal} (he : encode env f v = .ok e)
    (hd : decode f e 6 = .ok d) (hv : orUnset f d = v) (hid : f = .id → v ≠ .str [])
    (herr : ∀ l, v = .strs l → ∀ x ∈ l, '/' ∉ x ∧ '.' ∉ x) : SymlinkStorable f v := by
  cases v with
  | str s =>
    have hds : d = .str s := by
      cases d with
      | none => cases f <;> simp [orUnset, unset] at hv
      | _ => exact hv
    subst hds
    obtain ⟨h1, h2, h3, h4⟩ := (C16_rejected_or_survives_partial env f s e ht he).1 hd
    have hr : ¬ (('/' ∈ s ∧ '|' ∈ s) ∨ ('/' ∈ s ∧ f = .name) ∨ ('.' ∈ s ∧ '!' ∈ s)) := by
      rw [← C16_rejected_iff env f s ht, he]; simp
    cases f <;> simp [HasType] at ht
    case name => exact ⟨h1, fun h => hr (.inr (.inl ⟨h, rfl⟩)), h2 (by simp)⟩
    case id => exact ⟨fun h => hid rfl (by rw [h]), h1, h2 (by simp)⟩
    case checksum_cypher => exact ⟨h1, h3 (by simp)⟩
    case user_id => exact ⟨h1, (h3 (by simp)).1, (h3 (by simp)).2, h4 rfl⟩
    all_goals exact ⟨h1, h2 (by simp)⟩
  | int i =>
    cases f <;> simp [HasType] at ht <;> try trivial
    intro h0
    subst h0
    simp [encode, PyVal.truthy] at he
    subst he
    simp [decode] at hd
    subst hd
    simp [orUnset, unset] at hv
  | strs l =>
    cases f <;> simp [HasType] at ht
    simp [encode] at he
    subst he
    have hl := herr l rfl
    unfold decode at hd
    split at hd
    · next hh =>
      simp only [Except.ok.injEq] at hd
      subst hd
      simp [orUnset, unset] at hv
      subst hv
      simp [joinC] at hh
    · next hh =>
      simp only [Except.ok.injEq] at hd
      subst hd
      simp only [orUnset, PyVal.strs.injEq] at hv
      refine ⟨fun h => hh (by rw [h]; rfl), ?_⟩
      intro x hx
      have hx' := hx
      rw [← hv] at hx'
      obtain ⟨h1, h2⟩ := List.mem_filter.1 hx'
      exact ⟨by simpa using h2, splitC_not_mem ';' _ x h1, (hl x hx).2, (hl x hx).1⟩
  | none => cases f <;> simp [HasType] at ht <;> trivial
  | bytes b => cases f <;> simp [HasType] at ht <;> trivial
  | etag b i => cases f <;> simp [HasType] at ht <;> trivial
  | dt d => cases f <;> simp [HasType] at ht <;> trivial

/-- **C15**, exactly when it holds: well typed metadata come back from a link under its name if and only if every field is
representable. -/
theorem C15_symlink_round_trip_iff (env : Env) (hp : ParsesIso env) (m : Meta) (ht : WellTyped m) (name : Str) (hn : IsName name) :
    (∃ p o, asSymlink env m (some name) = .ok p ∧ fromSymlink name p.str true = .ok o ∧ o.Shows env m) ↔ ∀ f, SymlinkStorable f (m f) := by
  refine ⟨?_, fun hs => C15_symlink_round_trip_partial env hp m ht hs name hn⟩
  rintro ⟨p, o, has, hfs, hsh⟩
  have hplain : ∀ f, f ≠ .created → f ≠ .updated → o.plain f = m f ∧ given o f = m f := by
    intro f h1 h2
    have := hsh f
    cases f <;> simp [PathMeta.get] at this h1 h2 <;> exact ⟨this, this⟩
  have herr : ∀ l, m .errors = .strs l → ∀ x ∈ l, '/' ∉ x ∧ '.' ∉ x := fun l hl =>
    fromSymlink_errors hfs (((hplain .errors (by simp) (by simp)).1).trans hl)
  unfold asSymlink at has
  cases hid : encode env .id (m .id) with
  | error e => rw [hid] at has; simp at has
  | ok id =>
  rw [hid] at has; dsimp only at has
  cases hc : columns env m order with
  | error e => rw [hc] at has; simp at has
  | ok cols =>
  rw [hc] at has; dsimp only at has
  obtain ⟨h, hh, hh1, hh2⟩ := hrColumn_ok m
  rw [hh] at has
  simp only [Except.ok.injEq] at has
  have hidc := (encode_chars env .id _ (ht .id) _ hid).1 (by decide)
  have hcols : ∀ c ∈ cols ++ [h], '.' ∉ c ∧ '/' ∉ c := by
    intro c hcm
    rcases List.mem_append.1 hcm with hcm | hcm
    · obtain ⟨f, he⟩ := columns_mem env m order cols hc c hcm
      by_cases hf : f = .errors
      · subst hf
        cases hm : m .errors with
        | strs l =>
          rw [hm] at he
          simp [encode] at he
          subst he
          constructor <;> intro hx <;> rcases mem_joinC hx with h' | ⟨w, hw, h'⟩
          · exact absurd h' (by decide)
          · exact (herr l hm w hw).2 h'
          · exact absurd h' (by decide)
          · exact (herr l hm w hw).1 h'
        | _ => have := ht .errors; rw [hm] at this; simp [HasType] at this
      · exact ((encode_chars env f _ (ht f) _ he).1 hf).symm
    · simp at hcm; subst hcm; exact ⟨hh2, hh1⟩
  have hne : cols ++ [h] ≠ [] := by simp
  have hd := dataText_ne (cols ++ [h])
  have hds := dataText_slash fun c hcm => (hcols c hcm).2
  have hdclean : dataText (cols ++ [h]) ≠ [] ∧ dataText (cols ++ [h]) ≠ ['.'] ∧ '/' ∉ dataText (cols ++ [h]) := ⟨hd.1, hd.2, hds⟩
  have hdt : dataText (cols ++ [h]) = '.' :: (lit "mdv6" ++ '.' :: joinC '.' (cols ++ [h])) := by simp [dataText, lit]
  by_cases hidn : id = []
  · -- the empty id
    exfalso
    subst hidn
    have hmid : m .id = .str [] := by
      have hte := ht .id
      cases hm : m .id with
      | none => rw [hm] at hid; simp [encode, PyVal.truthy] at hid
      | str s =>
        rw [hm] at hid
        simp [encode] at hid
        unfold escape at hid
        split at hid
        · simp at hid
        · split at hid
          · simp at hid
          · dsimp only at hid
            split at hid
            · simp at hid
            · simp only [Except.ok.injEq] at hid
              have := congrArg List.length hid
              simp [length_replaceC] at this
              rw [this]
      | _ => rw [hm] at hte; simp [HasType] at hte
    have hsp : splitC '/' ('/' :: dataText (cols ++ [h])) = [[], dataText (cols ++ [h])] := by
      have := splitC_append_sep (sep := '/') (w := []) (t := dataText (cols ++ [h])) (by simp)
      rw [splitC_of_not_mem hds] at this
      simpa using this
    have habs : parse ('/' :: dataText (cols ++ [h])) = ⟨['/'], [dataText (cols ++ [h])]⟩ := by
      unfold parse
      rw [hsp]
      rw [hdt] at hd ⊢
      simp [lit]
    simp only [List.nil_append] at has
    rw [habs] at has
    have hp' : p = ⟨['/'], [dataText (cols ++ [h])]⟩ := by rw [← has]; simp [Pure.join]
    subst hp'
    have hstr : Pure.str ⟨['/'], [dataText (cols ++ [h])]⟩ = '/' :: dataText (cols ++ [h]) := by simp [Pure.str, joinC]
    rw [hstr] at hfs
    unfold fromSymlink at hfs
    rw [habs] at hfs
    simp only [Pure.parts, List.cons_ne_nil, if_false] at hfs
    have hid1 : ∃ v, o.plain .id = v ∧ decode .id ['/'] 6 = .ok v := by
      have hof : (ofParts [['/'], dataText (cols ++ [h])]).parent.str = ['/'] := by
        have h1 : parse ['/'] = ⟨['/'], []⟩ := by decide
        simp only [ofParts, List.foldl, h1, parse_single _ hdclean, Pure.join, Pure.parent]
        simp [Pure.str, joinC]
      have hsplit : splitC '.' (dataText (cols ++ [h])) = [] :: lit "mdv6" :: (cols ++ [h]) := by
        rw [dataText_eq _ hne]
        apply splitC_joinC (by simp)
        intro w hw
        rcases List.mem_cons.1 hw with rfl | hw
        · simp
        · rcases List.mem_cons.1 hw with rfl | hw
          · decide
          · exact (hcols w hw).1
      unfold fromParts at hfs
      have hv : pyInt ((lit "mdv6").drop 3) = some 6 := by decide
      have hlook : versions.lookup (lit "mdv6") = some order := by decide
      simp only [List.getLast?_cons_cons, List.getLast?_singleton, hsplit, hv, hlook, hof] at hfs
      cases hz : zipDecode 6 order (cols ++ [h]) with
      | error e => rw [hz] at hfs; simp at hfs
      | ok kw =>
        rw [hz] at hfs
        have hdec : decode .id ['/'] 6 = .ok (.str ['/']) := by simp [decode, replaceC]
        rw [hdec] at hfs ⊢
        dsimp only at hfs
        have hg : ∀ (l : List (Str × PyVal)) (k : Str) (v : PyVal), dictGet k (l ++ [(k, v)]) = some v := by
          intro l k v
          induction l with
          | nil => simp [dictGet]
          | cons x xs ih => simp [dictGet, ih]
        unfold mkMeta at hfs
        simp only [hg, Option.getD_some] at hfs
        split at hfs
        · simp at hfs
        · split at hfs
          · simp at hfs
          · split at hfs
            · simp only [Except.ok.injEq] at hfs
              subst hfs
              refine ⟨_, rfl, ?_⟩
              simp [hg]
            · simp at hfs
            · simp at hfs
    obtain ⟨v, hv1, hv2⟩ := hid1
    rw [(hplain .id (by simp) (by simp)).1, hmid] at hv1
    rw [← hv1] at hv2
    simp [decode, replaceC] at hv2
  · have hidclean : id ≠ [] ∧ id ≠ ['.'] ∧ '/' ∉ id := ⟨hidn, fun e => hidc.2 (by rw [e]; simp), hidc.1⟩
    have hparse : parse (id ++ '/' :: dataText (cols ++ [h])) = ⟨[], [id, dataText (cols ++ [h])]⟩ := by
      have := parse_joinC [id, dataText (cols ++ [h])] (by simp) (by simp [hidclean, hdclean])
      simpa [joinC] using this
    have hname := parse_single name hn
    rw [hparse, hname] at has
    have hp' : p = ⟨[], [name, id, dataText (cols ++ [h])]⟩ := by rw [← has]; simp [Pure.join]
    subst hp'
    have hlink : parse (Pure.str ⟨[], [name, id, dataText (cols ++ [h])]⟩) = ⟨[], [name, id, dataText (cols ++ [h])]⟩ := by
      have := parse_joinC [name, id, dataText (cols ++ [h])] (by simp) (by
        intro w hw
        simp at hw
        rcases hw with rfl | rfl | rfl
        · exact hn
        · exact hidclean
        · exact hdclean)
      simpa [Pure.str] using this
    unfold fromSymlink at hfs
    rw [hlink] at hfs
    simp only [Pure.parts, if_true, ne_eq, not_true_eq_false, and_false, if_false] at hfs
    rw [hdt] at hfs
    obtain ⟨g1, g2⟩ := (C18_versions_partial (lit "mdv6") 6 (by decide) order (by decide) id (cols ++ [h]) hidclean hne hcols).2 o hfs
    intro f
    by_cases hfi : f = .id
    · subst hfi
      rw [(hplain .id (by simp) (by simp)).2] at g1
      refine storable_of_decoded env .id (m .id) (ht .id) hid g1 ?_ ?_ ?_
      · cases m .id <;> rfl
      · intro _ hm
        rw [hm] at hid
        simp [encode, escape, replaceC] at hid
        exact hidn hid
      · intro l hl
        have := ht .id
        rw [hl] at this
        simp [HasType] at this
    · by_cases hcu : f = .created ∨ f = .updated
      · rcases hcu with rfl | rfl <;> (simp only [SymlinkStorable])
      · have hford : f ∈ order := by revert hfi; cases f <;> decide
        obtain ⟨e, he1, he2⟩ := columns_columnOf env m [h] f order cols hc hford
        have := g2 f hfi
        rw [he1] at this
        obtain ⟨d, hd1, hd2⟩ := this
        rw [(hplain f (fun h => hcu (.inl h)) (fun h => hcu (.inr h))).2] at hd2
        exact storable_of_decoded env f (m f) (ht f) he2 hd1 hd2.symm (fun h => absurd h hfi)
          (fun l hl => by
            have hfe : f = .errors := by
              have := ht f
              rw [hl] at this
              cases f <;> simp [HasType] at this
              rfl
            subst hfe
            exact herr l hl)

theorem splitC_last {sep : Char} {b : Str} (h : sep ∉ b) : ∀ a : Str, splitC sep (a ++ sep :: b) = splitC sep a ++ [b] := by
  intro a
  induction a with
  | nil => simp [splitC, splitC_of_not_mem h]
  | cons c cs ih =>
    simp only [List.cons_append, splitC, ih]
    split
    · rfl
    · cases hs : splitC sep cs with
      | nil => exact absurd hs (splitC_ne_nil _ _)
      | cons w ws => rfl

theorem last_split {c : Char} : ∀ {s : Str}, c ∈ s → ∃ a b, s = a ++ c :: b ∧ c ∉ b := by
  intro s
  induction s with
  | nil => simp
  | cons x xs ih =>
    intro h
    by_cases hx : c ∈ xs
    · obtain ⟨a, b, rfl, hb⟩ := ih hx
      exact ⟨x :: a, b, rfl, hb⟩
    · rcases List.mem_cons.1 h with rfl | h
      · exact ⟨[], xs, rfl, hx⟩
      · exact absurd h hx

theorem joinC_snoc (sep : Char) (h : Str) : ∀ {ws : List Str}, ws ≠ [] → joinC sep (ws ++ [h]) = joinC sep ws ++ sep :: h
  | [], hw => absurd rfl hw
  | [w], _ => rfl
  | w :: x :: ws, _ => by
    have := joinC_snoc sep h (ws := x :: ws) (by simp)
    simp only [List.cons_append, joinC, List.append_assoc] at this ⊢
    rw [this]

theorem mem_joinC_of {sep c : Char} : ∀ {ws : List Str} {w : Str}, w ∈ ws → c ∈ w → c ∈ joinC sep ws
  | [], _, hw, _ => by simp at hw
  | [x], w, hw, hc => by simp at hw; subst hw; exact hc
  | x :: y :: ws, w, hw, hc => by
    simp only [joinC, List.mem_append, List.mem_cons]
    rcases List.mem_cons.1 hw with rfl | hw
    · exact .inl hc
    · exact .inr (.inr (mem_joinC_of hw hc))

theorem hrColumn_ne {m : Meta} {h : Str} (hh : hrColumn m = .ok h) : h ≠ [] := by
  unfold hrColumn at hh
  split at hh
  · next i _ =>
    intro h0
    subst h0
    have := escape_ok (isName := false) (hr_not_mem i (c := '|') (by decide)) (hr_not_mem i (c := '!') (by decide)) (by simp)
    rw [this] at hh
    simp only [Except.ok.injEq] at hh
    have := congrArg List.length hh
    simp [length_replaceC] at this
    exact hr_ne_nil i this
  · simp only [Except.ok.injEq] at hh; subst hh; simp

/-- **C17**, exactly when it holds: the link has the three components if and only if the id is not the empty text and no error message
has a slash. -/
theorem C17_three_components_iff (env : Env) (m : Meta) (ht : WellTyped m) (name : Str) (hn : IsName name)
    (p : Pure) (hp : asSymlink env m (some name) = .ok p) :
    (∃ id data, splitC '/' p.str = [name, id, data] ∧ id ≠ [] ∧ lit ".mdv6." <+: data) ↔
    m .id ≠ .str [] ∧ ∀ l, m .errors = .strs l → ∀ x ∈ l, '/' ∉ x := by
  constructor
  · rintro ⟨id', data, hs, hid', hdat⟩
    unfold asSymlink at hp
    cases h1 : encode env .id (m .id) with
    | error e => simp [h1] at hp
    | ok id =>
    cases h2 : columns env m order with
    | error e => simp [h1, h2] at hp
    | ok cols =>
    obtain ⟨h, hh, hh1, hh2⟩ := hrColumn_ok m
    have hhne := hrColumn_ne hh
    simp only [h1, h2, hh, Except.ok.injEq] at hp
    have hidc := (encode_chars env .id _ (ht .id) _ h1).1 (by decide)
    have hname := parse_single name hn
    have hroot : id ≠ [] := by
      rintro rfl
      have habs : (parse ([] ++ '/' :: dataText (cols ++ [h]))).root = ['/'] := by
        unfold parse
        simp [dataText, lit]
      obtain ⟨cs, hcs⟩ : ∃ cs, parse ([] ++ '/' :: dataText (cols ++ [h])) = ⟨['/'], cs⟩ := by
        generalize parse ([] ++ '/' :: dataText (cols ++ [h])) = q at habs
        obtain ⟨r, cs⟩ := q
        exact ⟨cs, by simp at habs; simp [habs]⟩
      rw [hcs, hname] at hp
      simp [Pure.join] at hp
      subst hp
      have : Pure.str ⟨['/'], cs⟩ = '/' :: joinC '/' cs := by simp [Pure.str]
      rw [this] at hs
      have h' := splitC_append_sep (sep := '/') (w := []) (t := joinC '/' cs) (by simp)
      simp only [List.nil_append] at h'
      rw [h'] at hs
      simp only [List.cons.injEq] at hs
      exact hn.1 hs.1.symm
    refine ⟨?_, ?_⟩
    · intro hm
      rw [hm] at h1
      simp [encode, escape, replaceC] at h1
      exact hroot h1
    · intro l hl x hx hsl
      -- the data text has a slash
      have hcne : cols ≠ [] := by
        rintro rfl
        obtain ⟨e, he, -⟩ := columns_columnOf env m [] .size order [] h2 (by decide)
        simp [columnOf] at he
      have hE : '/' ∈ joinC '.' cols := by
        obtain ⟨e, he1, he2⟩ := columns_columnOf env m [] .errors order cols h2 (by decide)
        rw [hl] at he2
        simp [encode] at he2
        rw [List.append_nil] at he1
        have hmem : e ∈ cols := by
          unfold columnOf at he1
          rw [Option.map_eq_some_iff] at he1
          obtain ⟨q, hq1, rfl⟩ := he1
          exact (List.of_mem_zip (List.mem_of_find?_eq_some hq1)).2
        exact mem_joinC_of hmem (he2 ▸ mem_joinC_of hx hsl)
      obtain ⟨A, B, hAB, hB⟩ := last_split hE
      have hD : dataText (cols ++ [h]) = (lit ".mdv6." ++ A) ++ '/' :: (B ++ '.' :: h) := by
        unfold dataText
        rw [joinC_snoc '.' h hcne, hAB]
        simp
      have hB' : '/' ∉ B ++ '.' :: h := by
        simp only [List.mem_append, List.mem_cons, not_or]
        exact ⟨hB, by decide, hh1⟩
      have hsplit : splitC '/' (id ++ '/' :: dataText (cols ++ [h])) = id :: (splitC '/' (lit ".mdv6." ++ A) ++ [B ++ '.' :: h]) := by
        rw [splitC_append_sep hidc.1, hD, splitC_last hB']
      have hfirst : ∃ w ws, splitC '/' (lit ".mdv6." ++ A) = (lit ".mdv6." ++ w) :: ws := by
        obtain ⟨w, ws, hw⟩ : ∃ w ws, splitC '/' A = w :: ws := by
          cases hA : splitC '/' A with
          | nil => exact absurd hA (splitC_ne_nil _ _)
          | cons w ws => exact ⟨w, ws, rfl⟩
        refine ⟨w, ws, ?_⟩
        simp [lit, splitC, hw]
      obtain ⟨w, ws, hw⟩ := hfirst
      have hcomps : ∃ mid, parse (id ++ '/' :: dataText (cols ++ [h])) = ⟨[], id :: (lit ".mdv6." ++ w) :: (mid ++ [B ++ '.' :: h])⟩ := by
        have hr : (parse (id ++ '/' :: dataText (cols ++ [h]))).root = [] := by
          unfold parse
          dsimp only
          cases id with
          | nil => exact absurd rfl hroot
          | cons c cs =>
            have hc : c ≠ '/' := fun e => hidc.1 (by rw [e]; simp)
            split <;> rename_i he <;> (try rfl) <;> simp at he <;> exact absurd he.1 hc
        have hc : (parse (id ++ '/' :: dataText (cols ++ [h]))).comps =
            id :: (lit ".mdv6." ++ w) :: (ws.filter (fun w => decide (w ≠ [] ∧ w ≠ ['.'])) ++ [B ++ '.' :: h]) := by
          unfold parse
          dsimp only
          rw [hsplit, hw]
          have e1 : id ≠ [] ∧ id ≠ ['.'] := ⟨hroot, fun e => hidc.2 (by rw [e]; simp)⟩
          have e2 : lit ".mdv6." ++ w ≠ [] ∧ lit ".mdv6." ++ w ≠ ['.'] := by simp [lit]
          have e3 : B ++ '.' :: h ≠ [] ∧ B ++ '.' :: h ≠ ['.'] := by
            refine ⟨by simp, fun e => ?_⟩
            have := congrArg List.length e
            have hl : 0 < h.length := List.length_pos_iff.2 hhne
            simp at this
            omega
          generalize lit ".mdv6." ++ w = u at e2 ⊢
          generalize B ++ '.' :: h = v at e3 ⊢
          simp only [List.cons_append, List.filter_cons, List.filter_append, decide_eq_true e1, decide_eq_true e2,
            decide_eq_true e3, if_true, List.filter_nil]
        refine ⟨ws.filter (fun w => decide (w ≠ [] ∧ w ≠ ['.'])), ?_⟩
        rw [← hc]
        generalize parse (id ++ '/' :: dataText (cols ++ [h])) = q at hr ⊢
        obtain ⟨r, cs⟩ := q
        simp at hr
        simp [hr]
      obtain ⟨mid, hmid⟩ := hcomps
      have hcl : ∀ c ∈ (parse (id ++ '/' :: dataText (cols ++ [h]))).comps, '/' ∉ c := fun c hc => splitC_not_mem '/' _ c (List.mem_filter.1 hc).1
      rw [hmid] at hcl
      rw [hmid, hname] at hp
      simp [Pure.join] at hp
      subst hp
      have hstr : Pure.str ⟨[], name :: id :: (lit ".mdv6." ++ w) :: (mid ++ [B ++ '.' :: h])⟩ =
          joinC '/' (name :: id :: (lit ".mdv6." ++ w) :: (mid ++ [B ++ '.' :: h])) := by simp [Pure.str]
      rw [hstr, splitC_joinC (by simp) (by
        intro c hc
        rcases List.mem_cons.1 hc with rfl | hc
        · exact hn.2.2
        · exact hcl c hc)] at hs
      have := congrArg List.length hs
      simp at this
  · rintro ⟨h1, h2⟩
    obtain ⟨id, data, h3, h4, h5, -⟩ := C17_three_components_partial env m ht name hn h1 h2 p hp
    exact ⟨id, data, h3, h4, h5⟩

/-! ## Checksums -/

/-- The hexadecimal digit of a value, small or capital. -/
def IsDigit (c : Char) (d : Nat) : Prop := (lit "0123456789abcdef")[d]? = some c ∨ (lit "0123456789ABCDEF")[d]? = some c

instance (c : Char) (d : Nat) : Decidable (IsDigit c d) := by unfold IsDigit; infer_instance

/-- A text of pairs of digits, with space between the pairs, and the bytes that it is. -/
inductive HexText : Str → Bytes → Prop
  | done : HexText [] []
  | space {c : Char} {s : Str} {b : Bytes} (hc : c ∈ lit " \t\n\r\x0b\x0c") (h : HexText s b) : HexText (c :: s) b
  | pair {c d : Char} {x y : Nat} {s : Str} {b : Bytes} (hc : IsDigit c x) (hd : IsDigit d y) (h : HexText s b) :
      HexText (c :: d :: s) (UInt8.ofNat (16 * x + y) :: b)

theorem hexVal_iff (c : Char) (d : Nat) : hexVal? c = some d ↔ IsDigit c d := by
  have key : ∀ n : Fin 128, ∀ d : Fin 16, hexVal? (Char.ofNat n) = some d.1 ↔ IsDigit (Char.ofNat n) d := by decide +kernel
  constructor
  · intro h
    have hn : c.toNat < 128 ∧ d < 16 := by
      unfold hexVal? at h
      dsimp only at h
      split at h
      · simp at h; omega
      · split at h
        · simp at h; omega
        · split at h
          · simp at h; omega
          · cases h
    have := (key ⟨c.toNat, hn.1⟩ ⟨d, hn.2⟩).1
    rw [show Char.ofNat (⟨c.toNat, hn.1⟩ : Fin 128).1 = c from Char.ofNat_toNat c] at this
    exact this h
  · intro h
    have hd : d < 16 := by
      rcases h with h | h <;> exact (List.getElem?_eq_some_iff.1 h).1
    have hall : ∀ d : Fin 16, ∀ c ∈ (lit "0123456789abcdef")[d.1]?.toList ++ (lit "0123456789ABCDEF")[d.1]?.toList,
        hexVal? c = some d.1 := by decide +kernel
    refine hall ⟨d, hd⟩ c ?_
    rcases h with h | h <;> simp [h]

theorem ws_iff (c : Char) : isWs c = true ↔ c ∈ lit " \t\n\r\x0b\x0c" := by
  simp [isWs, lit, or_assoc]

theorem fromHex_iff (s : Str) (b : Bytes) : fromHex s = some b ↔ HexText s b := by
  constructor
  · intro h
    induction s using fromHex.induct generalizing b with
    | case1 => simp [fromHex] at h; subst h; exact .done
    | case2 c hc => simp [fromHex, hc] at h; subst h; exact .space ((ws_iff c).1 hc) .done
    | case3 c hc => simp [fromHex, hc] at h
    | case4 c d r hc ih =>
      rw [fromHex, if_pos hc] at h
      exact .space ((ws_iff c).1 hc) (ih b h)
    | case5 c d r hc x y hy hx ih =>
      rw [fromHex, if_neg hc, hx, hy] at h
      dsimp only at h
      cases hr : fromHex r with
      | none => rw [hr] at h; cases h
      | some bs =>
        rw [hr] at h
        cases h
        exact .pair ((hexVal_iff c x).1 hx) ((hexVal_iff d y).1 hy) (ih bs hr)
    | case6 c d r hc hno =>
      rw [fromHex, if_neg hc] at h
      cases hx : hexVal? c with
      | none => rw [hx] at h; cases h
      | some x =>
        cases hy : hexVal? d with
        | none => rw [hx, hy] at h; cases h
        | some y => exact absurd hy (hno x y hx)
  · intro h
    induction h with
    | done => simp [fromHex]
    | @space c s b hc h ih =>
      have hw := (ws_iff c).2 hc
      cases s with
      | nil => simp [fromHex] at ih; simp [fromHex, hw, ih]
      | cons d r => rw [fromHex, if_pos hw]; exact ih
    | @pair c d x y s b hc hd h ih =>
      have hx := (hexVal_iff c x).2 hc
      have hy := (hexVal_iff d y).2 hd
      have hw : ¬ isWs c = true := by
        intro hw
        rw [ws_iff] at hw
        have : ∀ c ∈ lit " \t\n\r\x0b\x0c", hexVal? c = none := by decide +kernel
        rw [this c hw] at hx
        cases hx
      rw [fromHex, if_neg hw, hx, hy, ih]
      rfl

/-- **C18**: a checksum is read exactly if its column is pairs of hexadecimal digits, and then it is those bytes; anything else raises
`ValueError`. -/
theorem C18_checksum (n : Int) (c : Str) (hc : c ≠ ['#']) :
    (∀ b, decode .checksum c n = .ok (.bytes b) ↔ HexText c b) ∧
    ((∀ b, ¬ HexText c b) → decode .checksum c n = .error .valueError) := by
  unfold decode
  rw [if_neg hc]
  dsimp only
  cases h : fromHex c with
  | none =>
    refine ⟨fun b => ⟨fun e => by (cases e), fun hb => ?_⟩, fun _ => rfl⟩
    rw [← fromHex_iff, h] at hb
    cases hb
  | some b' =>
    refine ⟨fun b => ?_, fun hno => absurd ((fromHex_iff c b').1 h) (hno b')⟩
    rw [← fromHex_iff, h]
    simp

example : HexText (lit "0f A0") [15, 160] := by
  have h1 : IsDigit '0' 0 ∧ IsDigit 'f' 15 ∧ IsDigit 'A' 10 := by decide
  exact .pair h1.1 h1.2.1 (.space (by decide) (.pair h1.2.2 h1.1 .done))

end Verif.Symlink
