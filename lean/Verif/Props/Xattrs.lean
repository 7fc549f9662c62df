import Verif.Lemmas.Xattrs
import Verif.Lemmas.Samples

/-!
# C12 – C14: metadata as extended attributes, timestamps
-/

namespace Verif.Xattrs
open Verif Verif.Spec

/-! ## C12 -/

/-- **C12**, what exactly happens: for every well typed metadata object and every prefix, writing
the attributes and reading them back succeeds, and every field comes back as `xattrReadBack` says. -/
theorem C12_xattrs_read_back (env : Env) (hp : ParsesIso env) (m : Meta) (ht : WellTyped m)
    (pre : Option Str) :
    ∃ xs o, asXattrs env m pre = .ok xs ∧ fromXattrs env xs pre = .ok o ∧
      o.Shows env (fun f => xattrReadBack f (m f)) := by
  obtain ⟨xs, h1, h2⟩ := kwargs_attrs env pre m ht Field.all
  obtain ⟨o, h3, h4, _⟩ := mkMeta_shows env (kwOf (args m) Field.all) (fun f => xattrReadBack f (m f))
    (dictGet_self_kwOf _ _) (by
      intro f
      rw [dictGet_kwOf _ _ _ Field.nodup_all, if_pos f.mem_all]
      exact argOK env hp f (m f) (ht f))
  exact ⟨xs, o, h1, by simp [fromXattrs, h2, h3], h4⟩

/-- **C12**, the part that holds, with the exact guard: a well typed metadata object survives if and
only if every field is storable.  Missing from the full claim: empty texts, empty checksums, numeric
text as `user_id`, and error messages that are empty or contain a semicolon. -/
theorem C12_xattrs_round_trip_partial (env : Env) (hp : ParsesIso env) (m : Meta)
    (ht : WellTyped m) (pre : Option Str) :
    (∃ xs o, asXattrs env m pre = .ok xs ∧ fromXattrs env xs pre = .ok o ∧ o.Shows env m) ↔
      ∀ f, XattrStorable f (m f) := by
  obtain ⟨xs, o, h1, h2, h3⟩ := C12_xattrs_read_back env hp m ht pre
  constructor
  · rintro ⟨xs', o', h1', h2', h3'⟩ f
    rw [h1] at h1'; cases h1'
    rw [h2] at h2'; cases h2'
    have := (h3 f).symm.trans (h3' f)
    simp only [Except.ok.injEq] at this
    exact (xattrReadBack_eq_iff f _ (ht f)).1 this
  · intro hs
    refine ⟨xs, o, h1, h2, fun f => ?_⟩
    rw [h3 f]
    exact congrArg _ ((xattrReadBack_eq_iff f _ (ht f)).2 (hs f))

/-- **C12 is false**: the text user id `12` comes back as the number 12, an error message with a
semicolon comes back as two, and an empty name is lost. -/
theorem C12_xattrs_counterexample (env : Env) (hp : ParsesIso env) (pre : Option Str) :
    ∃ m xs o, WellTyped m ∧ asXattrs env m pre = .ok xs ∧ fromXattrs env xs pre = .ok o ∧
      m .user_id = .str (lit "12") ∧ o.get env .user_id = .ok (.int 12) ∧
      m .errors = .strs [lit "a;b"] ∧ o.get env .errors = .ok (.strs [lit "a", lit "b"]) ∧
      m .name = .str [] ∧ o.get env .name = .ok .none := by
  let m : Meta := fun f => if f = .user_id then .str (lit "12") else if f = .errors then
        .strs [lit "a;b"] else if f = .name then .str [] else sampleMeta f
  have ht : WellTyped m := by
    intro f
    have := sampleMeta_wellTyped f
    cases f <;> simp_all [HasType, m]
  obtain ⟨xs, o, h1, h2, h3⟩ := C12_xattrs_read_back env hp m ht pre
  exact ⟨m, xs, o, ht, h1, h2, rfl, h3 .user_id, rfl, h3 .errors, rfl, h3 .name⟩

example : WellTyped sampleMeta ∧ (∀ f, XattrStorable f (sampleMeta f)) ∧ ParsesIso sampleEnv := by
  refine ⟨sampleMeta_wellTyped, ?_, sampleEnv_parses⟩
  intro f
  cases f <;> simp [sampleMeta, XattrStorable] <;> decide

/-! ## C13 -/

/-- **C13**, the part that holds: if all attribute names are valid UTF-8, metadata read under a
(non-empty) prefix depends only on the attributes whose name starts with that prefix and a dot.
Missing from the full claim: attribute names that are not UTF-8. -/
theorem C13_prefix_isolation_partial (env : Env) (p : Str) (hp : p ≠ []) (xs ys : Attrs)
    (hx : ∀ kv ∈ xs, (utf8? kv.1).isSome) (hy : ∀ kv ∈ ys, (utf8? kv.1).isSome)
    (h : xs.filter (Under p) = ys.filter (Under p)) :
    fromXattrs env xs (some p) = fromXattrs env ys (some p) := by
  have key : ∀ zs : Attrs, (∀ kv ∈ zs, (utf8? kv.1).isSome) →
      kwargs env (some p) zs = kwargs env (some p) (zs.filter (Under p)) := by
    intro zs
    induction zs with
    | nil => intro _; rfl
    | cons kv zs ih =>
      intro hz
      obtain ⟨k, v⟩ := kv
      have hk := hz (k, v) (by simp)
      have ih := ih fun kv hkv => hz kv (by simp [hkv])
      obtain ⟨s, hs⟩ := Option.isSome_iff_exists.1 hk
      simp only at hs
      cases p with
      | nil => exact absurd rfl hp
      | cons c cs =>
        by_cases hu : ((c :: cs) ++ ['.']).isPrefixOf s = true
        · have : Under (c :: cs) (k, v) = true := by simp only [Under, hs, hu]
          rw [List.filter_cons_of_pos this]
          simp only [kwargs, ih]
        · have hd : deprefix (some (c :: cs)) s = none := by simp only [deprefix, hu]; rfl
          have : ¬Under (c :: cs) (k, v) = true := by simp only [Under, hs, hu]; simp
          rw [List.filter_cons_of_neg this]
          simp only [kwargs, text, hs, hd, ih]
  unfold fromXattrs
  rw [key xs hx, key ys hy, h]

/-- **C13 is false**: an attribute under an unrelated name that is not valid UTF-8 makes reading
fail. -/
theorem C13_prefix_isolation_counterexample (env : Env) :
    ∃ xs : Attrs, xs.filter (Under (lit "p")) = [] ∧
      fromXattrs env xs (some (lit "p")) = .error .valueError ∧
      (∃ o, fromXattrs env [] (some (lit "p")) = .ok o) := by
  refine ⟨[([255], [])], by decide +kernel, ?_, ?_⟩
  · have : utf8? [255] = none := by decide +kernel
    simp [fromXattrs, kwargs, text, this]
  · exact ⟨_, rfl⟩

/-- **C13**, the other side: everything that is written under a prefix is under that prefix, so that (with
`C13_prefix_isolation_partial`) metadata under one prefix is read as if metadata under another had never
been written, unless the other prefix starts with this one and a dot. -/
theorem C13_written_under (env : Env) (p : Str) (hp : p ≠ []) (m : Meta) (as : Attrs)
    (h : asXattrs env m (some p) = .ok as) : ∀ kv ∈ as, Under p kv = true := by
  have key : ∀ (fs : List Field) (as : Attrs), attrs env (some p) m fs = .ok as → ∀ kv ∈ as, Under p kv = true := by
    intro fs
    induction fs with
    | nil =>
      intro as h kv hkv
      simp only [attrs, Except.ok.injEq] at h
      subst h
      simp at hkv
    | cons f fs ih =>
      intro as h kv hkv
      rw [attrs] at h
      split at h
      · cases h
      · rename_i a ha
        split at h
        · cases h
        · rename_i bs hbs
          injection h with h
          subst h
          rcases List.mem_append.1 hkv with hkv | hkv
          · rw [attr] at ha
            split at ha
            · split at ha
              · injection ha with ha
                subst ha
                rw [List.mem_singleton] at hkv
                subst hkv
                have hk : Xattrs.key (some p) f = p ++ '.' :: f.toStr := by
                  cases p with
                  | nil => exact absurd rfl hp
                  | cons c cs => rfl
                simp only [Under, hk, utf8?_utf8]
                rw [List.isPrefixOf_iff_prefix]
                exact ⟨f.toStr, by simp⟩
              · cases ha
            · injection ha with ha
              subst ha
              simp at hkv
          · exact ih bs hbs kv hkv
  exact key _ as h

example : ∃ xs : Attrs, (∀ kv ∈ xs, (utf8? kv.1).isSome) ∧
    xs.filter (Under (lit "bf")) = [(utf8 (lit "bf.id"), utf8 (lit "x"))] ∧ xs.length = 3 :=
  ⟨[(utf8 (lit "bf.id"), utf8 (lit "x")), (utf8 (lit "bf2.id"), utf8 (lit "y")),
    (utf8 (lit "id"), utf8 (lit "z"))], by decide +kernel, by decide +kernel, rfl⟩

/-! ## C14 -/

/-- **C14**: the text of a timestamp determines the timestamp, it can be read back by a reader that
knows only the format, it contains none of the separators of the symlink format and never has the
length of a legacy binary timestamp. -/
theorem C14_timestamp_text :
    (∀ d d' : DateTime, d.Valid → d'.Valid → isoformat d = isoformat d' → d = d') ∧
    (∀ d : DateTime, d.Valid → readIso (isoformat d) = some d) ∧
    (∀ d : DateTime, d.Valid → ∀ c ∈ ['.', '/', '|', '!', ';', '#'], c ∉ isoformat d) ∧
    (∀ d : DateTime, d.Valid → (utf8 (isoformat d)).length ≠ 8) := by
  refine ⟨?_, readIso_isoformat, ?_, ?_⟩
  · intro d d' hd hd' h
    have := congrArg readIso h
    rw [readIso_isoformat d hd, readIso_isoformat d' hd'] at this
    simpa using this
  · intro d hd c hc
    apply isoformat_not_mem d hd <;> revert c <;> decide
  · intro d hd
    have h1 := utf8_length (isoformat d)
    have h2 := isoformat_length d hd
    omega

example : isoformat ⟨2019, 3, 1, 12, 30, 59, 250000, some 0⟩ = lit "2019-03-01T12:30:59,250000Z" ∧
    isoformat ⟨2019, 3, 1, 12, 30, 59, 0, some (-330)⟩ = lit "2019-03-01T12:30:59-05:30" := by
  decide +kernel

/-- **C13**: what is read under a prefix besides the fields are exactly the attributes under the prefix with other names, as they
are. -/
theorem C13_other_names (env : Env) (p : Str) (hp : p ≠ []) (xs : Attrs) (o : PathMeta) (h : fromXattrs env xs (some p) = .ok o)
    (n : Str) (x : PyVal) :
    (n, x) ∈ o.kwargs ↔ (∀ f : Field, f.toStr ≠ n) ∧ ∃ k v, (k, v) ∈ xs ∧ utf8? k = some (p ++ '.' :: n) ∧ x = .bytes v := by
  have hname : ∀ n : Str, Field.ofStr? n = none ↔ ∀ f : Field, f.toStr ≠ n := by
    intro n
    simp only [Field.ofStr?, List.find?_eq_none]
    constructor
    · intro h f
      have := h f f.mem_all
      simpa using this
    · intro h f _
      simpa using h f
  have key : ∀ (zs : Attrs) (l : List (Str × PyVal)), kwargs env (some p) zs = .ok l →
      ((n, x) ∈ l ∧ Field.ofStr? n = none ↔ Field.ofStr? n = none ∧ ∃ k v, (k, v) ∈ zs ∧ utf8? k = some (p ++ '.' :: n) ∧ x = .bytes v) := by
    intro zs
    induction zs with
    | nil =>
      intro l hl
      simp only [kwargs, Except.ok.injEq] at hl
      subst hl
      simp
    | cons kv zs ih =>
      intro l hl
      obtain ⟨k, v⟩ := kv
      rw [kwargs] at hl
      have hk : ∀ s, text k = .ok s ↔ utf8? k = some s := by
        intro s
        unfold text
        cases utf8? k <;> simp
      cases htx : text k with
      | error e => rw [htx] at hl; simp at hl
      | ok s =>
        rw [htx] at hl
        dsimp only at hl
        have hk := (hk s).1 htx
        have hd : deprefix (some p) s = if (p ++ ['.']).isPrefixOf s then some (s.drop (p.length + 1)) else none := by
          cases p with
          | nil => exact absurd rfl hp
          | cons a b => rfl
        rw [hd] at hl
        by_cases hpre : (p ++ ['.']).isPrefixOf s = true
        · obtain ⟨m, rfl⟩ := List.isPrefixOf_iff_prefix.1 hpre
          rw [if_pos hpre] at hl
          have hdrop : (p ++ ['.'] ++ m).drop (p.length + 1) = m := by
            rw [show p.length + 1 = (p ++ ['.']).length by simp, List.drop_left]
          rw [hdrop] at hl
          dsimp only at hl
          cases hdn : decodeNamed env m v with
          | error e => rw [hdn] at hl; simp at hl
          | ok dv =>
            rw [hdn] at hl
            dsimp only at hl
            cases hrest : kwargs env (some p) zs with
            | error e => rw [hrest] at hl; simp at hl
            | ok l' =>
              rw [hrest] at hl
              simp only [Except.ok.injEq] at hl
              subst hl
              have ih := ih l' hrest
              simp only [List.mem_cons, Prod.mk.injEq]
              constructor
              · rintro ⟨⟨rfl, rfl⟩ | hm, hn⟩
                · refine ⟨hn, k, v, .inl ⟨rfl, rfl⟩, by rw [hk]; simp, ?_⟩
                  simp only [decodeNamed, hn, Except.ok.injEq] at hdn
                  exact hdn.symm
                · obtain ⟨h1, k', v', h2, h3⟩ := ih.1 ⟨hm, hn⟩
                  exact ⟨h1, k', v', .inr h2, h3⟩
              · rintro ⟨hn, k', v', ⟨rfl, rfl⟩ | hm, h3, h4⟩
                · rw [hk] at h3
                  have : m = n := by simpa using h3
                  subst this
                  simp only [decodeNamed, hn, Except.ok.injEq] at hdn
                  exact ⟨.inl ⟨rfl, h4.trans hdn⟩, hn⟩
                · obtain ⟨h1, h2⟩ := ih.2 ⟨hn, k', v', hm, h3, h4⟩
                  exact ⟨.inr h1, h2⟩
        · rw [if_neg hpre] at hl
          rw [ih l hl]
          constructor
          · rintro ⟨h1, k', v', h2, h3⟩
            exact ⟨h1, k', v', List.mem_cons_of_mem _ h2, h3⟩
          · rintro ⟨h1, k', v', h2, h3, h4⟩
            rcases List.mem_cons.1 h2 with h2 | h2
            · cases h2
              rw [hk] at h3
              cases h3
              exfalso
              apply hpre
              rw [List.isPrefixOf_iff_prefix]
              exact ⟨n, by simp⟩
            · exact ⟨h1, k', v', h2, h3, h4⟩
  unfold fromXattrs at h
  cases hkw : kwargs env (some p) xs with
  | error e => rw [hkw] at h; simp at h
  | ok kw =>
    rw [hkw] at h
    dsimp only at h
    have ho : o.kwargs = kw.filter fun kv => (Field.ofStr? kv.1).isNone := by
      unfold mkMeta at h
      dsimp only at h
      split at h
      · simp at h
      · split at h
        · simp at h
        · split at h
          · split at h
            · cases h; rfl
            · simp at h
            · simp at h
          · split at h
            · cases h; rfl
            · simp at h
            · simp at h
          · simp at h
    rw [ho, List.mem_filter, ← hname, ← key xs kw hkw]
    simp

example : ∃ o, fromXattrs sampleEnv [(utf8 (lit "p.other"), [255, 0]), (utf8 (lit "p.size"), utf8 (lit "12"))] (some (lit "p")) = .ok o ∧
    (lit "other", .bytes [255, 0]) ∈ o.kwargs := by

  refine ⟨_, rfl, ?_⟩
  decide +kernel

/-- The names under which attributes are stored, as other programs read them. -/
def attributeNames : List (Field × Str) :=
  [(.name, lit "name"), (.size, lit "size"), (.created, lit "created"), (.updated, lit "updated"), (.checksum, lit "checksum"),
   (.checksum_cypher, lit "checksum_cypher"), (.etag, lit "etag"), (.chunksize, lit "chunksize"), (.multi, lit "multi"),
   (.parent_id, lit "parent_id"), (.id, lit "id"), (.file_id, lit "file_id"), (.old_id, lit "old_id"), (.gid, lit "gid"),
   (.user_id, lit "user_id"), (.mode, lit "mode"), (.errors, lit "errors")]

/-- **C13**: every attribute that is written has one of these names, after the prefix, and has it for a field that has a value. -/
theorem C13_names (env : Env) (p : Str) (hp : p ≠ []) (m : Meta) (as : Attrs) (h : asXattrs env m (some p) = .ok as) :
    ∀ kv ∈ as, ∃ f n, (f, n) ∈ attributeNames ∧ kv.1 = utf8 (p ++ '.' :: n) ∧ m f ≠ .none := by
  have key : ∀ (fs : List Field) (as : Attrs), attrs env (some p) m fs = .ok as →
      ∀ kv ∈ as, ∃ f n, (f, n) ∈ attributeNames ∧ kv.1 = utf8 (p ++ '.' :: n) ∧ m f ≠ .none := by
    intro fs
    induction fs with
    | nil =>
      intro as h kv hkv
      simp only [attrs, Except.ok.injEq] at h
      subst h
      simp at hkv
    | cons f fs ih =>
      intro as h kv hkv
      unfold attrs attr at h
      split at h
      · simp at h
      · rename_i a ha
        split at h
        · simp at h
        · rename_i rest hrest
          simp only [Except.ok.injEq] at h
          subst h
          rcases List.mem_append.1 hkv with hk | hk
          · split at ha
            · rename_i hm
              split at ha
              · simp only [Except.ok.injEq] at ha
                subst ha
                simp only [List.mem_singleton] at hk
                subst hk
                refine ⟨f, f.toStr, by cases f <;> decide, ?_, hm.1⟩
                cases p with
                | nil => exact absurd rfl hp
                | cons c p => rfl
              · simp at ha
            · simp only [Except.ok.injEq] at ha
              subst ha
              simp at hk
          · exact ih rest hrest kv hk
  exact key _ _ h

/-- **C12**: what has no value is refused by the encoder, and so is never written as a text. -/
theorem C12_encode_refuses (env : Env) (f : Field) (v : PyVal) (h : v = .none ∨ v = .str [] ∨ v = .bytes [] ∨ v = .strs []) :
    encode env f v = .error .typeError := by
  rcases h with rfl | rfl | rfl | rfl <;> simp [encode, PyVal.emptyIterable]

theorem text_error {b : Bytes} {e : PyErr} (h : text b = .error e) : e = .valueError := by
  unfold text at h
  split at h
  · cases h
  · cases h; rfl

/-- Whatever bytes are in an attribute that is not a timestamp, reading it either gives a value or raises `ValueError` (of which
`UnicodeDecodeError` is a kind), so one `except` clause is enough for damaged attributes. -/
theorem C12_decode_raises (env : Env) (f : Field) (hf : f ≠ .created ∧ f ≠ .updated) (b : Bytes) (e : PyErr)
    (h : decode env f b = .error e) : e = .valueError := by
  have hm : ∀ g : Str → PyVal, (text b).map g = .error e → e = .valueError := by
    intro g h
    cases ht : text b with
    | error e' => rw [ht] at h; cases h; exact text_error ht
    | ok s => rw [ht] at h; cases h
  have hi : ∀ x : Except PyErr PyVal, (x = .error e → e = .valueError) →
      (match pyIntBytes b with | some i => Except.ok (PyVal.int i) | none => x) = .error e → e = .valueError := by
    intro x hx h
    split at h
    · cases h
    · exact hx h
  have he : (Except.error .valueError : Except PyErr PyVal) = .error e → e = .valueError := by intro h; cases h; rfl
  cases f with
  | created => exact absurd rfl hf.1
  | updated => exact absurd rfl hf.2
  | checksum => cases h
  | etag =>
    simp only [decode] at h
    cases ht : text b with
    | error e' => rw [ht] at h; cases h; exact text_error ht
    | ok s =>
      rw [ht] at h
      simp only [Except.bind] at h
      unfold decodeEtag at h
      split at h
      · cases h; rfl
      · split at h
        · cases h
        · cases h; rfl
  | user_id => exact hi _ (hm _) h
  | size => exact hi _ he h
  | chunksize => exact hi _ he h
  | multi => exact hi _ he h
  | file_id => exact hi _ he h
  | gid => exact hi _ he h
  | _ => exact hm _ h

example (env : Env) : decode env .size (utf8 (lit "1.5")) = .error .valueError ∧
    decode env .id [255] = .error .valueError := ⟨by rfl, by rfl⟩

/-! ## Which texts are numbers -/

/-- One decimal digit or more, with single underscores between them, and the number that they are. -/
inductive Spec.Digits : Str → Nat → Prop
  | one (c : Char) (d : Nat) : d < 10 → c.toNat = 48 + d → Spec.Digits [c] d
  | more (s : Str) (n : Nat) (c : Char) (d : Nat) : Spec.Digits s n → d < 10 → c.toNat = 48 + d → Spec.Digits (s ++ [c]) (10 * n + d)
  | under (s : Str) (n : Nat) (c : Char) (d : Nat) : Spec.Digits s n → d < 10 → c.toNat = 48 + d →
      Spec.Digits (s ++ ['_', c]) (10 * n + d)

/-- A number: white space, a sign or none, digits, white space. -/
def Spec.IsNumber (s : Str) (i : Int) : Prop :=
  ∃ (l t r : Str) (n : Nat), (∀ c ∈ l, isWs c = true) ∧ (∀ c ∈ r, isWs c = true) ∧ Spec.Digits t n ∧
    (s = l ++ t ++ r ∧ i = n ∨ s = l ++ '+' :: t ++ r ∧ i = n ∨ s = l ++ '-' :: t ++ r ∧ i = -n)

theorem digitVal?_iff (c : Char) (d : Nat) : digitVal? c = some d ↔ d < 10 ∧ c.toNat = 48 + d := by
  unfold digitVal?
  split
  · simp; omega
  · simp; omega

theorem digitsGo_sound : ∀ (s : Str) (acc : Nat) (prev : Bool) (pre : Str) (n : Nat),
    (prev = true → Spec.Digits pre acc) → (prev = false → pre = [] ∧ acc = 0 ∨ ∃ p, pre = p ++ ['_'] ∧ Spec.Digits p acc) →
    digitsGo acc prev s = some n → Spec.Digits (pre ++ s) n := by
  intro s
  induction s with
  | nil =>
    intro acc prev pre n h1 _ h
    cases prev with
    | false => simp [digitsGo] at h
    | true => simp [digitsGo] at h; subst h; simpa using h1 rfl
  | cons c cs ih =>
    intro acc prev pre n h1 h2 h
    unfold digitsGo at h
    cases hd : digitVal? c with
    | some d =>
      rw [hd] at h
      dsimp only at h
      obtain ⟨hlt, hc⟩ := (digitVal?_iff c d).1 hd
      have hv : acc * 10 + d = 10 * acc + d := by omega
      have : Spec.Digits (pre ++ [c]) (acc * 10 + d) := by
        cases prev with
        | true => rw [hv]; exact .more _ _ _ _ (h1 rfl) hlt hc
        | false =>
          rcases h2 rfl with ⟨rfl, rfl⟩ | ⟨p, rfl, hp⟩
          · simpa using Spec.Digits.one c d hlt hc
          · rw [hv, List.append_assoc]; exact .under _ _ _ _ hp hlt hc
      have := ih _ true (pre ++ [c]) n (fun _ => this) (fun h => nomatch h) h
      simpa using this
    | none =>
      rw [hd] at h
      dsimp only at h
      split at h
      · rename_i hu
        obtain ⟨rfl, hp⟩ := hu
        have := ih _ false (pre ++ ['_']) n (fun h => nomatch h) (fun _ => .inr ⟨pre, rfl, h1 hp⟩) h
        simpa using this
      · cases h

theorem digitsGo_snoc (s : Str) : ∀ (acc : Nat) (prev : Bool) (n : Nat) (t : Str), digitsGo acc prev s = some n →
    digitsGo acc prev (s ++ t) = digitsGo n true t := by
  induction s with
  | nil =>
    intro acc prev n t h
    cases prev with
    | false => simp [digitsGo] at h
    | true => simp [digitsGo] at h; subst h; rfl
  | cons c cs ih =>
    intro acc prev n t h
    rw [List.cons_append]
    rw [digitsGo] at h ⊢
    cases hd : digitVal? c with
    | some d => rw [hd] at h; exact ih _ _ n t h
    | none =>
      rw [hd] at h
      dsimp only at h ⊢
      split at h
      · rename_i hu; rw [if_pos hu]; exact ih _ _ n t h
      · cases h

theorem digitsGo_complete {s : Str} {n : Nat} (h : Spec.Digits s n) : digitsGo 0 false s = some n := by
  induction h with
  | one c d hd hc => simp [digitsGo, (digitVal?_iff c d).2 ⟨hd, hc⟩]
  | more s n c d _ hd hc ih =>
    rw [digitsGo_snoc s 0 false n _ ih]
    simp [digitsGo, (digitVal?_iff c d).2 ⟨hd, hc⟩]; omega
  | under s n c d _ hd hc ih =>
    rw [digitsGo_snoc s 0 false n _ ih]
    have : digitVal? '_' = none := by decide
    simp [digitsGo, this, (digitVal?_iff c d).2 ⟨hd, hc⟩]; omega

theorem digits_iff (s : Str) (n : Nat) : digitsGo 0 false s = some n ↔ Spec.Digits s n :=
  ⟨fun h => by simpa using digitsGo_sound s 0 false [] n (fun h => nomatch h) (fun _ => .inl ⟨rfl, rfl⟩) h, digitsGo_complete⟩

theorem digits_ends {s : Str} {n : Nat} (h : Spec.Digits s n) :
    (∃ c t, s = c :: t ∧ (digitVal? c).isSome) ∧ ∃ c t, s = t ++ [c] ∧ (digitVal? c).isSome := by
  have dig : ∀ (c : Char) (d : Nat), d < 10 → c.toNat = 48 + d → (digitVal? c).isSome := fun c d h h' => by
    rw [(digitVal?_iff c d).2 ⟨h, h'⟩]; rfl
  induction h with
  | one c d hd hc => exact ⟨⟨c, [], rfl, dig c d hd hc⟩, c, [], rfl, dig c d hd hc⟩
  | more s n c d _ hd hc ih =>
    obtain ⟨⟨c', t, rfl, h'⟩, _⟩ := ih
    exact ⟨⟨c', t ++ [c], rfl, h'⟩, c, _, rfl, dig c d hd hc⟩
  | under s n c d _ hd hc ih =>
    obtain ⟨⟨c', t, rfl, h'⟩, _⟩ := ih
    exact ⟨⟨c', t ++ ['_', c], rfl, h'⟩, c, c' :: t ++ ['_'], by simp, dig c d hd hc⟩

theorem digit_not_ws {c : Char} (h : (digitVal? c).isSome) : isWs c = false := by
  obtain ⟨d, hd⟩ := Option.isSome_iff_exists.1 h
  obtain ⟨h1, h2⟩ := (digitVal?_iff c d).1 hd
  unfold isWs
  have key : ∀ x : Char, (x.toNat < 48 ∨ 57 < x.toNat) → c ≠ x := by rintro x hx rfl; omega
  simp [key ' ' (by decide), key '\t' (by decide), key '\n' (by decide), key '\r' (by decide), key '\x0b' (by decide), key '\x0c' (by decide)]

theorem dropWhile_all {l t : Str} (hl : ∀ c ∈ l, isWs c = true) (ht : ∀ c u, t = c :: u → isWs c = false) :
    (l ++ t).dropWhile isWs = t := by
  induction l with
  | nil =>
    cases t with
    | nil => rfl
    | cons c u => simp [ht c u rfl]
  | cons c l ih => simp [hl c (by simp)]; exact ih fun c hc => hl c (by simp [hc])

/-- Stripping takes the white space away from around a text that neither begins nor ends with it. -/
theorem strip_around {l t r : Str} (hl : ∀ c ∈ l, isWs c = true) (hr : ∀ c ∈ r, isWs c = true)
    (h1 : ∀ c u, t = c :: u → isWs c = false) (h2 : ∀ c u, t = u ++ [c] → isWs c = false) (hne : t ≠ []) : strip (l ++ t ++ r) = t := by
  unfold strip
  rw [List.append_assoc, dropWhile_all hl, List.reverse_append, dropWhile_all, List.reverse_reverse]
  · intro c hc; exact hr c (List.mem_reverse.1 hc)
  · intro c u h
    apply h2 c u.reverse
    have := congrArg List.reverse h
    simpa using this
  · intro c u h
    cases t with
    | nil => exact absurd rfl hne
    | cons c' u' => simp at h; rw [← h.1]; exact h1 c' u' rfl

theorem takeWhile_ws {s : Str} {c : Char} (h : c ∈ s.takeWhile isWs) : isWs c = true := by
  induction s with
  | nil => simp at h
  | cons d s ih =>
    rw [List.takeWhile_cons] at h
    split at h
    · rcases List.mem_cons.1 h with rfl | h
      · assumption
      · exact ih h
    · simp at h

theorem strip_parts (s : Str) : ∃ l r, (∀ c ∈ l, isWs c = true) ∧ (∀ c ∈ r, isWs c = true) ∧ s = l ++ strip s ++ r := by
  refine ⟨s.takeWhile isWs, ((s.dropWhile isWs).reverse.takeWhile isWs).reverse, ?_, ?_, ?_⟩
  · intro c hc; exact takeWhile_ws hc
  · intro c hc; exact takeWhile_ws (List.mem_reverse.1 hc)
  · unfold strip
    rw [List.append_assoc, ← List.reverse_append, List.takeWhile_append_dropWhile, List.reverse_reverse, List.takeWhile_append_dropWhile]

/-- **C12**: which user ids are taken for numbers, and for which ones: exactly white space, a sign or none, decimal digits with single
underscores between them, and white space. -/
theorem C12_number_iff (s : Str) (i : Int) : pyInt s = some i ↔ Spec.IsNumber s i := by
  have mapped : ∀ {f : Int → Int} {o : Option Nat} {i : Int}, Option.map f (do let a ← o; pure (a : Int)) = some i → ∃ n : Nat, o = some n ∧ f n = i := by
    intro f o i h
    cases o with
    | none => cases h
    | some n => cases h; exact ⟨n, rfl, rfl⟩
  have minus : isWs '-' = false := by decide
  have plus : isWs '+' = false := by decide
  constructor
  · intro h
    obtain ⟨l, r, hl, hr, hs⟩ := strip_parts s
    unfold pyInt at h
    split at h
    · rename_i t ht
      obtain ⟨n, hn, rfl⟩ := mapped h
      exact ⟨l, t, r, n, hl, hr, (digits_iff t n).1 hn, .inr (.inr ⟨by rw [← ht]; exact hs, rfl⟩)⟩
    · rename_i t ht
      obtain ⟨n, hn, rfl⟩ := mapped h
      exact ⟨l, t, r, n, hl, hr, (digits_iff t n).1 hn, .inr (.inl ⟨by rw [← ht]; exact hs, rfl⟩)⟩
    · obtain ⟨n, hn, rfl⟩ := mapped h
      exact ⟨l, strip s, r, n, hl, hr, (digits_iff _ n).1 hn, .inl ⟨hs, rfl⟩⟩
  · rintro ⟨l, t, r, n, hl, hr, hd, h⟩
    obtain ⟨⟨c, u, ht, hc⟩, c', u', ht', hc'⟩ := digits_ends hd
    have hcw := digit_not_ws hc
    have hcw' := digit_not_ws hc'
    have signed : ∀ x : Char, isWs x = false → strip (l ++ x :: t ++ r) = x :: t := by
      intro x hx
      refine strip_around hl hr ?_ ?_ (by simp)
      · intro c u h; cases h; exact hx
      · intro c'' u'' h
        rw [ht', ← List.cons_append] at h
        have := (List.append_inj' h rfl).2
        cases this; exact hcw'
    rcases h with ⟨rfl, rfl⟩ | ⟨rfl, rfl⟩ | ⟨rfl, rfl⟩
    · have : strip (l ++ t ++ r) = t := by
        refine strip_around hl hr ?_ ?_ (by rw [ht]; simp)
        · intro c u h; rw [ht] at h; cases h; exact hcw
        · intro c'' u'' h
          rw [ht'] at h
          have := (List.append_inj' h rfl).2
          cases this; exact hcw'
      unfold pyInt
      rw [this]
      have hne : c ≠ '-' ∧ c ≠ '+' := by
        constructor <;> (rintro rfl; revert hc; decide)
      split
      · cases ht; exact absurd rfl hne.1
      · cases ht; exact absurd rfl hne.2
      · rw [(digits_iff t n).2 hd]; rfl
    · unfold pyInt
      rw [signed '+' plus]
      simp [(digits_iff t n).2 hd]
    · unfold pyInt
      rw [signed '-' minus]
      simp [(digits_iff t n).2 hd]

example : Spec.IsNumber (lit " +1_0\n") 10 ∧ ¬ ∃ i, Spec.IsNumber (lit "1__0") i := by
  refine ⟨(C12_number_iff _ _).1 (by decide +kernel), ?_⟩
  rintro ⟨i, h⟩
  have h := (C12_number_iff _ _).2 h
  have : pyInt (lit "1__0") = none := by decide +kernel
  rw [this] at h
  cases h

/-- **C13**: an attribute whose name is not UTF-8 spoils reading under every prefix, and so do only those: everything else that is not
under the prefix may be taken away. -/
theorem C13_prefix_isolation_iff (env : Env) (p : Str) (hp : p ≠ []) (xs : Attrs) (hok : ∃ o, fromXattrs env (xs.filter (Under p)) (some p) = .ok o) :
    fromXattrs env xs (some p) = fromXattrs env (xs.filter (Under p)) (some p) ↔ ∀ kv ∈ xs, (utf8? kv.1).isSome := by
  constructor
  · intro h kv hkv
    obtain ⟨o, ho⟩ := hok
    rw [ho] at h
    have key : ∀ (l : Attrs) kw, kwargs env (some p) l = .ok kw → ∀ kv ∈ l, (utf8? kv.1).isSome := by
      intro l
      induction l with
      | nil => intro kw _ kv h; exact nomatch h
      | cons a r ih =>
        obtain ⟨k, v⟩ := a
        intro kw hk kv hm
        unfold kwargs at hk
        cases ht : utf8? k with
        | none => simp [text, ht] at hk
        | some s =>
          have hr : ∃ kw, kwargs env (some p) r = .ok kw := by
            simp only [text, ht] at hk
            revert hk
            cases deprefix (some p) s with
            | none => exact fun hk => ⟨kw, hk⟩
            | some k' =>
              dsimp only
              cases decodeNamed env k' v with
              | error e => exact nofun
              | ok d =>
                dsimp only
                cases hkr : kwargs env (some p) r with
                | error e => exact nofun
                | ok l => exact fun _ => ⟨l, rfl⟩
          obtain ⟨kw', hr⟩ := hr
          rcases List.mem_cons.1 hm with rfl | hm
          · simp [ht]
          · exact ih kw' hr kv hm
    unfold fromXattrs at h
    cases hk : kwargs env (some p) xs with
    | error e => rw [hk] at h; exact nomatch h
    | ok kw => exact key xs kw hk kv hkv
  · intro h
    exact C13_prefix_isolation_partial env p hp xs _ h (fun kv hkv => h kv (List.mem_filter.1 hkv).1) (by simp)

end Verif.Xattrs
