import Verif.Model.Validate
import Verif.Props.Fetch

/-!
# C91: Validating files
-/

namespace Verif.Cache
open Verif.FS

variable {etag : PyVal → Bytes → Except PyErr (Bytes × Int)}

/-- What validating a file finds in order. -/
def Accepted (C : PEnv) (etag : PyVal → Bytes → Except PyErr (Bytes × Int)) (m : Meta) (b : Bytes) : Prop :=
  if (m .etag).truthy = true then unpackTwo (m .etag) = .ok () ∧ ∃ r, etag (m .chunksize) b = .ok r
  else if (m .checksum).truthy = true then ∃ h, C.cypher (m .checksum_cypher) = .ok h ∧ m .checksum = .bytes (h b)
  else m .size = .none ∨ m .size = .int b.length

theorem validate_hoare (C : PEnv) {q : Path} {m : Meta} {b : Bytes} {d0 : Disk CObj} (hrec : d0.at_ q = some (.file b (some m)))
    (hm : metaBool m = true) : Hoare (fun d => d = d0) (C.validate etag q)
      (fun _ d => d = d0 ∧ Accepted C etag m b) (fun e d => d = d0 ∧ ((∃ n, C.F n = some e) ∨ ¬ Accepted C etag m b)) := by
  have hget : ∀ d a, d = d0 → (match d.at_ q with
      | some (.dir (some m)) | some (.file _ (some m)) => (.ok (if metaBool m then some m else none) : Except PyErr (Option Meta))
      | some (.link (some m)) => .ok (some m)
      | some (.link none) => .error .valueError
      | _ => .ok none) = .ok a → a = some m ∧ d = d0 := by
    rintro d a rfl h
    rw [hrec] at h
    simp only [hm, if_true, Except.ok.injEq] at h
    exact ⟨h.symm, rfl⟩
  have hgeterr : ∀ e d, d = d0 → (∃ n, C.F n = some e) ∨ (match d.at_ q with
      | some (.dir (some m)) | some (.file _ (some m)) => (.ok (if metaBool m then some m else none) : Except PyErr (Option Meta))
      | some (.link (some m)) => .ok (some m)
      | some (.link none) => .error .valueError
      | _ => .ok none) = .error e → d = d0 ∧ ((∃ n, C.F n = some e) ∨ ¬ Accepted C etag m b) := by
    rintro e d rfl (h | h)
    · exact ⟨rfl, .inl h⟩
    · rw [hrec] at h
      simp at h
  have G : Hoare (fun d => d = d0) (C.getMeta q) (fun a d => a = some m ∧ d = d0)
      (fun e d => d = d0 ∧ ((∃ n, C.F n = some e) ∨ ¬ Accepted C etag m b)) := .look_err hget hgeterr
  have hdata : ∀ d, d = d0 → dataAt d q = .ok b := by rintro d rfl; simp [dataAt, hrec]
  have hsize : ∀ d, d = d0 → sizeAt d q = .ok b.length := by rintro d rfl; simp [sizeAt, hrec]
  unfold PEnv.validate
  refine .bind_ G fun a => .of_pre fun ha => ?_
  subst ha
  dsimp only
  refine .ite_ (fun he => ?_) fun he => .ite_ (fun hc => ?_) fun hc => .ite_ (fun hs => ?_) fun hs => ?_
  · refine .bind_ (Q := fun r d => (∃ r, etag (m .chunksize) b = .ok r) ∧ d = d0) (.look_err ?_ ?_) fun r => .of_pre fun hr => ?_
    · intro d a hd h
      rw [hdata d hd] at h
      exact ⟨⟨a, h⟩, hd⟩
    · rintro e d hd (h | h)
      · exact ⟨hd, .inl h⟩
      · rw [hdata d hd] at h
        refine ⟨hd, .inr ?_⟩
        rw [Accepted, if_pos he]
        rintro ⟨-, r, hr⟩
        dsimp only [etagOr] at h
        rw [hr] at h
        cases h
    · cases hu : unpackTwo (m .etag) with
      | ok u =>
        refine .pure_ fun d hd => ⟨hd, ?_⟩
        rw [Accepted, if_pos he]
        exact ⟨hu, hr⟩
      | error e =>
        refine .throw_ fun d hd => ⟨hd, .inr ?_⟩
        rw [Accepted, if_pos he, hu]
        rintro ⟨h, -⟩
        cases h
  · refine .bind_ G fun a => .of_pre fun ha => ?_
    subst ha
    dsimp only
    have hA : Accepted C etag m b ↔ ∃ h, C.cypher (m .checksum_cypher) = .ok h ∧ m .checksum = .bytes (h b) := by
      rw [Accepted, if_neg he, if_pos hc]
    split
    · next e h =>
      refine .throw_ fun d hd => ⟨hd, .inr ?_⟩
      rw [hA, h]
      rintro ⟨_, h, _⟩
      cases h
    · next h hh =>
      refine .bind_ (Q := fun r d => r = .bytes (h b) ∧ d = d0) (.look_err ?_ ?_) fun r => .of_pre fun hr => ?_
      · intro d a hd h
        rw [hdata d hd] at h
        cases h
        exact ⟨rfl, hd⟩
      · rintro e d hd (h | h)
        · exact ⟨hd, .inl h⟩
        · cases h
      subst hr
      refine .bind_ G fun a => .of_pre fun ha => ?_
      subst ha
      dsimp only
      refine .ite_ (fun hx => .pure_ fun d hd => ⟨hd, hA.mpr ⟨h, hh, hx⟩⟩) fun hx => .throw_ fun d hd => ⟨hd, .inr ?_⟩
      rw [hA]
      rintro ⟨h', e1, e2⟩
      rw [hh] at e1
      cases e1
      exact hx e2
  · refine .pure_ fun d hd => ⟨hd, ?_⟩
    rw [Accepted, if_neg he, if_neg hc]
    exact .inl hs
  · have hA : Accepted C etag m b ↔ m .size = .int b.length := by
      rw [Accepted, if_neg he, if_neg hc]
      simp [hs]
    refine .bind_ (Q := fun r d => r = .int b.length ∧ d = d0) (.look_err ?_ ?_) fun r => .of_pre fun hr => ?_
    · intro d a hd h
      rw [hsize d hd] at h
      cases h
      exact ⟨rfl, hd⟩
    · rintro e d hd (h | h)
      · exact ⟨hd, .inl h⟩
      · cases h
    subst hr
    refine .bind_ G fun a => .of_pre fun ha => ?_
    subst ha
    dsimp only
    exact .ite_ (fun hx => .pure_ fun d hd => ⟨hd, hA.mpr hx⟩) fun hx => .throw_ fun d hd => ⟨hd, .inr fun h => hx (hA.mp h)⟩

/-- **C91**: validating a file changes nothing on the disk, whatever fails, and even when the file is wrong. -/
theorem C91_unchanged (C : PEnv) (q : Path) (s : Machine CObj) : (C.validate etag q s).2.disk = s.disk := by
  have H : Hoare (fun d => d = s.disk) (C.validate etag q) (fun _ d => d = s.disk) (fun _ d => d = s.disk) := by
    unfold PEnv.validate PEnv.getMeta
    refine .bind_ (Q := fun _ d => d = s.disk) (.look_ (fun _ _ h _ => h) fun _ _ h => h) fun m => ?_
    split
    · exact .throw_ fun _ h => h
    refine .ite_ (fun _ => ?_) fun _ => .ite_ (fun _ => ?_) fun _ => .ite_ (fun _ => .pure_ fun _ h => h) fun _ => ?_
    · refine .bind_ (Q := fun _ d => d = s.disk) (.look_ (fun _ _ h _ => h) fun _ _ h => h) fun _ => ?_
      split
      · exact .throw_ fun _ h => h
      · exact .pure_ fun _ h => h
    · refine .bind_ (Q := fun _ d => d = s.disk) (.look_ (fun _ _ h _ => h) fun _ _ h => h) fun now => ?_
      split
      · exact .throw_ fun _ h => h
      split
      · exact .throw_ fun _ h => h
      refine .bind_ (Q := fun _ d => d = s.disk) (.look_ (fun _ _ h _ => h) fun _ _ h => h) fun _ => ?_
      refine .bind_ (Q := fun _ d => d = s.disk) (.look_ (fun _ _ h _ => h) fun _ _ h => h) fun now => ?_
      split
      · exact .throw_ fun _ h => h
      exact .ite_ (fun _ => .pure_ fun _ h => h) fun _ => .throw_ fun _ h => h
    · refine .bind_ (Q := fun _ d => d = s.disk) (.look_ (fun _ _ h _ => h) fun _ _ h => h) fun _ => ?_
      refine .bind_ (Q := fun _ d => d = s.disk) (.look_ (fun _ _ h _ => h) fun _ _ h => h) fun now => ?_
      split
      · exact .throw_ fun _ h => h
      exact .ite_ (fun _ => .pure_ fun _ h => h) fun _ => .throw_ fun _ h => h
  have := H s rfl
  generalize C.validate etag q s = r at this ⊢
  obtain ⟨r, s'⟩ := r
  cases r <;> exact this

/-- **C91**: if no etag is recorded, validating a file returns exactly if the content has the recorded checksum, or, when no
checksum is recorded, the recorded size.  (For `accepts` no call fails.) -/
theorem C91_accepts_partial (C : PEnv) {q : Path} {m : Meta} {b : Bytes} {s : Machine CObj}
    (hrec : s.disk.at_ q = some (.file b (some m))) (hm : metaBool m = true) (he : (m .etag).truthy = false) :
    ((C.validate etag q s).1 = .ok () →
      if (m .checksum).truthy = true then ∃ h, C.cypher (m .checksum_cypher) = .ok h ∧ m .checksum = .bytes (h b)
      else m .size = .none ∨ m .size = .int b.length) ∧
    ((∀ n, C.F n = none) →
      (if (m .checksum).truthy = true then ∃ h, C.cypher (m .checksum_cypher) = .ok h ∧ m .checksum = .bytes (h b)
        else m .size = .none ∨ m .size = .int b.length) → (C.validate etag q s).1 = .ok ()) := by
  have hA : Accepted C etag m b = (if (m .checksum).truthy = true then ∃ h, C.cypher (m .checksum_cypher) = .ok h ∧ m .checksum = .bytes (h b)
      else m .size = .none ∨ m .size = .int b.length) := by
    rw [Accepted, if_neg (by rw [he]; decide)]
  rw [← hA]
  have := (validate_hoare (etag := etag) C hrec hm).result (s := s) rfl
  refine ⟨fun h => (this.1 () h).2, fun hF h => ?_⟩
  cases hr : (C.validate etag q s).1 with
  | ok a => rfl
  | error e =>
    rcases (this.2 e hr).2 with ⟨n, hn⟩ | hn
    · rw [hF] at hn; cases hn
    · exact absurd h hn

/-- **C91**: with only a size recorded a file of another size is reported as such. -/
theorem C91_size (C : PEnv) {q : Path} {m : Meta} {b : Bytes} {s : Machine CObj}
    (hrec : s.disk.at_ q = some (.file b (some m))) (hm : metaBool m = true) (he : (m .etag).truthy = false)
    (hc : (m .checksum).truthy = false) (hs : m .size ≠ .none) (hn : m .size ≠ .int b.length) (hF : ∀ n, C.F n = none) :
    (C.validate etag q s).1 = .error .sizeError := by
  simp [PEnv.validate, PEnv.getMeta, Prog.bind, Prog.look, Prog.sys, hF, hrec, hm, he, hc, hs, sizeAt, sizeVal, hn, Prog.throw]

/-- **C91**: what `_bootstrap_data` writes is what the remote sent, and when it returns it has the recorded checksum or size. -/
theorem C91_bootstrap_partial (C : PEnv) {q : Path} {m : Meta} {b : Bytes} {s s' : Machine CObj}
    (hrec : s.disk.at_ q = some (.file b (some m))) (hm : metaBool m = true) (he : (m .etag).truthy = false)
    (hrun : C.bootstrapData etag q true s = (.ok (), s')) :
    ∃ cs, C.chunks = cs.map .ok ∧ cs ≠ [] ∧ s'.disk.at_ q = some (.file cs.flatten (some m)) ∧ Accepted C etag m cs.flatten ∧
      ∀ r, r ≠ q → s'.disk.at_ r = s.disk.at_ r := by
  have H : Hoare (fun d => d = s.disk) (C.bootstrapData etag q true)
      (fun _ d => OnlyAt q s.disk d ∧ ∃ x, goodChunks C.chunks = some x ∧ C.chunks ≠ [] ∧ d.at_ q = some (.file x (some m)) ∧
        Accepted C etag m x) (fun _ _ => True) := by
    unfold PEnv.bootstrapData
    refine .bind_ (Q := fun _ d => d = s.disk) (.pure_ fun _ h => h) fun _ => ?_
    refine .bind_ ((setData_file C (W := True) (q := q) (d0 := s.disk) (b := b) (mo := some m) (fun _ _ _ => trivial) (fun _ => trivial)
      (fun _ => trivial) (fun _ => trivial) (fun _ _ _ _ _ _ => trivial)).pre ?_) fun _ => ?_
    · rintro d rfl
      exact ⟨.refl _ _, hrec⟩
    · intro s1 hs1
      obtain ⟨h1, x, m', hx, hc, hmm, hb, hd⟩ := hs1
      have := validate_hoare (etag := etag) C (d0 := s1.disk) hd hm s1 rfl
      generalize C.validate etag q s1 = r at this ⊢
      obtain ⟨r, s2⟩ := r
      cases r with
      | error e => trivial
      | ok a => exact ⟨this.1 ▸ h1, x, hx, hc, this.1 ▸ hd, this.2⟩
  obtain ⟨h1, x, hx, hc, hd, ha⟩ := (H.result (s := s) rfl).1 () (by rw [hrun])
  rw [hrun] at h1 hd
  obtain ⟨cs, hcs, rfl⟩ := goodChunks_map hx
  refine ⟨cs, hcs, ?_, hd, ha, h1⟩
  rintro rfl
  exact hc (by rw [hcs]; rfl)

example : (withFile [1, 2, 3]).at_ [['a']] = some (.file [1, 2, 3] (some (threeBytes [1]))) ∧ metaBool (threeBytes [1]) = true ∧
    ((threeBytes [1]) .etag).truthy = false ∧ (simple.validate (fun _ b => .ok (b, 1)) [['a']] ⟨withFile [1, 2, 3], 0⟩).1 = .ok () ∧
    (simple.bootstrapData (fun _ b => .ok (b, 1)) [['a']] true ⟨withFile [9], 0⟩).1 = .ok () ∧
    (simple.validate (fun _ b => .ok (b, 1)) [['a']] ⟨[([['a']], .file [9] (some (Verif.setField (threeBytes [1]) .checksum .none)))], 0⟩).1
      = .error .sizeError := by
  refine ⟨by decide, by decide, by decide, by decide +kernel, by decide +kernel, by decide +kernel⟩

/-! ### What does not hold -/

/-- A file of three bytes with an etag recorded. -/
def withEtag : Meta := Verif.setField (threeBytes [1]) .etag (.etag [7] 1)

/-- A file whose etag is not the recorded one is accepted, and nothing is noted, although a checksum that it does not have either is
recorded as well. -/
theorem C91_etag_counterexample :
    ∃ (C : PEnv) (etag : PyVal → Bytes → Except PyErr (Bytes × Int)) (q : Path) (s : Machine CObj) (m : Meta) (b c : Bytes) (n : Int),
      (∀ k, C.F k = none) ∧ s.disk.at_ q = some (.file b (some m)) ∧ m .etag = .etag c n ∧ etag (m .chunksize) b ≠ .ok (c, n) ∧
      m .checksum ≠ .bytes (C.hash b) ∧ (C.validate etag q s).1 = .ok () := by
  refine ⟨simple, fun _ b => .ok (b, 1), [['a']], ⟨[([['a']], .file [9] (some withEtag))], 0⟩, withEtag, [9], [7], 1,
    fun _ => rfl, by decide, by decide, by decide, by decide, by decide +kernel⟩

/-- A file with a wrong checksum is not marked: the attempt raises `AttributeError`, because the metadata of a primary cache cannot be
assigned to. -/
theorem C91_mark_counterexample :
    ∃ (C : PEnv) (etag : PyVal → Bytes → Except PyErr (Bytes × Int)) (q : Path) (s : Machine CObj) (m : Meta) (b : Bytes),
      (∀ k, C.F k = none) ∧ s.disk.at_ q = some (.file b (some m)) ∧ (m .etag).truthy = false ∧
      m .checksum ≠ .bytes (C.hash b) ∧ (C.validate etag q s).1 = .error .attributeError := by
  refine ⟨simple, fun _ b => .ok (b, 1), [['a']], ⟨[([['a']], .file [9] (some (threeBytes [1])))], 0⟩, threeBytes [1], [9],
    fun _ => rfl, by decide, by decide, by decide, by decide +kernel⟩

/-- **C91, exactly, for a wrong checksum**: no file with a wrong checksum is ever marked; if no call fails it is an `AttributeError`, or a
`TypeError` if the recorded errors are not a tuple. -/
theorem C91_never_marked (C : PEnv) {q : Path} {m : Meta} {b c : Bytes} {h : Bytes → Bytes} {s : Machine CObj}
    (hrec : s.disk.at_ q = some (.file b (some m))) (hm : metaBool m = true) (he : (m .etag).truthy = false)
    (hc : m .checksum = .bytes c) (hb : c ≠ []) (hy : C.cypher (m .checksum_cypher) = .ok h) (hne : h b ≠ c) (hF : ∀ n, C.F n = none) :
    (C.validate etag q s).1 = .error (match m .errors with | .strs _ => .attributeError | _ => .typeError) ∧
    (C.validate etag q s).2.disk = s.disk := by
  refine ⟨?_, C91_unchanged C q s⟩
  have h1 : ¬ (m .checksum = .bytes (h b)) := by rw [hc]; simp [Ne.symm hne]
  have ht : (m .checksum).truthy = true := by simp [hc, PyVal.truthy, hb]
  simp only [PEnv.validate, PEnv.getMeta, Prog.bind, Prog.look, Prog.sys, hF, hrec, hm, he, ht, if_true, Bool.false_eq_true, if_false, hy,
    dataAt, sumVal, h1, Prog.throw]
  rw [hc]
  unfold noteErr
  cases m .errors <;> rfl

/-- **C91**: if an etag is recorded, the file is accepted whatever its own etag is, and what is recorded besides it is not looked at. -/
theorem C91_any_etag_counterexample (C : PEnv) {q : Path} {m : Meta} {b c : Bytes} {n : Int} {r : Bytes × Int} {s : Machine CObj}
    (hrec : s.disk.at_ q = some (.file b (some m))) (hm : metaBool m = true) (he : m .etag = .etag c n)
    (hr : etag (m .chunksize) b = .ok r) (hF : ∀ n, C.F n = none) : (C.validate etag q s).1 = .ok () := by
  have ht : (m .etag).truthy = true := by simp [he, PyVal.truthy]
  simp only [PEnv.validate, PEnv.getMeta, Prog.bind, Prog.look, Prog.sys, hF, hrec, hm, ht, if_true, dataAt, etagOr, hr]
  rw [he]
  rfl

/-- **C91**: a file that was not fetched yet, a symlink with metadata, is refused as soon as an etag, a checksum or a size is recorded: with a
`TypeError`, an `AttributeError` or a `SizeError`, unless the name of the cypher is unknown. -/
theorem C91_link (C : PEnv) {q : Path} {m : Meta} {s : Machine CObj} (hrec : s.disk.at_ q = some (.link (some m))) (hF : ∀ n, C.F n = none) :
    (C.validate etag q s).1 =
      if (m .etag).truthy = true then .error .typeError
      else if (m .checksum).truthy = true then match C.cypher (m .checksum_cypher) with
        | .error e => .error e
        | .ok _ => .error .attributeError
      else if m .size = .none then .ok () else .error .sizeError := by
  by_cases he : (m .etag).truthy = true
  · simp only [PEnv.validate, PEnv.getMeta, Prog.bind, Prog.look, Prog.sys, hF, hrec, he, if_true, dataAt, etagOr]
  by_cases hc : (m .checksum).truthy = true
  · have h1 : m .checksum ≠ .none := by
      intro h
      simp [h, PyVal.truthy] at hc
    simp only [PEnv.validate, PEnv.getMeta, Prog.bind, Prog.look, Prog.sys, hF, hrec, if_neg he, hc, if_true]
    cases hy : C.cypher (m .checksum_cypher) with
    | error e => rfl
    | ok h =>
      simp only [Prog.bind, Prog.sys, hF, hrec, dataAt, sumVal, h1, if_false, Prog.throw]
      rfl
  · by_cases hs : m .size = .none
    · simp only [PEnv.validate, PEnv.getMeta, Prog.bind, Prog.look, Prog.sys, hF, hrec, if_neg he, if_neg hc, if_pos hs, Prog.pure]
    · simp only [PEnv.validate, PEnv.getMeta, Prog.bind, Prog.look, Prog.sys, hF, hrec, if_neg he, if_neg hc, if_neg hs, sizeAt, sizeVal,
        Prog.throw]

-- C91_link, C91_never_marked
example : (simple.validate etag [['a']] ⟨[([['a']], .link (some (threeBytes [1])))], 0⟩).1 = .error .attributeError ∧
    (simple.validate etag [['a']] ⟨withFile [9], 0⟩).1 = .error .attributeError := by
  refine ⟨?_, ?_⟩
  · rw [C91_link simple (m := threeBytes [1]) (by decide) fun _ => rfl]
    decide +kernel
  · have h := C91_never_marked (etag := etag) simple (q := [['a']]) (m := threeBytes [1]) (b := [9]) (c := [1]) (h := simple.hash) (s := ⟨withFile [9], 0⟩)
      (by decide) (by decide) (by decide) (by decide) (by decide) rfl (by decide) fun _ => rfl
    exact h.1

/-- **C91**: what is recorded as an etag and is not a pair ends validation with an exception: something with another number of parts with a
`ValueError`, and something that has no parts with a `TypeError`.  Two characters, two bytes or two texts are accepted. -/
theorem C91_odd_etag (C : PEnv) {q : Path} {m : Meta} {b : Bytes} {r : Bytes × Int} {s : Machine CObj}
    (hrec : s.disk.at_ q = some (.file b (some m))) (hm : metaBool m = true) (ht : (m .etag).truthy = true)
    (hr : etag (m .chunksize) b = .ok r) (hF : ∀ n, C.F n = none) :
    (∀ t, m .etag = .str t → (C.validate etag q s).1 = if t.length = 2 then .ok () else .error .valueError) ∧
    (∀ t, m .etag = .bytes t → (C.validate etag q s).1 = if t.length = 2 then .ok () else .error .valueError) ∧
    (∀ t, m .etag = .strs t → (C.validate etag q s).1 = if t.length = 2 then .ok () else .error .valueError) ∧
    (∀ n, m .etag = .int n → (C.validate etag q s).1 = .error .typeError) ∧
    ∀ d, m .etag = .dt d → (C.validate etag q s).1 = .error .typeError := by
  have key : (C.validate etag q s).1 = match unpackTwo (m .etag) with | .error e => .error e | .ok _ => .ok () := by
    simp only [PEnv.validate, PEnv.getMeta, Prog.bind, Prog.look, Prog.sys, hF, hrec, hm, ht, if_true, dataAt, etagOr, hr]
    cases unpackTwo (m .etag) <;> rfl
  rw [key]
  refine ⟨fun t h => ?_, fun t h => ?_, fun t h => ?_, fun n h => ?_, fun d h => ?_⟩ <;> rw [h] <;> unfold unpackTwo <;> dsimp only <;>
    split <;> first | rfl | (split <;> simp_all) | simp_all

example : (simple.validate (fun _ b => .ok (b, 1)) [['a']]
    ⟨[([['a']], .file [9] (some (Verif.setField (threeBytes [1]) .etag (.bytes [7]))))], 0⟩).1 = .error .valueError :=
  (C91_odd_etag simple (m := Verif.setField (threeBytes [1]) .etag (.bytes [7])) (b := [9]) (by decide) (by decide) (by decide) rfl fun _ => rfl).2.1 [7]
    (by decide)

end Verif.Cache
