import Verif.Model.Yields
import Verif.Props.Merge
import Verif.Props.Sweep
import Verif.Lemmas.Decide

/-!
# C102: What a recursive bootstrap yields
-/

namespace Verif.Yields
open Verif.Sweep Verif.Spec

/-! ## Specification -/

/-- The metadata at a path are those of the object with this id. -/
def St.holds (s : St) (p : Rel) (i : Id) : Prop := ∃ m, s.disk p = some m ∧ m .id = .str i

/-- The metadata of a remote object are as they should be. -/
def Child.Sound (c : Child) : Prop := c.id ≠ [] ∧ WellTyped c.info ∧ c.info .id = .str c.id

/-- Which object belongs at which path: according to the remote, to caches that remotes have already, and to the files that were found. -/
def claims (files : List (Rel × Option Id)) (cs : List Child) : List (Rel × Id) :=
  cs.map (fun c => (c.path, c.id)) ++ cs.filterMap (fun c => c.link.map fun p => (p, c.id)) ++
  files.filterMap fun f => f.2.map fun i => (f.1, i)

/-- No path is said to belong to two objects. -/
def Unclaimed (files : List (Rel × Option Id)) (cs : List Child) : Prop :=
  ∀ p i j, (p, i) ∈ claims files cs → (p, j) ∈ claims files cs → i = j

/-- What is on disk is well formed, and what has an id is there. -/
structure Found (files : List (Rel × Option Id)) (cs : List Child) (s : St) : Prop where
  typed : ∀ p m, s.disk p = some m → WellTyped m ∧ SomethingSet m
  files : ∀ p i, (p, some i) ∈ files → s.holds p i
  links : ∀ c ∈ cs, ∀ p, c.link = some p → s.holds p c.id

/-! ## Finding a file by its id -/

theorem lookup_mem {files : List (Rel × Option Id)} {i : Id} {p : Rel} (h : lookup files i = some p) : (p, some i) ∈ files := by
  unfold lookup at h
  simp only [Option.map_eq_some_iff] at h
  obtain ⟨f, hf, rfl⟩ := h
  have h1 := List.find?_some hf
  have h2 := List.mem_of_find?_eq_some hf
  simp only [decide_eq_true_eq] at h1
  rw [← h1]
  exact List.mem_reverse.1 h2

theorem lookup_none {files : List (Rel × Option Id)} {i : Id} : lookup files i = none ↔ ∀ p, (p, some i) ∉ files := by
  unfold lookup
  simp only [Option.map_eq_none_iff, List.find?_eq_none, List.mem_reverse, decide_eq_true_eq]
  constructor
  · intro h p hp
    exact h _ hp rfl
  · intro h f hf he
    exact h f.1 (by rw [← he]; exact hf)

/-! ## Merging -/

theorem sound_set {c : Child} (h : c.Sound) : SomethingSet c.info := by
  left
  exact ⟨.id, by decide, by rw [h.2.2]; simp⟩

theorem merged {c : Child} (hc : c.Sound) {old : Option Meta} (ho : ∀ m, old = some m → WellTyped m ∧ SomethingSet m) :
    ∃ (d : Bool) (m : Meta), updateMeta old (some c.info) = .ok (d, some m) ∧ WellTyped m ∧ SomethingSet m ∧ m .id = .str c.id := by
  cases old with
  | none => exact ⟨false, c.info, rfl, hc.2.1, sound_set hc, hc.2.2⟩
  | some o =>
    obtain ⟨h1, h2⟩ := ho o rfl
    obtain ⟨d, m, h, hdd, hm⟩ := updateMeta_spec o c.info h1 hc.2.1 h2 (sound_set hc)
    have hid : m .id = .str c.id := by
      rw [hm .id, hc.2.2]
      simp [overlay, Carries, hc.1, hc.2.2]
    exact ⟨d, m, h, merge_wellTyped o c.info h1 hc.2.1 m d hm, Or.inl ⟨.id, by decide, by rw [hid]; simp⟩, hid⟩

/-! ## The loop -/

theorem claims_path {files : List (Rel × Option Id)} {cs : List Child} {c : Child} (h : c ∈ cs) : (c.path, c.id) ∈ claims files cs := by
  simp only [claims, List.mem_append, List.mem_map]
  exact Or.inl (Or.inl ⟨c, h, rfl⟩)

theorem claims_link {files : List (Rel × Option Id)} {cs : List Child} {c : Child} {p : Rel} (h : c ∈ cs) (hl : c.link = some p) :
    (p, c.id) ∈ claims files cs := by
  simp only [claims, List.mem_append, List.mem_filterMap]
  exact Or.inl (Or.inr ⟨c, h, by simp [hl]⟩)

theorem claims_file {files : List (Rel × Option Id)} {cs : List Child} {i : Id} {p : Rel} (h : (p, some i) ∈ files) :
    (p, i) ∈ claims files cs := by
  simp only [claims, List.mem_append, List.mem_filterMap]
  exact Or.inr ⟨_, h, by simp⟩

/-- Where the cache of an object may be. -/
def Child.At (c : Child) (files : List (Rel × Option Id)) (p : Rel) : Prop :=
  c.link = some p ∨ (c.link = none ∧ p = c.path) ∨ (c.link = none ∧ c.shape = .file ∧ (p, some c.id) ∈ files)

theorem claims_at {files : List (Rel × Option Id)} {cs : List Child} {c : Child} {p : Rel} (h : c ∈ cs) (ha : c.At files p) :
    (p, c.id) ∈ claims files cs := by
  rcases ha with hl | ⟨_, rfl⟩ | ⟨_, _, hf⟩
  · exact claims_link h hl
  · exact claims_path h
  · exact claims_file hf

theorem cacheInit_keeps {E : Env} {files : List (Rel × Option Id)} {all : List Child} {c : Child} {s s' : St} {p : Rel} (hs : c.Sound)
    (hu : Unclaimed files all) (hm : c ∈ all) (ht : ∀ p m, s.disk p = some m → WellTyped m ∧ SomethingSet m)
    (h : E.cacheInit c s = (.ok p, s')) :
    p = c.path ∧ s'.holds c.path c.id ∧ (∀ p m, s'.disk p = some m → WellTyped m ∧ SomethingSet m) ∧
    ∀ q i, (q, i) ∈ claims files all → s.holds q i → s'.holds q i := by
  obtain ⟨d, m, he, hw, hset, hid⟩ := merged hs (ht c.path)
  unfold Env.cacheInit at h
  rw [he] at h
  cases hF : E.F s.tick with
  | some e => rw [hF] at h; simp at h
  | none =>
    rw [hF] at h
    simp only [Prod.mk.injEq, Except.ok.injEq] at h
    obtain ⟨rfl, rfl⟩ := h
    have hh : (s.put c.path (some m)).holds c.path c.id := ⟨m, by simp [St.put], hid⟩
    refine ⟨rfl, hh, ?_, ?_⟩
    · intro p m' hp
      simp only [St.put] at hp
      split at hp
      · cases hp; exact ⟨hw, hset⟩
      · exact ht p m' hp
    · intro q i hq hqi
      by_cases hqp : q = c.path
      · subst hqp
        cases hu _ _ _ hq (claims_path hm)
        exact hh
      · obtain ⟨m', h1, h2⟩ := hqi
        exact ⟨m', by simp [St.put, hqp, h1], h2⟩

theorem one_keeps {E : Env} {files : List (Rel × Option Id)} {all : List Child} {c : Child} {s s' : St} {p : Rel} (hs : c.Sound)
    (hu : Unclaimed files all) (hm : c ∈ all) (hf : Found files all s) (h : E.one files c s = (.ok p, s')) :
    c.At files p ∧ s'.holds p c.id ∧ Found files all s' ∧ ∀ q i, (q, i) ∈ claims files all → s.holds q i → s'.holds q i := by
  have init : E.cacheInit c s = (.ok p, s') → c.link = none →
      c.At files p ∧ s'.holds p c.id ∧ Found files all s' ∧ ∀ q i, (q, i) ∈ claims files all → s.holds q i → s'.holds q i := by
    intro h hl
    obtain ⟨rfl, h1, h2, h3⟩ := cacheInit_keeps hs hu hm hf.typed h
    exact ⟨Or.inr (Or.inl ⟨hl, rfl⟩), h1, ⟨h2, fun q i hq => h3 q i (claims_file hq) (hf.files q i hq),
      fun c' hc' q hq => h3 q _ (claims_link hc' hq) (hf.links c' hc' q hq)⟩, h3⟩
  unfold Env.one at h
  cases hl : c.link with
  | some q =>
    rw [hl] at h
    simp only [Prod.mk.injEq, Except.ok.injEq] at h
    obtain ⟨rfl, rfl⟩ := h
    exact ⟨Or.inl hl, hf.links c hm _ hl, hf, fun _ _ _ h => h⟩
  | none =>
    rw [hl] at h
    dsimp only at h
    cases hd : c.file with
    | false => rw [hd, if_neg (by simp)] at h; exact init h hl
    | true =>
      rw [hd, if_pos rfl] at h
      cases hk : lookup files c.id with
      | none => rw [hk] at h; exact init h hl
      | some q =>
        rw [hk] at h
        dsimp only at h
        have hq := lookup_mem hk
        unfold Env.moved at h
        cases hdk : s.disk q with
        | none => rw [hdk] at h; simp at h
        | some m =>
          rw [hdk] at h
          dsimp only at h
          cases hum : updateMeta (some m) (some c.info) with
          | error e => rw [hum] at h; simp at h
          | ok r =>
            rw [hum] at h
            dsimp only at h
            by_cases hr : r.1 = true
            · rw [if_pos hr] at h; exact init h hl
            · rw [if_neg hr] at h
              simp only [Prod.mk.injEq, Except.ok.injEq] at h
              obtain ⟨rfl, rfl⟩ := h
              exact ⟨Or.inr (Or.inr ⟨hl, of_decide_eq_true hd, hq⟩), hf.files _ _ hq, hf, fun _ _ _ h => h⟩

theorem loop_keeps {E : Env} {files : List (Rel × Option Id)} {all : List Child} (hu : Unclaimed files all) (hs : ∀ c ∈ all, c.Sound) :
    ∀ (cs : List Child) (s : St), (∀ c ∈ cs, c ∈ all) → Found files all s → (E.loop files cs s).2.1 = none →
    (E.loop files cs s).1.length = cs.length ∧
    (∀ x ∈ cs.zip (E.loop files cs s).1, x.1.At files x.2 ∧ (E.loop files cs s).2.2.holds x.2 x.1.id) ∧
    Found files all (E.loop files cs s).2.2 ∧
    ∀ q i, (q, i) ∈ claims files all → s.holds q i → (E.loop files cs s).2.2.holds q i := by
  intro cs
  induction cs with
  | nil => intro s _ hf _; exact ⟨rfl, by simp [Env.loop], hf, fun _ _ _ h => h⟩
  | cons c cs ih =>
    intro s hsub hf hn
    unfold Env.loop at hn ⊢
    cases ho : E.one files c s with
    | mk r s' =>
      rw [ho] at hn
      cases r with
      | error e => simp at hn
      | ok p =>
        dsimp only at hn ⊢
        obtain ⟨h1, h2, h3, h4⟩ := one_keeps (hs c (hsub c (by simp))) hu (hsub c (by simp)) hf ho
        obtain ⟨i0, i1, i2, i3⟩ := ih s' (fun c hc => hsub c (by simp [hc])) h3 hn
        refine ⟨by simp [i0], ?_, i2, fun q i hq hi => i3 q i hq (h4 q i hq hi)⟩
        intro x hx
        rw [List.zip_cons_cons, List.mem_cons] at hx
        rcases hx with rfl | hx
        · exact ⟨h1, i3 _ _ (claims_at (hsub c (by simp)) h1) h2⟩
        · exact i1 x hx

/-! ## The order -/

theorem place_perm (c : Child) (l : List Child) : (place c l).Perm (c :: l) := by
  induction l with
  | nil => exact .refl _
  | cons d ds ih =>
    unfold place
    split
    · exact (List.Perm.cons d ih).trans (List.Perm.swap c d ds)
    · exact .refl _

theorem byLength_perm (l : List Child) : (byLength l).Perm l := by
  induction l with
  | nil => exact .refl _
  | cons c cs ih => exact (place_perm c _).trans (ih.cons c)

theorem place_paths (c : Child) (l : List Child) : (place c l).map Child.path = Sweep.place c.path (l.map Child.path) := by
  induction l with
  | nil => rfl
  | cons d ds ih =>
    unfold place
    simp only [List.map_cons, Sweep.place]
    split
    · simp [ih]
    · simp

theorem byLength_paths (l : List Child) : (byLength l).map Child.path = Sweep.byLength (l.map Child.path) := by
  induction l with
  | nil => rfl
  | cons c cs ih => simp only [byLength, place_paths, ih, List.map_cons, Sweep.byLength]

/-- C102: without `sparse` every object of the remote is gone through once, each after the directories that it is in; otherwise the directories and
the wanted files are, in the order of the remote, and nothing else. -/
theorem C102_order (rcs : List Child) :
    (gen false rcs).Perm rcs ∧
    (gen false rcs).Pairwise (fun a b => ¬ (b.path ≠ [] ∧ b.path <+: a.path ∧ b.path ≠ a.path)) ∧
    gen true rcs = rcs.filter fun c => c.shape = .dir ∨ (c.shape = .file ∧ c.wanted) := by
  refine ⟨byLength_perm rcs, ?_, ?_⟩
  · have h := (C99_parents_first (rcs.map Child.path)).2
    rw [← byLength_paths, List.pairwise_map] at h
    exact h
  · simp only [gen, if_pos]
    congr 1
    funext c
    simp [Child.dir, Child.file]

/-! ## What a run does when no call fails -/

/-- A new cache is made: the remote has none yet, and it is no file, or a file that is nowhere or is another version of what is there. -/
def Child.Makes (c : Child) (files : List (Rel × Option Id)) (s : St) : Prop :=
  c.link = none ∧ (c.shape ≠ .file ∨ ∀ q, (q, some c.id) ∈ files → ∃ m, s.disk q = some m ∧ FileDiffers m c.info)

/-- The cache of an object: the one that it has, a new one, or that of the file with its id. -/
def Child.Given (c : Child) (files : List (Rel × Option Id)) (s : St) (p : Rel) : Prop :=
  c.link = some p ∨ (c.Makes files s ∧ p = c.path) ∨ (c.link = none ∧ ¬ c.Makes files s ∧ (p, some c.id) ∈ files)

/-- The metadata after those of the remote were added. -/
def Added (old : Option Meta) (new m : Meta) : Prop :=
  match old with
  | none => m = new
  | some o => (FileDiffers o new → ∀ f, f ≠ .old_id → m f = if new f = .none ∨ Carries (new f) then new f else o f) ∧
    (¬ FileDiffers o new → ∀ f, f ≠ .old_id → m f = if Carries (new f) then new f else o f)

theorem added {c : Child} (hc : c.Sound) {old : Option Meta} (ho : ∀ m, old = some m → WellTyped m ∧ SomethingSet m) :
    ∃ (d : Bool) (m : Meta), updateMeta old (some c.info) = .ok (d, some m) ∧ Added old c.info m ∧
    ∀ o, old = some o → (d = true ↔ FileDiffers o c.info) := by
  cases old with
  | none => exact ⟨false, c.info, rfl, rfl, fun o h => nomatch h⟩
  | some o =>
    obtain ⟨h1, h2⟩ := ho o rfl
    obtain ⟨d, m, h, hd⟩ := C24_different_iff o c.info h1 hc.2.1 h2 (sound_set hc)
    refine ⟨d, m, h, ⟨?_, ?_⟩, fun o' ho' => by cases ho'; exact hd⟩
    · intro hdf
      obtain ⟨m', h', hm'⟩ := C25_nothing_stale_partial o c.info h1 hc.2.1 h2 (sound_set hc) hdf
      rw [h] at h'
      simp only [Except.ok.injEq, Prod.mk.injEq, Option.some.injEq] at h'
      rw [h'.2]; exact hm'
    · intro hdf
      obtain ⟨m', h', hm'⟩ := C24_merge o c.info h1 hc.2.1 h2 (sound_set hc) hdf
      rw [h] at h'
      simp only [Except.ok.injEq, Prod.mk.injEq, Option.some.injEq] at h'
      rw [h'.2]; exact hm'

/-- One pass when no call fails. -/
theorem one_exact {E : Env} {files : List (Rel × Option Id)} {all : List Child} {c : Child} {s : St} (hs : c.Sound) (hF : ∀ t, E.F t = none)
    (hid : ∀ p q i, (p, some i) ∈ files → (q, some i) ∈ files → p = q) (hf : Found files all s) :
    ∃ p s', E.one files c s = (.ok p, s') ∧ c.Given files s p ∧
      ((¬ c.Makes files s ∧ s' = s) ∨ (c.Makes files s ∧ ∃ m, Added (s.disk c.path) c.info m ∧ s' = s.put c.path (some m))) := by
  have init : c.Makes files s → ∃ p s', E.cacheInit c s = (.ok p, s') ∧ c.Given files s p ∧
      ((¬ c.Makes files s ∧ s' = s) ∨ (c.Makes files s ∧ ∃ m, Added (s.disk c.path) c.info m ∧ s' = s.put c.path (some m))) := by
    intro hk
    obtain ⟨d, m, h, ha, _⟩ := added hs (hf.typed c.path)
    refine ⟨c.path, s.put c.path (some m), ?_, Or.inr (Or.inl ⟨hk, rfl⟩), Or.inr ⟨hk, m, ha, rfl⟩⟩
    unfold Env.cacheInit
    rw [h, hF]
  unfold Env.one
  cases hl : c.link with
  | some q =>
    refine ⟨q, s, rfl, Or.inl hl, Or.inl ⟨?_, rfl⟩⟩
    intro hk
    have := hk.1
    rw [hl] at this
    cases this
  | none =>
    dsimp only
    cases hd : c.file with
    | false => rw [if_neg (by simp)]; exact init ⟨hl, Or.inl (of_decide_eq_false hd)⟩
    | true =>
      rw [if_pos rfl]
      cases hk : lookup files c.id with
      | none => exact init ⟨hl, Or.inr fun q hq => absurd hq (lookup_none.1 hk q)⟩
      | some q =>
        have hq := lookup_mem hk
        obtain ⟨m, hm, _⟩ := hf.files q _ hq
        obtain ⟨d, m', h, _, hdiff⟩ := added hs (old := some m) (fun m' h => hf.typed q m' (hm.trans h))
        simp only [Env.moved, hm, h]
        have hdiff := hdiff m rfl
        by_cases hr : d = true
        · rw [if_pos hr]
          exact init ⟨hl, Or.inr fun q' hq' => by
            cases hid _ _ _ hq hq'
            exact ⟨m, hm, hdiff.1 hr⟩⟩
        · rw [if_neg hr]
          have hn : ¬ c.Makes files s := by
            rintro ⟨_, h | h⟩
            · exact h (of_decide_eq_true hd)
            · obtain ⟨m'', h1, h2⟩ := h q hq
              rw [hm] at h1
              cases h1
              exact hr (hdiff.2 h2)
          exact ⟨q, s, rfl, Or.inr (Or.inr ⟨hl, hn, hq⟩), Or.inl ⟨hn, rfl⟩⟩

theorem loop_exact {E : Env} {files : List (Rel × Option Id)} {all : List Child} (hF : ∀ t, E.F t = none)
    (hid : ∀ p q i, (p, some i) ∈ files → (q, some i) ∈ files → p = q) (hu : Unclaimed files all) (hs : ∀ c ∈ all, c.Sound) :
    ∀ (cs : List Child) (s : St), (∀ c ∈ cs, c ∈ all) → (cs.map Child.id).Nodup → Found files all s →
    (E.loop files cs s).2.1 = none ∧ (E.loop files cs s).1.length = cs.length ∧
    (∀ x ∈ cs.zip (E.loop files cs s).1, x.1.Given files s x.2) ∧
    (∀ c ∈ cs, c.Makes files s → ∃ m, (E.loop files cs s).2.2.disk c.path = some m ∧ Added (s.disk c.path) c.info m) ∧
    ∀ p, (∀ c ∈ cs, c.Makes files s → c.path ≠ p) → (E.loop files cs s).2.2.disk p = s.disk p := by
  intro cs
  induction cs with
  | nil => intro s _ _ hf; exact ⟨rfl, rfl, by simp [Env.loop], by simp, fun _ _ => rfl⟩
  | cons c cs ih =>
    intro s hsub hnd hf
    have hca : c ∈ all := hsub c (by simp)
    obtain ⟨p, s', ho, hg, hst⟩ := one_exact (hs c hca) hF hid hf
    obtain ⟨_, _, hf', _⟩ := one_keeps (hs c hca) hu hca hf ho
    rw [List.map_cons, List.nodup_cons] at hnd
    obtain ⟨i0, i1, i2, i3, i4⟩ := ih s' (fun c hc => hsub c (by simp [hc])) hnd.2 hf'
    have hne : ∀ c' ∈ cs, c'.id ≠ c.id := fun c' hc' he => hnd.1 (he ▸ List.mem_map_of_mem hc')
    have hpath : ∀ c' ∈ cs, c'.path ≠ c.path := fun c' hc' he =>
      hne c' hc' (hu c.path _ _ (he ▸ claims_path (hsub c' (by simp [hc']))) (claims_path hca))
    have hsame : ∀ q, q ≠ c.path → s'.disk q = s.disk q := by
      intro q hq
      rcases hst with ⟨_, rfl⟩ | ⟨_, m, _, rfl⟩
      · rfl
      · simp [St.put, hq]
    have hmk : ∀ c' ∈ cs, c'.Makes files s' ↔ c'.Makes files s := by
      intro c' hc'
      have : ∀ q, (q, some c'.id) ∈ files → s'.disk q = s.disk q := by
        intro q hq
        apply hsame
        rintro rfl
        exact hne c' hc' (hu _ _ _ (claims_file hq) (claims_path hca))
      unfold Child.Makes
      constructor
      · rintro ⟨h1, h2⟩
        exact ⟨h1, h2.imp_right fun h2 q hq => this q hq ▸ h2 q hq⟩
      · rintro ⟨h1, h2⟩
        exact ⟨h1, h2.imp_right fun h2 q hq => (this q hq).symm ▸ h2 q hq⟩
    have hl : E.loop files (c :: cs) s = (p :: (E.loop files cs s').1, (E.loop files cs s').2) := by
      rw [Env.loop, ho]
    rw [hl]
    refine ⟨i0, by simp [i1], ?_, ?_, ?_⟩
    · intro x hx
      rw [List.zip_cons_cons, List.mem_cons] at hx
      rcases hx with rfl | hx
      · exact hg
      · have hxc : x.1 ∈ cs := (List.of_mem_zip (a := x.1) (b := x.2) hx).1
        have := i2 x hx
        unfold Child.Given at this ⊢
        rw [hmk x.1 hxc] at this
        exact this
    · intro c' hc' hm
      rcases List.mem_cons.1 hc' with rfl | hc'
      · rcases hst with ⟨hn, _⟩ | ⟨_, m, ha, rfl⟩
        · exact absurd hm hn
        · refine ⟨m, ?_, ha⟩
          dsimp only
          rw [i4 c'.path fun d hd _ => hpath d hd]
          simp [St.put]
      · obtain ⟨m, h1, h2⟩ := i3 c' hc' ((hmk c' hc').2 hm)
        exact ⟨m, h1, hsame _ (hpath c' hc') ▸ h2⟩
    · intro q hq
      dsimp only
      rw [i4 q fun d hd hm => hq d (by simp [hd]) ((hmk d hd).1 hm)]
      rcases hst with ⟨_, rfl⟩ | ⟨hm, m, _, rfl⟩
      · rfl
      · have := hq c (by simp) hm
        simp [St.put, Ne.symm this]

theorem gen_sub {sparse : Bool} {rcs : List Child} : ∀ c ∈ gen sparse rcs, c ∈ rcs := by
  intro c hc
  cases sparse with
  | true => exact (List.mem_filter.1 hc).1
  | false => exact (byLength_perm rcs).mem_iff.1 hc

theorem gen_nodup {sparse : Bool} {rcs : List Child} (h : (rcs.map Child.id).Nodup) : ((gen sparse rcs).map Child.id).Nodup := by
  cases sparse with
  | true => exact h.sublist (List.filter_sublist.map Child.id)
  | false => exact ((byLength_perm rcs).map Child.id).nodup_iff.2 h

/-- **C102**: if no path is claimed by two objects and the local files hold what their ids say, and the bootstrap returns, then there is one cache
for each object, in order, and at the end its metadata have the id of the object. -/
theorem C102_each_partial (E : Env) (files : List (Rel × Option Id)) (sparse : Bool) (rcs : List Child) (s : St)
    (hu : Unclaimed files rcs) (hs : ∀ c ∈ rcs, c.Sound) (hf : Found files rcs s) (hr : (E.recursive files sparse rcs s).2.1 = none) :
    (E.recursive files sparse rcs s).1.length = (gen sparse rcs).length ∧
    ∀ x ∈ (gen sparse rcs).zip (E.recursive files sparse rcs s).1, (E.recursive files sparse rcs s).2.2.holds x.2 x.1.id := by
  obtain ⟨h1, h2, _⟩ := loop_keeps hu hs (gen sparse rcs) s gen_sub hf hr
  exact ⟨h1, fun x hx => (h2 x hx).2⟩

/-- **C102**: if moreover no call fails, and no id is there twice, then the bootstrap returns, it is known which cache each object gets, and the metadata on disk
change exactly where a new cache is made. -/
theorem C102_exact_partial (E : Env) (files : List (Rel × Option Id)) (sparse : Bool) (rcs : List Child) (s : St) (hF : ∀ t, E.F t = none)
    (hid : ∀ p q i, (p, some i) ∈ files → (q, some i) ∈ files → p = q) (hn : (rcs.map Child.id).Nodup)
    (hu : Unclaimed files rcs) (hs : ∀ c ∈ rcs, c.Sound) (hf : Found files rcs s) :
    (E.recursive files sparse rcs s).2.1 = none ∧ (E.recursive files sparse rcs s).1.length = (gen sparse rcs).length ∧
    (∀ x ∈ (gen sparse rcs).zip (E.recursive files sparse rcs s).1, x.1.Given files s x.2) ∧
    (∀ c ∈ gen sparse rcs, c.Makes files s →
      ∃ m, (E.recursive files sparse rcs s).2.2.disk c.path = some m ∧ Added (s.disk c.path) c.info m) ∧
    ∀ p, (∀ c ∈ gen sparse rcs, c.Makes files s → c.path ≠ p) → (E.recursive files sparse rcs s).2.2.disk p = s.disk p :=
  loop_exact hF hid hu hs (gen sparse rcs) s gen_sub (gen_nodup hn) hf

/-- C102: whatever fails, metadata change only where an object belongs that has no cache yet. -/
theorem C102_elsewhere (E : Env) (files : List (Rel × Option Id)) (sparse : Bool) (rcs : List Child) (s : St) (p : Rel)
    (hp : ∀ c ∈ rcs, c.link = none → c.path ≠ p) : (E.recursive files sparse rcs s).2.2.disk p = s.disk p := by
  have hput : ∀ (s : St) (q : Rel) (m : Option Meta), q ≠ p → (s.put q m).disk p = s.disk p := by
    intro s q m hq
    simp [St.put, Ne.symm hq]
  have hinit : ∀ (c : Child) (s : St), c.path ≠ p → (E.cacheInit c s).2.disk p = s.disk p := by
    intro c s hc
    unfold Env.cacheInit
    split
    · rfl
    · split
      · exact hput s _ _ hc
      · exact hput s _ _ hc
  have hone : ∀ (c : Child) (s : St), (c.link = none → c.path ≠ p) → (E.one files c s).2.disk p = s.disk p := by
    intro c s hc
    unfold Env.one
    split
    · rfl
    · rename_i hl
      split
      · split
        · unfold Env.moved
          split
          · rfl
          · split
            · rfl
            · split
              · exact hinit c s (hc hl)
              · rfl
        · exact hinit c s (hc hl)
      · exact hinit c s (hc hl)
  have hloop : ∀ (cs : List Child) (s : St), (∀ c ∈ cs, c.link = none → c.path ≠ p) → (E.loop files cs s).2.2.disk p = s.disk p := by
    intro cs
    induction cs with
    | nil => intro s _; rfl
    | cons c cs ih =>
      intro s h
      have h1 := hone c s (h c (by simp))
      unfold Env.loop
      cases ho : E.one files c s with
      | mk r s' =>
        rw [ho] at h1
        cases r with
        | error e => exact h1
        | ok q => exact (ih s' fun c hc => h c (by simp [hc])).trans h1
  exact hloop _ s fun c hc => hp c (gen_sub c hc)

/-! ## The attributes -/

/-- C102: `_in_bootstrap` and `_meta` are gone afterwards, whatever happened; the directory is marked if it was found to be the root of a sparse
tree and only then; if marking does not fail its attribute is gone too and the outcome is that of the bootstrap. -/
theorem C102_attributes {α : Type} (inner : Attrs → Except PyErr α × Attrs) (mark : Option PyErr) (a : Attrs) :
    let r := inner { a with inBootstrap := true }
    (wrap inner mark a).2.1.inBootstrap = false ∧ (wrap inner mark a).2.1.info = false ∧
    ((wrap inner mark a).2.2 = true ↔ r.2.sparseRoot = true) ∧
    ((wrap inner mark a).1 = r.1 ∧ (wrap inner mark a).2.1.sparseRoot = false ∨
      ∃ e, mark = some e ∧ r.2.sparseRoot = true ∧ (wrap inner mark a).1 = .error e ∧ (wrap inner mark a).2.1.sparseRoot = true) := by
  intro r
  simp only [wrap]
  cases hr : r.2.sparseRoot with
  | false => simp [r]
  | true => cases mark <;> simp [r]

/-! ## Where the full claim fails -/

/-- A file: its path, its id, its size. -/
def sampleMeta (i : String) (size : Int) : Meta := someFields [(.id, .str (lit i)), (.size, .int size)]

def sampleFile (p i : String) (size : Int) : Child := ⟨[lit p], lit i, .file, true, sampleMeta i size, none⟩

def calm : Env := ⟨fun _ => none, fun _ => none⟩

/-- One file with an id. -/
def sampleDisk (p i : String) (size : Int) : St := ⟨fun q => if q = [lit p] then some (sampleMeta i size) else none, 0⟩

/-- A file was moved and changed on the remote: afterwards two local files have the id of it. -/
theorem C102_moved_counterexample :
    let r := calm.recursive [([lit "x"], some (lit "1"))] false [sampleFile "y" "1" 2] (sampleDisk "x" "1" 1)
    r.1 = [[lit "y"]] ∧ r.2.1 = none ∧ r.2.2.holds [lit "x"] (lit "1") ∧ r.2.2.holds [lit "y"] (lit "1") := by
  refine ⟨by decide +kernel, by decide +kernel, ⟨_, rfl, rfl⟩, ⟨_, rfl, rfl⟩⟩

/-- A file was moved on the remote and another one is where it was: the cache of the other one is yielded for both, and no path has the id of the
file that was moved. -/
theorem C102_replaced_counterexample :
    let r := calm.recursive [([lit "x"], some (lit "1"))] false [sampleFile "x" "2" 1, sampleFile "yy" "1" 1] (sampleDisk "x" "1" 1)
    r.1 = [[lit "x"], [lit "x"]] ∧ r.2.1 = none ∧ r.2.2.holds [lit "x"] (lit "2") ∧ ∀ p, ¬ r.2.2.holds p (lit "1") := by
  refine ⟨by decide +kernel, by decide +kernel, ⟨_, rfl, rfl⟩, ?_⟩
  rintro p ⟨m, hm, hi⟩
  by_cases hp : p = [lit "x"]
  · subst hp
    have : m .id = .str (lit "2") := by
      have h := hm.symm.trans (rfl : _ = some _)
      simp only [Option.some.injEq] at h
      rw [h]
      rfl
    rw [this] at hi
    revert hi
    decide
  · by_cases hy : p = [lit "yy"]
    · subst hy
      have : (calm.recursive [([lit "x"], some (lit "1"))] false [sampleFile "x" "2" 1, sampleFile "yy" "1" 1] (sampleDisk "x" "1" 1)).2.2.disk
          [lit "yy"] = none := rfl
      rw [this] at hm
      cases hm
    · rw [C102_elsewhere _ _ _ _ _ p] at hm
      · simp only [sampleDisk, if_neg hp] at hm
        cases hm
      · intro c hc _ he
        simp only [List.mem_cons, List.not_mem_nil, or_false] at hc
        rcases hc with rfl | rfl
        · exact hp he.symm
        · exact hy he.symm

/-- Metadata of a file that is where it belongs are not updated. -/
theorem C102_stale_counterexample :
    let new : Child := ⟨[lit "x"], lit "1", .file, true, someFields [(.id, .str (lit "1")), (.size, .int 1), (.user_id, .int 7)], none⟩
    let r := calm.recursive [([lit "x"], some (lit "1"))] false [new] (sampleDisk "x" "1" 1)
    r.1 = [[lit "x"]] ∧ r.2.1 = none ∧ ∃ m, r.2.2.disk [lit "x"] = some m ∧ m .user_id = .none :=
  ⟨by decide +kernel, by decide +kernel, _, rfl, rfl⟩

/-- A file that was found before old directories were cleared away, and went with them, ends the bootstrap. -/
theorem C102_gone_counterexample :
    let r := calm.recursive [([lit "old", lit "x"], some (lit "1"))] false [sampleFile "a" "0" 1, sampleFile "new" "1" 1] ⟨fun _ => none, 0⟩
    r.1 = [[lit "a"]] ∧ r.2.1 = some .attributeError := by
  refine ⟨by decide +kernel, by decide +kernel⟩

/-- If marking fails, the exception of the bootstrap is not seen and the attribute stays. -/
theorem C102_mark_counterexample :
    wrap (α := Unit) (fun a => (.error .valueError, { a with sparseRoot := true })) (some .osError) ⟨false, false, false⟩ =
      (.error .osError, ⟨false, false, true⟩, true) := rfl

/-! ## The hypotheses can be met -/

theorem sample_typed (i : String) (size : Int) : WellTyped (sampleMeta i size) := by
  intro f
  cases f <;> simp [sampleMeta, someFields, dictGet, HasType]

/-- A directory and a file in it that was elsewhere, and a new file. -/
def sampleRemote : List Child :=
  [⟨[lit "d", lit "x"], lit "1", .file, true, sampleMeta "1" 1, none⟩, ⟨[lit "d"], lit "3", .dir, true, sampleMeta "3" 0, none⟩,
    ⟨[lit "new"], lit "2", .file, false, sampleMeta "2" 5, none⟩]

example : (∀ c ∈ sampleRemote, c.Sound) ∧ Unclaimed [([lit "x"], some (lit "1"))] sampleRemote ∧
    Found [([lit "x"], some (lit "1"))] sampleRemote (sampleDisk "x" "1" 1) ∧
    (calm.recursive [([lit "x"], some (lit "1"))] false sampleRemote (sampleDisk "x" "1" 1)).1 = [[lit "d"], [lit "x"], [lit "new"]] ∧
    (calm.recursive [([lit "x"], some (lit "1"))] true sampleRemote (sampleDisk "x" "1" 1)).1 = [[lit "x"], [lit "d"]] := by
  refine ⟨?_, ?_, ⟨?_, ?_, ?_⟩, by decide +kernel, by decide +kernel⟩
  · intro c hc
    simp only [sampleRemote, List.mem_cons, List.not_mem_nil, or_false] at hc
    rcases hc with rfl | rfl | rfl <;> exact ⟨by decide, sample_typed _ _, rfl⟩
  · intro p i j hi hj
    have : claims [([lit "x"], some (lit "1"))] sampleRemote =
      [([lit "d", lit "x"], lit "1"), ([lit "d"], lit "3"), ([lit "new"], lit "2"), ([lit "x"], lit "1")] := by decide +kernel
    rw [this] at hi hj
    simp only [List.mem_cons, List.not_mem_nil, or_false, Prod.mk.injEq] at hi hj
    rcases hi with ⟨rfl, rfl⟩ | ⟨rfl, rfl⟩ | ⟨rfl, rfl⟩ | ⟨rfl, rfl⟩ <;>
      rcases hj with ⟨h, rfl⟩ | ⟨h, rfl⟩ | ⟨h, rfl⟩ | ⟨h, rfl⟩ <;> first | rfl | (revert h; decide)
  · intro p m h
    simp only [sampleDisk] at h
    split at h
    · cases h
      exact ⟨sample_typed _ _, Or.inl ⟨.id, by decide, by decide⟩⟩
    · cases h
  · intro p i h
    simp only [List.mem_cons, List.not_mem_nil, or_false, Prod.mk.injEq, Option.some.injEq] at h
    obtain ⟨rfl, rfl⟩ := h
    exact ⟨_, rfl, rfl⟩
  · intro c hc p h
    simp only [sampleRemote, List.mem_cons, List.not_mem_nil, or_false] at hc
    rcases hc with rfl | rfl | rfl <;> cases h

end Verif.Yields
