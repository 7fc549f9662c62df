import Verif.Lemmas.Etag

/-!
# C01 – C04: multipart etags
-/

namespace Verif.Etag
open Verif.Spec

/-- **C01.**  Feeding `inputs` one after the other and then asking for the digest gives the
multipart etag of the concatenated bytes, for every chunk size, hash and way to split the bytes. -/
theorem C01_etag_of_any_feeding (H : Bytes → Bytes) (n : Nat) (hn : 0 < n)
    (inputs : List Bytes) :
    ∃ s, feed H (init n) inputs = some s ∧ IsEtag H n inputs.flatten (digest H s).2 := by
  obtain ⟨s, h1, h2, h3⟩ := feed_inv H inputs (init n) [] (init_inv H n hn)
  refine ⟨s, h1, ?_⟩
  have := digest_isEtag H s _ h3
  rw [h2] at this
  simpa [init] using this

/-- **C01**, the specification is unambiguous: there is only one multipart etag of given bytes. -/
theorem C01_etag_spec_unique (H : Bytes → Bytes) (n : Nat) (hn : 0 < n) (data : Bytes)
    (r r' : Bytes × Nat) (h : IsEtag H n data r) (h' : IsEtag H n data r') : r = r' :=
  isEtag_unique H hn h h'

/-- **C01**, corollary: two feedings of the same bytes give the same digest. -/
theorem C01_etag_split_independent (H : Bytes → Bytes) (n : Nat) (hn : 0 < n)
    (xs ys : List Bytes) (h : xs.flatten = ys.flatten) :
    ∃ s t, feed H (init n) xs = some s ∧ feed H (init n) ys = some t ∧
      (digest H s).2 = (digest H t).2 := by
  obtain ⟨s, h1, h2⟩ := C01_etag_of_any_feeding H n hn xs
  obtain ⟨t, h3, h4⟩ := C01_etag_of_any_feeding H n hn ys
  exact ⟨s, t, h1, h3, isEtag_unique H hn h2 (h ▸ h4)⟩

-- a split inside a block, on a block edge and with empty pieces; identity as hash
example : ∃ s, feed id (init 2) [[1], [2, 3], [], [4, 5]] = some s ∧
    (digest id s).2 = ([1, 2, 3, 4, 5], 3) := ⟨_, rfl, by decide⟩

example : IsEtag (fun b => b.take 1) 2 [1, 2, 3, 4, 5] ([1], 3) :=
  ⟨[[1, 2], [3, 4], [5]], ⟨by decide, by decide, by decide⟩, by decide⟩

/-- **C02.**  A second `digest` returns the same value and leaves the object alone, after every
history of calls (indeed for every object). -/
theorem C02_digest_stable (H : Bytes → Bytes) (s : Obj) :
    digest H (digest H s).1 = digest H s := by
  by_cases hr : s.remainder = [] <;> simp [digest, hr]

-- a reachable object with a pending remainder, on which `digest` really changes the object
example : ∃ s, run id (init 2) [.update [1, 2, 3], .digest, .update [7]] = some s ∧
    (digest id s).1 ≠ s := ⟨_, rfl, by decide⟩

/-- The bytes fed by a sequence of calls. -/
def fed (ops : List Op) : Bytes :=
  (ops.map fun | .update b => b | .digest => []).flatten

/-- **C03 is false**: reading the digest early changes the final digest.  Feeding `[1]`, reading,
feeding `[2]` with chunk size 2 reports two parts, although the bytes `[1, 2]` are one block;
hence the value is wrong whatever the hash function is. -/
theorem C03_early_digest_counterexample (H : Bytes → Bytes) :
    ∃ s, run H (init 2) [.update [1], .digest, .update [2]] = some s ∧
      ¬ IsEtag H 2 (fed [.update [1], .digest, .update [2]]) (digest H s).2 := by
  refine ⟨⟨2, [1], [H [1]], [2], 0⟩, rfl, ?_⟩
  intro h
  have h1 : IsEtag H 2 [1, 2] (H [H [1, 2]].flatten, 1) :=
    ⟨[[1, 2]], ⟨by decide, by decide, by decide⟩, by simp⟩
  have := isEtag_unique H (by decide) h h1
  have := congrArg Prod.snd this
  simp [digest] at this

/-- **C03**, the part that holds: if every early `digest` happens on a block boundary, or is followed
only by calls that feed nothing, the final digest is the multipart etag of the bytes fed.
Missing for the full property: an early `digest` inside a block followed by more bytes. -/
theorem C03_early_digest_partial (H : Bytes → Bytes) (n : Nat) (hn : 0 < n) (ops : List Op)
    (hearly : ∀ pre post, ops = pre ++ Op.digest :: post →
      (fed pre).length % n = 0 ∨ fed post = []) :
    ∃ s, run H (init n) ops = some s ∧ IsEtag H n (fed ops) (digest H s).2 := by
  have key : ∀ (ops : List Op) (s : Obj) (acc : Bytes), Inv H s acc → s.chunksize = n →
      (∀ pre post, ops = pre ++ Op.digest :: post →
        (acc ++ fed pre).length % n = 0 ∨ fed post = []) →
      ∃ s', run H s ops = some s' ∧ IsEtag H n (acc ++ fed ops) (digest H s').2 := by
    intro ops
    induction ops with
    | nil =>
      intro s acc hi hcs _
      exact ⟨s, rfl, by simpa [fed, hcs] using digest_isEtag H s acc hi⟩
    | cons op ops ih =>
      intro s acc hi hcs he
      cases op with
      | update b =>
        obtain ⟨s1, h1, h2, h3⟩ := update_inv H s acc b hi
        obtain ⟨s2, h4, h5⟩ := ih s1 (acc ++ b) h3 (by rw [h2, hcs]) (by
          intro pre post hp
          have := he (.update b :: pre) post (by simp [hp])
          simpa [fed] using this)
        exact ⟨s2, by simp [run, step, h1, h4], by simpa [fed] using h5⟩
      | digest =>
        rcases he [] ops rfl with hb | hq
        · have hd := digest_boundary H s acc hi (by simpa [fed, hcs] using hb)
          obtain ⟨s2, h4, h5⟩ := ih s acc hi hcs (by
            intro pre post hp
            have := he (.digest :: pre) post (by simp [hp])
            simpa [fed] using this)
          exact ⟨s2, by simp [run, step, hd, h4], by simpa [fed] using h5⟩
        · have hR : Reach n s := ⟨hcs, by rw [hi.last]; exact hn, by rw [← hcs]; exact hi.rem⟩
          have hR' := digest_reach H n s hR
          have hr0 : (digest H s).1.remainder = [] := by
            by_cases hr : s.remainder = [] <;> simp [digest, hr]
          obtain ⟨s2, h4, _⟩ := run_reach H n hn ops _ hR'
          have hnil : ∀ b, Op.update b ∈ ops → b = [] := by
            intro b hb
            have : ∀ l ∈ (ops.map fun | .update b => b | .digest => ([] : Bytes)), l = [] := by
              intro l hl
              exact List.flatten_eq_nil_iff.1 hq l hl
            exact this b (List.mem_map.2 ⟨_, hb, rfl⟩)
          obtain ⟨h5, h6⟩ := quiet H n hn ops _ _ hR' hr0 hnil h4
          refine ⟨s2, by simp [run, step, h4], ?_⟩
          have h7 : (digest H s2).2 = (digest H s).2 := by
            rw [← congrArg Prod.snd (C02_digest_stable H s)]
            simp [digest, h5] at h6 ⊢
            by_cases hr : s.remainder = [] <;> simp_all
          rw [h7]
          have h8 := digest_isEtag H s acc hi
          have h9 : fed (Op.digest :: ops) = [] := by simpa [fed] using hq
          rw [h9, ← hcs]; simpa using h8
  simpa using key ops (init n) [] (init_inv H n hn) rfl (by simpa using hearly)

-- an early digest on a boundary, then more bytes, then an early digest inside a block at the end
/-- The loop never takes a part back. -/
theorem loop_parts (H : Bytes → Bytes) : ∀ (fuel : Nat) (s : Obj) (bio : Bytes),
    (s.lastChunksize = 0 ∨ s.remainder = []) →
    (∀ e, loop H fuel s bio ≠ .raised e) ∧ ∀ s', loop H fuel s bio = .returned s' → s.parts <+: s'.parts
  | 0, _, _, _ => ⟨fun _ h => by simp [loop] at h, fun _ h => by simp [loop] at h⟩
  | fuel + 1, s, bio, hs => by
    have step : (∃ s', iter H s bio = .ret s' ∧ s.parts <+: s'.parts) ∨
        (∃ s' bio', iter H s bio = .again s' bio' ∧ s.parts <+: s'.parts ∧ s'.lastChunksize = 0) := by
      unfold iter
      dsimp only
      have hcs : s.lastChunksize = 0 → (if s.lastChunksize ≠ 0 then s.chunksize - s.lastChunksize else s.chunksize) = s.chunksize :=
        fun e => if_neg (by simp [e])
      generalize (if s.lastChunksize ≠ 0 then s.chunksize - s.lastChunksize else s.chunksize) = cs at hcs
      split
      · exact .inl ⟨_, rfl, List.prefix_rfl⟩
      · split
        · rename_i hne
          have hl : s.lastChunksize = 0 := hs.resolve_right hne
          rw [if_neg (by rw [hcs hl]; omega)]
          exact .inr ⟨_, _, rfl, List.prefix_append _ _, rfl⟩
        · exact .inr ⟨_, _, rfl, List.prefix_rfl, rfl⟩
    rw [loop]
    rcases step with ⟨s1, e, hp⟩ | ⟨s1, bio1, e, hp, hl⟩
    · rw [e]
      refine ⟨fun _ h => (by cases h), fun s' h => ?_⟩
      injection h with h
      exact h ▸ hp
    · rw [e]
      obtain ⟨h1, h2⟩ := loop_parts H fuel s1 bio1 (.inl hl)
      exact ⟨h1, fun s' h => hp.trans (h2 s' h)⟩

/-- **C03**: why it fails.  An update never replaces a part that was there before, whatever the state of
the object is: the branch for that (utils.py 235-238) is never taken, so a part made by an early digest
stays in the etag.  It also never raises. -/
theorem C03_parts_only_grow (H : Bytes → Bytes) (fuel : Nat) (s : Obj) (b : Bytes) :
    (∀ e, updateFuel H fuel s b ≠ .raised e) ∧
    ∀ s', updateFuel H fuel s b = .returned s' → s.parts <+: s'.parts :=
  loop_parts H fuel { s with remainder := [] } (s.remainder ++ b) (.inr rfl)

example : ∀ pre post, [Op.update [1, 2], .digest, .update [3], .digest, .digest] =
    pre ++ Op.digest :: post → (fed pre).length % 2 = 0 ∨ fed post = [] := by
  intro pre post h
  match pre with
  | [] => simp at h
  | [a] => simp at h; left; simp [← h.1, fed]
  | [a, b] => simp at h
  | [a, b, c] =>
    right
    simp only [List.cons_append, List.nil_append, List.cons.injEq] at h
    rw [← h.2.2.2.2]; decide
  | [a, b, c, d] =>
    right
    simp only [List.cons_append, List.nil_append, List.cons.injEq] at h
    rw [← h.2.2.2.2.2]; decide
  | a :: b :: c :: d :: e :: f => simp at h

/-! ### The condition of `C03_early_digest_partial` cannot be weakened -/

/-- Hashing with the identity the loop moves bytes from the buffer to the parts and loses or repeats none. -/
theorem loop_conserves : ∀ (fuel : Nat) (s : Obj) (bio : Bytes) (s' : Obj),
    (s.lastChunksize = 0 ∨ s.remainder = []) → loop id fuel s bio = .returned s' →
    s'.parts.flatten.length + s'.m.length + s'.remainder.length =
      s.parts.flatten.length + s.m.length + s.remainder.length + bio.length ∧
    ((s'.m = s.m ∧ s'.parts = s.parts) ∨ s'.m = [])
  | 0, _, _, _, _, h => by simp [loop] at h
  | fuel + 1, s, bio, s', hs, h => by
    rw [loop] at h
    unfold iter at h
    dsimp only at h
    have hcs : s.lastChunksize = 0 → (if s.lastChunksize ≠ 0 then s.chunksize - s.lastChunksize else s.chunksize) = s.chunksize :=
      fun e => if_neg (by simp [e])
    generalize (if s.lastChunksize ≠ 0 then s.chunksize - s.lastChunksize else s.chunksize) = cs at hcs h
    by_cases h1 : bio.take cs = [] ∧ s.remainder.length < cs
    · rw [if_pos h1] at h
      simp only [Run.returned.injEq] at h
      subst h
      have : bio = [] := by
        rcases List.take_eq_nil_iff.1 h1.1 with h | h
        · omega
        · exact h
      subst this
      exact ⟨by simp, .inl ⟨rfl, rfl⟩⟩
    · rw [if_neg h1] at h
      have hl : (bio.take cs).length + (bio.drop cs).length = bio.length := by
        rw [← List.length_append, List.take_append_drop]
      by_cases h2 : s.remainder ≠ []
      · rw [if_pos h2] at h
        have hl0 : s.lastChunksize = 0 := hs.resolve_right h2
        rw [if_neg (by rw [hcs hl0]; omega)] at h
        obtain ⟨e1, e2⟩ := loop_conserves fuel _ _ s' (.inl rfl) h
        simp only [id, List.flatten_append, List.flatten_cons, List.flatten_nil, List.append_nil, List.length_append, List.length_nil] at e1
        refine ⟨by omega, .inr ?_⟩
        rcases e2 with e2 | e2
        · exact e2.1
        · exact e2
      · rw [if_neg h2] at h
        have hr : s.remainder = [] := by
          cases hr : s.remainder with
          | nil => rfl
          | cons _ _ => exact absurd (by simp [hr]) h2
        obtain ⟨e1, e2⟩ := loop_conserves fuel _ _ s' (.inl rfl) h
        simp only at e1 e2
        rw [hr]
        exact ⟨by simp only [List.length_nil]; omega, e2⟩

/-- Calls repeat bytes, and never forget any: what is in the parts or waiting is at least what was fed, and it is more once a block
was opened by a digest (`k` is the number of repeated bytes that are already in the parts). -/
theorem run_repeats (n : Nat) (hn : 0 < n) : ∀ (ops : List Op) (s s' : Obj) (f k : Nat), Reach n s →
    s.parts.flatten.length + s.remainder.length = f + k → run id s ops = some s' →
    Reach n s' ∧ ∃ k', s'.parts.flatten.length + s'.remainder.length = f + (fed ops).length + k' ∧ k ≤ k' ∧
      (s.m ≠ [] → s.remainder ≠ [] ∨ fed ops ≠ [] → k < k' ∨ (s'.m ≠ [] ∧ s'.remainder ≠ []))
  | [], s, s', f, k, hR, hk, h => by
    simp only [run, Option.some.injEq] at h
    subst h
    refine ⟨hR, k, by simpa [fed] using hk, Nat.le_refl _, ?_⟩
    intro hm hr
    right
    rcases hr with hr | hr
    · exact ⟨hm, hr⟩
    · simp [fed] at hr
  | .digest :: ops, s, s', f, k, hR, hk, h => by
    simp only [run, step, Option.bind_some] at h
    by_cases hr : s.remainder = []
    · have hd : (digest id s).1 = s := by simp [digest, hr]
      rw [hd] at h
      obtain ⟨h1, k', h2, h3, h4⟩ := run_repeats n hn ops s s' f k hR hk h
      exact ⟨h1, k', by simpa [fed] using h2, h3, by simpa [fed] using h4⟩
    · have hR' := digest_reach id n s hR
      have hd : (digest id s).1 = ⟨s.chunksize, s.m ++ s.remainder, s.parts ++ [s.m ++ s.remainder], [], s.remainder.length⟩ := by
        simp [digest, hr]
      rw [hd] at h hR'
      obtain ⟨h1, k', h2, h3, h4⟩ := run_repeats n hn ops _ s' f (k + s.m.length) hR' (by
        simp only [List.flatten_append, List.flatten_cons, List.flatten_nil, List.append_nil, List.length_append, List.length_nil]
        omega) h
      refine ⟨h1, k', by simpa [fed] using h2, by omega, ?_⟩
      intro hm _
      left
      have := List.length_pos_iff.2 hm
      omega
  | .update b :: ops, s, s', f, k, hR, hk, h => by
    obtain ⟨s1, hs1, hR1⟩ := update_terminates id n hn s b hR
    simp only [run, step, hs1, Option.bind_some] at h
    have hu := hs1
    unfold update updateFuel at hu
    split at hu
    · rename_i t ht
      simp only [Option.some.injEq] at hu
      subst hu
      obtain ⟨e1, e2⟩ := loop_conserves _ _ _ _ (.inr rfl) ht
      simp only [List.length_nil, Nat.add_zero, List.length_append] at e1
      have hmono : t.m.length ≤ s.m.length := by
        rcases e2 with e2 | e2
        · rw [e2.1]
          exact Nat.le_refl _
        · simp [e2]
      have hb : (fed (.update b :: ops)).length = b.length + (fed ops).length := by simp [fed]
      obtain ⟨h1, k', h2, h3, h4⟩ := run_repeats n hn ops t s' (f + b.length) (k + (s.m.length - t.m.length)) hR1 (by omega) h
      refine ⟨h1, k', by rw [hb]; omega, by omega, ?_⟩
      intro hm hr
      rcases e2 with ⟨e2, e3⟩ | e2
      · rw [e2] at h4
        simp only at h4 e2
        have e4 : t.remainder.length = s.remainder.length + b.length := by
          rw [e3, e2] at e1
          simp only at e1
          omega
        rcases h4 hm (by
          rcases hr with hr | hr
          · left
            have := List.length_pos_iff.2 hr
            exact List.length_pos_iff.1 (by omega)
          · by_cases hbn : b = []
            · right; simpa [fed, hbn] using hr
            · left
              have := List.length_pos_iff.2 hbn
              exact List.length_pos_iff.1 (by omega)) with h | h
        · left; omega
        · exact .inr h
      · left
        have := List.length_pos_iff.2 hm
        simp only [e2, List.length_nil] at h3
        omega
    · cases hu

theorem run_append (H : Bytes → Bytes) : ∀ (a b : List Op) (s : Obj), run H s (a ++ b) = (run H s a).bind fun t => run H t b
  | [], _, _ => rfl
  | x :: xs, b, s => by
    simp only [List.cons_append, run]
    cases step H s x with
    | none => rfl
    | some t => exact run_append H xs b t

/-- **C03**, exactly when it holds: the calls give the multipart etag of the bytes fed for every hash function if and only if every
early `digest` happens on a block boundary or is followed only by calls that feed nothing. -/
theorem C03_early_digest_iff (n : Nat) (hn : 0 < n) (ops : List Op) :
    (∀ H, ∃ s, run H (init n) ops = some s ∧ IsEtag H n (fed ops) (digest H s).2) ↔
    ∀ pre post, ops = pre ++ Op.digest :: post → (fed pre).length % n = 0 ∨ fed post = [] := by
  constructor
  · intro hall
    obtain ⟨s', hrun, hetag⟩ := hall id
    -- the length of the value
    have hval : (digest id s').2.1.length = (fed ops).length := by
      obtain ⟨bl, hb, he⟩ := hetag
      rw [he]
      simp only [id, List.map_id_fun, hb.concat]
    -- by induction on the calls before
    have key : ∀ (k : Nat) (pre post : List Op), pre.length = k → ops = pre ++ Op.digest :: post →
        (fed pre).length % n = 0 ∨ fed post = [] := by
      intro k
      induction k using Nat.strongRecOn with
      | _ k ih =>
        intro pre post hk hops
        by_cases hpost : fed post = []
        · exact .inr hpost
        left
        -- all digests in `pre` are at boundaries
        have hinv : ∀ (b a : List Op), pre = a ++ b → (∃ s, run id (init n) a = some s ∧ s.chunksize = n ∧ Inv id s (fed a)) →
            ∃ s, run id (init n) pre = some s ∧ s.chunksize = n ∧ Inv id s (fed pre) := by
          intro b
          induction b with
          | nil => intro a hab h; rw [hab, List.append_nil]; exact h
          | cons x b ihb =>
            intro a hab h
            refine ihb (a ++ [x]) (by rw [hab]; simp) ?_
            obtain ⟨s, h1, h2, h3⟩ := h
            cases x with
            | update u =>
              obtain ⟨t, h4, h5, h6⟩ := update_inv id s _ u h3
              refine ⟨t, ?_, by rw [h5, h2], ?_⟩
              · rw [run_append, h1]; simp [run, step, h4]
              · simpa [fed] using h6
            | digest =>
              have hlt : a.length < k := by rw [← hk, hab]; simp
              rcases ih a.length hlt a (b ++ Op.digest :: post) rfl (by rw [hops, hab]; simp) with h | h
              · have hd := digest_boundary id s _ h3 (by rw [h2]; exact h)
                refine ⟨s, ?_, h2, by simpa [fed] using h3⟩
                rw [run_append, h1]; simp [run, step, hd]
              · exfalso; apply hpost
                have : fed (b ++ Op.digest :: post) = fed b ++ fed post := by simp [fed]
                rw [this] at h
                exact (List.append_eq_nil_iff.1 h).2
        obtain ⟨s, h1, h2, h3⟩ := hinv pre [] (by simp) ⟨_, rfl, rfl, init_inv id n hn⟩
        by_cases hr : s.remainder = []
        · obtain ⟨bl, hbl, hp, hf⟩ := h3.parts
          rw [hf, hr, List.append_nil]
          clear hf hp
          induction bl with
          | nil => simp
          | cons b bs ihb =>
            have h4 := hbl b (by simp)
            have h5 := ihb fun x hx => hbl x (by simp [hx])
            rw [List.flatten_cons, List.length_append, h4, h2]
            simpa using h5
        · exfalso
          have hR : Reach n s := ⟨h2, by rw [h3.last]; exact hn, by rw [← h2]; exact h3.rem⟩
          have hR' := digest_reach id n s hR
          have hd : (digest id s).1 = ⟨s.chunksize, s.m ++ s.remainder, s.parts ++ [s.m ++ s.remainder], [], s.remainder.length⟩ := by
            simp [digest, hr]
          rw [hops, run_append, h1] at hrun
          simp only [Option.bind_some, run, step] at hrun
          rw [hd] at hrun hR'
          obtain ⟨bl, _, hp, hf⟩ := h3.parts
          obtain ⟨_, k', e1, _, e3⟩ := run_repeats n hn post _ s' (fed pre).length 0 hR' (by
            rw [hf, hp]
            simp [h3.m, List.map_id_fun]) hrun
          have e4 := e3 (by simp [hr]) (.inr hpost)
          have hfed : (fed ops).length = (fed pre).length + (fed post).length := by rw [hops]; simp [fed]
          have hval' : (digest id s').2.1.length = s'.parts.flatten.length + if s'.remainder = [] then 0 else s'.m.length + s'.remainder.length := by
            by_cases hr' : s'.remainder = [] <;> simp [digest, hr']
          rw [hval'] at hval
          by_cases hr' : s'.remainder = []
          · rw [if_pos hr'] at hval
            rw [hr', List.length_nil] at e1
            rcases e4 with e4 | e4
            · omega
            · exact e4.2 hr'
          · rw [if_neg hr'] at hval
            rcases e4 with e4 | e4
            · omega
            · have := List.length_pos_iff.2 e4.1
              omega
    intro pre post h
    exact key pre.length pre post rfl h
  · intro h H
    exact C03_early_digest_partial H n hn ops h

/-- **C04.**  With a positive chunk size every sequence of calls on a new object returns: no call
runs forever and none raises. -/
theorem C04_calls_terminate (H : Bytes → Bytes) (n : Nat) (hn : 0 < n) (ops : List Op) :
    ∃ s, run H (init n) ops = some s := by
  obtain ⟨s, h, _⟩ := run_reach H n hn ops (init n) ⟨rfl, by simpa [init] using hn, by simpa [init] using hn⟩
  exact ⟨s, h⟩

/-- **C04**, the iteration bound built into `update` is not a restriction: if the loop returns after
any number of iterations at all, the result is the one `update` reports (for reachable objects). -/
theorem C04_bound_adequate (H : Bytes → Bytes) (n : Nat) (hn : 0 < n) (ops : List Op) (s : Obj)
    (hs : run H (init n) ops = some s) (b : Bytes) (fuel : Nat) (s' : Obj)
    (h : updateFuel H fuel s b = .returned s') : update H s b = some s' := by
  obtain ⟨t, ht, hR⟩ := run_reach H n hn ops (init n)
    ⟨rfl, by simpa [init] using hn, by simpa [init] using hn⟩
  rw [hs] at ht
  obtain rfl : s = t := by simpa using ht
  obtain ⟨u, hu, _⟩ := update_terminates H n hn s b hR
  have hu' := hu
  unfold update at hu'
  split at hu'
  · rename_i v hv
    simp at hu'; subst hu'
    have h1 := loop_mono H _ _ _ _ h (s.remainder.length + b.length + 3)
    have h2 := loop_mono H _ _ _ _ hv fuel
    rw [Nat.add_comm] at h2
    have h3 := h1.symm.trans h2
    simp at h3
    rw [hu, h3]
  · simp at hu'

/-- **C04**, the hypothesis is needed: with chunk size 0 a call of `update` never returns, for no
argument, however long one waits. -/
theorem C04_chunksize_zero_diverges (H : Bytes → Bytes) (b : Bytes) (fuel : Nat) :
    updateFuel H fuel (init 0) b = .running := by
  have : ∀ fuel, loop H fuel { (init 0) with remainder := [] } b = .running := by
    intro fuel
    induction fuel with
    | zero => rfl
    | succ f ih => simpa [loop, iter, init] using ih
  simpa [updateFuel, init] using this fuel

end Verif.Etag
