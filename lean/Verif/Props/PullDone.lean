import Verif.Props.Pull

/-!
# C130, C131: what an update from the remote leaves
-/

namespace Verif.Cache
open Verif.FS Verif.Spec

/-! ## An update that has to fetch does return -/

/-- The local content is what the cache or the remote knows, or the file is not at the remote any more. -/
def NoLocalChanges (C : PEnv) (m new : Meta) (b : Bytes) : Prop :=
  (∃ c, KnownSum C m c ∧ (C.hash b = c ∨ new .checksum = .bytes (C.hash b))) ∨
  (m .checksum).truthy = false ∧ C.remoteSum = .error .noRemoteFileError

/-- What the remote sends is what it says that it sends. -/
structure Sends (C : PEnv) (u : Meta) (cs : List Bytes) (l : List Str) : Prop where
  calls : ∀ n, C.F n = none
  chunks : C.chunks = cs.map .ok
  some_chunk : cs ≠ []
  key : C.cacheKey = none
  file_id : u .file_id ≠ .none
  size : u .size = .int cs.flatten.length
  errors : u .errors = .strs l
  checksum : u .checksum = .none ∨ ∃ c, u .checksum = .bytes c
  cypher : ∀ v, ∃ h, C.cypher v = .ok h

theorem localChanges_runs (C : PEnv) {q : Path} {new m : Meta} {b : Bytes} {d0 : Disk CObj} (hF : ∀ n, C.F n = none)
    (hrec : d0.at_ q = some (.file b (some m))) (hm : metaBool m = true) (hno : NoLocalChanges C m new b) :
    Hoare (fun d => d = d0) (C.localChanges q new) (fun _ d => d = d0) (fun _ _ => False) := by
  have hdata : dataAt d0 q = .ok b := by simp [dataAt, hrec]
  have hread : Hoare (fun d => d = d0) (.look C.F fun d => dataAt d q) (fun x d => x = b ∧ d = d0) (fun _ _ => False) := by
    refine .look_err ?_ ?_
    · rintro d x rfl h
      rw [hdata] at h
      simp only [Except.ok.injEq] at h
      exact ⟨h.symm, rfl⟩
    · rintro e d rfl (⟨n, hn⟩ | h)
      · rw [hF] at hn; simp at hn
      · rw [hdata] at h; simp at h
  unfold PEnv.localChanges
  refine .try_ (R := fun e d => e = .noRemoteFileError ∧ d = d0) ?_ fun e => .of_pre fun he => by
    subst he
    exact .ite_ (fun _ => .pure_ fun _ h => h) fun h => absurd rfl h
  refine .bind_ (Q := fun x d => (x = true → new .checksum = .bytes (C.hash b)) ∧ d = d0) ?_ fun x => .of_pre fun hx => ?_
  · unfold PEnv.contentDifferent PEnv.getMeta
    refine .bind_ (Q := fun mm d => mm = some m ∧ d = d0) (.look_err ?_ ?_) fun mm => .of_pre fun hmm => ?_
    · rintro d a rfl h
      rw [hrec] at h
      simp only [hm, if_true, Except.ok.injEq] at h
      exact ⟨h.symm, rfl⟩
    · rintro e d rfl (⟨n, hn⟩ | h)
      · rw [hF] at hn; simp at hn
      · rw [hrec] at h; simp at h
    subst hmm
    dsimp only
    refine .bind_ (hread.mono (fun _ h => h) (fun _ _ h => h) fun _ _ h => h.elim) fun y => .of_pre fun hy => ?_
    subst hy
    rcases hno with ⟨c, hk | hk, hc⟩ | hk
    · rw [if_pos (by simp [hk.1, PyVal.truthy, hk.2])]
      refine .pure_ fun d hd => ⟨fun ht => ?_, hd⟩
      rcases hc with hc | hc
      · simp [hk.1, hc, pyEq] at ht
      · exact hc
    · rw [if_neg (by simp [hk.1]), hk.2]
      refine .pure_ fun d hd => ⟨fun ht => ?_, hd⟩
      rcases hc with hc | hc
      · simp [hc] at ht
      · exact hc
    · rw [if_neg (by simp [hk.1]), hk.2]
      exact .throw_ fun d hd => ⟨rfl, hd⟩
  · refine .ite_ (fun ht => ?_) fun _ => .pure_ fun _ h => h
    refine .bind_ (hread.mono (fun _ h => h) (fun _ _ h => h) fun _ _ h => h.elim) fun y => .of_pre fun hy => ?_
    subst hy
    rw [hx ht, if_pos (by simp [pyEq])]
    exact .pure_ fun _ h => h

/-- With no failing calls the object does go to the trash. -/
theorem crumple_runs (T : Trash CObj) (hF : ∀ n, T.F n = none) {i : Str} (hu : Usable T i) {q : Path} {b : Bytes} {mo : Option Meta}
    {d0 : Disk CObj} (hl : T.leads d0 T.loc = true) (hrec : d0.at_ q = some (.file b mo)) (hap : Apart q (T.loc ++ [fsSafeId i]))
    (hd : ∃ m, d0.at_ T.loc = some (.dir m)) (hq : ∀ m, d0.at_ (T.loc ++ [fsSafeId i]) ≠ some (.dir m)) :
    Hoare (fun d => d = d0) (T.crumple (some i) q)
      (fun p d => p = T.loc ++ [fsSafeId i] ∧ d = d0.move q (T.loc ++ [fsSafeId i])) (fun _ _ => False) := by
  have hpa : T.path (fsSafeId i) = T.loc ++ [fsSafeId i] := by rw [Trash.path, if_neg (by simp [hu.1, hu.2.1])]
  have hren : d0.rename q (T.loc ++ [fsSafeId i]) = .ok (d0.move q (T.loc ++ [fsSafeId i])) :=
    rename_file hrec hap (by rw [List.dropLast_concat]; exact hd) hq
  unfold Trash.crumple
  dsimp only
  rw [hpa, List.dropLast_concat, hu.place]
  refine .bind_ (Q := fun b d => b = true ∧ d = d0) (.look_err ?_ ?_) fun b => .of_pre fun hb => ?_
  · rintro d a rfl h
    simp only [Except.ok.injEq] at h
    exact ⟨h ▸ hl, rfl⟩
  · rintro e d rfl (⟨n, hn⟩ | h)
    · rw [hF] at hn; simp at hn
    · simp at h
  subst hb
  rw [if_pos rfl]
  refine .bind_ (Q := fun _ d => d = d0) (.pure_ fun _ h => h) fun _ => ?_
  refine .bind_ (Q := fun _ d => d = d0.move q (T.loc ++ [fsSafeId i])) ?_ fun _ => .pure_ fun _ h => ⟨rfl, h⟩
  refine .try_ (R := fun _ _ => False) ?_ fun e s hs => hs.elim
  obtain ⟨md, hd⟩ := hd
  unfold Trash.osRename
  rw [List.dropLast_concat]
  have hlast : ((T.loc ++ [fsSafeId i]).getLast?.any T.long) = false := by simp [hu.2.2.2]
  refine .act_err ?_ ?_
  · rintro d d' rfl h
    rw [hrec, hd] at h
    simp only [hlast, Bool.false_eq_true, and_false, if_false, hren, Except.ok.injEq] at h
    exact h.symm
  · rintro e d rfl (⟨n, hn⟩ | h)
    · rw [hF] at hn; simp at hn
    · rw [hrec, hd] at h
      simp [hu.2.2.2, hren] at h

/-- When the metadata of the remote differ, no call fails, there are no local changes and the remote sends what it says, then the update
returns: what the remote sent is at the path, and the file that was there is in the trash. -/
theorem refetch_runs (C : PEnv) {q : Path} {new m u : Meta} {b : Bytes} {i : Str} {cs : List Bytes} {l : List Str} {s : Machine CObj}
    (h : Replacing C q b m i s.disk) (hdiff : updateMeta (some m) (some new) = .ok (true, some u)) (hs : Sends C u cs l)
    (hno : NoLocalChanges C m new b) (hfree : ∀ m, s.disk.at_ (C.loc ++ [fsSafeId i]) ≠ some (.dir m)) :
    (C.metaUpdater q new true s).1 = .ok true := by
  obtain ⟨hrec, hm, hid, hu, -, ⟨mt, hloc⟩, hap, hdir, hr, hrf⟩ := h
  obtain ⟨hF, hcs, hne, hkey, hfid, hsz, herrs, hck, hcy⟩ := hs
  have hap' : Apart q (C.loc ++ [fsSafeId i]) := (apart_append' hap.symm _).symm
  have hqne : q ≠ [] := hdir.1
  have hub : metaBool u = true := by
    unfold metaBool
    rw [List.any_eq_true]
    exact ⟨.size, mem_all _, by simp [hsz]⟩
  suffices H : Hoare (fun d => d = s.disk) (C.metaUpdater q new true) (fun x _ => x = true) (fun _ _ => False) by
    have := H.result (s := s) rfl
    cases hx : (C.metaUpdater q new true s).1 with
    | ok x => rw [this.1 x hx]
    | error e => exact (this.2 e hx).elim
  generalize s.disk = d0 at *
  unfold PEnv.metaUpdater
  refine .bind_ (Q := fun mm d => mm = some m ∧ d = d0) (.look_err ?_ ?_) fun mm => .of_pre fun hmm => ?_
  · rintro d a rfl h
    rw [hrec] at h
    simp only [hm, if_true, Except.ok.injEq] at h
    exact ⟨h.symm, rfl⟩
  · rintro e d rfl (⟨n, hn⟩ | h)
    · rw [hF] at hn; simp at hn
    · rw [hrec] at h; simp at h
  subst hmm
  rw [hdiff]
  dsimp only
  rw [if_pos rfl]
  refine .bind_ (Q := fun x d => x = true ∧ d = d0) (.look_err ?_ ?_) fun x => .of_pre fun hx => ?_
  · rintro d a rfl h
    simp only [isFile, hrec, Except.ok.injEq] at h
    exact ⟨h.symm, rfl⟩
  · rintro e d rfl (⟨n, hn⟩ | h)
    · rw [hF] at hn; simp at hn
    · simp at h
  subst hx
  rw [if_pos (by decide)]
  refine .bind_ (Q := fun _ d => d = d0) (localChanges_runs C hF hrec hm hno) fun _ => ?_
  have hi : (some m).bind idIn = some i := by simp [idIn, hid]
  rw [hi]
  refine .bind_ (Q := fun p d => p = C.loc ++ [fsSafeId i] ∧ d = d0.move q (C.loc ++ [fsSafeId i]))
    (crumple_runs C.trash hF hu (by simp [PEnv.trash, there, hloc]) hrec hap' ⟨mt, hloc⟩ hfree) fun p => .of_pre fun hp => ?_
  subst hp
  refine .bind_ (Q := fun _ _ => True) ?_ fun _ => .pure_ fun _ _ => rfl
  refine .try_ (R := fun _ _ => False) ?_ fun e s hs => hs.elim
  rintro ⟨d1, t1⟩ hd1
  dsimp only at hd1
  have hmv := at_move d0 hap'
  have hsq : d1.at_ q = none := by rw [hd1, hmv, mv, if_neg hap'.2, if_pos (List.prefix_refl _)]
  have hpar : ∃ m, d1.at_ q.dropLast = some (.dir m) := by
    obtain ⟨-, md, hmd⟩ := hdir
    refine ⟨md, ?_⟩
    rw [hd1, hmv, mv, if_neg, if_neg, hmd]
    · intro hc
      have := hc.length_le
      rw [List.length_dropLast] at this
      have := List.length_pos_iff.2 hqne
      omega
    · intro hc
      exact hap'.2 (hc.trans (List.dropLast_prefix _))
  have hset := C100_returns C hF u ⟨d1, t1⟩ hqne (.inr (.inl ⟨hsq, hpar⟩))
  have hset2 := (setMeta_nothing (C := C) u hub hqne hsq).result (s := ⟨d1, t1⟩) rfl
  have h3 := hset2.1 () hset
  rw [hr] at h3
  simp only [Bool.false_eq_true, if_false] at h3
  obtain ⟨h3, h4⟩ := h3
  have hdir2 : InDir (C.setMeta q (some u) ⟨d1, t1⟩).2.disk q := by
    refine ⟨hqne, ?_⟩
    obtain ⟨md, hmd⟩ := hpar
    rcases h3 _ (dropLast_ne hqne) with h3 | ⟨-, h3, -⟩
    · exact ⟨md, by rw [h3]; exact hmd⟩
    · rw [hmd] at h3; simp at h3
  have hfet := C34_fetched C (limit := none) (.inr h4) hdir2 hfid (by rintro _ ⟨⟩) hF hkey hcs hne hsz herrs hck hcy
  unfold Prog.bind
  generalize C.setMeta q (some u) ⟨d1, t1⟩ = r at hset hfet ⊢
  obtain ⟨r, s2⟩ := r
  dsimp only at hset
  subst hset
  dsimp only at hfet ⊢
  generalize C.fetch q none s2 = r at hfet ⊢
  obtain ⟨r, s3⟩ := r
  dsimp only at hfet
  subst hfet
  trivial

/-- What an update leaves when it fetched: the bytes and the metadata of the remote at `q`, and in the trash the file that was there. -/
structure Pulled (C : PEnv) (q : Path) (b : Bytes) (m u : Meta) (i : Str) (x : Bytes) (d0 d : Disk CObj) : Prop where
  here : ∃ m', d.at_ q = some (.file x (some m')) ∧ Matches C m' x ∧ SameButMark C x u m'
  trash : d.at_ (C.loc ++ [fsSafeId i]) = some (.file b (some m))
  rest : ∀ r, ¬ q <+: r → ¬ C.loc ++ [fsSafeId i] <+: r → d.at_ r = d0.at_ r

theorem map_ok_inj {α β : Type} {cs cs' : List α} (h : cs.map (Except.ok : α → Except β α) = cs'.map .ok) : cs = cs' := by
  induction cs generalizing cs' with
  | nil => cases cs' with
    | nil => rfl
    | cons a t => simp at h
  | cons a t ih => cases cs' with
    | nil => simp at h
    | cons a' t' =>
      simp only [List.map_cons, List.cons.injEq, Except.ok.injEq] at h
      rw [h.1, ih h.2]

theorem refetch_fetched (C : PEnv) {q : Path} {new m u : Meta} {b : Bytes} {i : Str} {cs : List Bytes} {l : List Str} {s : Machine CObj}
    (h : Replacing C q b m i s.disk) (hdiff : updateMeta (some m) (some new) = .ok (true, some u)) (hs : Sends C u cs l)
    (hno : NoLocalChanges C m new b) (hfree : ∀ m, s.disk.at_ (C.loc ++ [fsSafeId i]) ≠ some (.dir m)) :
    (C.metaUpdater q new true s).1 = .ok true ∧ Pulled C q b m u i cs.flatten s.disk (C.metaUpdater q new true s).2.disk := by
  have h1 := refetch_runs C h hdiff hs hno hfree
  obtain ⟨-, h2, h3, h4⟩ := ((metaUpdater_hoare C h hdiff).result (s := s) rfl).1 true h1
  obtain ⟨cs', m', g1, g2, g3, g4, g5⟩ := h4 u rfl hs.file_id
  have : cs' = cs := map_ok_inj (g1.symm.trans hs.chunks)
  subst this
  exact ⟨h1, ⟨m', g3, g4, g5⟩, h2, h3⟩

theorem refetch_hoareF (C : PEnv) {q : Path} {new m u : Meta} {b : Bytes} {i : Str} {cs : List Bytes} {l : List Str} {d0 : Disk CObj}
    (h : Replacing C q b m i d0) (hdiff : updateMeta (some m) (some new) = .ok (true, some u)) (hs : Sends C u cs l)
    (hno : NoLocalChanges C m new b) (hfree : ∀ m, d0.at_ (C.loc ++ [fsSafeId i]) ≠ some (.dir m)) :
    Hoare (fun d => d = d0) (C.metaUpdater q new true) (fun x d => x = true ∧ Pulled C q b m u i cs.flatten d0 d) (fun _ _ => False) := by
  rintro s rfl
  obtain ⟨h1, h2⟩ := refetch_fetched C h hdiff hs hno hfree
  generalize C.metaUpdater q new true s = r at h1 h2 ⊢
  obtain ⟨r, s'⟩ := r
  dsimp only at h1
  subst h1
  exact ⟨rfl, h2⟩

/-- What the remote says about the file, and what it sends, agree, and no call fails. -/
structure Offers (C : PEnv) (info : Meta) (cs : List Bytes) : Prop where
  calls : ∀ n, C.F n = none
  chunks : C.chunks = cs.map .ok
  some_chunk : cs ≠ []
  key : C.cacheKey = none
  typed : WellTyped info
  file_id : info .file_id ≠ .none
  size : info .size = .int cs.flatten.length
  cypher : ∀ v, ∃ h, C.cypher v = .ok h

/-- The metadata say what the remote says: every field that the remote sets has its value, and a field that the remote leaves out is not
set.  Apart from this are the errors, to which a fetch may add, and the former id. -/
def Mirrors (info m : Meta) : Prop :=
  ∀ f, f ≠ .errors → (Carries (info f) → m f = info f) ∧ (f ≠ .old_id → info f = .none → m f = .none)

theorem update_offers {C : PEnv} {m info : Meta} {cs : List Bytes} (hw : WellTyped m) (hm : metaBool m = true) (ho : Offers C info cs)
    (hd : FileDiffers m info) :
    ∃ u l, updateMeta (some m) (some info) = .ok (true, some u) ∧ Sends C u cs l ∧ WellTyped u ∧
      ∀ f, u f = if f ≠ .old_id ∧ info f = .none then .none else overlay (withOldId m info) info f := by
  have herr : ∀ m : Meta, WellTyped m → ∃ l, m .errors = .strs l := by
    intro m hm
    have := hm .errors
    cases he : m .errors <;> simp [he, HasType] at this
    exact ⟨_, rfl⟩
  have hsi : SomethingSet info := .inl ⟨.size, by decide, by rw [ho.size]; simp⟩
  obtain ⟨d, u, h1, h2, h3⟩ := updateMeta_spec m info hw ho.typed ((metaBool_iff m (herr m hw)).1 hm) hsi
  have hdt : d = true := h2.2 hd
  subst hdt
  have hwu := merge_wellTyped m info hw ho.typed u true h3
  obtain ⟨l, hl⟩ := herr u hwu
  refine ⟨u, l, h1, ⟨ho.calls, ho.chunks, ho.some_chunk, ho.key, ?_, ?_, hl, ?_, ho.cypher⟩, hwu, fun f => by rw [h3]; simp⟩
  · have hf := ho.file_id
    have ht := ho.typed .file_id
    rw [h3, if_neg (by simp [hf]), overlay]
    cases hc : info .file_id <;> simp [hc, HasType, Carries] at hf ht ⊢
  · rw [h3, if_neg (by simp [ho.size]), overlay, if_pos (by rw [ho.size]; trivial), ho.size]
  · have := hwu .checksum
    cases hc : u .checksum <;> simp [hc, HasType] at this ⊢

theorem mirrors_of {C : PEnv} {m info u m' : Meta} {x : Bytes}
    (hu : ∀ f, u f = if f ≠ .old_id ∧ info f = .none then .none else overlay (withOldId m info) info f) (h : SameButMark C x u m') :
    Mirrors info m' := by
  intro f hf
  refine ⟨fun hc => ?_, fun hf' hn => ?_⟩
  · have hne : info f ≠ .none := fun e => by rw [e] at hc; exact hc
    have : u f = info f := by rw [hu, if_neg (by simp [hne]), overlay, if_pos hc]
    rcases h.1 f hf with h | ⟨h, -⟩
    · rw [h, this]
    · rw [this] at h
      cases hv : info f <;> simp [hv, Carries, PyVal.emptyIterable] at hc h <;> exact absurd h hc
  · have : u f = .none := by rw [hu, if_pos ⟨hf', hn⟩]
    rcases h.1 f hf with h | ⟨-, h⟩
    · rw [h, this]
    · exact h

/-- What a file of a cache is after an update from the remote that says `info` and sends `x`, when it had the metadata `m` before. -/
def InStep (C : PEnv) (info m : Meta) (x : Bytes) (t : Path) (d : Disk CObj) : Prop :=
  ∃ m', d.at_ t = some (.file x (some m')) ∧ Matches C m' x ∧ WellTyped m' ∧ Mirrors info m' ∧
    (¬ Carries (info .old_id) → m' .old_id = if pyEq (m .id) (info .id) then m .old_id else m .id)

theorem wellTyped_of {C : PEnv} {u m' : Meta} {x : Bytes} (hw : WellTyped u) (h : SameButMark C x u m') : WellTyped m' := by
  intro f
  by_cases hf : f = .errors
  · subst hf
    rcases h.2 with h | ⟨-, h⟩ | ⟨l, _, _, -, -, -, -, -, h⟩
    · rw [h]; exact hw _
    · rw [h]; trivial
    · rw [h]; trivial
  · rcases h.1 f hf with h | ⟨-, h⟩
    · rw [h]; exact hw f
    · rw [h]; cases f <;> simp [HasType] at hf ⊢

theorem inStep_of {C : PEnv} {m info u m' : Meta} {x : Bytes} {t : Path} {d : Disk CObj} (hwu : WellTyped u) (hid : Carries (m .id)) (hold : Carries (m .old_id) ∨ m .old_id = .none)
    (hu : ∀ f, u f = if f ≠ .old_id ∧ info f = .none then .none else overlay (withOldId m info) info f)
    (h1 : d.at_ t = some (.file x (some m'))) (h2 : Matches C m' x) (h3 : SameButMark C x u m') : InStep C info m x t d := by
  refine ⟨m', h1, h2, wellTyped_of hwu h3, mirrors_of hu h3, fun hc => ?_⟩
  have hv : u .old_id = if pyEq (m .id) (info .id) then m .old_id else m .id := by
    rw [hu, if_neg (by simp), overlay, if_neg hc, withOldId]
    split
    · rfl
    · rw [setField_self]
  rcases h3.1 .old_id (by decide) with h | ⟨h, h'⟩
  · rw [h, hv]
  · rw [hv] at h
    rw [h', ← hv]
    have hnc : ∀ v : PyVal, Carries v → v.emptyIterable = true → False := by
      intro v h1 h2
      cases v <;> simp [Carries, PyVal.emptyIterable] at h1 h2 <;> exact h1 h2
    split at h
    · rcases hold with hold | hold
      · exact (hnc _ hold h).elim
      · rw [hv, if_pos ‹_›, hold]
    · exact (hnc _ hid h).elim

theorem usable_carries {T : Trash CObj} {i : Str} (h : Usable T i) : Carries (.str i) := by
  intro h0
  exact h.1 (by rw [h0]; rfl)

/-- **C130**: a cache whose remote has another version of the file, and that belongs where it is, gets it: when no call fails, the local
file was not changed, and the remote sends what it says, then the update returns that the file was different, the bytes that the remote
sent are at the path with its metadata, the file that was there before is in the trash with its metadata, and nothing else changed. -/
theorem C130_pulled (C : PEnv) (parents : Prog CObj Unit) {R : RemoteView} {own given : Option Path} {q : Path} {m : Meta} {b : Bytes}
    {i : Str} {cs : List Bytes} {s : Machine CObj} (hone : own = none ∨ given = none) (hq : given.or own = some q)
    (h : Replacing C q b m i s.disk) (hw : WellTyped m) (hold : m .old_id ≠ .str []) (ho : Offers C R.info cs) (hd : FileDiffers m R.info)
    (hno : NoLocalChanges C m R.info b) (hfree : ∀ m, s.disk.at_ (C.loc ++ [fsSafeId i]) ≠ some (.dir m)) (hb : Belongs R q s.disk) :
    (C.updateCache parents R own given true s).1 = .ok true ∧
    InStep C R.info m cs.flatten q (C.updateCache parents R own given true s).2.disk ∧
    (C.updateCache parents R own given true s).2.disk.at_ (C.loc ++ [fsSafeId i]) = some (.file b (some m)) ∧
    ∀ r, ¬ q <+: r → ¬ C.loc ++ [fsSafeId i] <+: r → (C.updateCache parents R own given true s).2.disk.at_ r = s.disk.at_ r := by
  obtain ⟨u, l, hu, hs, hwu, hget⟩ := update_offers hw h.some_meta ho hd
  obtain ⟨hn, md, hdir, hmd, hpid⟩ := hb
  have H : Hoare (fun d => d = s.disk) (C.updateCache parents R own given true)
      (fun x d => x = true ∧ Pulled C q b m u i cs.flatten s.disk d) (fun _ _ => False) := by
    unfold PEnv.updateCache
    refine .ite_ (fun h => ?_) fun _ => ?_
    · rcases hone with rfl | rfl <;> simp at h
    rw [hq]
    dsimp only
    refine .bind_ (parentId_runs C ho.calls hdir hmd) fun i => .of_pre fun hi => ?_
    subst hi
    refine .ite_ (fun h => by simp [hn] at h) fun _ => .ite_ (fun h => by simp [hpid] at h) fun _ => ?_
    refine .bind_ (refetch_hoareF C h hu hs hno hfree) fun x => .of_pre fun hx => ?_
    refine .bind_ (Q := fun _ d => Pulled C q b m u i cs.flatten s.disk d)
      (.ite_ (fun h => by simp [hn, hpid] at h) fun _ => .pure_ fun _ h => h) fun _ => .pure_ fun _ h => ⟨hx, h⟩
  have := H s rfl
  generalize C.updateCache parents R own given true s = r at this ⊢
  obtain ⟨r, s'⟩ := r
  cases r with
  | error e => exact this.elim
  | ok a =>
    obtain ⟨rfl, ⟨m', g1, g2, g3⟩, g4, g5⟩ := this
    refine ⟨rfl, inStep_of hwu (by rw [h.id]; exact usable_carries h.usable) ?_ hget g1 g2 g3, g4, g5⟩
    have := hw .old_id
    cases hc : m .old_id <;> simp [hc, HasType, Carries] at this hold ⊢
    exact hold

/-- Going where the remote says, where nothing is. -/
theorem moveHome_runs (C : PEnv) (parents : Prog CObj Unit) {R : RemoteView} {q : Path} {m : Meta} {b : Bytes} {d0 : Disk CObj}
    (hF : ∀ n, C.F n = none) (hrd : C.remoteIsDir = false) (hrec : d0.at_ q = some (.file b (some m))) (hid : Carries (R.info .id))
    (hidm : m .id = R.info .id) (hmv : Moving q R.dest d0) (hp : isDirAt d0 R.dest.dropLast = true) (hfree : d0.at_ R.dest = none) :
    Hoare (fun d => d = d0) (C.moveHome parents R q)
      (fun _ d => d.at_ q = none ∧ d.at_ R.dest = some (.file b (some m)) ∧ d.at_ (safeUnlink R.dest) = none ∧
        ∀ r, ¬ q <+: r → ¬ R.dest <+: r → ¬ safeUnlink R.dest <+: r → d.at_ r = d0.at_ r) (fun _ _ => False) := by
  have hne : R.dest ≠ q := fun h => hmv.apart.1 (h ▸ List.prefix_refl _)
  have hset : ∀ m' : Meta, m' .id = R.info .id → metaBool m' = true := by
    intro m' h
    unfold metaBool
    rw [List.any_eq_true]
    refine ⟨.id, mem_all _, ?_⟩
    rw [if_neg (by decide), h]
    cases hc : R.info .id <;> simp [hc, Carries] at hid ⊢
  unfold PEnv.moveHome PEnv.home
  refine .bind_ (makeChild_free C hF (hset _ rfl) hrd hfree ⟨hmv.target, isDirAt_iff.1 hp⟩) fun t => .of_pre fun ht => ?_
  subst ht
  rintro s1 ⟨g1, g2⟩
  have h2' : s1.disk.at_ q = some (.file b (some m)) := by rw [g1 _ hne.symm, hrec]
  have hmv1 : Moving q R.dest s1.disk := by
    refine ⟨there_file h2', hmv.apart, hmv.target, fun r hr => ?_⟩
    rw [g1 r (by rintro rfl; exact (safeUnlink_apart hmv.target).2 hr)]
    exact hmv.free r hr
  have hp1 : isDirAt s1.disk R.dest.dropLast = true := by
    unfold isDirAt
    rw [g1 _ (dropLast_ne hmv.target)]
    exact hp
  have := C37_moves_partial C parents (given := none) (remote := true) hF hmv1 hp1
    (fun x y hx hy => by
      rw [h2'] at hx
      rw [g2] at hy
      cases hx
      cases hy
      simp [cacheId, hset m hidm, hidm]) (by simp [isFile, h2']) (by simp [isDirAt, g2])
  generalize C.move parents q R.dest none true false s1 = r at this ⊢
  obtain ⟨r, s'⟩ := r
  obtain ⟨k1, k2, k3⟩ := this
  cases r with
  | error e => simp at k1
  | ok a =>
    refine ⟨?_, ?_, k3, fun r hr1 hr2 hr3 => ?_⟩
    · show s'.disk.at_ q = none
      rw [k2 q hmv.apart_safe.2]
      simp [mv, hmv.apart.2]
    · show s'.disk.at_ R.dest = _
      rw [k2 _ (safeUnlink_apart hmv.target).2]
      simp [mv, h2']
    · show s'.disk.at_ r = _
      rw [k2 r hr3]
      simp only [mv, hr1, hr2, if_false]
      exact g1 r (by rintro rfl; exact hr2 (List.prefix_refl _))

/-- **C130**: a cache of the remote itself whose remote has another version of the file, and another name or parent, gets the new version
and goes where the remote says: when nothing is there, no call fails, the local file was not changed, and the remote sends what it says,
then what the remote sent is at the new place with its metadata, nothing is at the old place, and the old file is in the trash. -/
theorem C130_moved (C : PEnv) (parents : Prog CObj Unit) {R : RemoteView} {q : Path} {m md : Meta} {b : Bytes}
    {i : Str} {cs : List Bytes} {s : Machine CObj}
    (h : Replacing C q b m i s.disk) (hw : WellTyped m) (hold : m .old_id ≠ .str []) (ho : Offers C R.info cs) (hd : FileDiffers m R.info)
    (hno : NoLocalChanges C m R.info b) (hfree : ∀ m, s.disk.at_ (C.loc ++ [fsSafeId i]) ≠ some (.dir m)) (hid : Carries (R.info .id))
    (hdir : s.disk.at_ q.dropLast = some (.dir (some md))) (hmd : metaBool md = true)
    (hmove : q.getLast? ≠ some R.name ∨ pyEq R.parentId (md .id) = false)
    (hmv : Moving q R.dest s.disk) (hp : isDirAt s.disk R.dest.dropLast = true) (hnew : s.disk.at_ R.dest = none)
    (hdt : Apart R.dest C.loc) (hst : Apart (safeUnlink R.dest) C.loc) :
    (C.updateCache parents R (some q) none true s).1 = .ok true ∧
    InStep C R.info m cs.flatten R.dest (C.updateCache parents R (some q) none true s).2.disk ∧
    (C.updateCache parents R (some q) none true s).2.disk.at_ q = none ∧
    (C.updateCache parents R (some q) none true s).2.disk.at_ (C.loc ++ [fsSafeId i]) = some (.file b (some m)) ∧
    (C.updateCache parents R (some q) none true s).2.disk.at_ (safeUnlink R.dest) = none ∧
    ∀ r, ¬ q <+: r → ¬ R.dest <+: r → ¬ safeUnlink R.dest <+: r → ¬ C.loc ++ [fsSafeId i] <+: r →
      (C.updateCache parents R (some q) none true s).2.disk.at_ r = s.disk.at_ r := by
  obtain ⟨u, l, hu, hs, hwu, hget⟩ := update_offers hw h.some_meta ho hd
  have hidu : ∀ m', SameButMark C cs.flatten u m' → m' .id = R.info .id := fun m' hm' => (mirrors_of hget hm' .id (by decide)).1 hid
  have hdt' := (apart_append' hdt.symm [fsSafeId i]).symm
  have hst' := (apart_append' hst.symm [fsSafeId i]).symm
  have hq' := (apart_append' h.apart.symm [fsSafeId i]).symm
  have H : Hoare (fun d => d = s.disk) (C.updateCache parents R (some q) none true)
      (fun x d => x = true ∧ ∃ (d1 : Disk CObj) (m' : Meta), Matches C m' cs.flatten ∧ SameButMark C cs.flatten u m' ∧
        d1.at_ (C.loc ++ [fsSafeId i]) = some (.file b (some m)) ∧ (∀ r, ¬ q <+: r → ¬ C.loc ++ [fsSafeId i] <+: r → d1.at_ r = s.disk.at_ r) ∧
        d.at_ q = none ∧ d.at_ R.dest = some (.file cs.flatten (some m')) ∧ d.at_ (safeUnlink R.dest) = none ∧
        ∀ r, ¬ q <+: r → ¬ R.dest <+: r → ¬ safeUnlink R.dest <+: r → d.at_ r = d1.at_ r) (fun _ _ => False) := by
    unfold PEnv.updateCache
    refine .ite_ (fun h => by simp at h) fun _ => ?_
    show Hoare _ (Prog.bind (C.parentId q) _) _ _
    refine .bind_ (parentId_runs C ho.calls hdir hmd) fun i => .of_pre fun hi => ?_
    subst hi
    refine .ite_ (fun h => by simp at h) fun _ => .ite_ (fun h => by simp at h) fun _ => ?_
    refine .bind_ (refetch_hoareF C h hu hs hno hfree) fun x => .of_pre fun hx => ?_
    rw [if_pos (by simpa using hmove)]
    refine .of_each fun d1 hd1 => ?_
    obtain ⟨⟨m', g1, g2, g3⟩, g4, g5⟩ := hd1
    have hsame : ∀ r, Apart r q → Apart r (C.loc ++ [fsSafeId i]) → d1.at_ r = s.disk.at_ r := fun r h1 h2 => g5 r h1.2 h2.2
    refine .bind_ (.bind_ (moveHome_runs C parents ho.calls h.remote g1 hid (hidu m' g3) ?_ ?_ ?_) fun _ => .pure_ fun _ h => h)
      fun _ => .pure_ fun d hd => ⟨hx, d1, m', g2, g3, g4, g5, hd⟩
    · refine ⟨there_file g1, hmv.apart, hmv.target, fun r hr => ?_⟩
      rw [g5 r, hmv.free r hr]
      · intro hc
        rcases List.prefix_or_prefix_of_prefix hc hr with h | h
        · exact hmv.apart_safe.1 h
        · exact hmv.apart_safe.2 h
      · intro hc
        rcases List.prefix_or_prefix_of_prefix hc hr with h | h
        · exact hst'.2 h
        · exact hst'.1 h
    · unfold isDirAt
      rw [g5]
      · exact hp
      · intro hc
        exact hmv.apart.1 (hc.trans (List.dropLast_prefix _))
      · intro hc
        exact hdt'.2 (hc.trans (List.dropLast_prefix _))
    · rw [g5 _ hmv.apart.1 hdt'.2, hnew]
  have := H s rfl
  generalize C.updateCache parents R (some q) none true s = r at this ⊢
  obtain ⟨r, s'⟩ := r
  cases r with
  | error e => exact this.elim
  | ok a =>
    obtain ⟨rfl, d1, m', g2, g3, g4, g5, k1, k2, k3, k4⟩ := this
    refine ⟨rfl, inStep_of hwu (by rw [h.id]; exact usable_carries h.usable) ?_ hget k2 g2 g3, k1, ?_, k3, fun r r1 r2 r3 r4 => ?_⟩
    · have := hw .old_id
      cases hc : m .old_id <;> simp [hc, HasType, Carries] at this hold ⊢
      exact hold
    · rw [k4 _ hq'.1 hdt'.1 hst'.1, g4]
    · rw [k4 r r1 r2 r3, g5 r r1 r4]

theorem update_mirrored {m info : Meta} (hw : WellTyped m) (hm : metaBool m = true) (hi : WellTyped info) (hid : Carries (info .id)) (h : Mirrors info m) :
    ∃ u, updateMeta (some m) (some info) = .ok (false, some u) ∧ metaBool u = true ∧
      ∀ f, u f = if f = .errors ∧ Carries (info .errors) then info .errors else m f := by
  have herr : ∀ m : Meta, WellTyped m → ∃ l, m .errors = .strs l := by
    intro m hm
    have := hm .errors
    cases he : m .errors <;> simp [he, HasType] at this
    exact ⟨_, rfl⟩
  have hsi : SomethingSet info := .inl ⟨.id, by decide, fun e => by rw [e] at hid; exact hid⟩
  obtain ⟨d, u, h1, h2, h3⟩ := updateMeta_spec m info hw hi ((metaBool_iff m (herr m hw)).1 hm) hsi
  have hdf : d = false := by
    cases hb : d
    · rfl
    · obtain ⟨f, hf, c1, c2, c3⟩ := h2.1 hb
      have hne : f ≠ .errors := by rintro rfl; rcases hf with hf | hf | hf | hf | hf <;> simp at hf
      rw [(h f hne).1 c2, pyEq_refl] at c3
      simp at c3
  subst hdf
  have hget : ∀ f, u f = if f = .errors ∧ Carries (info .errors) then info .errors else m f := by
    intro f
    rw [h3]
    simp only [Bool.false_eq_true, false_and, if_false, overlay]
    have hwo : withOldId m info = m := by rw [withOldId, (h .id (by decide)).1 hid, if_pos (pyEq_refl _)]
    rw [hwo]
    by_cases hf : f = .errors
    · subst hf
      simp
    · simp only [hf, false_and, if_false]
      split
      · exact ((h f hf).1 ‹_›).symm
      · rfl
  refine ⟨u, h1, ?_, hget⟩
  unfold metaBool
  rw [List.any_eq_true]
  refine ⟨.id, mem_all _, ?_⟩
  rw [if_neg (by decide), hget, if_neg (by simp), (h .id (by decide)).1 hid]
  cases hc : info .id <;> simp [hc, Carries] at hid ⊢

/-- **C130**: an update of a file that is as the remote says changes nothing, whether it may fetch or not: it returns that the file was
not different, and only the errors of the remote, if it has any, take the place of those that were recorded. -/
theorem C130_again (C : PEnv) (parents : Prog CObj Unit) {R : RemoteView} {own given : Option Path} {fetch : Bool} {q : Path}
    {m : Meta} {b : Bytes} {s : Machine CObj} (hF : ∀ n, C.F n = none) (hone : own = none ∨ given = none) (hq : given.or own = some q)
    (hrec : s.disk.at_ q = some (.file b (some m))) (hw : WellTyped m) (hi : WellTyped R.info) (hid : Carries (R.info .id))
    (h : Mirrors R.info m) (hb : Belongs R q s.disk) :
    (C.updateCache parents R own given fetch s).1 = .ok false ∧
    (∀ r, r ≠ q → (C.updateCache parents R own given fetch s).2.disk.at_ r = s.disk.at_ r) ∧
    (C.updateCache parents R own given fetch s).2.disk.at_ q =
      some (.file b (some (if Carries (R.info .errors) then setField m .errors (R.info .errors) else m))) := by
  have hm : metaBool m = true := by
    unfold metaBool
    rw [List.any_eq_true]
    refine ⟨.id, mem_all _, ?_⟩
    rw [if_neg (by decide), (h .id (by decide)).1 hid]
    cases hc : R.info .id <;> simp [hc, Carries] at hid ⊢
  obtain ⟨u, h1, h2, h3⟩ := update_mirrored hw hm hi hid h
  obtain ⟨g1, g2, m', g3, g4⟩ := C92_stays C parents (fetch := fetch) hF hone hq hrec hm h2 h1 (.inl rfl) hb
  refine ⟨g1, g2, ?_⟩
  rw [g3]
  congr 3
  funext f
  rw [g4, h3]
  by_cases hc : Carries (R.info .errors)
  · rw [if_pos hc]
    by_cases hf : f = .errors
    · subst hf
      rw [setField_self]
      simp only [hc, and_self, if_true]
      rw [if_pos]
      cases hv : R.info .errors <;> simp [hv, Carries, PyVal.emptyIterable] at hc ⊢ <;> exact hc
    · simp [setField, hf]
  · simp [hc]

/-- **C130**: an update that is repeated, when the remote did not change meanwhile, finds nothing to do: it fetches nothing, puts nothing
in the trash, and leaves every path as it is, the file itself with the bytes that the remote sent. -/
theorem C130_twice (C : PEnv) (parents : Prog CObj Unit) {R : RemoteView} {own given : Option Path} {q : Path} {m : Meta} {b : Bytes}
    {i : Str} {cs : List Bytes} {s : Machine CObj} (hone : own = none ∨ given = none) (hq : given.or own = some q)
    (h : Replacing C q b m i s.disk) (hw : WellTyped m) (hold : m .old_id ≠ .str []) (ho : Offers C R.info cs) (hd : FileDiffers m R.info)
    (hno : NoLocalChanges C m R.info b) (hfree : ∀ m, s.disk.at_ (C.loc ++ [fsSafeId i]) ≠ some (.dir m)) (hb : Belongs R q s.disk)
    (hid : Carries (R.info .id)) {s1 : Machine CObj} (hs1 : s1 = (C.updateCache parents R own given true s).2) :
    (C.updateCache parents R own given true s1).1 = .ok false ∧
    (∀ r, r ≠ q → (C.updateCache parents R own given true s1).2.disk.at_ r = s1.disk.at_ r) ∧
    (∃ m', (C.updateCache parents R own given true s1).2.disk.at_ q = some (.file cs.flatten (some m')) ∧ Mirrors R.info m') ∧
    (¬ Carries (R.info .errors) → (C.updateCache parents R own given true s1).2.disk.at_ q = s1.disk.at_ q) := by
  obtain ⟨-, ⟨m', g1, -, g2, g3, -⟩, -, g4⟩ := C130_pulled C parents hone hq h hw hold ho hd hno hfree hb
  rw [← hs1] at g1 g4
  have hb1 : Belongs R q s1.disk := by
    obtain ⟨k1, md, k2, k3⟩ := hb
    refine ⟨k1, md, ?_, k3⟩
    rw [g4, k2]
    · intro hc
      have := hc.length_le
      rw [List.length_dropLast] at this
      have := List.length_pos_iff.2 h.parent.1
      omega
    · intro hc
      exact (apart_append' h.apart.symm [fsSafeId i]).1 (hc.trans (List.dropLast_prefix _))
  obtain ⟨k1, k2, k3⟩ := C130_again C parents (fetch := true) ho.calls hone hq g1 g2 ho.typed hid g3 hb1
  refine ⟨k1, k2, ⟨_, k3, fun f hf => ?_⟩, fun hc => by rw [k3, if_neg hc, g1]⟩
  have : (if Carries (R.info .errors) then setField m' .errors (R.info .errors) else m') f = m' f := by
    split
    · simp [setField, hf]
    · rfl
  rw [this]
  exact g3 f hf

/-! ## C131: the mark for a wrong checksum -/

/-- The errors say that the checksum is wrong. -/
def SaysWrong (m : Meta) : Prop := ∃ l, m .errors = .strs l ∧ lit "checksum-mismatch" ∈ l

/-- The checksum of the data is not the recorded one. -/
def IsWrong (C : PEnv) (m : Meta) (x : Bytes) : Prop := ∃ h c, C.cypher (m .checksum_cypher) = .ok h ∧ m .checksum = .bytes c ∧ h x ≠ c

theorem says_iff {C : PEnv} {u m' : Meta} {x : Bytes} (hu : ¬ SaysWrong u) (hck : u .checksum = .none ∨ Carries (u .checksum)) (h1 : Matches C m' x)
    (h2 : SameButMark C x u m') : SaysWrong m' ↔ IsWrong C m' x := by
  have hsame : m' .checksum = u .checksum := by
    rcases h2.1 .checksum (by decide) with h | ⟨h, h'⟩
    · exact h
    · rcases hck with hck | hck
      · rw [h', hck]
      · cases hv : u .checksum <;> simp [hv, Carries, PyVal.emptyIterable] at hck h <;> exact absurd h hck
  constructor
  · rintro ⟨l, hl, hin⟩
    rcases h2.2 with h | ⟨-, h⟩ | ⟨l', h, c, -, -, k1, k2, k3, -⟩
    · exact absurd ⟨l, h ▸ hl, hin⟩ hu
    · rw [hl] at h
      simp only [PyVal.strs.injEq] at h
      rw [h] at hin
      simp at hin
    · exact ⟨h, c, k1, by rw [hsame, k2], k3⟩
  · rintro ⟨h, c, k1, k2, k3⟩
    rcases h1.2 with g | g | ⟨h', g1, g2⟩
    · rw [k2] at g; simp at g
    · exact g
    · rw [k1] at g1
      rw [k2] at g2
      cases g1
      cases g2
      exact absurd rfl k3

/-- **C131** (partial): when a fetch that the limit allows returns, and the metadata did not say before that the checksum is wrong, then
they say so now if and only if the checksum of what was fetched is not the recorded one.  What is missing: metadata that already said so,
see `C131_refetch_counterexample`. -/
theorem C131_fetch_partial (C : PEnv) {q : Path} {limit : Option Int} {m : Meta} {s s' : Machine CObj} (hrec : Recorded s.disk q m)
    (hm : metaBool m = true) (hdir : InDir s.disk q) (hid : m .file_id ≠ .none) (hall : Allowed limit m)
    (hck : m .checksum = .none ∨ Carries (m .checksum)) (hn : ¬ SaysWrong m) (hrun : C.fetch q limit s = (.ok (), s')) :
    ∃ x m', s'.disk.at_ q = some (.file x (some m')) ∧ (SaysWrong m' ↔ IsWrong C m' x) := by
  obtain ⟨cs, m', -, -, h1, h2, h3, -⟩ := C34_verified C hrec hm hdir hid hall hrun
  exact ⟨_, m', h1, says_iff hn hck h2 h3⟩

/-- **C131** (partial): likewise for an update that fetches a new version, when neither the metadata before nor those of the remote say
that the checksum is wrong.  What is missing: a cache that was marked before, see `C131_stale_counterexample`. -/
theorem C131_update_partial (C : PEnv) {q : Path} {m info u : Meta} {b : Bytes} {i : Str} {s s' : Machine CObj} {x : Bool}
    (h : Replacing C q b m i s.disk) (hdiff : updateMeta (some m) (some info) = .ok (true, some u)) (hw : WellTyped m) (hi : WellTyped info)
    (hid : u .file_id ≠ .none) (hck : info .checksum = .none ∨ Carries (info .checksum)) (hn : ¬ SaysWrong m) (hn' : ¬ SaysWrong info)
    (hrun : C.metaUpdater q info true s = (.ok x, s')) :
    ∃ b' m', s'.disk.at_ q = some (.file b' (some m')) ∧ (SaysWrong m' ↔ IsWrong C m' b') := by
  obtain ⟨-, -, -, cs, m', -, -, g5, g6, g7⟩ := C33_returned_partial C h hdiff hid hrun
  refine ⟨_, m', g5, says_iff ?_ ?_ g6 g7⟩
  all_goals
    have hso : SomethingSet m := (metaBool_iff m (by
      have := hw .errors
      cases he : m .errors <;> simp [he, HasType] at this
      exact ⟨_, rfl⟩)).1 h.some_meta
    have hsi : SomethingSet info := by
      refine (metaBool_iff info (by
        have := hi .errors
        cases he : info .errors <;> simp [he, HasType] at this
        exact ⟨_, rfl⟩)).1 ?_
      cases hb : metaBool info
      · simp [updateMeta, h.some_meta, hb] at hdiff
      · rfl
    obtain ⟨d, u', h1, h2, h3⟩ := updateMeta_spec m info hw hi hso hsi
    rw [hdiff] at h1
    cases h1
  · rintro ⟨l, hl, hin⟩
    rw [h3] at hl
    split at hl
    · simp at hl
    · unfold overlay at hl
      split at hl
      · exact hn' ⟨l, hl, hin⟩
      · rw [withOldId_ne m info (by decide)] at hl
        exact hn ⟨l, hl, hin⟩
  · rcases hck with hck | hck
    · exact .inl (by rw [h3]; simp [hck])
    · have hne : info .checksum ≠ .none := fun e => by rw [e] at hck; exact hck
      refine .inr ?_
      rw [h3, if_neg (by simp [hne]), overlay, if_pos hck]
      exact hck

/-- Metadata of three bytes that say that the checksum is wrong. -/
def wrongBytes (c : Bytes) : Meta := Verif.setField (threeBytes c) .errors (.strs [lit "checksum-mismatch"])

theorem shown_file {d : Disk CObj} {q : Path} {b : Bytes} {m : Meta} (h : shown d q = some (b, Field.all.map m)) : d.at_ q = some (.file b (some m)) := by
  unfold shown at h
  split at h
  · rename_i b' m' hat
    simp only [Option.some.injEq, Prod.mk.injEq] at h
    rw [hat, h.1]
    congr 3
    funext f
    exact List.map_inj_left.1 h.2 f (mem_all f)
  · simp at h

/-- A file that was marked stays marked when the remote sends data with the right checksum: they are not checked again. -/
theorem C131_refetch_counterexample :
    let r := simple.fetch [['a']] none ⟨[([], .dir none), ([['a']], .file [9] (some (wrongBytes [1])))], 0⟩
    r.1 = .ok () ∧ ∃ m', r.2.disk.at_ [['a']] = some (.file [1, 2, 3] (some m')) ∧ SaysWrong m' ∧ ¬ IsWrong simple m' [1, 2, 3] := by
  refine ⟨by decide +kernel, wrongBytes [1], shown_file (by decide +kernel), ⟨_, rfl, by decide⟩, ?_⟩
  rintro ⟨h, c, h1, h2, h3⟩
  cases h1
  have : [1] = c := by simpa [wrongBytes, threeBytes, Verif.setField] using h2
  subst this
  exact h3 rfl

/-- The mark of the previous version survives an update to a version whose checksum is right. -/
theorem C131_stale_counterexample :
    let r := sends.metaUpdater [['a']] (threeBytes [2]) true ⟨[([], .dir none), ([['t']], .dir none), ([['a']], .file [1] (some (wrongBytes [1])))], 0⟩
    r.1 = .ok true ∧ ∃ m', r.2.disk.at_ [['a']] = some (.file [2, 3, 4] (some m')) ∧ SaysWrong m' ∧ m' .checksum = .bytes [2] ∧
      ¬ IsWrong sends m' [2, 3, 4] := by
  refine ⟨by decide +kernel, wrongBytes [2], shown_file (by decide +kernel), ⟨_, rfl, by decide⟩, by decide, ?_⟩
  rintro ⟨h, c, h1, h2, h3⟩
  cases h1
  have : [2] = c := by simpa [wrongBytes, threeBytes, Verif.setField] using h2
  subst this
  exact h3 rfl

/-! ## The situations of the theorems -/

theorem threeBytes_typed (c : Bytes) : WellTyped (threeBytes c) := by
  intro f; cases f <;> simp [threeBytes, HasType]

/-- The situation of `C130_pulled` and `C130_twice`, and that of `C131_update_partial`. -/
example : Replacing sends [['d'], ['a']] [1] (threeBytes [1]) ['i'] (inDir []).disk ∧ threeBytes [1] .old_id ≠ .str [] ∧
    Offers sends (threeBytes [2]) [[2, 3, 4]] ∧ FileDiffers (threeBytes [1]) (threeBytes [2]) ∧
    NoLocalChanges sends (threeBytes [1]) (threeBytes [2]) [1] ∧ (inDir []).disk.at_ (sends.loc ++ [fsSafeId ['i']]) = none ∧
    Carries (threeBytes [2] .id) ∧ ¬ SaysWrong (threeBytes [1]) := by
  refine ⟨⟨by decide +kernel, by decide, rfl, by decide, by intro n; simp [sends, simple], ⟨none, by decide +kernel⟩, by unfold Apart; decide,
    ⟨by simp, some (justId ['p']), by rfl⟩, rfl, fun d0 => .pure_ fun _ h => h⟩, by decide, ?_, ?_, .inl ⟨[1], .inl ⟨rfl, by simp⟩, .inl (by decide)⟩, by decide, by decide, ?_⟩
  · exact ⟨fun _ => rfl, rfl, by simp, rfl, threeBytes_typed _, by decide, rfl, fun v => ⟨_, rfl⟩⟩
  · exact ⟨.checksum, .inr (.inr (.inr (.inl rfl))), by decide, by decide, by decide⟩
  · rintro ⟨l, hl, hin⟩
    simp only [threeBytes, PyVal.strs.injEq] at hl
    subst hl
    simp at hin

/-- The new version is fetched, and goes to its new name; the second update does nothing. -/
example :
    let up := sends.updateCache (.pure ()) (remoteNamed ['b'] ['p'] (threeBytes [2]) [['d'], ['b']]) (some [['d'], ['a']]) none true
    (up (inDir [])).1 = .ok true ∧
      contents (up (inDir [])).2.disk = [([['d'], ['b']], some [2, 3, 4]), ([], none), ([['t']], none), ([['d']], none), ([['t'], ['i']], some [1])] ∧
    (let again := sends.updateCache (.pure ()) (remoteNamed ['b'] ['p'] (threeBytes [2]) [['d'], ['b']]) (some [['d'], ['b']]) none true
     (again (up (inDir [])).2).1 = .ok false ∧ contents (again (up (inDir [])).2).2.disk =
       [([['d'], ['b']], some [2, 3, 4]), ([], none), ([['t']], none), ([['d']], none), ([['t'], ['i']], some [1])]) := by
  refine ⟨by decide +kernel, by decide +kernel, by decide +kernel, by decide +kernel⟩

/-- The situation of `C131_fetch_partial`. -/
example : Recorded withLink [['a']] (threeBytes [1]) ∧ (threeBytes [1] .checksum = .none ∨ Carries (threeBytes [1] .checksum)) ∧
    ¬ SaysWrong (threeBytes [1]) := by
  refine ⟨.inr (by decide), .inr (by decide), ?_⟩
  rintro ⟨l, hl, hin⟩
  simp only [threeBytes, PyVal.strs.injEq] at hl
  subst hl
  simp at hin

end Verif.Cache
