import Verif.Props.Crumple
import Verif.Props.Fetch

/-!
# C32, C33: Updating metadata
-/

namespace Verif.Cache
open Verif.FS

/-- Every run of `crumple` with a usable id when the trash is there. -/
theorem crumple_exact {ν : Type} [Kinded ν] (T : Trash ν) (hF : ∀ n, T.F n ≠ some .nameTooLongError) {i : Str} (hu : Usable T i) {q : Path}
    {d0 : Disk ν} (hl : T.leads d0 T.loc = true) :
    Hoare (fun d => d = d0) (T.crumple (some i) q)
      (fun p d => p = T.loc ++ [fsSafeId i] ∧ d0.rename q (T.loc ++ [fsSafeId i]) = .ok d) (fun _ d => d = d0) := by
  have hpa : T.path (fsSafeId i) = T.loc ++ [fsSafeId i] := by rw [Trash.path, if_neg (by simp [hu.1, hu.2.1])]
  unfold Trash.crumple
  dsimp only
  rw [hpa, List.dropLast_concat, hu.place]
  refine .bind_ (Q := fun b d => b = true ∧ d = d0) (.look_ ?_ fun _ _ h => h) fun b => .of_pre fun hb => ?_
  · rintro d a rfl h
    simp only [Except.ok.injEq] at h
    exact ⟨h ▸ hl, rfl⟩
  subst hb
  rw [if_pos rfl]
  refine .bind_ (Q := fun _ d => d = d0) (.pure_ fun _ h => h) fun _ => ?_
  refine .bind_ (Q := fun _ d => d0.rename q (T.loc ++ [fsSafeId i]) = .ok d) ?_ fun _ => .pure_ fun _ h => ⟨rfl, h⟩
  refine .try_ (R := fun e d => e ≠ .nameTooLongError ∧ d = d0) ?_ fun e => .of_pre fun he => ?_
  · refine osRename_hoare T _ _ _ _ _ (fun d d' h hr => h ▸ hr) (fun e d h h1 _ => ⟨fun he => ?_, h⟩)
    rcases h1 he with h1 | ⟨n, hn⟩
    · simp [hu.2.2.2] at h1
    · exact hF n hn
  · rw [if_neg he]
    exact .throw_ fun _ h => h

/-- The checks before the file goes to the trash do not change anything. -/
theorem localChanges_hoare (C : PEnv) (q : Path) (new : Meta) (d0 : Disk CObj) :
    Hoare (fun d => d = d0) (C.localChanges q new) (fun _ d => d = d0) (fun _ d => d = d0) := by
  unfold PEnv.localChanges
  refine .try_ (R := fun _ d => d = d0) ?_ fun e => .ite_ (fun _ => .pure_ fun _ h => h) (fun _ => .throw_ fun _ h => h)
  refine .bind_ (Q := fun _ d => d = d0) ?_ fun different => ?_
  · unfold PEnv.contentDifferent
    refine .bind_ (Q := fun _ d => d = d0) (.look_ (fun _ _ h _ => h) fun _ _ h => h) fun m => ?_
    cases m with
    | none => exact .throw_ fun _ h => h
    | some m =>
      refine .bind_ (Q := fun _ d => d = d0) (.look_ (fun _ _ h _ => h) fun _ _ h => h) fun b => ?_
      refine .ite_ (fun _ => .pure_ fun _ h => h) fun _ => ?_
      split
      · exact .throw_ fun _ h => h
      · exact .pure_ fun _ h => h
  · refine .ite_ (fun _ => ?_) fun _ => .pure_ fun _ h => h
    refine .bind_ (Q := fun _ d => d = d0) (.look_ (fun _ _ h _ => h) fun _ _ h => h) fun b => ?_
    exact .ite_ (fun _ => .pure_ fun _ h => h) (fun _ => .throw_ fun _ h => h)

/-- The content that the cache knows: the recorded checksum, or that of the remote file. -/
def KnownSum (C : PEnv) (m : Meta) (c : Bytes) : Prop :=
  m .checksum = .bytes c ∧ c ≠ [] ∨ (m .checksum).truthy = false ∧ C.remoteSum = .ok c

/-- With local changes the check raises, or something else fails. -/
theorem localChanges_raises (C : PEnv) {q : Path} {new m : Meta} {b c : Bytes} {d0 : Disk CObj} (hrec : d0.at_ q = some (.file b (some m)))
    (hm : metaBool m = true) (hk : KnownSum C m c) (hc : C.hash b ≠ c) (hn : new .checksum ≠ .bytes (C.hash b))
    (hF : ∀ n, C.F n ≠ some .noRemoteFileError) :
    Hoare (fun d => d = d0) (C.localChanges q new) (fun _ _ => False)
      (fun e d => d = d0 ∧ (e = .localChangesError ∨ ∃ n, C.F n = some e)) := by
  unfold PEnv.localChanges
  refine .try_ (R := fun e d => e ≠ .noRemoteFileError ∧ d = d0 ∧ (e = .localChangesError ∨ ∃ n, C.F n = some e)) ?_ fun e => .of_pre fun he => by
    rw [if_neg he]; exact .throw_ fun _ h => h
  have hfail : ∀ e, (∃ n, C.F n = some e) → e ≠ .noRemoteFileError := by
    rintro e ⟨n, hn⟩ rfl; exact hF n hn
  have hread : ∀ (f : Bytes → Prog CObj Unit) (R : PyErr → Disk CObj → Prop), (∀ e, (∃ n, C.F n = some e) → R e d0) →
      Hoare (fun d => d = d0) (f b) (fun _ _ => False) R →
      Hoare (fun d => d = d0) (.bind (.look C.F fun d => dataAt d q) f) (fun _ _ => False) R := by
    intro f R hR hf
    refine .bind_ (Q := fun x d => x = b ∧ d = d0) (.look_err ?_ ?_) fun x => .of_pre fun hx => by subst hx; exact hf
    · rintro d a rfl h
      simp only [dataAt, hrec, Except.ok.injEq] at h
      exact ⟨h.symm, rfl⟩
    · rintro e d rfl (h | h)
      · exact hR e h
      · simp [dataAt, hrec] at h
  refine .bind_ (Q := fun x d => x = true ∧ d = d0) ?_ fun x => .of_pre fun hx => ?_
  · unfold PEnv.contentDifferent
    refine .bind_ (Q := fun mm d => mm = some m ∧ d = d0) (.look_err ?_ ?_) fun mm => .of_pre fun hmm => ?_
    · rintro d a rfl h
      rw [hrec] at h
      simp only [hm, if_true, Except.ok.injEq] at h
      exact ⟨h.symm, rfl⟩
    · rintro e d rfl (h | h)
      · exact ⟨hfail e h, rfl, .inr h⟩
      · rw [hrec] at h; simp at h
    subst hmm
    dsimp only
    refine .bind_ (Q := fun x d => x = b ∧ d = d0) (.look_err ?_ ?_) fun x => .of_pre fun hx => ?_
    · rintro d a rfl h
      simp only [dataAt, hrec, Except.ok.injEq] at h
      exact ⟨h.symm, rfl⟩
    · rintro e d rfl (h | h)
      · exact ⟨hfail e h, rfl, .inr h⟩
      · simp [dataAt, hrec] at h
    subst hx
    rcases hk with ⟨h1, h2⟩ | ⟨h1, h2⟩
    · rw [if_pos (by simp [h1, PyVal.truthy, h2])]
      refine .pure_ fun d h => ⟨?_, h⟩
      simp [h1, pyEq, hc]
    · rw [if_neg (by simp [h1]), h2]
      exact .pure_ fun d h => ⟨by simpa using hc, h⟩
  · subst hx
    rw [if_pos rfl]
    refine hread _ _ (fun e h => ⟨hfail e h, rfl, .inr h⟩) ?_
    rw [if_neg (by simpa [pyEq, eq_comm] using hn)]
    exact .throw_ fun d h => ⟨by simp, h, .inl rfl⟩

/-- **C32** (partial): when the content of the file is not what the cache knows, and not the content that is offered
either, an update that would replace the file raises and nothing on the disk has changed, whatever call fails; and what
it raises is a `LocalChangesError` unless a call failed.  What is missing from the full claim: content that the cache
cannot know because no checksum was recorded and the remote is gone (`C32_no_remote_counterexample`), and content that is
exactly what is offered (then the code replaces the file by an equal one). -/
theorem C32_raises_partial (C : PEnv) {q : Path} {new m : Meta} {u : Option Meta} {b c : Bytes} {s : Machine CObj}
    (hrec : s.disk.at_ q = some (.file b (some m))) (hm : metaBool m = true) (hk : KnownSum C m c) (hc : C.hash b ≠ c)
    (hn : new .checksum ≠ .bytes (C.hash b)) (hF : ∀ n, C.F n ≠ some .noRemoteFileError)
    (hdiff : updateMeta (some m) (some new) = .ok (true, u)) :
    (C.metaUpdater q new true s).2.disk = s.disk ∧
      ((C.metaUpdater q new true s).1 = .error .localChangesError ∨
        ∃ n e, C.F n = some e ∧ (C.metaUpdater q new true s).1 = .error e) := by
  have hh : Hoare (fun d => d = s.disk) (C.metaUpdater q new true) (fun _ _ => False)
      (fun e d => d = s.disk ∧ (e = .localChangesError ∨ ∃ n, C.F n = some e)) := by
    unfold PEnv.metaUpdater
    refine .bind_ (Q := fun mm d => mm = some m ∧ d = s.disk) (.look_err ?_ ?_) fun mm => .of_pre fun hmm => ?_
    · rintro d a rfl h
      rw [hrec] at h
      simp only [hm, if_true, Except.ok.injEq] at h
      exact ⟨h.symm, rfl⟩
    · rintro e d rfl (h | h)
      · exact ⟨rfl, .inr h⟩
      · rw [hrec] at h; simp at h
    subst hmm
    rw [hdiff]
    dsimp only
    rw [if_pos rfl]
    refine .bind_ (Q := fun x d => x = true ∧ d = s.disk) (.look_err ?_ ?_) fun x => .of_pre fun hx => ?_
    · rintro d a rfl h
      simp only [isFile, hrec, Except.ok.injEq] at h
      exact ⟨h.symm, rfl⟩
    · rintro e d rfl (h | h)
      · exact ⟨rfl, .inr h⟩
      · simp at h
    subst hx
    rw [if_pos (by decide)]
    exact .bind_ (localChanges_raises C hrec hm hk hc hn hF) fun _ => fun s hs => hs.elim
  have := hh s rfl
  generalize C.metaUpdater q new true s = r at this ⊢
  obtain ⟨r, s'⟩ := r
  cases r with
  | ok a => exact this.elim
  | error e =>
    obtain ⟨h, rfl | ⟨n, hn⟩⟩ := this
    · exact ⟨h, .inl rfl⟩
    · exact ⟨h, .inr ⟨n, e, hn, rfl⟩⟩

/-- **C32** (partial): in the same situation any update at all, with or without fetching, leaves the content of the file. -/
theorem C32_content_partial (C : PEnv) {q : Path} {new m : Meta} {fetch : Bool} {b c : Bytes} {s : Machine CObj}
    (hrec : s.disk.at_ q = some (.file b (some m))) (hm : metaBool m = true) (hk : KnownSum C m c) (hc : C.hash b ≠ c)
    (hn : new .checksum ≠ .bytes (C.hash b)) (hF : ∀ n, C.F n ≠ some .noRemoteFileError) :
    ∃ m', (C.metaUpdater q new fetch s).2.disk.at_ q = some (.file b (some m')) := by
  have hset : ∀ (u : Option Meta) (x : Bool), Hoare (fun d => d = s.disk) (.bind (C.setMeta q u) fun _ => .pure x)
      (fun _ d => ∃ m', d.at_ q = some (.file b (some m'))) (fun _ d => ∃ m', d.at_ q = some (.file b (some m'))) := by
    intro u x
    refine .bind_ (Q := fun _ d => ∃ m', d.at_ q = some (.file b (some m'))) ?_ fun _ => .pure_ fun _ h => h
    cases u with
    | none => exact .pure_ fun d h => ⟨m, h ▸ hrec⟩
    | some u =>
      refine (setMeta_file C (W := True) (d0 := s.disk) (R := fun _ d => ∃ m', d.at_ q = some (.file b (some m'))) (fun _ _ _ => trivial)
        (b := b) (mo := some m) u ?_).mono (fun d h => ?_) ?_ (fun _ _ h => h)
      · rintro - e d mo' - ⟨h1, -⟩ h2
        obtain ⟨m', rfl⟩ := Option.isSome_iff_exists.1 (h1 rfl)
        exact ⟨m', h2⟩
      · subst h; exact ⟨.refl _ _, hrec⟩
      · rintro _ d ⟨-, h⟩
        split at h
        · obtain ⟨m', hm'⟩ := Option.isSome_iff_exists.1 (laid_some (some m) u (.inl rfl))
          rw [hm'] at h
          exact ⟨m', h⟩
        · exact ⟨m, h⟩
  have hh : Hoare (fun d => d = s.disk) (C.metaUpdater q new fetch) (fun _ d => ∃ m', d.at_ q = some (.file b (some m')))
      (fun _ d => ∃ m', d.at_ q = some (.file b (some m'))) := by
    unfold PEnv.metaUpdater
    refine .bind_ (Q := fun mm d => mm = some m ∧ d = s.disk) (.look_ ?_ fun _ d h => ⟨m, h ▸ hrec⟩) fun mm => .of_pre fun hmm => ?_
    · rintro d a rfl h
      rw [hrec] at h
      simp only [hm, if_true, Except.ok.injEq] at h
      exact ⟨h.symm, rfl⟩
    subst hmm
    split
    · exact .throw_ fun d h => ⟨m, h ▸ hrec⟩
    · refine .bind_ (Q := fun _ d => d = s.disk) ?_ fun x => ?_
      · exact .ite_ (fun _ => .look_ (fun _ _ h _ => h) fun _ d h => ⟨m, h ▸ hrec⟩) fun _ => .pure_ fun _ h => h
      · refine .ite_ (fun _ => ?_) fun _ => hset _ _
        refine .bind_ (Q := fun _ _ => False) ?_ fun _ => fun s hs => hs.elim
        exact (localChanges_raises C hrec hm hk hc hn hF).mono (fun _ h => h) (fun _ _ h => h) (fun _ d h => ⟨m, h.1 ▸ hrec⟩)
  have := hh s rfl
  generalize C.metaUpdater q new fetch s = r at this ⊢
  obtain ⟨r, s'⟩ := r
  cases r with
  | ok a => exact this
  | error e => exact this

/-! ## Restoring -/

/-- A program for one path that leaves everything else, and that does not make a directory at the path. -/
def Harmless (q : Path) (p : Prog CObj Unit) : Prop :=
  ∀ d0, Hoare (fun d => OnlyAt q d0 d ∧ ∀ m, d.at_ q ≠ some (.dir m)) p
    (fun _ d => OnlyAt q d0 d ∧ ∀ m, d.at_ q ≠ some (.dir m)) (fun _ d => OnlyAt q d0 d ∧ ∀ m, d.at_ q ≠ some (.dir m))

/-- It is enough to look at the states that meet the precondition one by one. -/
theorem _root_.Verif.FS.Hoare.of_each {ν α : Type} {P : Disk ν → Prop} {p : Prog ν α} {Q : α → Disk ν → Prop} {R : PyErr → Disk ν → Prop}
    (h : ∀ d0, P d0 → Hoare (fun d => d = d0) p Q R) : Hoare P p Q R :=
  fun s hs => h s.disk hs s rfl

/-- Writing metadata and fetching where the old file was. -/
theorem refetch_hoare (C : PEnv) {q : Path} {d1 : Disk CObj} (hr : C.remoteIsDir = false) (hdir : InDir d1 q) (hrf : Harmless q C.refresh)
    (u : Option Meta) :
    Hoare (fun d => OnlyAt q d1 d ∧ d.at_ q = none) (.bind (C.setMeta q u) fun _ => C.fetch q none)
      (fun _ d => OnlyAt q d1 d ∧ ∀ m, u = some m → m .file_id ≠ .none →
        ∃ cs m', C.chunks = cs.map .ok ∧ cs ≠ [] ∧ d.at_ q = some (.file cs.flatten (some m')) ∧ Matches C m' cs.flatten ∧ SameButMark C cs.flatten m m')
      (fun _ d => OnlyAt q d1 d ∧ ∀ m, d.at_ q ≠ some (.dir m)) := by
  have hp : ∀ d, OnlyAt q d1 d → there d q.dropLast = true := by
    intro d h
    have := hdir.only h
    unfold isDirAt at this
    unfold there
    split at this
    · rename_i hx; rw [hx]
    · simp at this
  refine .bind_ ((setMeta_none C hr u hp).mono (fun _ h => h) (fun _ _ h => h) ?_) fun _ => ?_
  · rintro _ d ⟨h1, h2⟩
    exact ⟨h1, by simp [h2]⟩
  · refine .of_each fun dd hs => ?_
    obtain ⟨h1, ⟨h2, h3⟩ | ⟨u, rfl, hb, h2⟩⟩ := hs
    · -- nothing was written: there is no metadata to fetch by
      refine (show Hoare (fun d => d = dd) (C.fetch q none) (fun _ _ => False) (fun _ d => d = dd) from ?_).mono (fun _ h => h)
        (fun _ _ h => h.elim) ?_
      · unfold PEnv.fetch
        refine .bind_ (Q := fun mm d => mm = none ∧ d = dd) (.look_ ?_ fun _ _ h => h) fun mm => .of_pre fun hmm => ?_
        · rintro d a rfl h
          rw [h2] at h
          simp only [Except.ok.injEq] at h
          exact ⟨h.symm, rfl⟩
        subst hmm
        refine .bind_ (Q := fun _ d => d = dd) (.look_ (fun _ _ h _ => h) fun _ _ h => h) fun _ => ?_
        exact .ite_ (fun _ => .throw_ fun _ h => h) (fun _ => .throw_ fun _ h => h)
      · rintro _ d rfl
        exact ⟨h1, by simp [h2]⟩
    · by_cases hid : u .file_id = .none
      · refine (show Hoare (fun d => d = dd) (C.fetch q none) (fun _ d => OnlyAt q d1 d ∧ ∀ m, d.at_ q ≠ some (.dir m))
          (fun _ d => OnlyAt q d1 d ∧ ∀ m, d.at_ q ≠ some (.dir m)) from ?_).mono (fun _ h => h) ?_ (fun _ _ h => h)
        · unfold PEnv.fetch
          have h0 : OnlyAt q d1 dd ∧ ∀ m, dd.at_ q ≠ some (.dir m) := ⟨h1, by simp [h2]⟩
          refine .bind_ (Q := fun mm d => mm = some u ∧ d = dd) (.look_ ?_ fun _ d h => h ▸ h0) fun mm => .of_pre fun hmm => ?_
          · rintro d a rfl h
            rw [h2] at h
            simp only [Except.ok.injEq] at h
            exact ⟨h.symm, rfl⟩
          subst hmm
          refine .bind_ (Q := fun _ d => d = dd) (.look_ (fun _ _ h _ => h) fun _ d h => h ▸ h0) fun _ => ?_
          refine .ite_ (fun _ => .throw_ fun d h => h ▸ h0) (fun _ => ?_)
          dsimp only
          rw [if_pos hid]
          exact (hrf d1).pre fun d h => h ▸ h0
        · rintro _ d ⟨h3, -⟩
          refine ⟨h3, ?_⟩
          rintro m ⟨⟩ hm
          exact absurd hid hm
      · refine (fetch_hoare C (limit := none) (.inr h2) hb ?_ hid (by simp [Allowed])).mono (fun _ h => h) ?_ ?_
        · exact ⟨hdir.1, by
            obtain ⟨hq0, m, hm⟩ := hdir
            exact ⟨m, by rw [h1 _ (dropLast_ne hq0), hm]⟩⟩
        · rintro _ d ⟨cs, m', h3, h4, h5, h6, h7, h8⟩
          refine ⟨fun r hr => by rw [h8 r hr, h1 r hr], ?_⟩
          rintro m ⟨⟩ -
          exact ⟨cs, m', h3, h4, h5, h6, h7⟩
        · rintro _ d ⟨h3, h4⟩
          refine ⟨fun r hr => by rw [h3 r hr, h1 r hr], ?_⟩
          rcases h4 with ⟨⟨b, h4⟩, -⟩ | ⟨-, h5, -⟩
          · rw [h2] at h4; simp at h4
          · exact h5

/-- Moving a file to the place where a file, a link or nothing is. -/
theorem rename_file {d : Disk CObj} {p q : Path} {b : Bytes} {m : Option Meta} (hp : d.at_ p = some (.file b m)) (hap : Apart p q)
    (hd : ∃ m, d.at_ q.dropLast = some (.dir m)) (hq : ∀ m, d.at_ q ≠ some (.dir m)) : d.rename p q = .ok (d.move p q) := by
  obtain ⟨md, hd⟩ := hd
  unfold Disk.rename
  rw [hp, hd]
  simp only [Kinded.isDir, Bool.not_true, Bool.false_eq_true, if_false]
  rw [if_neg (fun he : p = q => hap.1 (he ▸ List.prefix_refl _)), if_neg hap.1, if_neg hap.2]
  split
  · rfl
  · rename_i y hy
    cases y with
    | dir m => exact absurd hy (hq m)
    | file _ _ => rfl
    | link _ => rfl

/-- The situation in which an update replaces the file at `q` (`b` with metadata `m`), whose id is `i`. -/
structure Replacing (C : PEnv) (q : Path) (b : Bytes) (m : Meta) (i : Str) (d : Disk CObj) : Prop where
  file : d.at_ q = some (.file b (some m))
  some_meta : metaBool m = true
  id : m .id = .str i
  usable : Usable C.trash i
  calls : ∀ n, C.F n ≠ some .nameTooLongError
  trash : ∃ m, d.at_ C.loc = some (.dir m)
  apart : Apart q C.loc
  parent : InDir d q
  remote : C.remoteIsDir = false
  refresh : Harmless q C.refresh

/-- Every run of an update that would replace the file. -/
theorem metaUpdater_hoare (C : PEnv) {q : Path} {new m : Meta} {u : Option Meta} {b : Bytes} {i : Str} {d0 : Disk CObj}
    (h : Replacing C q b m i d0) (hdiff : updateMeta (some m) (some new) = .ok (true, u)) :
    HoareT (fun s => s.disk = d0) (C.metaUpdater q new true)
      (fun x s => x = true ∧ s.disk.at_ (C.loc ++ [fsSafeId i]) = some (.file b (some m)) ∧
        (∀ r, ¬ q <+: r → ¬ C.loc ++ [fsSafeId i] <+: r → s.disk.at_ r = d0.at_ r) ∧
        ∀ m', u = some m' → m' .file_id ≠ .none → ∃ cs m'', C.chunks = cs.map .ok ∧ cs ≠ [] ∧
          s.disk.at_ q = some (.file cs.flatten (some m'')) ∧ Matches C m'' cs.flatten ∧ SameButMark C cs.flatten m' m'')
      (fun _ s => (∀ r, ¬ q <+: r → ¬ C.loc ++ [fsSafeId i] <+: r → s.disk.at_ r = d0.at_ r) ∧
        (s.disk.at_ q = some (.file b (some m)) ∨
        s.disk.at_ (C.loc ++ [fsSafeId i]) = some (.file b (some m)) ∧ ∃ n e, s.tick = n + 1 ∧ C.F n = some e)) := by
  obtain ⟨hrec, hm, hid, hu, hF, ⟨mt, hloc⟩, hap, hdir, hr, hrf⟩ := h
  have hap' : Apart q (C.loc ++ [fsSafeId i]) := (apart_append' hap.symm _).symm
  have hsame : ∀ s : Machine CObj, s.disk = d0 → (∀ r, ¬ q <+: r → ¬ C.loc ++ [fsSafeId i] <+: r → s.disk.at_ r = d0.at_ r) ∧
        (s.disk.at_ q = some (.file b (some m)) ∨
        s.disk.at_ (C.loc ++ [fsSafeId i]) = some (.file b (some m)) ∧ ∃ n e, s.tick = n + 1 ∧ C.F n = some e) :=
    fun s hs => ⟨fun _ _ _ => hs ▸ rfl, .inl (hs ▸ hrec)⟩
  have hqne : q ≠ [] := hdir.1
  unfold PEnv.metaUpdater
  refine .bind_ (Q := fun mm s => mm = some m ∧ s.disk = d0) (.look_ ?_ (fun d n e hs _ => hsame _ hs) (fun d n e hs _ _ => hsame _ hs)) fun mm => .of_pre fun hmm => ?_
  · rintro d n a hs - h
    dsimp only at hs
    subst hs
    rw [hrec] at h
    simp only [hm, if_true, Except.ok.injEq] at h
    exact ⟨h.symm, rfl⟩
  subst hmm
  rw [hdiff]
  dsimp only
  rw [if_pos rfl]
  refine .bind_ (Q := fun x s => x = true ∧ s.disk = d0) (.look_ ?_ (fun d n e hs _ => hsame _ hs) (fun d n e hs _ _ => hsame _ hs)) fun x => .of_pre fun hx => ?_
  · rintro d n a hs - h
    dsimp only at hs
    subst hs
    simp only [isFile, hrec, Except.ok.injEq] at h
    exact ⟨h.symm, rfl⟩
  subst hx
  rw [if_pos (by decide)]
  refine .bind_ (Q := fun _ s => s.disk = d0) ?_ fun _ => ?_
  · exact (HoareT.lift (localChanges_hoare C q new d0)).mono (fun _ h => h) (fun _ _ h => h) (fun _ s h => hsame s h)
  have hi : (some m).bind idIn = some i := by simp [idIn, hid]
  rw [hi]
  refine .bind_ (Q := fun p s => p = C.loc ++ [fsSafeId i] ∧ d0.rename q (C.loc ++ [fsSafeId i]) = .ok s.disk) ?_ fun p => .of_pre fun hp => ?_
  · refine (HoareT.lift (crumple_exact C.trash hF hu (q := q) (d0 := d0) ?_)).mono (fun _ h => h) (fun _ _ h => h) (fun _ s h => hsame s h)
    simp [PEnv.trash, there, hloc]
  subst hp
  -- the disk after the file was moved away
  intro s1 hs1
  obtain ⟨-, ⟨heq, -⟩ | ⟨-, hmv⟩⟩ := rename_ok hs1
  · exact absurd (heq ▸ List.prefix_refl _) hap'.1
  have hsq : s1.disk.at_ q = none := by rw [hmv, mv, if_neg hap'.2, if_pos (List.prefix_refl _)]
  have hst : s1.disk.at_ (C.loc ++ [fsSafeId i]) = some (.file b (some m)) := by
    rw [hmv, mv, if_pos (List.prefix_refl _), List.drop_length, List.append_nil, hrec]
  have hrest : ∀ r, ¬ q <+: r → ¬ C.loc ++ [fsSafeId i] <+: r → s1.disk.at_ r = d0.at_ r := by
    intro r h1 h2; rw [hmv, mv, if_neg h2, if_neg h1]
  have hpar : ∃ m, s1.disk.at_ q.dropLast = some (.dir m) := by
    obtain ⟨-, md, hmd⟩ := hdir
    refine ⟨md, ?_⟩
    rw [hrest, hmd]
    · intro hc
      have := hc.length_le
      rw [List.length_dropLast] at this
      have := List.length_pos_iff.2 hqne
      omega
    · intro hc
      exact hap'.2 (hc.trans (List.dropLast_prefix _))
  have hdir1 : InDir s1.disk q := ⟨hqne, hpar⟩
  have hpne : q.dropLast ≠ q := dropLast_ne hqne
  have htq : C.loc ++ [fsSafeId i] ≠ q := fun he => hap'.2 (he ▸ List.prefix_refl _)
  have hbelow : ∀ r, ¬ q <+: r → r ≠ q := fun r h he => h (he ▸ List.prefix_refl _)
  refine (show HoareT (fun s => OnlyAt q s1.disk s.disk ∧ s.disk.at_ q = none) _ _ _ from ?_) s1 ⟨.refl _ _, hsq⟩
  refine .bind_ (Q := fun _ s => OnlyAt q s1.disk s.disk ∧ ∀ m', u = some m' → m' .file_id ≠ .none → ∃ cs m'', C.chunks = cs.map .ok ∧ cs ≠ [] ∧
      s.disk.at_ q = some (.file cs.flatten (some m'')) ∧ Matches C m'' cs.flatten ∧ SameButMark C cs.flatten m' m'') ?_ fun _ => ?_
  · refine .try_ (HoareT.lift (refetch_hoare C hr hdir1 hrf u)) fun e => ?_
    refine .bind_ (Q := fun _ s => s.disk.at_ q = some (.file b (some m)) ∧ ∀ r, ¬ q <+: r → ¬ C.loc ++ [fsSafeId i] <+: r → s.disk.at_ r = d0.at_ r)
      (.act_ ?_ ?_ ?_) fun _ => .throw_ fun s h => ⟨h.2, .inl h.1⟩
    · rintro d n d' ⟨h1, h2⟩ - h
      dsimp only at h1 h2
      have htp : d.at_ (C.loc ++ [fsSafeId i]) = some (.file b (some m)) := by rw [h1 _ htq, hst]
      rw [rename_file htp hap'.symm (by rw [h1 _ hpne]; exact hpar) h2] at h
      simp only [Except.ok.injEq] at h
      subst h
      dsimp only
      rw [at_move d hap'.symm]
      refine ⟨?_, fun r hr1 hr2 => ?_⟩
      · rw [mv, if_pos (List.prefix_refl _), List.drop_length, List.append_nil, htp]
      · rw [mv, if_neg hr1, if_neg hr2, h1 r (hbelow r hr1), hrest r hr1 hr2]
    · rintro d n e' ⟨h1, h2⟩ hf
      dsimp only at h1 h2
      refine ⟨fun r hr1 hr2 => by rw [h1 r (hbelow r hr1), hrest r hr1 hr2], .inr ⟨?_, n, e', rfl, hf⟩⟩
      rw [h1 _ htq, hst]
    · rintro d n e' ⟨h1, h2⟩ - h
      dsimp only at h1 h2
      have htp : d.at_ (C.loc ++ [fsSafeId i]) = some (.file b (some m)) := by rw [h1 _ htq, hst]
      rw [rename_file htp hap'.symm (by rw [h1 _ hpne]; exact hpar) h2] at h
      simp at h
  · refine .pure_ ?_
    rintro s ⟨h1, h2⟩
    exact ⟨rfl, by rw [h1 _ htq, hst], fun r hr1 hr2 => by rw [h1 r (hbelow r hr1), hrest r hr1 hr2], h2⟩

/-- **C33** (partial): in an update that replaces a file, if anything fails, at any call or because of what the remote
sends or of what the metadata says, then the exception propagates and the previous file, content and attributes, is at
its path again and the rest of the disk outside the trash is as before; unless the very last call, which renames the
file back, is itself refused, in which case the file is in the trash.  What is missing from the full claim: ids that are
not usable as file names (`C33_long_counterexample`) and a remote that has become a directory
(`C33_directory_counterexample`). -/
theorem C33_restored_partial (C : PEnv) {q : Path} {new m : Meta} {u : Option Meta} {b : Bytes} {i : Str} {s s' : Machine CObj} {e : PyErr}
    (h : Replacing C q b m i s.disk) (hdiff : updateMeta (some m) (some new) = .ok (true, u))
    (hrun : C.metaUpdater q new true s = (.error e, s')) :
    (∀ r, ¬ q <+: r → ¬ C.loc ++ [fsSafeId i] <+: r → s'.disk.at_ r = s.disk.at_ r) ∧
    (s'.disk.at_ q = some (.file b (some m)) ∨
      s'.disk.at_ (C.loc ++ [fsSafeId i]) = some (.file b (some m)) ∧ ∃ n e', s'.tick = n + 1 ∧ C.F n = some e') := by
  have := metaUpdater_hoare C h hdiff s rfl
  rw [hrun] at this
  exact this

/-- **C33** (partial): and if the update returns normally then nothing failed: the file at the path has all the data of
the remote, which matches the new metadata, and the previous file is in the trash. -/
theorem C33_returned_partial (C : PEnv) {q : Path} {new m u : Meta} {b : Bytes} {i : Str} {s s' : Machine CObj} {x : Bool}
    (h : Replacing C q b m i s.disk) (hdiff : updateMeta (some m) (some new) = .ok (true, some u)) (hid : u .file_id ≠ .none)
    (hrun : C.metaUpdater q new true s = (.ok x, s')) :
    x = true ∧ s'.disk.at_ (C.loc ++ [fsSafeId i]) = some (.file b (some m)) ∧
    (∀ r, ¬ q <+: r → ¬ C.loc ++ [fsSafeId i] <+: r → s'.disk.at_ r = s.disk.at_ r) ∧
    ∃ cs m', C.chunks = cs.map .ok ∧ cs ≠ [] ∧ s'.disk.at_ q = some (.file cs.flatten (some m')) ∧ Matches C m' cs.flatten ∧ SameButMark C cs.flatten u m' := by
  have := metaUpdater_hoare C h hdiff s rfl
  rw [hrun] at this
  obtain ⟨h1, h2, h3, h4⟩ := this
  exact ⟨h1, h2, h3, h4 u rfl hid⟩

/-- **C33**: when nothing is fetched (nothing differs, or it was not asked for) the file keeps its bytes, nothing else on
the disk changes, and the record of the file is brought up to date: each attribute has the value of the merged metadata, where
that has one, and its old value otherwise. -/
theorem C33_recorded (C : PEnv) {q : Path} {new m u : Meta} {b : Bytes} {fetch x : Bool} {s s' : Machine CObj} {different : Bool}
    (hrec : s.disk.at_ q = some (.file b (some m))) (hm : metaBool m = true) (hu : metaBool u = true)
    (hdiff : updateMeta (some m) (some new) = .ok (different, some u)) (hno : different = false ∨ fetch = false)
    (hrun : C.metaUpdater q new fetch s = (.ok x, s')) :
    x = different ∧ (∀ r, r ≠ q → s'.disk.at_ r = s.disk.at_ r) ∧
    ∃ m', s'.disk.at_ q = some (.file b (some m')) ∧
      ∀ f, m' f = if u f ≠ .none ∧ (u f).emptyIterable = false then u f else m f := by
  have hh : Hoare (fun d => d = s.disk) (C.metaUpdater q new fetch)
      (fun x d => x = different ∧ OnlyAt q s.disk d ∧ d.at_ q = some (.file b (laid (some m) u))) (fun _ _ => True) := by
    unfold PEnv.metaUpdater
    refine .bind_ (Q := fun mm d => mm = some m ∧ d = s.disk) (.look_err ?_ ?_) fun mm => .of_pre fun hmm => ?_
    · rintro d a rfl h
      rw [hrec] at h
      simp only [hm, if_true, Except.ok.injEq] at h
      exact ⟨h.symm, rfl⟩
    · intros; trivial
    subst hmm
    rw [hdiff]
    dsimp only
    refine .bind_ (Q := fun isf d => (isf && fetch) = false ∧ d = s.disk) ?_ fun isf => .of_pre fun hisf => ?_
    · rcases hno with h | h
      · subst h
        exact .pure_ fun d hd => ⟨by simp, hd⟩
      · subst h
        split
        · exact .look_err (fun d a hd _ => ⟨by simp, hd⟩) (fun _ _ _ _ => trivial)
        · exact .pure_ fun d hd => ⟨by simp, hd⟩
    · rw [hisf]
      simp only [Bool.false_eq_true, if_false]
      have := setMeta_file C (q := q) (d0 := s.disk) (W := True) (R := fun _ _ => True) (fun _ _ _ => trivial) (b := b) (mo := some m) u
        (fun _ _ _ _ _ _ _ => trivial)
      rw [hu, if_pos rfl] at this
      refine .bind_ (this.mono (fun d hd => ?_) (fun _ _ h => h) (fun _ _ h => h)) fun _ => .pure_ fun d hd => ⟨rfl, hd⟩
      subst hd
      exact ⟨.refl _ _, hrec⟩
  have := hh s rfl
  rw [hrun] at this
  obtain ⟨h1, h2, h3⟩ := this
  refine ⟨h1, h2, ?_⟩
  obtain ⟨m', hm'⟩ := Option.isSome_iff_exists.mp (laid_some (some m) u (.inl rfl))
  refine ⟨m', by rw [h3, hm'], fun f => ?_⟩
  have := laid_get (some m) u f
  rw [hm'] at this
  exact this

/-! ## Where the claims fail, and examples -/

/-- Metadata without a checksum. -/
def noSum (n : Int) : Meta := fun f => match f with
  | .id => .str ['i'] | .file_id => .int 7 | .size => .int n | .errors => .strs [] | _ => .none

/-- The kinds of things on a disk, without the metadata. -/
def contents (d : Disk CObj) : List (Path × Option Bytes) :=
  d.map fun e => (e.1, match e.2 with | .file b _ => some b | _ => none)

/-- When no checksum was recorded and the remote does not have the file of that id, the check is given up with a
warning: the update returns normally, and the local file, whatever was done to it, has been replaced. -/
theorem C32_no_remote_counterexample :
    let C : PEnv := { simple with remoteSum := .error .noRemoteFileError }
    let r := C.metaUpdater [['a']] (noSum 3) true ⟨[([], .dir none), ([['t']], .dir none), ([['a']], .file [8, 8] (some (noSum 2)))], 0⟩
    r.1 = .ok true ∧ (shown r.2.disk [['a']]).map Prod.fst = some [1, 2, 3] := by
  refine ⟨by decide +kernel, by decide +kernel⟩

/-- An id that is too long for a file name: the path that `crumple` returns does not exist, so that the previous file
cannot be renamed back.  Nothing is at the path after the failed update but the new link. -/
theorem C33_long_counterexample :
    let C : PEnv := { simple with long := fun n => n = ['i'], chunks := [.ok [1], .error .foreign] }
    let r := C.metaUpdater [['a']] (noSum 3) true ⟨[([], .dir none), ([['t']], .dir none), ([['a']], .file [] (some (noSum 2)))], 0⟩
    r.1 = .error .fileNotFoundError ∧ (shown r.2.disk [['a']]).map Prod.fst = some [1] ∧
      (shown r.2.disk [['t'], ['a']]).map Prod.fst = some [] := by
  refine ⟨by decide +kernel, by decide +kernel, by decide +kernel⟩

/-- A remote that has become a directory: a directory is made at the path, which cannot be fetched, and the previous file
cannot replace the directory. -/
theorem C33_directory_counterexample :
    let C : PEnv := { simple with remoteIsDir := true }
    let r := C.metaUpdater [['a']] (noSum 3) true ⟨[([], .dir none), ([['t']], .dir none), ([['a']], .file [] (some (noSum 2)))], 0⟩
    r.1 = .error .isADirectoryError ∧ isDirAt r.2.disk [['a']] = true ∧ (shown r.2.disk [['t'], ['i']]).map Prod.fst = some [] := by
  refine ⟨by decide +kernel, by decide +kernel, by decide +kernel⟩

example : Replacing simple [['a']] [1] (threeBytes [1]) ['i'] (withFile [1]) ∧
    (∃ u, updateMeta (some (threeBytes [1])) (some (threeBytes [2])) = .ok (true, some u) ∧ u .file_id ≠ .none) := by
  refine ⟨⟨by decide +kernel, by decide, rfl, by decide, by intro n; simp [simple], ⟨none, by decide +kernel⟩, ?_, ⟨by simp, none, by decide +kernel⟩, rfl, ?_⟩, ?_⟩
  · unfold Apart; decide
  · intro d0; exact .pure_ fun _ h => h
  · refine ⟨_, rfl, by decide⟩

/-- With local changes the update raises; without any, and with a remote that breaks off, the file is back. -/
example : KnownSum simple (threeBytes [1]) [1] ∧ simple.hash [8, 8] ≠ [1] ∧
    (simple.metaUpdater [['a']] (threeBytes [2]) true ⟨withFile [8, 8], 0⟩).1 = .error .localChangesError ∧
    ({ simple with chunks := [.ok [1], .error .foreign] }.metaUpdater [['a']] (threeBytes [2]) true ⟨withFile [1], 0⟩).1 = .error .foreign ∧
    shown ({ simple with chunks := [.ok [1], .error .foreign] }.metaUpdater [['a']] (threeBytes [2]) true ⟨withFile [1], 0⟩).2.disk [['a']] =
      some ([1], Field.all.map (threeBytes [1])) :=
  ⟨.inl ⟨rfl, by simp⟩, by decide, by decide +kernel, by decide +kernel, by decide +kernel⟩

/-- Without fetching, the record is changed and the content is not. -/
example : (simple.metaUpdater [['a']] (threeBytes [2]) false ⟨withFile [1], 0⟩).1 = .ok true ∧
    (shown (simple.metaUpdater [['a']] (threeBytes [2]) false ⟨withFile [1], 0⟩).2.disk [['a']]).map Prod.fst = some [1] ∧
    ∃ u, updateMeta (some (threeBytes [1])) (some (threeBytes [2])) = .ok (true, some u) ∧ metaBool u = true ∧ u .checksum = .bytes [2] :=
  ⟨by decide +kernel, by decide +kernel, _, rfl, by decide +kernel, rfl⟩

end Verif.Cache
