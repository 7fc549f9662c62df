import Verif.Lemmas.StoredMore
import Verif.Props.Stored
import Verif.Props.Pull
import Verif.Props.Validate
import Verif.Props.MkdirCache

/-!
# C95: What is on the disk stands for the metadata, for updates from a remote, validation and new directories

The theorems about these functions are about disks whose objects carry metadata.  Here they run on disks as they are.
-/

namespace Verif.Cache
open Verif.FS Verif.Xattrs Verif.Spec

variable {C : XEnv}

/-- **C95**: updating from a remote whose metadata survives being stored. -/
theorem C95_update_cache (hp : ParsesIso C.env) (hr : SameAs C C.refreshX C.refresh) {parents : Prog XObj Unit} {parents' : Prog CObj Unit}
    (hpar : SameAs C parents parents') {r : RemoteView} (hn : KeepsAll r.info) (hd : IsName (nameOf r.dest)) {own given : Option Path}
    (hq : ∀ q, given.or own = some q → IsName (nameOf q)) (fetch : Bool) :
    SameAs C (C.updateCache parents r own given fetch) (C.toPEnv.updateCache parents' r own given fetch) :=
  .of (updateCache_sim C hp hr.sim hpar.sim hn hd hq fetch)

/-- **C95**: validating. -/
theorem C95_validate (etag : PyVal → Bytes → Except PyErr (Bytes × Int)) (q : Path) :
    SameAs C (C.validate etag q) (C.toPEnv.validate etag q) := .of (validate_sim C etag q)

/-- **C95**: bootstrapping data. -/
theorem C95_bootstrap_data (hr : SameAs C C.refreshX C.refresh) (etag : PyVal → Bytes → Except PyErr (Bytes × Int)) (q : Path) (sizeKnown : Bool) :
    SameAs C (C.bootstrapData etag q sizeKnown) (C.toPEnv.bootstrapData etag q sizeKnown) := .of (bootstrapData_sim C hr.sim etag q sizeKnown)

/-- **C95**: making a cache for a path. -/
theorem C95_cache_init (hp : ParsesIso C.env) (hr : SameAs C C.refreshX C.refresh) {q : Path} (hq : IsName (nameOf q)) {m : Meta} (hm : KeepsAll m) :
    SameAs C (C.cacheInit q m) (C.toPEnv.cacheInit q m) := .of (cacheInit_sim C hp hr.sim hq hm)

/-- **C95**: making the directories that a remote is in. -/
theorem C95_mkdir_cache (hp : ParsesIso C.env) {l : List (Path × Meta)} (hl : ∀ x ∈ l, IsName (nameOf x.1) ∧ KeepsAll x.2) :
    SameAs C (C.mkdirCache l) (C.toPEnv.mkdirCache l) := .of (mkdirCache_sim C hp hl)

/-- **C95**: on a disk on which all metadata is legible, all metadata is legible at every moment of these, and so also after a crash
at any call. -/
theorem C95_legible_more (hp : ParsesIso C.env) (hr : SameAs C C.refreshX C.refresh) {s : Machine XObj} (hs : Legible C s.disk) :
    (∀ parents parents' r own given fetch, SameAs C parents parents' → KeepsAll r.info → IsName (nameOf r.dest) →
      (∀ q, given.or own = some q → IsName (nameOf q)) → Legible C (C.updateCache parents r own given fetch s).2.disk) ∧
    (∀ etag q sizeKnown, Legible C (C.bootstrapData etag q sizeKnown s).2.disk) ∧
    (∀ q m, IsName (nameOf q) → KeepsAll m → Legible C (C.cacheInit q m s).2.disk) ∧
    ∀ l, (∀ x ∈ l, IsName (nameOf x.1) ∧ KeepsAll x.2) → Legible C (C.mkdirCache l s).2.disk :=
  ⟨fun _ _ _ _ _ fetch hpar hn hd hq => (C95_update_cache hp hr hpar hn hd hq fetch).legible hs,
   fun etag q sizeKnown => (C95_bootstrap_data hr etag q sizeKnown).legible hs,
   fun _ _ hq hm => (C95_cache_init hp hr hq hm).legible hs,
   fun _ hl => (C95_mkdir_cache hp hl).legible hs⟩

/-! ## The theorems about metadata, of the bytes on the disk -/

/-- A file with attributes that decode to `m`. -/
def FileOf (C : XEnv) (d : Disk XObj) (q : Path) (b : Bytes) (m : Meta) : Prop := ∃ S, d.at_ q = some (.file b S) ∧ C.ofAttrs S = .ok m

theorem FileOf.to {d : Disk XObj} {a : Disk CObj} (ha : Alike (Holds C) d a) {q : Path} {b : Bytes} {m : Meta} (h : FileOf C d q b m)
    (hm : metaBool m = true) : a.at_ q = some (.file b (some m)) := by
  obtain ⟨S, h0, hS⟩ := h
  rcases ha.at_ q with ⟨h1, -⟩ | ⟨x', y, h1, h2, hy⟩
  · rw [h0] at h1; simp at h1
  · rw [h0, Option.some.injEq] at h1
    subst h1
    cases hy with
    | @file b S mo h =>
      have := ofAttrs_holds h
      rw [hS, Except.ok.injEq] at this
      cases mo with
      | none => rw [this, Option.getD_none, metaBool_blank] at hm; simp at hm
      | some m0 => rw [h2, this]; rfl

theorem FileOf.back {d : Disk XObj} {a : Disk CObj} (ha : Alike (Holds C) d a) {q : Path} {b : Bytes} {m : Meta}
    (h : a.at_ q = some (.file b (some m))) : FileOf C d q b m := by
  rcases ha.at_ q with ⟨-, h2⟩ | ⟨x', y, h1, h2, hy⟩
  · rw [h] at h2; simp at h2
  · rw [h, Option.some.injEq] at h2
    subst h2
    cases hy with | @file b S mo h => exact ⟨S, h1, ofAttrs_holds h⟩

theorem dir_to {d : Disk XObj} {a : Disk CObj} (ha : Alike (Holds C) d a) {q : Path} {S : Attrs} (h : d.at_ q = some (.dir S)) :
    ∃ m, a.at_ q = some (.dir m) := by
  rcases ha.at_ q with ⟨h1, -⟩ | ⟨x', y, h1, h2, hy⟩
  · rw [h] at h1; simp at h1
  · rw [h, Option.some.injEq] at h1
    subst h1
    cases hy with | @dir S mo h => exact ⟨mo, h2⟩

/-- **C95**: a run that validates leaves the disk exactly as it is, whatever calls fail. -/
theorem C95_validate_unchanged (etag : PyVal → Bytes → Except PyErr (Bytes × Int)) (q : Path) (s : Machine XObj) :
    (C.validate etag q s).2.disk = s.disk := by
  have hget : ∀ d0, Hoare (fun d => d = d0) (C.getMeta q) (fun _ d => d = d0) (fun _ d => d = d0) := fun d0 =>
    .look_ (fun _ _ h _ => h) fun _ _ h => h
  have H : Hoare (fun d => d = s.disk) (C.validate etag q) (fun _ d => d = s.disk) (fun _ d => d = s.disk) := by
    unfold XEnv.validate
    refine .bind_ (hget _) fun m => ?_
    cases m with
    | none => exact .throw_ fun _ h => h
    | some m =>
    refine .ite_ (fun _ => ?_) fun _ => .ite_ (fun _ => ?_) fun _ => .ite_ (fun _ => .pure_ fun _ h => h) fun _ => ?_
    · refine .bind_ (Q := fun _ d => d = s.disk) (.look_ (fun _ _ h _ => h) fun _ _ h => h) fun _ => ?_
      split
      · exact .throw_ fun _ h => h
      · exact .pure_ fun _ h => h
    · refine .bind_ (hget _) fun now => ?_
      cases now with
      | none => exact .throw_ fun _ h => h
      | some now =>
      dsimp only
      cases C.cypher (now .checksum_cypher) with
      | error e => exact .throw_ fun _ h => h
      | ok h =>
        refine .bind_ (Q := fun _ d => d = s.disk) (.look_ (fun _ _ h _ => h) fun _ _ h => h) fun _ => ?_
        refine .bind_ (hget _) fun now => ?_
        split
        · exact .throw_ fun _ h => h
        · exact .ite_ (fun _ => .pure_ fun _ h => h) fun _ => .throw_ fun _ h => h
    · refine .bind_ (Q := fun _ d => d = s.disk) (.look_ (fun _ _ h _ => h) fun _ _ h => h) fun _ => ?_
      refine .bind_ (hget _) fun now => ?_
      split
      · exact .throw_ fun _ h => h
      · exact .ite_ (fun _ => .pure_ fun _ h => h) fun _ => .throw_ fun _ h => h
  have := H s rfl
  generalize C.validate etag q s = r at this ⊢
  obtain ⟨r, s'⟩ := r
  cases r <;> exact this

/-- **C95**: what C91 says holds of the bytes on the disk: for a file whose attributes decode to metadata without an etag, validation
that returns found the recorded checksum or else the recorded size, and when no call fails it returns if it can find them. -/
theorem C95_validated (etag : PyVal → Bytes → Except PyErr (Bytes × Int)) {q : Path} {m : Meta} {b : Bytes} {s : Machine XObj}
    (hs : Legible C s.disk) (hrec : FileOf C s.disk q b m) (hm : metaBool m = true) (he : (m .etag).truthy = false) :
    ((C.validate etag q s).1 = .ok () →
      if (m .checksum).truthy = true then ∃ h, C.cypher (m .checksum_cypher) = .ok h ∧ m .checksum = .bytes (h b)
      else m .size = .none ∨ m .size = .int b.length) ∧
    ((∀ n, C.F n = none) →
      (if (m .checksum).truthy = true then ∃ h, C.cypher (m .checksum_cypher) = .ok h ∧ m .checksum = .bytes (h b)
        else m .size = .none ∨ m .size = .int b.length) → (C.validate etag q s).1 = .ok ()) := by
  obtain ⟨a, ha⟩ := alike_of hs
  have h1 := (C95_validate etag q s.disk a s.tick ha).1
  change (C.validate etag q s).1 = _ at h1
  rw [h1]
  exact C91_accepts_partial C.toPEnv (s := ⟨a, s.tick⟩) (hrec.to ha hm) hm he

/-- **C95**: and what `_bootstrap_data` writes: when it returns, the file has all that the remote sent and attributes that decode to
the same metadata, which the data matches. -/
theorem C95_bootstrapped (hr : SameAs C C.refreshX C.refresh) (etag : PyVal → Bytes → Except PyErr (Bytes × Int)) {q : Path} {m : Meta} {b : Bytes}
    {s : Machine XObj} (hs : Legible C s.disk) (hrec : FileOf C s.disk q b m) (hm : metaBool m = true) (he : (m .etag).truthy = false)
    (hrun : (C.bootstrapData etag q true s).1 = .ok ()) :
    ∃ cs, C.chunks = cs.map .ok ∧ cs ≠ [] ∧ FileOf C (C.bootstrapData etag q true s).2.disk q cs.flatten m ∧
      if (m .checksum).truthy = true then ∃ h, C.cypher (m .checksum_cypher) = .ok h ∧ m .checksum = .bytes (h cs.flatten)
      else m .size = .none ∨ m .size = .int cs.flatten.length := by
  obtain ⟨a, ha⟩ := alike_of hs
  obtain ⟨h1, -, h3⟩ := C95_bootstrap_data hr etag q true s.disk a s.tick ha
  change (C.bootstrapData etag q true s).1 = _ at h1
  change Alike _ (C.bootstrapData etag q true s).2.disk _ at h3
  rw [hrun] at h1
  generalize hrun' : C.toPEnv.bootstrapData etag q true ⟨a, s.tick⟩ = r' at h1 h3
  obtain ⟨r', t'⟩ := r'
  dsimp only at h1 h3
  subst h1
  obtain ⟨cs, g1, g2, g3, g4, -⟩ := C91_bootstrap_partial C.toPEnv (s := ⟨a, s.tick⟩) (hrec.to ha hm) hm he hrun'
  refine ⟨cs, g1, g2, .back h3 g3, ?_⟩
  rw [Accepted, if_neg (by rw [he]; decide)] at g4
  exact g4

/-- The situation in which an update replaces the file at `q`, on the disk as it is: `Replacing` with attributes for metadata. -/
structure ReplacingX (C : XEnv) (q : Path) (b : Bytes) (m : Meta) (i : Str) (d : Disk XObj) : Prop where
  file : FileOf C d q b m
  some_meta : metaBool m = true
  id : m .id = .str i
  usable : Usable C.toPEnv.trash i
  calls : ∀ n, C.F n ≠ some .nameTooLongError
  trash : ∃ S, d.at_ C.loc = some (.dir S)
  apart : Apart q C.loc
  parent : q ≠ [] ∧ ∃ S, d.at_ q.dropLast = some (.dir S)
  remote : C.remoteIsDir = false
  refresh : Harmless q C.refresh

theorem ReplacingX.to {d : Disk XObj} {a : Disk CObj} (ha : Alike (Holds C) d a) {q : Path} {b : Bytes} {m : Meta} {i : Str}
    (h : ReplacingX C q b m i d) : Replacing C.toPEnv q b m i a :=
  ⟨h.file.to ha h.some_meta, h.some_meta, h.id, h.usable, h.calls, by obtain ⟨S, hS⟩ := h.trash; exact dir_to ha hS, h.apart,
    ⟨h.parent.1, by obtain ⟨S, hS⟩ := h.parent.2; exact dir_to ha hS⟩, h.remote, h.refresh⟩

/-- **C95**: what C33 says about a failed update holds of the bytes on the disk: the file, with attributes that decode to the same
metadata, is at its path, or in the trash if the very last call was refused. -/
theorem C95_restored (hp : ParsesIso C.env) (hr : SameAs C C.refreshX C.refresh) {q : Path} (hq : IsName (nameOf q)) {new m : Meta} (hn : KeepsAll new)
    {u : Option Meta} {b : Bytes} {i : Str} {s : Machine XObj} {e : PyErr} (hs : Legible C s.disk) (h : ReplacingX C q b m i s.disk)
    (hdiff : updateMeta (some m) (some new) = .ok (true, u)) (hrun : (C.metaUpdater q new true s).1 = .error e) :
    FileOf C (C.metaUpdater q new true s).2.disk q b m ∨
      FileOf C (C.metaUpdater q new true s).2.disk (C.loc ++ [fsSafeId i]) b m ∧
        ∃ n e', (C.metaUpdater q new true s).2.tick = n + 1 ∧ C.F n = some e' := by
  obtain ⟨a, ha⟩ := alike_of hs
  obtain ⟨h1, h2, h3⟩ := C95_update hp hr hq hn true s.disk a s.tick ha
  change (C.metaUpdater q new true s).1 = _ at h1
  change (C.metaUpdater q new true s).2.tick = _ at h2
  change Alike _ (C.metaUpdater q new true s).2.disk _ at h3
  rw [hrun] at h1
  rw [h2]
  generalize hrun' : C.toPEnv.metaUpdater q new true ⟨a, s.tick⟩ = r' at h1 h3 ⊢
  obtain ⟨r', t'⟩ := r'
  dsimp only at h1 h3 ⊢
  subst h1
  rcases (C33_restored_partial C.toPEnv (s := ⟨a, s.tick⟩) (h.to ha) hdiff hrun').2 with g | ⟨g, hn⟩
  · exact .inl (.back h3 g)
  · exact .inr ⟨.back h3 g, hn⟩

/-- **C95**: what C33 says about an update that returns: the previous file, with its metadata, is in the trash, and at the path is all
that the remote sent, with attributes that decode to metadata that it matches. -/
theorem C95_returned (hp : ParsesIso C.env) (hr : SameAs C C.refreshX C.refresh) {q : Path} (hq : IsName (nameOf q)) {new m u : Meta}
    (hn : KeepsAll new) {b : Bytes} {i : Str} {s : Machine XObj} {x : Bool} (hs : Legible C s.disk) (h : ReplacingX C q b m i s.disk)
    (hdiff : updateMeta (some m) (some new) = .ok (true, some u)) (hid : u .file_id ≠ .none) (hrun : (C.metaUpdater q new true s).1 = .ok x) :
    x = true ∧ FileOf C (C.metaUpdater q new true s).2.disk (C.loc ++ [fsSafeId i]) b m ∧
    ∃ cs m', C.chunks = cs.map .ok ∧ cs ≠ [] ∧ FileOf C (C.metaUpdater q new true s).2.disk q cs.flatten m' ∧ Matches C.toPEnv m' cs.flatten ∧
      SameButMark C.toPEnv cs.flatten u m' := by
  obtain ⟨a, ha⟩ := alike_of hs
  obtain ⟨h1, -, h3⟩ := C95_update hp hr hq hn true s.disk a s.tick ha
  change (C.metaUpdater q new true s).1 = _ at h1
  change Alike _ (C.metaUpdater q new true s).2.disk _ at h3
  rw [hrun] at h1
  generalize hrun' : C.toPEnv.metaUpdater q new true ⟨a, s.tick⟩ = r' at h1 h3
  obtain ⟨r', t'⟩ := r'
  dsimp only at h1 h3
  subst h1
  obtain ⟨g1, g2, -, cs, m', g3, g4, g5, g6, g7⟩ := C33_returned_partial C.toPEnv (s := ⟨a, s.tick⟩) (h.to ha) hdiff hid hrun'
  exact ⟨g1, .back h3 g2, cs, m', g3, g4, .back h3 g5, g6, g7⟩

/-- The situation of C92 on a disk with stored attributes. -/
structure DestinedX (C : XEnv) (R : RemoteView) (q : Path) (i : Str) (d : Disk XObj) : Prop where
  apart : Apart q R.dest
  aside : Apart q (safeUnlink R.dest)
  trash : Apart R.dest C.loc
  asideTrash : Apart (C.loc ++ [fsSafeId i]) (safeUnlink R.dest)
  parent : R.dest ≠ [] ∧ ∃ S, d.at_ R.dest.dropLast = some (.dir S)
  recorded : ∀ x y m, d.at_ R.dest = some x → Holds C x y → (y = .link (some m) ∨ ∃ b, y = .file b (some m)) →
    ∃ j, m .id = .str j ∧ Usable C.toPEnv.trash j ∧ fsSafeId j ≠ fsSafeId i
  above : ∀ r, r <+: C.loc → d.at_ r ≠ none
  refresh : Harmless R.dest C.refresh

theorem DestinedX.to {d : Disk XObj} {a : Disk CObj} (ha : Alike (Holds C) d a) {R : RemoteView} {q : Path} {i : Str}
    (h : DestinedX C R q i d) : Destined C.toPEnv R q i a := by
  refine ⟨h.apart, h.aside, h.trash, h.asideTrash, ⟨h.parent.1, by obtain ⟨S, hS⟩ := h.parent.2; exact dir_to ha hS⟩, fun m hm => ?_,
    fun r hr hn => ?_, h.refresh⟩
  · rcases ha.at_ R.dest with ⟨-, h2⟩ | ⟨x, y, h1, h2, hy⟩
    · rw [h2] at hm; simp at hm
    · rw [h2] at hm
      exact h.recorded x y m h1 hy (by simpa using hm)
  · rcases ha.at_ r with ⟨h1, -⟩ | ⟨x, y, -, h2, -⟩
    · exact h.above r hr h1
    · rw [hn] at h2; simp at h2

/-- **C95**: what C92 says holds of the bytes on the disk: whatever calls fail and whatever the remote sends, after an update the local
content is at its path, at the path that the remote asks for, or in the trash. -/
theorem C95_kept (hp : ParsesIso C.env) (hr : SameAs C C.refreshX C.refresh) {parents : Prog XObj Unit} {parents' : Prog CObj Unit}
    (hpar : SameAs C parents parents') {R : RemoteView} (hn : KeepsAll R.info) (hd : IsName (nameOf R.dest)) {own given : Option Path}
    {fetch : Bool} {q : Path} (hq : given.or own = some q) (hqn : IsName (nameOf q)) {m : Meta} {b : Bytes} {i : Str} {s : Machine XObj}
    (hs : Legible C s.disk) (h : ReplacingX C q b m i s.disk)
    (hid : ∀ x u, updateMeta (some m) (some R.info) = .ok (x, u) → ∃ u', u = some u' ∧ u' .file_id ≠ .none)
    (hdest : DestinedX C R q i s.disk) :
    ∃ p, (p = q ∨ p = R.dest ∨ p = C.loc ++ [fsSafeId i]) ∧ ∃ S, (C.updateCache parents R own given fetch s).2.disk.at_ p = some (.file b S) := by
  obtain ⟨a, ha⟩ := alike_of hs
  have h3 := (C95_update_cache hp hr hpar hn hd (own := own) (given := given) (fun q' h' => by rw [hq] at h'; injection h' with h'; exact h' ▸ hqn)
    fetch s.disk a s.tick ha).2.2
  change Alike _ (C.updateCache parents R own given fetch s).2.disk _ at h3
  obtain ⟨p, hp', m', hm'⟩ := (C92_kept_partial C.toPEnv parents' (fetch := fetch) (s := ⟨a, s.tick⟩) hq (h.to ha) hid (hdest.to ha)).1
  refine ⟨p, hp', ?_⟩
  rcases h3.at_ p with ⟨-, h2⟩ | ⟨x', y, h1, h2, hy⟩
  · rw [hm'] at h2; simp at h2
  · rw [hm', Option.some.injEq] at h2
    subst h2
    cases hy with | @file b S mo h => exact ⟨S, h1⟩

variable {C : XEnv}

/-- **C95**: what C94 says holds of the bytes on the disk: a path where nothing was is a directory whose attributes decode to the
metadata of the remote, but for what is empty. -/
theorem C95_made (hp : ParsesIso C.env) {l : List (Path × Meta)} (hl : ∀ x ∈ l, IsName (nameOf x.1) ∧ KeepsAll x.2) (hnd : (l.map (·.1)).Nodup)
    {s : Machine XObj} (hs : Legible C s.disk) (hrun : (C.mkdirCache l s).1 = .ok ()) {x : Path × Meta} (hx : x ∈ l) (hm : metaBool x.2 = true)
    (hno : s.disk.at_ x.1 = none) :
    ∃ S m', (C.mkdirCache l s).2.disk.at_ x.1 = some (.dir S) ∧ C.ofAttrs S = .ok m' ∧
      ∀ f, m' f = x.2 f ∨ (x.2 f = .none ∨ (x.2 f).emptyIterable = true) ∧ m' f = blank f := by
  obtain ⟨a, ha⟩ := alike_of hs
  obtain ⟨h1, -, h3⟩ := C95_mkdir_cache hp hl s.disk a s.tick ha
  change (C.mkdirCache l s).1 = _ at h1
  change Alike _ (C.mkdirCache l s).2.disk _ at h3
  rw [hrun] at h1
  have hna : a.at_ x.1 = none := by
    rcases ha.at_ x.1 with ⟨-, h2⟩ | ⟨_, _, h1, -, -⟩
    · exact h2
    · rw [hno] at h1; simp at h1
  have hf := (C94_done C.toPEnv l hnd ⟨a, s.tick⟩ h1.symm).1 x hx
  rcases hf with ⟨h, -⟩ | ⟨-, -, h⟩
  · simp [there, hna] at h
  · obtain ⟨mo, g1, g2⟩ := h hm
    rcases h3.at_ x.1 with ⟨-, h2⟩ | ⟨x', y, h4, h5, hy⟩
    · rw [g1] at h2; simp at h2
    · rw [g1, Option.some.injEq] at h5
      subst h5
      cases hy with | @dir S mo h => exact ⟨S, _, h4, ofAttrs_holds h, g2⟩

/-! ## Examples -/

/-- The attributes of a directory that has only an id. -/
def idAttrs : Attrs := [(utf8 (lit "id"), utf8 (lit "p"))]

/-- A directory with a file. -/
def treeX : Disk XObj := [([], .dir []), ([['t']], .dir []), ([['d']], .dir idAttrs), ([['d'], ['a']], .file [9] threeAttrs)]

example : FileOf plain treeX [['d'], ['a']] [9] (threeBytes [1]) ∧ ReplacingX plain [['d'], ['a']] [9] (threeBytes [1]) ['i'] treeX ∧
    Stored.there treeX [['d']] = true ∧ IsName (nameOf [['d'], ['b']]) := by
  have hf : FileOf plain treeX [['d'], ['a']] [9] (threeBytes [1]) := ⟨threeAttrs, by decide +kernel, by decide +kernel⟩
  refine ⟨hf, ⟨hf, by decide, rfl, by decide, by intro n; simp [plain, simple], ⟨[], by decide +kernel⟩, ?_, ⟨by simp, idAttrs, by decide +kernel⟩, rfl, ?_⟩,
    by decide +kernel, by unfold IsName nameOf; decide⟩
  · unfold Apart; decide
  · intro d0; exact .pure_ fun _ h => h

example : DestinedX plain ⟨['b'], .str ['p'], threeBytes [2], [['d'], ['b']]⟩ [['d'], ['a']] ['i'] treeX := by
  refine ⟨by unfold Apart; decide, by unfold Apart; decide, by unfold Apart; decide, by unfold Apart; decide, ⟨by simp, idAttrs, by decide +kernel⟩,
    fun x y m h => ?_, fun r hr => ?_, fun d0 => .pure_ fun _ h => h⟩
  · rw [show treeX.at_ [['d'], ['b']] = none by decide +kernel] at h
    simp at h
  · rw [show plain.loc = [['t']] from rfl, List.prefix_cons_iff] at hr
    rcases hr with rfl | ⟨t, rfl, ht⟩
    · decide +kernel
    · rw [List.prefix_nil] at ht
      subst ht
      decide +kernel

/-- A file that was changed is not replaced; one that was not is moved, down to the bytes. -/
example :
    let C : XEnv := { plain with chunks := [.ok [2, 3, 4]] }
    let r := C.updateCache (.pure ()) ⟨['b'], .str ['p'], threeBytes [2], [['d'], ['b']]⟩ (some [['d'], ['a']]) none true ⟨treeX, 0⟩
    r.1 = .error .localChangesError ∧ r.2.disk = treeX := by
  refine ⟨by decide +kernel, by decide +kernel⟩

example :
    let r := plain.updateCache (.pure ()) ⟨['b'], .str ['p'], threeBytes [1], [['d'], ['b']]⟩ (some [['d'], ['a']]) none true ⟨treeX, 0⟩
    r.1 = .ok false ∧ r.2.disk.at_ [['d'], ['b']] = some (.file [9] threeAttrs) ∧ r.2.disk.at_ [['d'], ['a']] = none := by
  refine ⟨by decide +kernel, by decide +kernel, by decide +kernel⟩

example : (plain.mkdirCache [([['e']], threeBytes [1])] ⟨treeX, 0⟩).1 = .ok () ∧
    (plain.mkdirCache [([['e']], threeBytes [1])] ⟨treeX, 0⟩).2.disk.at_ [['e']] = some (.dir threeAttrs) := by
  refine ⟨by decide +kernel, by decide +kernel⟩

example : (plain.bootstrapData (fun _ b => .ok (b, 1)) [['d'], ['a']] true ⟨treeX, 0⟩).1 = .ok () ∧
    (plain.validate (fun _ b => .ok (b, 1)) [['d'], ['a']] ⟨treeX, 0⟩).1 = .error .attributeError := by
  refine ⟨by decide +kernel, by decide +kernel⟩

end Verif.Cache
