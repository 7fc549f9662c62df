import Verif.Model.AnchorDrop
import Verif.Props.Anchor
import Verif.Lemmas.Decide

/-!
# C75: dropping anchor takes only an empty place that is not marked; C76: anchoring where one is already
-/

namespace Verif.Anchor
open Verif

/-- Nothing that was in a place is lost: its names are still there and its mark is the same. -/
def Kept (p p' : Place) : Prop :=
  p'.path = p.path ∧ (∀ ns, p.content = some ns → ∃ ns', p'.content = some ns' ∧ ∀ n ∈ ns, n ∈ ns') ∧
    (∀ c, p.cache = some c → p'.cache = some c)

theorem Kept.refl (p : Place) : Kept p p := ⟨rfl, fun ns h => ⟨ns, h, fun _ h => h⟩, fun _ h => h⟩

/-- What `p` is when nothing is there. -/
def Place.Absent (p : Place) : Prop := p.content = none

/-- An empty directory without metadata. -/
def Place.Free (p : Place) : Prop := p.content = some [] ∧ p.meta_ = none

theorem mark_cache (p : Place) (i : Id) (m : Bool) (ns : List Str) (h : p.content = some ns) :
    (p.mark i m).cache = some ⟨p.path, i⟩ := by
  simp [Place.mark, Place.cache, h]

theorem mark_kept (p : Place) (i : Id) (m : Bool) (h : p.cache = none) : Kept p (p.mark i m) := by
  refine ⟨rfl, fun ns hn => ?_, fun c hc => by simp [h] at hc⟩
  refine ⟨if m && !ns.contains dataDirName then ns ++ [dataDirName] else ns, by simp only [Place.mark, hn, Option.map_some], ?_⟩
  intro n hn
  split
  · exact List.mem_append_left _ hn
  · exact hn

theorem cacheInit_kept (split : Bool) (o : Outside) (i : Id) (s : St) (p : Place) :
    Kept p (cacheInit split o i s p).2.2 := by
  unfold cacheInit
  split
  · exact Kept.refl p
  · rename_i hc
    split
    · exact Kept.refl p
    · dsimp only
      split <;> exact mark_kept p i _ hc

/-- C75: whatever comes of it, dropping anchor loses nothing at the place and never changes a mark. -/
theorem C75_nothing_lost (split : Bool) (o : Outside) (s : St) (p : Place) : Kept p (dropAnchor split o s p).2.2 := by
  unfold dropAnchor
  split
  · exact Kept.refl p
  split
  · exact Kept.refl p
  rename_i r _
  have key : ∀ q : Place, Kept p q →
      Kept p (match cacheInit split o r s q with
        | (.error e, s, p) => ((.error e, s, p) : Except AErr Cache × St × Place)
        | (.ok c, s, p) => (.ok c, { s with remote := some c }, p)).2.2 := by
    intro q hq
    have hk := cacheInit_kept split o r s q
    have : Kept p (cacheInit split o r s q).2.2 := by
      refine ⟨hk.1.trans hq.1, fun ns h => ?_, fun c h => hk.2.2 c (hq.2.2 c h)⟩
      obtain ⟨n1, h1, h2⟩ := hq.2.1 ns h
      obtain ⟨n2, h3, h4⟩ := hk.2.1 n1 h1
      exact ⟨n2, h3, fun n hn => h4 n (h2 n hn)⟩
    split <;> rename_i h <;> simpa [h] using this
  dsimp only
  split
  · exact Kept.refl p
  · rename_i q hq
    apply key
    split at hq
    · rename_i hn
      have : q = { p with content := some [], meta_ := none } := by
        revert hq; split <;> intro hq
        · simp at hq
        · split at hq
          · exact (Except.ok.inj hq).symm
          · simp at hq
        · simp at hq
      subst this
      exact ⟨rfl, by simp [hn], by simp [Place.cache, hn]⟩
    · simp at hq
    · rw [← Except.ok.inj hq]; exact Kept.refl p

theorem anchorToCache_root (w : World) (c : Cache) (init : Bool) (s : St) (r : Id) (h : s.root = some r) :
    (anchorToCache w c init s).2.root = some r := by
  simp only [anchorToCache]
  grind

/-- Anchoring a cache with the id of the root succeeds if both classes are free. -/
theorem anchorClassHere_live (split : Bool) (w : World) (c : Cache) (s : St) (hd : w.dataDir = true)
    (hc : s.cache = none) (hr : s.remote = none) (hi : s.root = some c.id) :
    anchorClassHere split w c true s = (.ok (), { s with cache := some c, remote := some c }) := by
  simp [anchorClassHere, anchorToCache, hd, hc, hr, hi]

theorem anchorClassHere_ok (split : Bool) (w : World) (c : Cache) (s s' : St) (hi : s.root = some c.id)
    (h : anchorClassHere split w c true s = (.ok (), s')) :
    s.remote = none ∧ s' = { s with cache := some c, remote := some c } := by
  simp only [anchorClassHere, anchorToCache] at h
  grind

theorem cacheInit_ok (split : Bool) (o : Outside) (i : Id) (s s' : St) (p p' : Place) (c : Cache) (hi : s.root = some i)
    (h : cacheInit split o i s p = (.ok c, s', p')) :
    c = ⟨p.path, i⟩ ∧ p.cache = none ∧ p'.cache = some c ∧ s' = { s with cache := some c, remote := some c } := by
  unfold cacheInit at h
  split at h
  · simp at h
  rename_i hc
  split at h
  · simp at h
  rename_i ns hn
  dsimp only at h
  split at h
  · simp at h
  · rename_i s1 ha
    simp only [Prod.mk.injEq, Except.ok.injEq] at h
    obtain ⟨h1, h2, h3⟩ := h
    subst h1 h2 h3
    exact ⟨rfl, hc, mark_cache p i _ ns hn, (anchorClassHere_ok split o.world ⟨p.path, i⟩ s s1 hi ha).2⟩

/-- C75: when dropping anchor succeeds there was nothing at the place, or an empty directory that was
not marked; afterwards the place is marked with the id of the remote root, and both classes are anchored
to it. -/
theorem C75_success (split : Bool) (o : Outside) (s s' : St) (p p' : Place) (c : Cache)
    (h : dropAnchor split o s p = (.ok c, s', p')) :
    (p.Absent ∧ o.kind = .dir ∨ p.Free) ∧ s.remote = none ∧ c.path = p.path ∧ s.root = some c.id ∧ p'.cache = some c ∧
      AnchoredTo s' c ∧ s'.root = s.root := by
  unfold dropAnchor at h
  split at h
  · simp at h
  rename_i hr
  split at h
  · simp at h
  rename_i r hroot
  dsimp only at h
  split at h
  · simp at h
  rename_i q hq
  split at h
  · simp at h
  rename_i c1 s1 p1 hci
  simp only [Prod.mk.injEq, Except.ok.injEq] at h
  obtain ⟨h1, h2, h3⟩ := h
  subst h1 h2 h3
  obtain ⟨e1, e2, e3, e4⟩ := cacheInit_ok split o r s s1 q p1 c1 hroot hci
  have hq' : q.path = p.path ∧ (p.Absent ∧ o.kind = .dir ∨ p.Free) := by
    split at hq
    · rename_i hn
      revert hq; split <;> intro hq
      · simp at hq
      · rename_i hk
        split at hq
        · rw [← Except.ok.inj hq]; exact ⟨rfl, .inl ⟨hn, hk⟩⟩
        · simp at hq
      · simp at hq
    · simp at hq
    · rename_i hn
      rw [← Except.ok.inj hq] at e2 ⊢
      refine ⟨rfl, .inr ⟨hn, ?_⟩⟩
      simp only [Place.cache, hn] at e2
      revert e2; cases p.meta_ <;> simp
  subst e1 e4
  exact ⟨hq'.2, hr, hq'.1, hroot, e3, ⟨rfl, rfl⟩, rfl⟩

/-- C75: a remote class that is anchored, a directory with something in it, and a directory that is marked
are each refused, with nothing changed. -/
theorem C75_refused (split : Bool) (o : Outside) (s : St) (p : Place) :
    (s.remote ≠ none → dropAnchor split o s p = (.error .remoteAlreadyAnchored, s, p)) ∧
    (s.remote = none → s.root ≠ none → (∃ n ns, p.content = some (n :: ns)) →
      dropAnchor split o s p = (.error .directoryNotEmpty, s, p)) ∧
    (s.remote = none → s.root ≠ none → p.content = some [] → p.meta_ ≠ none →
      dropAnchor split o s p = (.error .cacheExists, s, p)) := by
  refine ⟨fun h => ?_, fun h1 h2 ⟨n, ns, h3⟩ => ?_, fun h1 h2 h3 h4 => ?_⟩
  · obtain ⟨a, ha⟩ := Option.ne_none_iff_exists'.1 h
    simp [dropAnchor, ha]
  · obtain ⟨a, ha⟩ := Option.ne_none_iff_exists'.1 h2
    simp [dropAnchor, h1, ha, h3]
  · obtain ⟨a, ha⟩ := Option.ne_none_iff_exists'.1 h2
    obtain ⟨m, hm⟩ := Option.ne_none_iff_exists'.1 h4
    simp [dropAnchor, h1, ha, h3, cacheInit, Place.cache, hm]

/-- C75: with both classes free, dropping anchor at a place that is free, or where there is nothing and a
directory can be made, succeeds. -/
theorem C75_works (split : Bool) (o : Outside) (s : St) (p : Place) (hc : s.cache = none) (hr : s.remote = none)
    (hroot : s.root ≠ none) (hd : o.world.dataDir = true)
    (hp : p.Free ∨ p.Absent ∧ o.kind = .dir ∧ o.mkdir = true) :
    ∃ c s' p', dropAnchor split o s p = (.ok c, s', p') := by
  obtain ⟨r, hr'⟩ := Option.ne_none_iff_exists'.1 hroot
  have ha := anchorClassHere_live split o.world ⟨p.path, r⟩ s hd hc hr hr'
  rcases hp with ⟨h1, h2⟩ | ⟨h1, h2, h3⟩
  · simp [dropAnchor, hr, hr', h1, cacheInit, Place.cache, h2, ha]
  · simp only [Place.Absent] at h1
    simp [dropAnchor, hr, hr', h1, h2, h3, cacheInit, Place.cache, ha]

/-- C75: an attempt that fails after the metadata was written leaves the mark: with the cache class still
anchored elsewhere (its anchor is not weighed with that of the remote class) the attempt raises, and the
directory that it made has the mark. -/
theorem C75_mark_left (o : Outside) (s : St) (p : Place) (r : Id) (hc : s.cache ≠ none) (hr : s.remote = none)
    (hroot : s.root = some r) (hp : p.Absent) (hk : o.kind = .dir) (hm : o.mkdir = true) :
    ∃ e s' p', dropAnchor false o s p = (.error e, s', p') ∧ p'.cache = some ⟨p.path, r⟩ := by
  obtain ⟨a, ha⟩ := Option.ne_none_iff_exists'.1 hc
  simp only [Place.Absent] at hp
  simp [dropAnchor, hr, hroot, hp, hk, hm, cacheInit, Place.cache, C43_second_refused _ _ _ s hc, Place.mark]
  exact ⟨_, _, _, ⟨rfl, rfl, rfl⟩, rfl⟩

theorem dropAnchor_error (split : Bool) (o : Outside) (s s' : St) (p p' : Place) (e : AErr)
    (h : dropAnchor split o s p = (.error e, s', p')) :
    (e = .remoteAlreadyAnchored ∧ s.remote ≠ none ∧ s' = s ∧ p' = p) ∨
    ((e = .directoryNotEmpty ∨ e = .cacheExists) ∧ s.remote = none ∧ s.root ≠ none ∧ s' = s ∧ p' = p) ∨
    (e ≠ .remoteAlreadyAnchored ∧ e ≠ .directoryNotEmpty ∧ e ≠ .cacheExists) := by
  unfold dropAnchor at h
  split at h
  · rename_i a ha
    simp only [Prod.mk.injEq, Except.error.injEq] at h
    exact .inl ⟨h.1.symm, by simp [ha], h.2.1.symm, h.2.2.symm⟩
  rename_i hr
  split at h
  · simp only [Prod.mk.injEq, Except.error.injEq] at h
    rw [← h.1]; exact .inr (.inr (by simp))
  rename_i r hroot
  have hn : s.root ≠ none := by simp [hroot]
  dsimp only at h
  split at h
  · rename_i e1 hq
    simp only [Prod.mk.injEq, Except.error.injEq] at h
    obtain ⟨h1, h2, h3⟩ := h
    subst h1
    split at hq
    · refine .inr (.inr ?_)
      revert hq; split <;> intro hq
      · rw [← Except.error.inj hq]; simp
      · split at hq
        · simp at hq
        · rw [← Except.error.inj hq]; simp
      · rw [← Except.error.inj hq]; simp
    · exact .inr (.inl ⟨.inl (Except.error.inj hq).symm, hr, hn, h2.symm, h3.symm⟩)
    · simp at hq
  · rename_i q hq
    split at h
    · rename_i e1 s1 p1 hci
      simp only [Prod.mk.injEq, Except.error.injEq] at h
      obtain ⟨h1, h2, h3⟩ := h
      subst h1 h2 h3
      unfold cacheInit at hci
      split at hci
      · rename_i c hc
        simp only [Prod.mk.injEq, Except.error.injEq] at hci
        have hqp : q = p := by
          split at hq
          · revert hq; split <;> intro hq
            · simp at hq
            · split at hq
              · rw [← Except.ok.inj hq] at hc; simp [Place.cache] at hc
              · simp at hq
            · simp at hq
          · simp at hq
          · exact (Except.ok.inj hq).symm
        subst hqp
        exact .inr (.inl ⟨.inr hci.1.symm, hr, hn, hci.2.1.symm, hci.2.2.symm⟩)
      · split at hci
        · simp only [Prod.mk.injEq, Except.error.injEq] at hci
          rw [← hci.1]; exact .inr (.inr (by simp))
        · dsimp only at hci
          split at hci
          · simp only [Prod.mk.injEq, Except.error.injEq] at hci
            rw [← hci.1]; exact .inr (.inr (by simp))
          · simp at hci
    · simp at h

/-- The ways in which `smartAnchor` can succeed. -/
theorem smartAnchor_ok (split : Bool) (o : Outside) (s s' : St) (p p' : Place) (c : Cache)
    (h : smartAnchor split o s p = (.ok c, s', p')) :
    dropAnchor split o s p = (.ok c, s', p') ∨
    (s.remote = some c ∧ s.root ≠ none ∧ s' = s ∧ p' = p ∧ ∃ i, p.cache = some ⟨c.path, i⟩) ∨
    (s.remote = none ∧ s.root ≠ none ∧ s' = { s with remote := some c } ∧ p' = p ∧ p.cache = some c) := by
  unfold smartAnchor at h
  split at h
  · rename_i hd; rw [hd, h]; exact .inl rfl
  · rename_i s1 p1 hd
    obtain ⟨-, h2, h3, h4⟩ | h1 | h1 := dropAnchor_error _ _ _ _ _ _ _ hd
    · subst h3 h4
      split at h
      · simp at h
      · rename_i r hr
        split at h
        · rename_i a d ha hd'
          split at h
          · rename_i hpath
            simp only [Prod.mk.injEq, Except.ok.injEq] at h
            obtain ⟨h1, h2, h3⟩ := h
            subst h1 h2 h3
            refine .inr (.inl ⟨ha, by simp [hr], rfl, rfl, d.id, ?_⟩)
            rw [hpath]; exact hd'
          · simp at h
        · simp at h
    · simp at h1
    · simp at h1
  · rename_i s1 p1 hd
    obtain ⟨h1, -⟩ | ⟨-, h2, h3, h4, h5⟩ | h1 := dropAnchor_error _ _ _ _ _ _ _ hd
    · simp at h1
    · subst h4 h5
      split at h
      · rename_i d hd'
        simp only [Prod.mk.injEq, Except.ok.injEq] at h
        obtain ⟨h1, h2', h3'⟩ := h
        subst h1 h2' h3'
        exact .inr (.inr ⟨h2, h3, rfl, rfl, hd'⟩)
      · simp at h
    · simp at h1
  · rename_i s1 p1 hd
    obtain ⟨h1, -⟩ | ⟨-, h2, h3, h4, h5⟩ | h1 := dropAnchor_error _ _ _ _ _ _ _ hd
    · simp at h1
    · subst h4 h5
      split at h
      · rename_i d hd'
        simp only [Prod.mk.injEq, Except.ok.injEq] at h
        obtain ⟨h1, h2', h3'⟩ := h
        subst h1 h2' h3'
        exact .inr (.inr ⟨h2, h3, rfl, rfl, hd'⟩)
      · simp at h
    · simp at h1
  · simp at h

theorem smartAnchor_place (split : Bool) (o : Outside) (s : St) (p : Place) :
    (smartAnchor split o s p).2.2 = (dropAnchor split o s p).2.2 := by
  unfold smartAnchor
  split <;> rename_i h <;> simp only [h] <;> try rfl
  · split
    · rfl
    · split
      · split <;> rfl
      · rfl
  · split <;> rfl
  · split <;> rfl

/-- C76: whatever comes of it, `smartAnchor` loses nothing at the place and never changes a mark. -/
theorem C76_nothing_lost (split : Bool) (o : Outside) (s : St) (p : Place) : Kept p (smartAnchor split o s p).2.2 := by
  rw [smartAnchor_place]; exact C75_nothing_lost split o s p

/-- C76: when `smartAnchor` succeeds, the remote class is anchored to the answer and the place is marked and has
the path of the answer. -/
theorem C76_success (split : Bool) (o : Outside) (s s' : St) (p p' : Place) (c : Cache)
    (h : smartAnchor split o s p = (.ok c, s', p')) :
    s'.remote = some c ∧ s'.root ≠ none ∧ s'.root = s.root ∧ ∃ i, p'.cache = some ⟨c.path, i⟩ := by
  obtain h | ⟨h1, h2, h3, h4, h5⟩ | ⟨h1, h2, h3, h4, h5⟩ := smartAnchor_ok _ _ _ _ _ _ _ h
  · obtain ⟨-, -, h3, h4, h5, h6, h7⟩ := C75_success _ _ _ _ _ _ _ h
    exact ⟨h6.2, by simp [h7, h4], h7, c.id, h5⟩
  · subst h3 h4; exact ⟨h1, h2, rfl, h5⟩
  · subst h3 h4; exact ⟨rfl, h2, rfl, c.id, h5⟩

/-- C76: `smartAnchor` can be called again: it gives the same answer and changes nothing. -/
theorem C76_again (split : Bool) (o o' : Outside) (s s' : St) (p p' : Place) (c : Cache)
    (h : smartAnchor split o s p = (.ok c, s', p')) : smartAnchor split o' s' p' = (.ok c, s', p') := by
  obtain ⟨h1, h2, -, i, h4⟩ := C76_success _ _ _ _ _ _ _ h
  obtain ⟨r, hr⟩ := Option.ne_none_iff_exists'.1 h2
  have := (C75_refused split o' s' p').1 (by simp [h1])
  simp [smartAnchor, this, hr, h1, h4]

/-- C76 (part): if the mark that is at the place, and an anchor that is there already, have the id of the remote
root, then so has the answer.  (Full claim: the answer of `smartAnchor` has the id of the remote root.) -/
theorem C76_right_root_partial (split : Bool) (o : Outside) (s s' : St) (p p' : Place) (c : Cache)
    (h : smartAnchor split o s p = (.ok c, s', p'))
    (hp : ∀ d, p.cache = some d → s.root = some d.id) (hs : ∀ d, s.remote = some d → s.root = some d.id) :
    s'.root = some c.id := by
  obtain h | ⟨h1, h2, h3, h4, h5⟩ | ⟨h1, h2, h3, h4, h5⟩ := smartAnchor_ok _ _ _ _ _ _ _ h
  · obtain ⟨-, -, h3, h4, h5, h6, h7⟩ := C75_success _ _ _ _ _ _ _ h
    rw [h7, h4]
  · subst h3; exact hs c h1
  · subst h3; exact hp c h5

/-- C76: a marked directory is taken whatever its mark is: the remote class, bound to one root, is anchored to a
directory that belongs to another, where `anchorTo` refuses. -/
theorem C76_other_root_counterexample (split : Bool) (o : Outside) (s : St) (p : Place) (r : Id) (c : Cache)
    (hr : s.remote = none) (hroot : s.root = some r) (hp : p.cache = some c) (hne : r ≠ c.id)
    (hne' : s.remoteRoot ≠ some c.id) :
    smartAnchor split o s p = (.ok c, { s with remote := some c }, p) ∧
    ∀ named create, (anchorTo split o named create s p) = (.error (.other .valueError), s, p) := by
  have hn : s.root ≠ none := by simp [hroot]
  have hc : p.content ≠ none ∧ p.meta_ ≠ none := by
    simp only [Place.cache] at hp
    split at hp
    · rename_i h1 h2; simp [h1, h2]
    · simp at hp
  refine ⟨?_, fun named create => ?_⟩
  · obtain ⟨l, hl⟩ := Option.ne_none_iff_exists'.1 hc.1
    cases l with
    | nil => simp [smartAnchor, (C75_refused split o s p).2.2 hr hn hl hc.2, hp]
    | cons n ns => simp [smartAnchor, (C75_refused split o s p).2.1 hr hn ⟨n, ns, hl⟩, hp]
  · simp [anchorTo, hp, anchorToCache, hr, hroot, hne, hne']

/-- C76: where the directory is marked `smartAnchor` anchors the remote class only: the cache class stays as it was,
so that its anchor is missing or another. -/
theorem C76_cache_class_counterexample (split : Bool) (o : Outside) (s : St) (p : Place) (c : Cache)
    (hr : s.remote = none) (hroot : s.root ≠ none) (hp : p.cache = some c) (hs : s.cache ≠ some c) :
    (smartAnchor split o s p).1 = .ok c ∧ ¬ AnchoredTo (smartAnchor split o s p).2.1 c := by
  have hc : p.content ≠ none ∧ p.meta_ ≠ none := by
    simp only [Place.cache] at hp
    split at hp
    · rename_i h1 h2; simp [h1, h2]
    · simp at hp
  obtain ⟨l, hl⟩ := Option.ne_none_iff_exists'.1 hc.1
  have : smartAnchor split o s p = (.ok c, { s with remote := some c }, p) := by
    cases l with
    | nil => simp [smartAnchor, (C75_refused split o s p).2.2 hr hroot hl hc.2, hp]
    | cons n ns => simp [smartAnchor, (C75_refused split o s p).2.1 hr hroot ⟨n, ns, hl⟩, hp]
  rw [this]
  exact ⟨rfl, fun h => hs h.1⟩

/-- C76: `anchorTo` a local path, by contrast, succeeds only if the id of the place is that of the root of the remote
(or `_remote_root`); the remote class is then anchored to the place, which is marked; the directory is only made if
asked for and the names agree. -/
theorem C76_anchorTo (split : Bool) (o : Outside) (named create : Bool) (s s' : St) (p p' : Place) (c : Cache)
    (h : anchorTo split o named create s p = (.ok c, s', p')) :
    s'.remote = some c ∧ p'.cache = some c ∧ (s'.root = some c.id ∨ s'.remoteRoot = some c.id) ∧
      (p'.content ≠ p.content ∨ p'.meta_ ≠ p.meta_ → named = true ∧ create = true ∧ (p.Absent ∨ p.Free)) := by
  unfold anchorTo at h
  split at h
  · rename_i d hd
    split at h
    · simp at h
    · rename_i s1 ha
      simp only [Prod.mk.injEq, Except.ok.injEq] at h
      obtain ⟨h1, h2, h3⟩ := h
      subst h1 h2 h3
      have := anchorToCache_ok o.world d true s (by rw [ha])
      rw [ha] at this
      refine ⟨this.1, hd, ?_, by simp⟩
      rcases this.2.2.1 with h | h
      · exact absurd h (this.2.2.2 rfl)
      · exact h
  · split at h
    · simp at h
    · split at h
      · simp at h
      · rename_i hnm
        split at h
        · rename_i hcr
          obtain ⟨h1, h2, h3, h4, h5, h6, h7⟩ := C75_success _ _ _ _ _ _ _ h
          refine ⟨h6.2, h5, .inl (by rw [h7, h4]), fun _ => ⟨by simpa using hnm, hcr, ?_⟩⟩
          rcases h1 with h1 | h1
          · exact .inl h1.1
          · exact .inr h1
        · simp at h

/-! Cases that meet the hypotheses. -/

def outside : Outside := ⟨plain, .dir, true⟩
def bound : St := ⟨none, none, some ['i'], none⟩
def nowhere : Place := ⟨[['h']], none, none⟩
def stranger : Place := ⟨[['h']], some [['f']], some ['j']⟩

example : (dropAnchor false outside bound nowhere).1 = .ok ⟨[['h']], ['i']⟩ := by decide +kernel
example : (dropAnchor false outside bound nowhere).2.2 = ⟨[['h']], some [dataDirName], some ['i']⟩ := by decide +kernel
example : (dropAnchor false outside bound ⟨[['h']], some [['f']], none⟩).1 = .error .directoryNotEmpty := by decide +kernel
example : (smartAnchor false outside bound stranger).1 = .ok ⟨[['h']], ['j']⟩ := by decide +kernel
example : (smartAnchor false outside bound nowhere).1 = .ok ⟨[['h']], ['i']⟩ ∧
    (∀ d, nowhere.cache = some d → bound.root = some d.id) ∧ ∀ d, bound.remote = some d → bound.root = some d.id :=
  ⟨by decide +kernel, by simp [nowhere, Place.cache], by simp [bound]⟩
example : (anchorTo false outside true true bound nowhere).1 = .ok ⟨[['h']], ['i']⟩ := by decide +kernel
example : (anchorTo false outside true false bound nowhere).1 = .error .valueError := by decide +kernel
example : (dropAnchor false outside { bound with cache := some other } nowhere).1 = .error (.other .valueError) := by
  decide +kernel

/-- C75: when dropping anchor succeeds, the local data directory is in the place and nothing else; when it fails because the cache class
is anchored elsewhere, the data directory was not made. -/
theorem C75_content (split : Bool) (o : Outside) (s s' : St) (p p' : Place) :
    (∀ c, dropAnchor split o s p = (.ok c, s', p') → p'.content = some [lit ".operations"]) ∧
    (∀ e, dropAnchor false o s p = (.error e, s', p') → s.cache ≠ none → p'.content = p.content ∨ p'.content = some []) := by
  change (∀ c, dropAnchor split o s p = (.ok c, s', p') → p'.content = some [dataDirName]) ∧ _
  have kept : ∀ (q : Place) (i : Id), (q.mark i false).content = q.content := by
    intro q i
    cases h : q.content <;> simp [Place.mark, h]
  have key : ∀ (sp : Bool) (r : Id), (match (match p.content with
        | none => (match o.kind with
          | .file => .error .notImplemented
          | .dir => if o.mkdir then .ok { p with content := some [], meta_ := none } else .error (.other .osError)
          | .other => .error .notImplemented : Except AErr Place)
        | some (_ :: _) => .error .directoryNotEmpty
        | some [] => .ok p) with
      | .error e => True
      | .ok q => q.content = some []) := by
    intro sp r
    cases hn : p.content with
    | none =>
      dsimp only
      cases o.kind <;> dsimp only
      cases o.mkdir <;> simp
    | some ns =>
      cases ns with
      | nil => exact hn
      | cons n ns => trivial
  refine ⟨fun c h => ?_, fun e h hc => ?_⟩
  · unfold dropAnchor at h
    split at h
    · simp at h
    split at h
    · simp at h
    rename_i r hroot
    have hk := key split r
    dsimp only at h
    split at h
    · simp at h
    rename_i q hq
    have hqc : q.content = some [] := by
      have : ∀ x : Except AErr Place, (match x with | .error e => True | .ok q => q.content = some []) → x = .ok q → q.content = some [] := by
        rintro x h rfl; exact h
      exact this _ hk hq
    unfold cacheInit at h
    cases hqa : q.cache with
    | some a => simp [hqa] at h
    | none =>
      simp only [hqa, hqc] at h
      cases ha : anchorClassHere split o.world ⟨q.path, r⟩ true s with
      | mk x s1 =>
        rw [ha] at h
        cases x with
        | error e => simp at h
        | ok u =>
          simp only [Prod.mk.injEq] at h
          have hd : o.world.dataDir = true ∧ (split || s.cache.isNone) = true := by
            simp only [anchorClassHere] at ha
            split at ha
            · simp at ha
            · next hs =>
              split at ha
              · simp at ha
              · next hd =>
                refine ⟨by simpa using hd, ?_⟩
                cases split <;> cases hsc : s.cache <;> simp_all
          rw [← h.2.2]
          simp [Place.mark, hqc, hd.1, hd.2]
  · unfold dropAnchor at h
    obtain ⟨a, ha⟩ := Option.ne_none_iff_exists'.1 hc
    split at h
    · simp only [Prod.mk.injEq] at h; exact .inl (by rw [← h.2.2])
    split at h
    · simp only [Prod.mk.injEq] at h; exact .inl (by rw [← h.2.2])
    rename_i r hroot
    have hk := key split r
    dsimp only at h
    split at h
    · simp only [Prod.mk.injEq] at h; exact .inl (by rw [← h.2.2])
    rename_i q hq
    have hqc : q.content = some [] := by
      have : ∀ x : Except AErr Place, (match x with | .error e => True | .ok q => q.content = some []) → x = .ok q → q.content = some [] := by
        rintro x h rfl; exact h
      exact this _ hk hq
    unfold cacheInit at h
    cases hqa : q.cache with
    | some b => simp only [hqa, Prod.mk.injEq] at h; exact .inr (by rw [← h.2.2, hqc])
    | none =>
      simp only [hqa, hqc, ha, Option.isNone_some, Bool.or_false, Bool.and_false] at h
      have : anchorClassHere false o.world ⟨q.path, r⟩ true s = (.error .valueError, s) := by simp [anchorClassHere, ha]
      rw [this] at h
      simp only [Prod.mk.injEq] at h
      exact .inr (by rw [← h.2.2, kept, hqc])

/-- C75: an attempt whose local data directory cannot be made leaves nothing at the place that was not there before, but the directory itself. -/
theorem C75_no_data_dir (split : Bool) (o : Outside) (s : St) (p : Place) (hd : o.world.dataDir = false) (ns' : List Str)
    (h : (dropAnchor split o s p).2.2.content = some ns') : p.content = some ns' ∨ p.content = none ∧ ns' = [] := by
  have hci : ∀ (q : Place) (i : Id), (cacheInit split o i s q).2.2.content = q.content := by
    intro q i
    unfold cacheInit anchorClassHere Place.mark
    cases hc : q.cache <;> cases hq : q.content <;> simp [hd, hq] <;> split <;> simp_all
  unfold dropAnchor at h
  cases hr : s.remote with
  | some a => rw [hr] at h; exact .inl h
  | none =>
    rw [hr] at h; dsimp only at h
    cases hroot : s.root with
    | none => rw [hroot] at h; exact .inl h
    | some r =>
      rw [hroot] at h; dsimp only at h
      have key : ∀ q : Place, (match cacheInit split o r s q with
          | (.error e, s, p) => ((.error e, s, p) : Except AErr Cache × St × Place)
          | (.ok c, s, p) => (.ok c, { s with remote := some c }, p)).2.2.content = q.content := by
        intro q
        rw [← hci q r]
        split <;> rename_i e <;> rw [e]
      cases hp : p.content with
      | none =>
        rw [hp] at h
        cases hk : o.kind <;> rw [hk] at h <;> dsimp only at h
        · simp [hp] at h
        · cases hm : o.mkdir <;> rw [hm] at h
          · simp [hp] at h
          · right
            simp only [if_true] at h
            have h := (key _).symm.trans h
            cases h; exact ⟨rfl, rfl⟩
        · simp [hp] at h
      | some l =>
        left
        cases l with
        | nil => rw [hp] at h; dsimp only at h; exact hp.symm.trans ((key p).symm.trans h)
        | cons n l => rw [hp] at h; dsimp only at h; rw [hp] at h; exact h

example : (dropAnchor false ⟨⟨fun _ => none, false⟩, .dir, true⟩ ⟨none, none, some ['N'], none⟩ ⟨[['d']], none, none⟩).2.2.content =
    some [] := by decide

end Verif.Anchor
