import Verif.Model.Graph
import Verif.Lemmas.Decide

/-!
# C96: a remote's cache's remote is that remote
-/

namespace Verif.Graph

/-! ## The claim -/

/-- What histories are about: every way in which the library makes caches and remotes, apart from `mkdir_remote`, from
giving a cache that is in use to another remote, and from `mkdir_cache` while the remote class has no anchor. -/
def Usual (h : Heap) : Op → Prop
  | .mkdirRemote _ _ => False
  | .setter _ _ _ => False
  | .dirCache _ _ => h.anchored = true
  | _ => True

/-- Every step of the history is usual. -/
def UsualRun : Heap → List Op → Prop
  | _, [] => True
  | h, o :: l => Usual h o ∧ UsualRun (step h o) l

/-- Every remote that has a cache is the remote of that cache. -/
def Inv (h : Heap) : Prop :=
  ∀ (r c : Nat) (ro : RemoteO), h.remotes[r]? = some ro → ro.cache = some c → ∃ co : CacheO, h.caches[c]? = some co ∧ co.remote = some r

/-- Caches keep their remotes. -/
def Keep (h h' : Heap) : Prop :=
  ∀ (c : Nat) (co : CacheO) (r : Nat), h.caches[c]? = some co → co.remote = some r → ∃ co' : CacheO, h'.caches[c]? = some co' ∧ co'.remote = some r

theorem Keep.refl (h : Heap) : Keep h h := fun _ co _ hc hr => ⟨co, hc, hr⟩

theorem Keep.trans {a b c : Heap} (h₁ : Keep a b) (h₂ : Keep b c) : Keep a c := fun x co r hc hr =>
  let ⟨co', hc', hr'⟩ := h₁ x co r hc hr
  h₂ x co' r hc' hr'

theorem Inv.of_keep {h h' : Heap} (hi : Inv h) (hr : h'.remotes = h.remotes) (hk : Keep h h') : Inv h' := by
  intro r c ro h₁ h₂
  rw [hr] at h₁
  obtain ⟨co, hc, hcr⟩ := hi r c ro h₁ h₂
  exact hk c co r hc hcr

/-- Changing a cache without touching its remote. -/
theorem keep_onCache (h : Heap) (c : Nat) (f : CacheO → CacheO) (hf : ∀ o r, o.remote = some r → (f o).remote = some r) :
    Keep h (h.onCache c f) := by
  intro x co r hc hr
  by_cases hx : c = x
  · subst hx
    exact ⟨f co, by simp [Heap.onCache, hc], hf co r hr⟩
  · exact ⟨co, by simp [Heap.onCache, hx, hc], hr⟩

theorem keep_addCache (h : Heap) (o : CacheO) : Keep h (h.addCache o).2 := by
  intro x co r hc hr
  refine ⟨co, ?_, hr⟩
  have hlt : x < h.caches.length := by
    rw [List.getElem?_eq_some_iff] at hc
    exact hc.1
  simp [Heap.addCache, List.getElem?_append_left hlt, hc]

theorem keep_cacheId (h : Heap) (c : Nat) : Keep h (cacheId h c).2 := by
  unfold cacheId
  split
  · exact .refl h
  · split
    · exact .refl h
    · split
      · exact keep_onCache h c _ fun _ _ => id
      · split
        · exact keep_onCache h c _ fun _ _ => id
        · exact .refl h

theorem remotes_cacheId (h : Heap) (c : Nat) : (cacheId h c).2.remotes = h.remotes := by
  unfold cacheId
  split
  · rfl
  · split
    · rfl
    · split
      · rfl
      · split <;> rfl

/-- Asking for the id leaves the remote of the cache as it was. -/
theorem remote_cacheId (h : Heap) (c x : Nat) : ((cacheId h c).2.caches[x]?).map CacheO.remote = (h.caches[x]?).map CacheO.remote := by
  have key : ∀ f : CacheO → CacheO, (∀ o, (f o).remote = o.remote) →
      ((h.onCache c f).caches[x]?).map CacheO.remote = (h.caches[x]?).map CacheO.remote := by
    intro f hf
    by_cases hx : c = x
    · subst hx
      cases hc : h.caches[c]? <;> simp [Heap.onCache, hc, hf]
    · simp [Heap.onCache, hx]
  unfold cacheId
  split
  · rfl
  · split
    · rfl
    · split
      · exact key _ fun _ => rfl
      · split
        · exact key _ fun _ => rfl
        · rfl

/-- A new remote for a cache that no remote has. -/
theorem inv_newRemote {h : Heap} (hi : Inv h) (i : Str) {c : Nat} {co : CacheO} (hc : h.caches[c]? = some co)
    (hfree : ∀ (r : Nat) (ro : RemoteO), h.remotes[r]? = some ro → ro.cache ≠ some c) :
    Inv ((newRemote h i (some c)).2.onCache c fun o => { o with remote := some (newRemote h i (some c)).1 }) := by
  intro r c' ro hr hcr
  have hrem : ((newRemote h i (some c)).2.onCache c fun o =>
      { o with remote := some (newRemote h i (some c)).1 }).remotes = h.remotes ++ [⟨i, some c⟩] := by
    unfold newRemote; dsimp only; cases h.anchored <;> rfl
  have hfst : (newRemote h i (some c)).1 = h.remotes.length := by unfold newRemote; dsimp only
  have hca : ∀ x, x ≠ c → ((newRemote h i (some c)).2.onCache c fun o =>
      { o with remote := some (newRemote h i (some c)).1 }).caches[x]? = h.caches[x]? := by
    intro x hx
    unfold newRemote; dsimp only
    cases h.anchored <;> simp [Heap.onCache, Ne.symm hx]
  have hcc : ∃ o', ((newRemote h i (some c)).2.onCache c fun o =>
      { o with remote := some (newRemote h i (some c)).1 }).caches[c]? = some o' ∧ o'.remote = some h.remotes.length := by
    unfold newRemote; dsimp only
    cases h.anchored <;> simp [Heap.onCache, hc]
  rw [hrem] at hr
  by_cases hlt : r < h.remotes.length
  · rw [List.getElem?_append_left hlt] at hr
    have hne : c' ≠ c := fun e => hfree r ro hr (e ▸ hcr)
    obtain ⟨co', h₁, h₂⟩ := hi r c' ro hr hcr
    exact ⟨co', by rw [hca c' hne]; exact h₁, h₂⟩
  · rw [List.getElem?_append_right (Nat.le_of_not_lt hlt)] at hr
    have hz : r - h.remotes.length = 0 := by
      by_cases hz : r - h.remotes.length = 0
      · exact hz
      · rw [List.getElem?_eq_none (by simp; omega)] at hr
        cases hr
    rw [hz] at hr
    simp at hr
    subst hr
    simp at hcr
    subst hcr
    obtain ⟨o', h₁, h₂⟩ := hcc
    refine ⟨o', h₁, ?_⟩
    rw [h₂]
    congr 1
    omega

theorem inv_bare {h : Heap} (hi : Inv h) (i : Str) : Inv (newRemote h i none).2 := by
  intro r c ro hr hcr
  simp only [newRemote] at hr
  by_cases hlt : r < h.remotes.length
  · rw [List.getElem?_append_left hlt] at hr
    exact hi r c ro hr hcr
  · rw [List.getElem?_append_right (Nat.le_of_not_lt hlt)] at hr
    cases hz : r - h.remotes.length with
    | zero => rw [hz] at hr; simp at hr; subst hr; cases hcr
    | succ n => rw [hz] at hr; simp at hr

theorem keep_newRemote_none (h : Heap) (i : Str) : Keep h (newRemote h i none).2 := fun _ co _ hc hr => ⟨co, hc, hr⟩

/-- A remote for a cache that has none. -/
theorem cacheRemote_ok {h : Heap} (hi : Inv h) (a b : Bool) (c : Nat) :
    Inv (cacheRemote a b h c).2 ∧ Keep h (cacheRemote a b h c).2 := by
  unfold cacheRemote
  split
  · exact ⟨hi, .refl h⟩
  · rename_i o ho
    split
    · exact ⟨hi, .refl h⟩
    · rename_i hnone
      have hk := keep_cacheId h c
      have hi' := hi.of_keep (remotes_cacheId h c) hk
      have hrc := remote_cacheId h c c
      split
      · rename_i h' e
        rw [e] at hk hi'
        exact ⟨hi', hk⟩
      · rename_i i h' e
        rw [e] at hk hi' hrc
        dsimp only at hk hi' hrc ⊢
        rw [ho] at hrc
        simp [hnone] at hrc
        obtain ⟨o', ho', hr'⟩ := hrc
        -- the state after the bootstrapping id was set again
        have hstep : ∀ h'' : Heap, h'' = (if a then h'.onCache c fun o => { o with boot := some i } else h') →
            Inv h'' ∧ Keep h h'' ∧ ∃ o'', h''.caches[c]? = some o'' ∧ o''.remote = none := by
          intro h'' e''
          cases a
          · simp at e''
            subst e''
            exact ⟨hi', hk, o', ho', hr'⟩
          · simp at e''
            subst e''
            have hk' := keep_onCache h' c (fun o => { o with boot := some i }) fun _ _ => id
            refine ⟨hi'.of_keep rfl hk', hk.trans hk', { o' with boot := some i }, ?_, hr'⟩
            simp [Heap.onCache, ho']
        obtain ⟨hi₂, hk₂, o₂, ho₂, hr₂⟩ := hstep _ rfl
        generalize (if a then h'.onCache c fun o => { o with boot := some i } else h') = h₂ at hi₂ hk₂ ho₂
        cases b
        · exact ⟨hi₂, hk₂⟩
        · rw [if_pos rfl]
          refine ⟨inv_newRemote hi₂ i ho₂ ?_, ?_⟩
          · intro r ro hr hcr
            obtain ⟨co, h₁, h₂⟩ := hi₂ r c ro hr hcr
            rw [ho₂] at h₁
            cases h₁
            rw [hr₂] at h₂
            cases h₂
          · refine hk₂.trans ?_
            intro x co r hc hr
            by_cases hx : c = x
            · subst hx
              rw [ho₂] at hc
              cases hc
              rw [hr₂] at hr
              cases hr
            · refine ⟨co, ?_, hr⟩
              unfold newRemote; dsimp only
              cases h₂.anchored <;> simp [Heap.onCache, hx, hc]

/-- A new cache that is given to a remote. -/
theorem makeChild_ok {h : Heap} (hi : Inv h) (p : Loc) (r : Nat) (u : Updated) :
    Inv (makeChild h p r u).2 ∧ Keep h (makeChild h p r u).2 := by
  have hadd : Keep h (h.addCache ⟨p, none, none, none⟩).2 := keep_addCache h _
  have hi' : Inv (h.addCache ⟨p, none, none, none⟩).2 := hi.of_keep rfl hadd
  have hnew : (h.addCache ⟨p, none, none, none⟩).2.caches[h.caches.length]? = some ⟨p, none, none, none⟩ := by
    simp [Heap.addCache]
  have hfst : (h.addCache ⟨p, none, none, none⟩).1 = h.caches.length := rfl
  unfold makeChild
  rw [show h.addCache ⟨p, none, none, none⟩ = (h.caches.length, (h.addCache ⟨p, none, none, none⟩).2) from rfl]
  dsimp only
  generalize (h.addCache ⟨p, none, none, none⟩).2 = h₁ at hadd hi' hnew
  generalize h.caches.length = c at hnew
  suffices hs : Inv (cacheSetter h₁ r c u).2 ∧ Keep h₁ (cacheSetter h₁ r c u).2 by
    split
    · rename_i e; rw [e] at hs; exact ⟨hs.1, hadd.trans hs.2⟩
    · rename_i e; rw [e] at hs; exact ⟨hs.1, hadd.trans hs.2⟩
  unfold cacheSetter
  rw [hnew]
  cases hro : h₁.remotes[r]? with
  | none => exact ⟨hi', .refl _⟩
  | some ro =>
    dsimp only
    have hk₁ : Keep h₁ (setCache (h₁.onCache c fun o => { o with remote := some r }) r c) := by
      intro x co q hc hq
      by_cases hx : c = x
      · subst hx
        rw [hnew] at hc
        cases hc
        cases hq
      · exact ⟨co, by simp [setCache, Heap.onRemote, Heap.onCache, hx, hc], hq⟩
    have hi₁ : Inv (setCache (h₁.onCache c fun o => { o with remote := some r }) r c) := by
      intro q c' qo hq hqc
      by_cases hx : r = q
      · subst hx
        simp [setCache, Heap.onRemote, Heap.onCache, hro] at hq
        subst hq
        simp at hqc
        subst hqc
        exact ⟨⟨p, none, none, some r⟩, by simp [setCache, Heap.onRemote, Heap.onCache, hnew], rfl⟩
      · simp [setCache, Heap.onRemote, Heap.onCache, hx] at hq
        obtain ⟨co, hc, hcr⟩ := hi' q c' qo hq hqc
        exact hk₁ c' co q hc hcr
    generalize setCache (h₁.onCache c fun o => { o with remote := some r }) r c = h₂ at hk₁ hi₁
    cases u with
    | skipped => exact ⟨hi₁, hk₁⟩
    | done =>
      have hk₂ : Keep h₂ ((h₂.store p (some ro.id)).onCache c fun o => { o with id := none }) :=
        keep_onCache (h₂.store p (some ro.id)) c _ fun _ _ => id
      exact ⟨hi₁.of_keep rfl hk₂, hk₁.trans hk₂⟩
    | failed left =>
      refine ⟨?_, fun x co q hc hq => ?_⟩
      · intro q c' qo hq hqc
        by_cases hx : r = q
        · subst hx
          simp [Heap.store, Heap.onRemote] at hq
          obtain ⟨a, _, ha⟩ := hq
          subst ha
          cases hqc
        · simp [Heap.store, Heap.onRemote, hx] at hq
          exact hi₁ q c' qo hq hqc
      · exact hk₁ x co q hc hq

theorem metaSetter_ok {h : Heap} (c : Nat) (t : Bool) (i : Str) :
    Keep h (metaSetter h c t i) ∧ (metaSetter h c t i).remotes = h.remotes := by
  unfold metaSetter
  split
  · exact ⟨.refl h, rfl⟩
  · rename_i o ho
    dsimp only
    by_cases hb : (t || o.remote.isSome) = true
    · rw [if_pos hb]
      exact ⟨keep_onCache (h.store o.path (some i)) c _ fun _ _ => id, rfl⟩
    · rw [if_neg hb]
      have h₁ : Keep h (h.onCache c fun o => { o with boot := some i }) := keep_onCache h c _ fun _ _ => id
      exact ⟨h₁.trans (keep_onCache ((h.onCache c fun o => { o with boot := some i }).store o.path (some i)) c _ fun _ _ => id), rfl⟩

/-- The directories above a remote, while the remote class has an anchor. -/
theorem dirCache_ok {h : Heap} (hi : Inv h) (ha : h.anchored = true) (p : Loc) (r : Nat) :
    Inv (dirCache h p r) ∧ Keep h (dirCache h p r) := by
  unfold dirCache
  split
  · exact ⟨hi, .refl h⟩
  · rename_i ro hro
    have hadd : Keep h (h.addCache ⟨p, none, none, some r⟩).2 := keep_addCache h _
    have hi' : Inv (h.addCache ⟨p, none, none, some r⟩).2 := hi.of_keep rfl hadd
    have hnew : (h.addCache ⟨p, none, none, some r⟩).2.caches[h.caches.length]? = some ⟨p, none, none, some r⟩ := by
      simp [Heap.addCache]
    have hfree : ∀ (q : Nat) (qo : RemoteO), (h.addCache ⟨p, none, none, some r⟩).2.remotes[q]? = some qo → qo.cache ≠ some h.caches.length := by
      intro q qo hq hqc
      obtain ⟨co, hc, _⟩ := hi q _ qo hq hqc
      rw [List.getElem?_eq_none (Nat.le_refl _)] at hc
      cases hc
    have hanc : (h.addCache ⟨p, none, none, some r⟩).2.anchored = true := ha
    have hold : ∀ x, h.caches.length = x → h.caches[x]? = none := fun x hx => List.getElem?_eq_none (by omega)
    rw [show h.addCache ⟨p, none, none, some r⟩ = (h.caches.length, (h.addCache ⟨p, none, none, some r⟩).2) from rfl]
    dsimp only
    generalize (h.addCache ⟨p, none, none, some r⟩).2 = h₁ at hadd hi' hnew hfree hanc
    generalize h.caches.length = c at hnew hfree hold
    obtain ⟨hk₂, hr₂⟩ := metaSetter_ok (h := h₁) c true ro.id
    have hi₂ := hi'.of_keep hr₂ hk₂
    obtain ⟨co₂, hc₂, _⟩ := hk₂ c _ r hnew rfl
    have ha₂ : (metaSetter h₁ c true ro.id).anchored = true := by
      unfold metaSetter
      rw [hnew]
      exact hanc
    rw [← hr₂] at hfree
    generalize metaSetter h₁ c true ro.id = h₂ at hk₂ hi₂ hc₂ ha₂ hfree
    have hidem : (newRemote h₂ ro.id (some c)).2 =
        (newRemote h₂ ro.id (some c)).2.onCache c fun o => { o with remote := some (newRemote h₂ ro.id (some c)).1 } := by
      unfold newRemote
      dsimp only
      rw [ha₂]
      simp only [if_true, Heap.onCache]
      congr 1
      apply List.ext_getElem?
      intro x
      by_cases hx : c = x
      · subst hx; simp [hc₂]
      · simp [hx]
    refine ⟨?_, fun x co q hc hq => ?_⟩
    · rw [hidem]
      exact inv_newRemote hi₂ ro.id hc₂ hfree
    · have hx : ¬ c = x := fun e => by rw [hold x e] at hc; cases hc
      obtain ⟨co', h₁', h₂'⟩ := hk₂ x _ q (hadd x co q hc hq).choose_spec.1 (hadd x co q hc hq).choose_spec.2
      refine ⟨co', ?_, h₂'⟩
      unfold newRemote
      dsimp only
      rw [ha₂]
      simp [Heap.onCache, hx, h₁']

theorem moveRefused_ok {h : Heap} (hi : Inv h) (r : Nat) (p : Loc) (u : Updated) :
    Inv (moveRefused h r p u) ∧ Keep h (moveRefused h r p u) := by
  unfold moveRefused
  split
  · rename_i i c hr
    obtain ⟨hi', hk'⟩ := makeChild_ok hi p r u
    obtain ⟨co, hc, hcr⟩ := hi r c _ hr rfl
    obtain ⟨co', hc', hcr'⟩ := hk' c co r hc hcr
    cases hm : makeChild h p r u with
    | mk a h' =>
      rw [hm] at hi' hk' hc'
      cases a with
      | error e => exact ⟨hi', hk'⟩
      | ok x =>
        refine ⟨?_, fun x co q hc hq => ?_⟩
        · intro q c'' qo hq hqc
          by_cases hx : r = q
          · subst hx
            simp [setCache, Heap.onRemote] at hq
            obtain ⟨a, _, ha⟩ := hq
            subst ha
            cases hqc
            exact ⟨co', hc', hcr'⟩
          · simp [setCache, Heap.onRemote, hx] at hq
            exact hi' q c'' qo hq hqc
        · exact hk' x co q hc hq
  · exact ⟨hi, .refl h⟩

theorem step_ok {h : Heap} (hi : Inv h) (o : Op) (hu : Usual h o) : Inv (step h o) ∧ Keep h (step h o) := by
  cases o with
  | open_ p =>
    unfold step cacheAt
    dsimp only
    split
    · exact ⟨hi, .refl h⟩
    · exact ⟨hi.of_keep rfl (keep_addCache h _), keep_addCache h _⟩
  | askId c => exact ⟨hi.of_keep (remotes_cacheId h c) (keep_cacheId h c), keep_cacheId h c⟩
  | askRemote a b c => exact cacheRemote_ok hi a b c
  | remote i => exact ⟨inv_bare hi i, keep_newRemote_none h i⟩
  | makeChild p r u => exact makeChild_ok hi p r u
  | setMeta c t i => exact ⟨hi.of_keep (metaSetter_ok c t i).2 (metaSetter_ok c t i).1, (metaSetter_ok c t i).1⟩
  | moveRefused r p u => exact moveRefused_ok hi r p u
  | dirCache p r => exact dirCache_ok hi hu p r
  | mkdirRemote p i => cases hu
  | setter r c u => cases hu
  | anchor b => exact ⟨hi, .refl h⟩
  | stored p i => exact ⟨hi, .refl h⟩

theorem run_ok {h : Heap} (hi : Inv h) : ∀ l, UsualRun h l → Inv (run h l) ∧ Keep h (run h l) := by
  intro l
  induction l generalizing h with
  | nil => exact fun _ => ⟨hi, .refl h⟩
  | cons o l ih =>
    rintro ⟨hu, hl⟩
    obtain ⟨h₁, h₂⟩ := step_ok hi o hu
    obtain ⟨h₃, h₄⟩ := ih h₁ hl
    exact ⟨h₃, h₂.trans h₄⟩

theorem inv_empty : Inv .empty := by
  intro r c ro hr
  simp [Heap.empty] at hr

/-- Whatever happens, apart from what `Usual` leaves out: when a remote says that it has a cache, then that cache says that
the remote is its remote, the very object, and asking changes nothing. -/
theorem C96_cache_remote (l : List Op) (hl : UsualRun .empty l) (r c : Nat) (a b : Bool)
    (h : remoteCache (run .empty l) r = some (some c)) : cacheRemote a b (run .empty l) c = (some r, run .empty l) := by
  have hi := (run_ok inv_empty l hl).1
  unfold remoteCache at h
  split at h
  · split at h
    · rename_i ro hro
      cases ro with
      | mk i x =>
        cases h
        obtain ⟨co, hc, hr⟩ := hi r c _ hro rfl
        unfold cacheRemote
        rw [hc]
        dsimp only
        rw [hr]
    · cases h
  · cases h

/-- The remote that a cache gives out: the one that it has, or a new one with the id of the cache. -/
theorem cacheRemote_spec (h : Heap) (a b : Bool) (c r : Nat) (hr : (cacheRemote a b h c).1 = some r) :
    (∃ co : CacheO, (cacheRemote a b h c).2.caches[c]? = some co ∧ co.remote = some r) ∧
    ((∃ co : CacheO, h.caches[c]? = some co ∧ co.remote = some r ∧ (cacheRemote a b h c).2 = h) ∨
      ∃ i : Str, (cacheId h c).1 = some i ∧ r = h.remotes.length ∧
        (cacheRemote a b h c).2.remotes = h.remotes ++ [⟨i, some c⟩] ∧ (cacheRemote a b h c).2.anchored = h.anchored) := by
  unfold cacheRemote at hr ⊢
  cases hc : h.caches[c]? with
  | none => rw [hc] at hr; cases hr
  | some o =>
    rw [hc] at hr
    dsimp only at hr ⊢
    cases hor : o.remote with
    | some q =>
      rw [hor] at hr
      cases hr
      exact ⟨⟨o, hc, hor⟩, .inl ⟨o, rfl, hor, rfl⟩⟩
    | none =>
      rw [hor] at hr
      dsimp only at hr ⊢
      have hrem := remotes_cacheId h c
      have hrc := remote_cacheId h c c
      have hanc : (cacheId h c).2.anchored = h.anchored := by
        unfold cacheId
        rw [hc]
        dsimp only
        split
        · rfl
        · split
          · rfl
          · split <;> rfl
      cases hid : cacheId h c with
      | mk x h' =>
        rw [hid] at hr hrem hrc hanc
        cases x with
        | none => cases hr
        | some i =>
          dsimp only at hr hrem hrc hanc ⊢
          rw [hc] at hrc
          simp [hor] at hrc
          obtain ⟨o', ho', _⟩ := hrc
          cases b
          · cases hr
          · rw [if_pos rfl] at hr ⊢
            have key : ∀ h₂ : Heap, h₂.remotes = h.remotes → h₂.anchored = h.anchored → (∃ o₂, h₂.caches[c]? = some o₂) →
                some (newRemote h₂ i (some c)).1 = some r →
                (∃ co : CacheO, ((newRemote h₂ i (some c)).2.onCache c fun o =>
                    { o with remote := some (newRemote h₂ i (some c)).1 }).caches[c]? = some co ∧ co.remote = some r) ∧
                r = h.remotes.length ∧
                ((newRemote h₂ i (some c)).2.onCache c fun o =>
                    { o with remote := some (newRemote h₂ i (some c)).1 }).remotes = h.remotes ++ [⟨i, some c⟩] ∧
                ((newRemote h₂ i (some c)).2.onCache c fun o =>
                    { o with remote := some (newRemote h₂ i (some c)).1 }).anchored = h.anchored := by
              rintro h₂ e₁ e₂ ⟨o₂, ho₂⟩ e₃
              have hfst : (newRemote h₂ i (some c)).1 = h.remotes.length := by unfold newRemote; dsimp only; rw [e₁]
              rw [hfst] at e₃
              cases e₃
              refine ⟨?_, rfl, ?_, ?_⟩
              · rw [hfst]
                unfold newRemote; dsimp only
                cases h₂.anchored <;> simp [Heap.onCache, ho₂]
              · rw [← e₁]
                unfold newRemote; dsimp only
                cases h₂.anchored <;> rfl
              · rw [← e₂]
                unfold newRemote; dsimp only
                cases hx : h₂.anchored <;> simp [Heap.onCache, hx]
            have := key (if a then h'.onCache c fun o => { o with boot := some i } else h')
              (by cases a <;> exact hrem) (by cases a <;> exact hanc)
              (by cases a
                  · exact ⟨o', ho'⟩
                  · exact ⟨{ o' with boot := some i }, by simp [Heap.onCache, ho']⟩) hr
            exact ⟨this.1, .inr ⟨i, rfl, this.2⟩⟩

/-- Once a cache has given out a remote, it gives out the same object for ever. -/
theorem C96_same_remote (l l' : List Op) (hl : UsualRun .empty l) (r c : Nat) (a b a' b' : Bool)
    (h : (cacheRemote a b (run .empty l) c).1 = some r) (hl' : UsualRun (cacheRemote a b (run .empty l) c).2 l') :
    (cacheRemote a' b' (run (cacheRemote a b (run .empty l) c).2 l') c).1 = some r := by
  have hi := (run_ok inv_empty l hl).1
  have hk := (run_ok (cacheRemote_ok hi a b c).1 l' hl').2
  obtain ⟨co, hc, hr⟩ := (cacheRemote_spec _ a b c r h).1
  obtain ⟨co', hc', hr'⟩ := hk c co r hc hr
  generalize run (cacheRemote a b (run .empty l) c).2 l' = h₂ at hc'
  unfold cacheRemote
  rw [hc']
  dsimp only
  rw [hr']

/-- Whatever happened before: a cache that has no remote yet gets one that has the id that the cache gives, that no cache
had before, and whose cache is this cache. -/
theorem C96_new_remote (l : List Op) (r c : Nat) (a b : Bool) (o : CacheO)
    (hc : (run .empty l).caches[c]? = some o) (hnone : o.remote = none)
    (h : (cacheRemote a b (run .empty l) c).1 = some r) :
    (run .empty l).remotes[r]? = none ∧
    ∃ i, (cacheId (run .empty l) c).1 = some i ∧
      (cacheRemote a b (run .empty l) c).2.remotes[r]? = some ⟨i, some c⟩ ∧
      ((run .empty l).anchored = true → remoteCache (cacheRemote a b (run .empty l) c).2 r = some (some c)) := by
  obtain ⟨_, hs⟩ := cacheRemote_spec _ a b c r h
  rcases hs with ⟨co, hco, hr, _⟩ | ⟨i, hid, hr, hrem, hanc⟩
  · rw [hc] at hco
    cases hco
    rw [hnone] at hr
    cases hr
  · subst hr
    have hget : (cacheRemote a b (run .empty l) c).2.remotes[(run .empty l).remotes.length]? = some ⟨i, some c⟩ := by
      rw [hrem]; simp
    refine ⟨List.getElem?_eq_none (Nat.le_refl _), i, hid, hget, fun ha => ?_⟩
    unfold remoteCache
    rw [hanc, ha, hget]
    rfl

/-- A path has a cache exactly when metadata are stored there, a new object that has no remote yet. -/
theorem C96_open (h : Heap) (p : Loc) :
    ((cacheAt h p).1 = none ↔ h.stored p = none) ∧
    ∀ c, (cacheAt h p).1 = some c → h.caches[c]? = none ∧ (cacheAt h p).2.caches[c]? = some ⟨p, none, none, none⟩ := by
  unfold cacheAt
  cases h.stored p with
  | none => simp
  | some i =>
    refine ⟨by simp [Heap.addCache], fun c hc => ?_⟩
    simp [Heap.addCache] at hc
    subst hc
    simp [Heap.addCache]

/-- A child that was made from a remote: a new cache at the location; it and the remote point at each other; if the metadata
were updated, then the child gives the id of the remote.  If the update failed, then the remote has no cache. -/
theorem C96_child (h : Heap) (p : Loc) (r : Nat) (ro : RemoteO) (hr : h.remotes[r]? = some ro) (u : Updated) :
    match makeChild h p r u with
    | (.ok c, h') => (∀ s, u ≠ .failed s) ∧ h.caches[c]? = none ∧
        (∃ co : CacheO, h'.caches[c]? = some co ∧ co.path = p ∧ co.remote = some r) ∧
        h'.remotes[r]? = some { ro with cache := some c } ∧ (u = .done → (cacheId h' c).1 = some ro.id)
    | (.error _, h') => (∃ s, u = .failed s) ∧ h'.remotes[r]? = some { ro with cache := none } := by
  unfold makeChild
  rw [show h.addCache ⟨p, none, none, none⟩ = (h.caches.length, (h.addCache ⟨p, none, none, none⟩).2) from rfl]
  dsimp only
  have hnew : (h.addCache ⟨p, none, none, none⟩).2.caches[h.caches.length]? = some ⟨p, none, none, none⟩ := by
    simp [Heap.addCache]
  have hro : (h.addCache ⟨p, none, none, none⟩).2.remotes[r]? = some ro := hr
  have hold : h.caches[h.caches.length]? = none := List.getElem?_eq_none (Nat.le_refl _)
  generalize (h.addCache ⟨p, none, none, none⟩).2 = h₁ at hnew hro
  generalize h.caches.length = c at hnew hold
  unfold cacheSetter
  rw [hnew, hro]
  cases u with
  | skipped => simp [setCache, Heap.onRemote, Heap.onCache, hnew, hro, hold]
  | done => simp [setCache, Heap.onRemote, Heap.onCache, Heap.store, hnew, hro, hold, cacheId]
  | failed s => simp [setCache, Heap.onRemote, Heap.onCache, Heap.store, hro]

/-- After a move that was refused the remote has the cache that it had before, which still has the remote. -/
theorem C96_refused_move (l : List Op) (hl : UsualRun .empty l) (r c : Nat) (i : Str) (p : Loc) (u : Updated)
    (hr : (run .empty l).remotes[r]? = some ⟨i, some c⟩) (hu : ∀ s, u ≠ .failed s) :
    (moveRefused (run .empty l) r p u).remotes[r]? = some ⟨i, some c⟩ ∧
    ∃ co : CacheO, (moveRefused (run .empty l) r p u).caches[c]? = some co ∧ co.remote = some r := by
  have hi := (run_ok inv_empty l hl).1
  generalize run .empty l = h at hr hi
  obtain ⟨co, hc, hcr⟩ := hi r c _ hr rfl
  refine ⟨?_, (moveRefused_ok hi r p u).2 c co r hc hcr⟩
  have hchild := C96_child h p r _ hr u
  unfold moveRefused
  rw [hr]
  dsimp only
  cases hm : makeChild h p r u with
  | mk a h' =>
    rw [hm] at hchild
    cases a with
    | error e =>
      obtain ⟨⟨s, hs⟩, _⟩ := hchild
      exact absurd hs (hu s)
    | ok x =>
      obtain ⟨_, _, _, hro, _⟩ := hchild
      simp [setCache, Heap.onRemote, hro]

/-- A cache gives the id that was set through it. -/
theorem C96_set_meta (h : Heap) (c : Nat) (o : CacheO) (t : Bool) (i : Str) (hc : h.caches[c]? = some o) :
    (cacheId (metaSetter h c t i) c).1 = some i := by
  unfold metaSetter
  rw [hc]
  dsimp only
  by_cases hb : (t || o.remote.isSome) = true
  · rw [if_pos hb]
    simp [cacheId, Heap.onCache, Heap.store, hc]
  · rw [if_neg hb]
    simp [cacheId, Heap.onCache, Heap.store, hc]

/-! ## The id of a cache -/

/-- The step sets metadata through this cache object. -/
def Sets (c : Nat) : Op → Prop
  | .setMeta c' _ _ => c' = c
  | .setter _ c' _ => c' = c
  | _ => False

/-- The cache has this id in memory. -/
def Known (h : Heap) (c : Nat) (i : Str) : Prop := ∃ o : CacheO, h.caches[c]? = some o ∧ o.id = some i

theorem Known.lt {h : Heap} {c : Nat} {i : Str} : Known h c i → c < h.caches.length := fun ⟨_, ho, _⟩ =>
  (List.getElem?_eq_some_iff.mp ho).1

theorem known_onCache {h : Heap} {c : Nat} {i : Str} (x : Nat) (f : CacheO → CacheO) (hk : Known h c i)
    (hf : x = c → ∀ o : CacheO, o.id = some i → (f o).id = some i) : Known (h.onCache x f) c i := by
  obtain ⟨o, ho, hi⟩ := hk
  by_cases hx : x = c
  · exact ⟨f o, by simp [Heap.onCache, hx, ho], hf hx o hi⟩
  · exact ⟨o, by simp [Heap.onCache, hx, ho], hi⟩

theorem known_addCache {h : Heap} {c : Nat} {i : Str} (x : CacheO) (hk : Known h c i) : Known (h.addCache x).2 c i := by
  have hlt := hk.lt
  obtain ⟨o, ho, hi⟩ := hk
  exact ⟨o, by simp [Heap.addCache, List.getElem?_append_left hlt, ho], hi⟩

theorem known_cacheId {h : Heap} {c : Nat} {i : Str} (x : Nat) (hk : Known h c i) : Known (cacheId h x).2 c i := by
  unfold cacheId
  cases hx : h.caches[x]? with
  | none => exact hk
  | some o =>
    dsimp only
    cases ho : o.id with
    | some j => exact hk
    | none =>
      have hne : x = c → False := by
        rintro rfl
        obtain ⟨o', ho', hi⟩ := hk
        rw [hx] at ho'
        cases ho'
        rw [ho] at hi
        cases hi
      dsimp only
      split
      · exact known_onCache x _ hk fun e => (hne e).elim
      · split
        · exact known_onCache x _ hk fun e => (hne e).elim
        · exact hk

theorem known_newRemote {h : Heap} {c : Nat} {i : Str} (j : Str) (x : Option Nat) (hk : Known h c i) :
    Known (newRemote h j x).2 c i := by
  unfold newRemote
  cases x with
  | none => exact hk
  | some x =>
    dsimp only
    split
    · exact known_onCache (h := { h with remotes := h.remotes ++ [⟨j, some x⟩] }) x _ hk fun _ _ => id
    · exact hk

theorem known_cacheRemote {h : Heap} {c : Nat} {i : Str} (a b : Bool) (x : Nat) (hk : Known h c i) :
    Known (cacheRemote a b h x).2 c i := by
  unfold cacheRemote
  split
  · exact hk
  · split
    · exact hk
    · have hk' := known_cacheId x hk
      split
      · rename_i e; rw [e] at hk'; exact hk'
      · rename_i j h' e
        rw [e] at hk'
        dsimp only at hk' ⊢
        have hk₂ : Known (if a then h'.onCache x fun o => { o with boot := some j } else h') c i := by
          cases a
          · exact hk'
          · exact known_onCache x _ hk' fun _ _ => id
        split
        · exact known_onCache x _ (known_newRemote j (some x) hk₂) fun _ _ => id
        · exact hk₂

theorem known_cacheSetter {h : Heap} {c : Nat} {i : Str} (r x : Nat) (u : Updated) (hne : x ≠ c) (hk : Known h c i) :
    Known (cacheSetter h r x u).2 c i := by
  unfold cacheSetter
  split
  · have h₁ : Known (setCache (h.onCache x fun o => { o with remote := some r }) r x) c i :=
      known_onCache x _ hk fun _ _ => id
    cases u with
    | skipped => exact h₁
    | done => exact known_onCache (h := Heap.store _ _ _) x _ h₁ fun e => (hne e).elim
    | failed s => exact h₁
  · exact hk

theorem known_makeChild {h : Heap} {c : Nat} {i : Str} (p : Loc) (r : Nat) (u : Updated) (hk : Known h c i) :
    Known (makeChild h p r u).2 c i := by
  have hne : h.caches.length ≠ c := by have := hk.lt; omega
  have := known_cacheSetter r h.caches.length u hne (known_addCache ⟨p, none, none, none⟩ hk)
  unfold makeChild
  rw [show h.addCache ⟨p, none, none, none⟩ = (h.caches.length, (h.addCache ⟨p, none, none, none⟩).2) from rfl]
  dsimp only
  split
  · rename_i e; rw [e] at this; exact this
  · rename_i e; rw [e] at this; exact this

theorem known_metaSetter {h : Heap} {c : Nat} {i : Str} (x : Nat) (t : Bool) (j : Str) (hne : x ≠ c) (hk : Known h c i) :
    Known (metaSetter h x t j) c i := by
  unfold metaSetter
  split
  · exact hk
  · dsimp only
    refine known_onCache (h := Heap.store _ _ _) x _ ?_ fun e => (hne e).elim
    split
    · exact hk
    · exact known_onCache x _ hk fun _ _ => id

theorem known_cacheAt {h : Heap} {c : Nat} {i : Str} (p : Loc) (hk : Known h c i) : Known (cacheAt h p).2 c i := by
  unfold cacheAt
  split
  · exact hk
  · exact known_addCache _ hk

theorem known_step {h : Heap} {c : Nat} {i : Str} (o : Op) (ho : ¬ Sets c o) (hk : Known h c i) : Known (step h o) c i := by
  have hne : h.caches.length ≠ c := by have := hk.lt; omega
  cases o with
  | open_ p => exact known_cacheAt p hk
  | askId x => exact known_cacheId x hk
  | askRemote a b x => exact known_cacheRemote a b x hk
  | remote j => exact known_newRemote j none hk
  | makeChild p r u => exact known_makeChild p r u hk
  | setMeta x t j => exact known_metaSetter x t j ho hk
  | moveRefused r p u =>
    unfold step moveRefused
    dsimp only
    split
    · have := known_makeChild p r u hk
      split
      · rename_i e; rw [e] at this; exact this
      · rename_i e; rw [e] at this; exact this
    · exact hk
  | dirCache p r =>
    unfold step dirCache
    dsimp only
    split
    · exact hk
    · exact known_newRemote _ _ (known_metaSetter _ _ _ hne (known_addCache _ hk))
  | mkdirRemote p j =>
    unfold step mkdirRemote
    dsimp only
    have h₁ := known_newRemote j none hk
    generalize (newRemote h j none).2 = h' at h₁
    split
    · have hne' : h'.caches.length ≠ c := by have := h₁.lt; omega
      have h₂ := known_cacheAt p (known_metaSetter _ true j hne' (known_addCache ⟨p, none, none, none⟩ h₁))
      split
      · rename_i e₂; rw [show (h'.addCache ⟨p, none, none, none⟩).1 = h'.caches.length from rfl] at e₂; rw [e₂] at h₂; exact h₂
      · rename_i e₂; rw [show (h'.addCache ⟨p, none, none, none⟩).1 = h'.caches.length from rfl] at e₂; rw [e₂] at h₂; exact h₂
    · exact h₁
  | setter r x u => exact known_cacheSetter r x u ho hk
  | anchor b => exact hk
  | stored p j => exact hk

/-- A cache that has given the same id twice in a row gives this id for ever, until metadata are set through this very
object, even while the stored metadata change. -/
theorem C96_id_kept (l l' : List Op) (c : Nat) (i : Str) (h₁ : (cacheId (run .empty l) c).1 = some i)
    (h₂ : (cacheId (cacheId (run .empty l) c).2 c).1 = some i) (hl : ∀ o ∈ l', ¬ Sets c o) :
    (cacheId (run (cacheId (run .empty l) c).2 l') c).1 = some i := by
  generalize run .empty l = h at h₁ h₂
  have hk : Known (cacheId h c).2 c i := by
    unfold cacheId at h₁ h₂ ⊢
    cases hc : h.caches[c]? with
    | none => rw [hc] at h₁; cases h₁
    | some o =>
      rw [hc] at h₁ h₂
      dsimp only at h₁ h₂ ⊢
      cases ho : o.id with
      | some j =>
        rw [ho] at h₁
        cases h₁
        exact ⟨o, hc, ho⟩
      | none =>
        rw [ho] at h₁ h₂
        dsimp only at h₁ h₂ ⊢
        cases hs : h.stored o.path with
        | some j =>
          rw [hs] at h₁
          cases h₁
          exact ⟨{ o with id := some i }, by simp [Heap.onCache, hc], rfl⟩
        | none =>
          rw [hs] at h₁ h₂
          dsimp only at h₁ h₂ ⊢
          cases hb : o.boot with
          | none => rw [hb] at h₁; cases h₁
          | some j =>
            rw [hb] at h₂
            simp [Heap.onCache, hc, ho, hs] at h₂
  have hrun : ∀ (l : List Op) (h : Heap), (∀ o ∈ l, ¬ Sets c o) → Known h c i → Known (run h l) c i := by
    intro l
    induction l with
    | nil => exact fun _ _ hk => hk
    | cons o l ih =>
      intro h hl hk
      exact ih _ (fun o ho => hl o (List.mem_cons_of_mem _ ho)) (known_step o (hl o List.mem_cons_self) hk)
  obtain ⟨o, ho, hi⟩ := hrun l' _ hl hk
  generalize run (cacheId h c).2 l' = h₃ at ho
  unfold cacheId
  rw [ho]
  dsimp only
  rw [hi]

/-- The id that bootstrapping leaves is good for one question: without stored metadata the next answer is `None`. -/
theorem C96_bootstrapping_id (h : Heap) (c : Nat) (o : CacheO) (i : Str) (hc : h.caches[c]? = some o) (hid : o.id = none)
    (hs : h.stored o.path = none) (hb : o.boot = some i) :
    (cacheId h c).1 = some i ∧ (cacheId (cacheId h c).2 c).1 = none := by
  unfold cacheId
  simp [hc, hid, hs, hb, Heap.onCache]

/-! ## Cases, and what cannot be claimed -/

/-- A dataset `N:1` at `/d`, its cache, the remote of the cache, and a package of it. -/
def usual : List Op :=
  [.stored [['d']] (some ['N']), .open_ [['d']], .askRemote false true 0, .anchor true,
   .remote ['P'], .makeChild [['d'], ['p']] 1 .done, .dirCache [['d'], ['e']] 1, .moveRefused 1 [['d'], ['q']] .done]

example : UsualRun .empty usual := by
  refine ⟨trivial, trivial, trivial, trivial, trivial, trivial, ?_, trivial, trivial⟩
  show Heap.anchored _ = true
  decide

example : remoteCache (run .empty usual) 0 = some (some 0) ∧ remoteCache (run .empty usual) 1 = some (some 1) ∧
    remoteCache (run .empty usual) 2 = some (some 2) ∧ (cacheRemote false true (run .empty usual) 2).1 = some 2 := by
  decide

/-- The hypotheses of `C96_child`, `C96_refused_move` and `C96_set_meta`. -/
example : let h := run .empty (usual.take 6)
    h.remotes[1]? = some ⟨['P'], some 1⟩ ∧ h.caches[1]? = some ⟨[['d'], ['p']], none, none, some 1⟩ ∧
    (makeChild h [['x']] 1 .done).1 = .ok 2 ∧ (moveRefused h 1 [['x']] .done).caches.length = 3 := by
  decide

/-- The hypotheses of `C96_same_remote` and `C96_new_remote`. -/
example : let l := usual.take 2
    UsualRun .empty l ∧ (run .empty l).caches[0]? = some ⟨[['d']], none, none, none⟩ ∧
    (cacheRemote false true (run .empty l) 0).1 = some 0 ∧
    UsualRun (cacheRemote false true (run .empty l) 0).2 [.remote ['P'], .makeChild [['d'], ['p']] 1 .done] := by
  refine ⟨⟨trivial, trivial, trivial⟩, ?_, ?_, trivial, trivial, trivial⟩ <;> decide

/-- The hypotheses of `C96_id_kept`, with a change of the stored metadata: the cache gives the old id, a new cache object
for the same location gives the new one. -/
theorem C96_stale_id_counterexample :
    let l : List Op := [.stored [['d']] (some ['N']), .open_ [['d']]]
    let l' : List Op := [.open_ [['d']], .setMeta 1 true ['M']]
    (cacheId (run .empty l) 0).1 = some ['N'] ∧ (cacheId (cacheId (run .empty l) 0).2 0).1 = some ['N'] ∧
    (∀ o ∈ l', ¬ Sets 0 o) ∧
    (cacheId (run (cacheId (run .empty l) 0).2 l') 0).1 = some ['N'] ∧
    (cacheId (run (cacheId (run .empty l) 0).2 l') 1).1 = some ['M'] := by
  refine ⟨by decide, by decide, ?_, by decide, by decide⟩
  intro o ho
  simp only [List.mem_cons, List.not_mem_nil, or_false] at ho
  rcases ho with rfl | rfl <;> simp [Sets]

/-- A cache whose metadata have got another id still has the remote with the old id. -/
theorem C96_stale_remote_counterexample :
    let h := run .empty [.stored [['d']] (some ['N']), .open_ [['d']], .askRemote false true 0, .setMeta 0 true ['M']]
    (cacheId h 0).1 = some ['M'] ∧ (cacheRemote false true h 0).1 = some 0 ∧ h.remotes[0]? = some ⟨['N'], some 0⟩ := by
  decide

/-- The other way round the claim is false: of two caches that were made from one remote, the first has the remote as its
remote, but the remote has the second. -/
theorem C96_remote_cache_counterexample :
    let l : List Op := [.anchor true, .remote ['P'], .makeChild [['a']] 0 .done, .makeChild [['b']] 0 .done]
    UsualRun .empty l ∧ (cacheRemote false true (run .empty l) 0).1 = some 0 ∧ remoteCache (run .empty l) 0 = some (some 1) := by
  refine ⟨⟨trivial, trivial, trivial, trivial, trivial⟩, ?_, ?_⟩ <;> decide

/-- When the update of the metadata fails, the remote forgets the cache, and the cache which it had before, but the cache
does not forget the remote. -/
theorem C96_failed_setter_counterexample :
    let l : List Op := [.anchor true, .remote ['P'], .makeChild [['a']] 0 .done, .makeChild [['b']] 0 (.failed none)]
    UsualRun .empty l ∧ remoteCache (run .empty l) 0 = some none ∧
    (cacheRemote false true (run .empty l) 0).1 = some 0 ∧ (cacheRemote false true (run .empty l) 1).1 = some 0 := by
  refine ⟨⟨trivial, trivial, trivial, trivial, trivial⟩, ?_, ?_, ?_⟩ <;> decide

/-- `mkdir_remote` gives its remote a cache that does not know it: asked for its remote, that cache makes another one. -/
theorem C96_mkdir_remote_counterexample :
    let h := run .empty [.anchor true, .mkdirRemote [['a']] ['P']]
    remoteCache h 0 = some (some 1) ∧ (cacheRemote false true h 1).1 = some 1 ∧
    remoteCache (cacheRemote false true h 1).2 1 = some (some 1) := by
  decide

/-- Without an anchor, `mkdir_remote` neither stores metadata nor sets a cache. -/
theorem C96_mkdir_unanchored_counterexample :
    let h := run .empty [.mkdirRemote [['a']] ['P']]
    h.remotes = [⟨['P'], none⟩] ∧ h.caches = [] ∧ h.stored [['a']] = none := by
  decide

/-- Without an anchor, `mkdir_cache` leaves a remote whose cache has another remote. -/
theorem C96_mkdir_cache_counterexample :
    let h := run .empty [.remote ['P'], .dirCache [['a']] 0, .anchor true]
    remoteCache h 1 = some (some 0) ∧ (cacheRemote false true h 0).1 = some 0 := by
  decide

/-- `_cache_setter` with a cache that another remote has: the other remote keeps it. -/
theorem C96_setter_counterexample :
    let h := run .empty [.anchor true, .remote ['P'], .makeChild [['a']] 0 .done, .remote ['Q'], .setter 1 0 .done]
    remoteCache h 0 = some (some 0) ∧ (cacheRemote false true h 0).1 = some 1 := by
  decide

/-- An anchor of `None` brings the single use id back. -/
example : let h := run .empty [.stored [['d']] (some ['N']), .open_ [['d']], .stored [['d']] none, .setMeta 0 false ['N'],
      .stored [['d']] none]
    h.caches[0]? = some ⟨[['d']], none, some ['N'], none⟩ ∧ (cacheId h 0).1 = some ['N'] ∧ (cacheId (cacheId h 0).2 0).1 = none ∧
    (cacheId (cacheRemote true true h 0).2 0).1 = some ['N'] ∧ (cacheId (cacheRemote false true h 0).2 0).1 = none := by
  decide

end Verif.Graph
