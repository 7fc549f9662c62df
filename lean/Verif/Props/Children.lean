import Verif.Model.Children
import Verif.Props.Graph

/-!
# C117: the children of a cache
-/

namespace Verif.Graph

/-- What a child that went well leaves. -/
theorem makeChild_done (h : Heap) (p : Loc) (r : Nat) (ro : RemoteO) (hr : h.remotes[r]? = some ro) :
    makeChild h p r .done = (.ok h.caches.length,
      ⟨h.caches ++ [⟨p, none, none, some r⟩], h.remotes.modify r fun o => { o with cache := some h.caches.length }, h.anchored,
        fun q => if q = p then some ro.id else h.stored q⟩) := by
  unfold makeChild Heap.addCache
  dsimp only
  unfold cacheSetter
  simp only [hr, List.getElem?_append_right (Nat.le_refl _), Nat.sub_self, List.getElem?_cons_zero]
  simp only [setCache, Heap.onRemote, Heap.onCache, Heap.store]
  congr 1
  simp only [Heap.mk.injEq, and_true]
  apply List.ext_getElem?
  intro x
  rcases Nat.lt_trichotomy x h.caches.length with hx | hx | hx
  · have hne : ¬ h.caches.length = x := by omega
    simp [hne, List.getElem?_append_left hx]
  · subst hx
    simp
  · have h1 : (h.caches ++ [(⟨p, none, none, none⟩ : CacheO)])[x]? = none := List.getElem?_eq_none (by simp; omega)
    have h2 : (h.caches ++ [(⟨p, none, none, some r⟩ : CacheO)])[x]? = none := List.getElem?_eq_none (by simp; omega)
    simp [h2]
    omega

/-- What the caches and the remotes of some children should be at the end: one new cache for each, in this order, at its location, which
has the remote and is its cache, and gives its id; nothing else has changed. -/
structure Mirrored (p : Loc) (l : List Listed) (h : Heap) (cs : List Nat) (h' : Heap) : Prop where
  new : cs = List.range' h.caches.length l.length
  each : ∀ (i : Nat) (k : Listed), l[i]? = some k → ∃ (ro : RemoteO) (c : Nat), h.remotes[k.remote]? = some ro ∧ cs[i]? = some c ∧
    (∃ co : CacheO, h'.caches[c]? = some co ∧ co.path = p ++ k.rel ∧ co.remote = some k.remote) ∧
    h'.remotes[k.remote]? = some { ro with cache := some c } ∧ h'.stored (p ++ k.rel) = some ro.id ∧ (cacheId h' c).1 = some ro.id
  caches : ∀ x < h.caches.length, h'.caches[x]? = h.caches[x]?
  remotes : ∀ r, r ∉ l.map Listed.remote → h'.remotes[r]? = h.remotes[r]?
  stored : ∀ q, q ∉ l.map (fun k => p ++ k.rel) → h'.stored q = h.stored q

theorem childrenLoop_done (p : Loc) : ∀ (l : List Listed) (h : Heap), (∀ k ∈ l, ∃ ro, h.remotes[k.remote]? = some ro) →
    (l.map Listed.remote).Nodup → (l.map Listed.rel).Nodup → (∀ k ∈ l, k.updated = .done) →
    ∃ h', childrenLoop p l h = (List.range' h.caches.length l.length, none, h') ∧ h'.anchored = h.anchored ∧
      h'.caches = h.caches ++ l.map (fun k => ⟨p ++ k.rel, none, none, some k.remote⟩) ∧
      (∀ (i : Nat) (k : Listed), l[i]? = some k → ∃ ro : RemoteO, h.remotes[k.remote]? = some ro ∧
        h'.remotes[k.remote]? = some { ro with cache := some (h.caches.length + i) } ∧ h'.stored (p ++ k.rel) = some ro.id) ∧
      (∀ r, r ∉ l.map Listed.remote → h'.remotes[r]? = h.remotes[r]?) ∧
      (∀ q, q ∉ l.map (fun k => p ++ k.rel) → h'.stored q = h.stored q) := by
  intro l
  induction l with
  | nil => intro h _ _ _ _; exact ⟨h, rfl, rfl, by simp, by simp, fun _ _ => rfl, fun _ _ => rfl⟩
  | cons k ks ih =>
    intro h hr nd np hd
    obtain ⟨ro, hro⟩ := hr k List.mem_cons_self
    have hk : k.updated = .done := hd k List.mem_cons_self
    have hm := makeChild_done h (p ++ k.rel) k.remote ro hro
    simp only [List.map_cons, List.nodup_cons] at nd np
    have hother : ∀ r, r ≠ k.remote → (h.remotes.modify k.remote fun o => { o with cache := some h.caches.length })[r]? = h.remotes[r]? := by
      intro r hr'
      have : ¬ k.remote = r := fun e => hr' e.symm
      simp [this]
    have hne : ∀ j ∈ ks, j.remote ≠ k.remote := fun j hj e => nd.1 (by rw [← e]; exact List.mem_map_of_mem hj)
    obtain ⟨h', e, ha, hc, hi, hrm, hst⟩ := ih
      ⟨h.caches ++ [⟨p ++ k.rel, none, none, some k.remote⟩], h.remotes.modify k.remote fun o => { o with cache := some h.caches.length },
        h.anchored, fun q => if q = p ++ k.rel then some ro.id else h.stored q⟩
      (fun j hj => by
        obtain ⟨rj, hrj⟩ := hr j (List.mem_cons_of_mem _ hj)
        exact ⟨rj, (hother _ (hne j hj)).trans hrj⟩) nd.2 np.2 (fun j hj => hd j (List.mem_cons_of_mem _ hj))
    refine ⟨h', ?_, ha, ?_, ?_, ?_, ?_⟩
    · show (match makeChild h (p ++ k.rel) k.remote k.updated with
        | (.error e, h) => ([], some e, h)
        | (.ok c, h) => let r := childrenLoop p ks h; (c :: r.1, r.2)) = _
      rw [hk, hm]
      dsimp only
      rw [e]
      simp [List.range'_succ]
    · rw [hc]; simp
    · intro i j hj
      cases i with
      | zero =>
        simp only [List.getElem?_cons_zero, Option.some.injEq] at hj
        subst hj
        refine ⟨ro, hro, ?_, ?_⟩
        · rw [hrm _ nd.1]
          simp [hro]
        · rw [hst]
          · simp
          · intro hmem
            obtain ⟨j, hj, he⟩ := List.mem_map.1 hmem
            exact np.1 (by rw [← List.append_cancel_left he]; exact List.mem_map_of_mem hj)
      | succ i =>
        simp only [List.getElem?_cons_succ] at hj
        obtain ⟨rj, h1, h2, h3⟩ := hi i j hj
        have hjm := List.mem_of_getElem? hj
        refine ⟨rj, (hother _ (hne j hjm)).symm.trans h1, ?_, h3⟩
        rw [h2, show (h.caches ++ [(⟨p ++ k.rel, none, none, some k.remote⟩ : CacheO)]).length + i = h.caches.length + (i + 1) by
          simp only [List.length_append, List.length_singleton]; omega]
    · intro r hr'
      simp only [List.map_cons, List.mem_cons, not_or] at hr'
      rw [hrm r hr'.2]
      exact hother r hr'.1
    · intro q hq
      simp only [List.map_cons, List.mem_cons, not_or] at hq
      rw [hst q hq.2]
      simp [hq.1]

/-- **The children of a cache are one new cache for each child of the remote**, if the remote lists no object and no place twice and the
metadata of all children can be updated. -/
theorem C117_children (p : Loc) (l : List Listed) (h : Heap) (hr : ∀ k ∈ l, ∃ ro, h.remotes[k.remote]? = some ro)
    (nd : (l.map Listed.remote).Nodup) (np : (l.map Listed.rel).Nodup) (hd : ∀ k ∈ l, k.updated = .done) :
    ∃ cs h', children p (.remotes l) h = (cs, none, h') ∧ Mirrored p l h cs h' := by
  obtain ⟨h', e, _, hc, hi, hrm, hst⟩ := childrenLoop_done p l h hr nd np hd
  refine ⟨_, h', e, rfl, ?_, ?_, hrm, hst⟩
  · intro i k hk
    obtain ⟨ro, h1, h2, h3⟩ := hi i k hk
    have hlt : i < l.length := (List.getElem?_eq_some_iff.1 hk).1
    have hco : h'.caches[h.caches.length + i]? = some ⟨p ++ k.rel, none, none, some k.remote⟩ := by
      rw [hc, List.getElem?_append_right (by omega)]
      simp [hk]
    refine ⟨ro, h.caches.length + i, h1, by simp [hlt], ⟨_, hco, rfl, rfl⟩, h2, h3, ?_⟩
    unfold cacheId
    rw [hco]
    dsimp only
    rw [h3]
  · intro x hx
    rw [hc, List.getElem?_append_left hx]

theorem childrenLoop_append (p : Loc) : ∀ (a b : List Listed) (h : Heap) (cs : List Nat) (h' : Heap),
    childrenLoop p a h = (cs, none, h') →
    childrenLoop p (a ++ b) h = (cs ++ (childrenLoop p b h').1, (childrenLoop p b h').2) := by
  intro a
  induction a with
  | nil => intro b h cs h' e; cases e; rfl
  | cons k ks ih =>
    intro b h cs h' e
    have e : (match makeChild h (p ++ k.rel) k.remote k.updated with
        | (.error e, h) => ([], some e, h)
        | (.ok c, h) => let r := childrenLoop p ks h; (c :: r.1, r.2)) = (cs, none, h') := e
    show (match makeChild h (p ++ k.rel) k.remote k.updated with
        | (.error e, h) => ([], some e, h)
        | (.ok c, h) => let r := childrenLoop p (ks ++ b) h; (c :: r.1, r.2)) = _
    cases hm : makeChild h (p ++ k.rel) k.remote k.updated with
    | mk x h₁ =>
      rw [hm] at e
      cases x with
      | error e' => simp at e
      | ok c =>
        dsimp only at e ⊢
        cases hl : childrenLoop p ks h₁ with
        | mk cs' r =>
          cases r with
          | mk e' h₂ =>
            rw [hl] at e
            simp only [Prod.mk.injEq] at e
            obtain ⟨rfl, rfl, rfl⟩ := e
            rw [ih b h₁ cs' h₂ hl]
            rfl

/-- **If the metadata of a child cannot be updated, then the children before it were yielded**, they and their remotes are as they should
be, that child has no cache any more, and the remotes of the ones after it were not touched. -/
theorem C117_failed (p : Loc) (a b : List Listed) (k : Listed) (left : Option Str) (h : Heap)
    (hr : ∀ j ∈ a ++ k :: b, ∃ ro, h.remotes[j.remote]? = some ro) (nd : ((a ++ k :: b).map Listed.remote).Nodup)
    (np : ((a ++ k :: b).map Listed.rel).Nodup) (hd : ∀ j ∈ a, j.updated = .done) (hk : k.updated = .failed left) :
    ∃ cs h' h'' e, children p (.remotes (a ++ k :: b)) h = (cs, some e, h'') ∧ Mirrored p a h cs h' ∧
      (h''.remotes[k.remote]?.map RemoteO.cache) = some none ∧
      (∀ j ∈ a ++ b, h''.remotes[j.remote]? = h'.remotes[j.remote]?) ∧ ∀ c ∈ cs, h''.caches[c]? = h'.caches[c]? := by
  have nda : (a.map Listed.remote).Nodup := by
    rw [List.map_append] at nd; exact (List.nodup_append.1 nd).1
  have npa : (a.map Listed.rel).Nodup := by
    rw [List.map_append] at np; exact (List.nodup_append.1 np).1
  obtain ⟨cs, h', e, hm⟩ := C117_children p a h (fun j hj => hr j (List.mem_append_left _ hj)) nda npa hd
  have hka : k.remote ∉ a.map Listed.remote := by
    rw [List.map_append] at nd
    intro hmem
    exact (List.nodup_append.1 nd).2.2 _ hmem k.remote (by simp) rfl
  have hkb : k.remote ∉ b.map Listed.remote := by
    rw [List.map_append] at nd
    have := (List.nodup_append.1 nd).2.1
    simp only [List.map_cons, List.nodup_cons] at this
    exact this.1
  obtain ⟨ro, hro⟩ := hr k (by simp)
  have hro' : h'.remotes[k.remote]? = some ro := (hm.remotes _ hka).trans hro
  have happ := childrenLoop_append p a (k :: b) h cs h' e
  have hlast : childrenLoop p (k :: b) h' = ([], some .foreign, (makeChild h' (p ++ k.rel) k.remote (.failed left)).2) ∧
      (∀ r, r ≠ k.remote → (makeChild h' (p ++ k.rel) k.remote (.failed left)).2.remotes[r]? = h'.remotes[r]?) ∧
      ((makeChild h' (p ++ k.rel) k.remote (.failed left)).2.remotes[k.remote]?.map RemoteO.cache) = some none ∧
      ∀ c < h'.caches.length, (makeChild h' (p ++ k.rel) k.remote (.failed left)).2.caches[c]? = h'.caches[c]? := by
    have hm : makeChild h' (p ++ k.rel) k.remote (.failed left) =
        (.error .foreign, (makeChild h' (p ++ k.rel) k.remote (.failed left)).2) := by
      unfold makeChild Heap.addCache
      dsimp only
      unfold cacheSetter
      simp [hro']
    refine ⟨?_, ?_, ?_, ?_⟩
    · show (match makeChild h' (p ++ k.rel) k.remote k.updated with
        | (.error e, h) => ([], some e, h)
        | (.ok c, h) => let r := childrenLoop p b h; (c :: r.1, r.2)) = _
      rw [hk, hm]
    · intro r hr'
      have : ¬ k.remote = r := fun e => hr' e.symm
      unfold makeChild Heap.addCache
      dsimp only
      unfold cacheSetter
      simp [hro', setCache, Heap.onRemote, Heap.onCache, Heap.store, this]
    · unfold makeChild Heap.addCache
      dsimp only
      unfold cacheSetter
      simp [hro', setCache, Heap.onRemote, Heap.onCache, Heap.store]
    · intro c hc
      have : ¬ h'.caches.length = c := by omega
      unfold makeChild Heap.addCache
      dsimp only
      unfold cacheSetter
      simp [hro', setCache, Heap.onRemote, Heap.onCache, Heap.store, this, List.getElem?_append_left hc]
  refine ⟨cs, h', _, .foreign, ?_, hm, hlast.2.2.1, ?_, ?_⟩
  · show childrenLoop p (a ++ k :: b) h = _
    rw [happ, hlast.1]
    simp
  · intro j hj
    refine hlast.2.1 _ ?_
    rintro e
    rcases List.mem_append.1 hj with hj | hj
    · exact hka (e ▸ List.mem_map_of_mem hj)
    · exact hkb (e ▸ List.mem_map_of_mem hj)
  · intro c hc
    refine hlast.2.2.2 c ?_
    rw [hm.new] at hc
    obtain ⟨h1, h2⟩ := List.mem_range'_1.1 hc
    obtain ⟨i, hi⟩ : ∃ i, c = h.caches.length + i := ⟨c - h.caches.length, by omega⟩
    have hlt : i < a.length := by omega
    obtain ⟨ro', c', _, hc', ⟨co, hco, _⟩, _⟩ := hm.each i a[i] (by simp [hlt])
    rw [hm.new] at hc'
    simp [hlt] at hc'
    rw [hi, hc']
    exact (List.getElem?_eq_some_iff.1 hco).1

/-- If the remote lists an object twice, then the first one of the two caches is not the cache of its remote. -/
theorem C117_twice_counterexample :
    let h := run .empty [.anchor true, .remote ['P']]
    let r := children [['d']] (.remotes [⟨0, [['a']], .done⟩, ⟨0, [['b']], .done⟩]) h
    r.1 = [0, 1] ∧ r.2.1 = none ∧ (cacheRemote false true r.2.2 0).1 = some 0 ∧ remoteCache r.2.2 0 = some (some 1) := by
  decide

/-- **The children of a cache of an ssh remote cannot be listed**: the remote gives no remotes, and it raises. -/
theorem C117_ssh_counterexample (p : Loc) (isDir : Bool) (parsed : Except PyErr Unit) (h : Heap) :
    ∃ e, children p (sshChildren isDir parsed) h = ([], some e, h) := by
  cases isDir with
  | false => exact ⟨_, rfl⟩
  | true => cases parsed <;> exact ⟨_, rfl⟩

/-- Two children of the dataset at `/d`, and one whose metadata cannot be stored. -/
example :
    let h := run .empty [.stored [['d']] (some ['N']), .open_ [['d']], .askRemote false true 0, .anchor true, .remote ['P'], .remote ['Q']]
    let r := children [['d']] (.remotes [⟨1, [['a']], .done⟩, ⟨2, [['b'], ['c']], .done⟩]) h
    r.1 = [1, 2] ∧ r.2.1 = none ∧ (cacheId r.2.2 2).1 = some ['Q'] ∧ remoteCache r.2.2 1 = some (some 1) ∧
    (children [['d']] (.remotes [⟨1, [['a']], .done⟩, ⟨2, [['b'], ['c']], .failed none⟩]) h).1 = [1] := by
  decide

end Verif.Graph
