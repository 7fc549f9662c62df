import Verif.Props.MkdirRemote

/-!
# C94: making the directories that a remote is in
-/

namespace Verif.Cache
open Verif.FS

/-- A directory with this metadata; what is empty is not stored. -/
def Carries (d : Disk CObj) (p : Path) (m : Meta) : Prop :=
  ∃ mo, d.at_ p = some (.dir mo) ∧ ∀ f, (mo.getD blank) f = m f ∨ (m f = .none ∨ (m f).emptyIterable = true) ∧ (mo.getD blank) f = blank f

/-- A path that was there is as it was, and one that was not is a directory with the metadata of the remote. -/
def Fine (d0 d : Disk CObj) (x : Path × Meta) : Prop :=
  (there d0 x.1 = true ∧ d.at_ x.1 = d0.at_ x.1) ∨
  (d0.at_ x.1 = none ∧ isDirAt d x.1 = true ∧ (metaBool x.2 = true → Carries d x.1 x.2))

/-- A path is as it was, or it is a new directory with a part of the metadata. -/
def Begun (d0 d : Disk CObj) (x : Path × Meta) : Prop :=
  d.at_ x.1 = d0.at_ x.1 ∨ d0.at_ x.1 = none ∧ ∃ mo, d.at_ x.1 = some (.dir mo) ∧ Mixed none x.2 mo

theorem Fine.congr {d0 d d' d1 : Disk CObj} {x : Path × Meta} (h : Fine d0 d x) (h0 : d0.at_ x.1 = d1.at_ x.1) (h1 : d.at_ x.1 = d'.at_ x.1) :
    Fine d1 d' x := by
  unfold Fine there isDirAt Carries at *
  rw [h0, h1] at h
  exact h

theorem carries_laid {d : Disk CObj} {p : Path} {m : Meta} (h : d.at_ p = some (.dir (laid none m))) : Carries d p m := by
  refine ⟨_, h, fun f => ?_⟩
  have := laid_get none m f
  split at this
  · exact .inl this
  · rename_i hc
    refine .inr ⟨?_, by simpa using this⟩
    rcases Classical.em (m f = .none) with h | h
    · exact .inl h
    · right
      cases hx : (m f).emptyIterable
      · exact absurd ⟨h, hx⟩ hc
      · rfl

theorem mkdirCache_step (C : PEnv) (x : Path × Meta) (d0 : Disk CObj) :
    Hoare (fun d => d = d0) (C.mkdirCacheOne x.1 x.2)
      (fun _ d => OnlyAt x.1 d0 d ∧ Fine d0 d x)
      (fun e d => OnlyAt x.1 d0 d ∧ Begun d0 d x ∧
        ((∃ n, C.F n = some e) ∨ there d0 x.1 = false ∧ (d0.at_ x.1 ≠ none ∨ isDirAt d x.1.dropLast = false))) := by
  obtain ⟨q, m⟩ := x
  unfold PEnv.mkdirCacheOne
  refine .bind_ (Q := fun ex d => ex = there d0 q ∧ d = d0) (.look_err ?_ ?_) fun ex => .of_pre fun hex => ?_
  · rintro d a rfl h
    simp only [Except.ok.injEq] at h
    exact ⟨h.symm, rfl⟩
  · rintro e d rfl (h | h)
    · exact ⟨.refl _ _, .inl rfl, .inl h⟩
    · simp at h
  subst hex
  refine .ite_ (fun h => .pure_ ?_) fun h => ?_
  · rintro d rfl
    exact ⟨.refl _ _, .inl ⟨h, rfl⟩⟩
  have hf : there d0 q = false := by simpa using h
  refine .bind_ (Q := fun _ d => d0.at_ q = none ∧ d = d0.put q (.dir none)) (.act_err ?_ ?_) fun _ => .of_pre fun hn => ?_
  · rintro d d' rfl h
    unfold Disk.create at h
    split at h
    · simp at h
    · rename_i hq
      split at h
      · simp at h
      · split at h
        · cases h; exact ⟨hq, rfl⟩
        · simp at h
  · rintro e d rfl (h | h)
    · exact ⟨.refl _ _, .inl rfl, .inl h⟩
    · refine ⟨.refl _ _, .inl rfl, .inr ⟨hf, ?_⟩⟩
      unfold Disk.create at h
      split at h
      · rename_i hq; exact .inl (by simp [hq])
      · right
        unfold isDirAt
        split at h
        · rename_i hp; simp [hp]
        · rename_i p hp
          rw [hp]
          split at h
          · simp at h
          · cases p <;> simp_all [Kinded.isDir]
  have hput : (d0.put q (.dir none)).at_ q = some (.dir none) := at_put_self _ _ _
  have honly : OnlyAt q d0 (d0.put q (.dir none)) := (OnlyAt.refl _ _).put _
  unfold PEnv.setMeta
  refine .ite_ (fun hm => .pure_ ?_) fun hm => ?_
  · rintro d rfl
    have hm : metaBool m = false := by simpa using hm
    exact ⟨honly, .inr ⟨hn, by simp [isDirAt, hput], by simp [hm]⟩⟩
  refine .bind_ (Q := fun ex d => ex = true ∧ d = d0.put q (.dir none)) (.look_err ?_ ?_) fun ex => .of_pre fun hex => ?_
  · rintro d a rfl h
    simp only [Except.ok.injEq, there, hput] at h
    exact ⟨h.symm, rfl⟩
  · rintro e d rfl (h | h)
    · exact ⟨honly, .inr ⟨hn, none, hput, .refl _ _⟩, .inl h⟩
    · simp at h
  subst hex
  simp only [if_true]
  refine (setXattrs_dir C (d0 := d0) (mo := none) m).mono ?_ ?_ ?_
  · rintro d rfl
    exact ⟨honly, hput⟩
  · rintro _ d ⟨h1, h2⟩
    exact ⟨h1, .inr ⟨hn, by simp [isDirAt, h2], fun _ => carries_laid h2⟩⟩
  · rintro e d ⟨h1, ⟨mo, h2, h4⟩, h3⟩
    exact ⟨h1, .inr ⟨hn, mo, h2, h4⟩, .inl h3⟩

theorem mkdirCache_hoare (C : PEnv) : ∀ (l : List (Path × Meta)) (d0 : Disk CObj), (l.map (·.1)).Nodup →
    Hoare (fun d => d = d0) (C.mkdirCache l)
      (fun _ d => (∀ x ∈ l, Fine d0 d x) ∧ ∀ r, r ∉ l.map (·.1) → d.at_ r = d0.at_ r)
      (fun e d => ∃ l1 x l2, l = l1 ++ x :: l2 ∧ (∀ y ∈ l1, Fine d0 d y) ∧ Begun d0 d x ∧
        (∀ r, r ∉ l1.map (·.1) → r ≠ x.1 → d.at_ r = d0.at_ r) ∧
        ((∃ n, C.F n = some e) ∨ there d0 x.1 = false ∧ (d0.at_ x.1 ≠ none ∨ isDirAt d x.1.dropLast = false)))
  | [], d0, _ => by
    unfold PEnv.mkdirCache Prog.each
    refine .pure_ ?_
    rintro d rfl
    simp
  | x :: l, d0, hnd => by
    rw [List.map_cons, List.nodup_cons] at hnd
    intro w hw
    have h1 := mkdirCache_step C x d0 w hw
    have hrun : C.mkdirCache (x :: l) = Prog.bind (C.mkdirCacheOne x.1 x.2) fun _ => C.mkdirCache l := rfl
    rw [hrun]
    unfold Prog.bind
    generalize C.mkdirCacheOne x.1 x.2 w = r at h1 ⊢
    obtain ⟨r, w1⟩ := r
    cases r with
    | error e =>
      obtain ⟨h1, h2, h3⟩ := h1
      exact ⟨[], x, l, rfl, by simp, h2, fun r _ hr => h1 r hr, h3⟩
    | ok u =>
      obtain ⟨h1, h2⟩ := h1
      have ih := mkdirCache_hoare C l w1.disk hnd.2 w1 rfl
      have hne : ∀ y ∈ l, y.1 ≠ x.1 := fun y hy he => hnd.1 (he ▸ List.mem_map_of_mem hy)
      dsimp only
      generalize C.mkdirCache l w1 = r at ih ⊢
      obtain ⟨r, w2⟩ := r
      cases r with
      | ok u =>
        obtain ⟨k1, k2⟩ := ih
        refine ⟨fun y hy => ?_, fun r hr => ?_⟩
        · rcases List.mem_cons.1 hy with rfl | hy
          · exact h2.congr rfl (k2 _ hnd.1).symm
          · exact (k1 y hy).congr (h1 _ (hne y hy)) rfl
        · simp only [List.map_cons, List.mem_cons, not_or] at hr
          rw [k2 r hr.2, h1 r hr.1]
      | error e =>
        obtain ⟨l1, y, l2, rfl, k1, k2, k3, k4⟩ := ih
        have hx1 : x.1 ∉ l1.map (·.1) := fun h => hnd.1 (by simp only [List.map_append, List.mem_append]; exact .inl h)
        have hy := hne y (by simp)
        refine ⟨x :: l1, y, l2, rfl, fun z hz => ?_, ?_, fun r hr hr' => ?_, ?_⟩
        · rcases List.mem_cons.1 hz with rfl | hz
          · exact h2.congr rfl (k3 _ hx1 (Ne.symm hy)).symm
          · exact (k1 z hz).congr (h1 _ (hne z (by simp [hz]))) rfl
        · unfold Begun at k2 ⊢
          rwa [h1 _ hy] at k2
        · simp only [List.map_cons, List.mem_cons, not_or] at hr
          rw [k3 r hr.2 hr', h1 r hr.1]
        · unfold there at k4 ⊢
          rwa [h1 _ hy] at k4

/-! ## C94 -/

/-- **C94** When `mkdir_cache` succeeds, every path is there, those that were missing are directories with the metadata of the remote, and
nothing else has changed. -/
theorem C94_done (C : PEnv) (l : List (Path × Meta)) (hl : (l.map (·.1)).Nodup) (w : Machine CObj) (h : (C.mkdirCache l w).1 = .ok ()) :
    (∀ x ∈ l, Fine w.disk (C.mkdirCache l w).2.disk x) ∧ ∀ r, r ∉ l.map (·.1) → (C.mkdirCache l w).2.disk.at_ r = w.disk.at_ r :=
  ((mkdirCache_hoare C l w.disk hl).result rfl).1 () h

/-- **C94** When it fails, at whichever call, the paths before a certain one are done, those after it are as they were, and that one is as
it was or a new directory with a part of the metadata. -/
theorem C94_failed (C : PEnv) (l : List (Path × Meta)) (hl : (l.map (·.1)).Nodup) (w : Machine CObj) {e : PyErr} (h : (C.mkdirCache l w).1 = .error e) :
    ∃ l1 x l2, l = l1 ++ x :: l2 ∧ (∀ y ∈ l1, Fine w.disk (C.mkdirCache l w).2.disk y) ∧ Begun w.disk (C.mkdirCache l w).2.disk x ∧
      ∀ r, r ∉ l1.map (·.1) → r ≠ x.1 → (C.mkdirCache l w).2.disk.at_ r = w.disk.at_ r := by
  obtain ⟨l1, x, l2, h1, h2, h3, h4, -⟩ := ((mkdirCache_hoare C l w.disk hl).result rfl).2 e h
  exact ⟨l1, x, l2, h1, h2, h3, h4⟩

/-- **C94** What exists is never changed, however the run ends. -/
theorem C94_kept (C : PEnv) (l : List (Path × Meta)) (hl : (l.map (·.1)).Nodup) (w : Machine CObj) (r : Path) (hr : w.disk.at_ r ≠ none) :
    (C.mkdirCache l w).2.disk.at_ r = w.disk.at_ r := by
  have hfine : ∀ {d : Disk CObj} {x : Path × Meta}, x.1 = r → Fine w.disk d x → d.at_ r = w.disk.at_ r := by
    rintro d x rfl (⟨-, h⟩ | ⟨h, -⟩)
    · exact h
    · exact absurd h hr
  cases h : (C.mkdirCache l w).1 with
  | ok u =>
    obtain ⟨h1, h2⟩ := C94_done C l hl w h
    rcases Classical.em (r ∈ l.map (·.1)) with hm | hm
    · obtain ⟨x, hx, hxr⟩ := List.mem_map.1 hm
      exact hfine hxr (h1 x hx)
    · exact h2 r hm
  | error e =>
    obtain ⟨l1, x, l2, -, h2, h3, h4⟩ := C94_failed C l hl w h
    rcases Classical.em (r ∈ l1.map (·.1)) with hm | hm
    · obtain ⟨y, hy, hyr⟩ := List.mem_map.1 hm
      exact hfine hyr (h2 y hy)
    · rcases Classical.em (r = x.1) with rfl | hx
      · rcases h3 with h | ⟨h, -⟩
        · exact h
        · exact absurd h hr
      · exact h4 r hm hx

/-- **C94** When no call fails, no symlink is in the way, and each missing path is in a directory or in one that is to be made before it,
`mkdir_cache` succeeds. -/
theorem C94_works (C : PEnv) (hF : ∀ k, C.F k = none) (l : List (Path × Meta)) (hl : (l.map (·.1)).Nodup) (w : Machine CObj)
    (hfree : ∀ l1 x l2, l = l1 ++ x :: l2 → there w.disk x.1 = true ∨ w.disk.at_ x.1 = none ∧
      (isDirAt w.disk x.1.dropLast = true ∨ w.disk.at_ x.1.dropLast = none ∧ x.1.dropLast ∈ l1.map (·.1))) :
    (C.mkdirCache l w).1 = .ok () := by
  cases h : (C.mkdirCache l w).1 with
  | ok u => rfl
  | error e =>
    have hk := C94_kept C l hl w
    obtain ⟨l1, x, l2, h1, h2, -, -, h5⟩ := ((mkdirCache_hoare C l w.disk hl).result rfl).2 e h
    rcases h5 with ⟨n, h5⟩ | ⟨h5, h6⟩
    · simp [hF] at h5
    · rcases hfree l1 x l2 h1 with h7 | ⟨h7, h8⟩
      · simp [h7] at h5
      · rcases h6 with h6 | h6
        · exact absurd h7 h6
        · rcases h8 with h8 | ⟨h8, h9⟩
          · have : isDirAt (C.mkdirCache l w).2.disk x.1.dropLast = isDirAt w.disk x.1.dropLast := by
              unfold isDirAt
              rw [hk]
              intro hn
              simp [isDirAt, hn] at h8
            rw [this, h8] at h6
            simp at h6
          · obtain ⟨y, hy, hyx⟩ := List.mem_map.1 h9
            rcases h2 y hy with ⟨h10, -⟩ | ⟨-, h10, -⟩
            · simp [there, hyx, h8] at h10
            · rw [hyx, h6] at h10
              simp at h10

/-! ## Where more cannot be claimed, and examples -/

/-- The situation of `C94_works`: two directories are missing below one that is there. -/
example : let l : List (Path × Meta) := [([['d']], onlyId ['i']), ([['d'], ['a']], onlyId ['j']), ([['d'], ['a'], ['b']], onlyId ['k'])]
    (l.map (·.1)).Nodup ∧ (calm.mkdirCache l (oneCache [] []).local_).1 = .ok () ∧
    idAt (calm.mkdirCache l (oneCache [] []).local_).2.disk [['d'], ['a'], ['b']] = some ['k'] := by
  decide +kernel

example : ∀ l1 x l2, [(([['d']] : Path), onlyId ['i']), ([['d'], ['a']], onlyId ['j']), ([['d'], ['a'], ['b']], onlyId ['k'])] = l1 ++ x :: l2 →
    there (oneCache [] []).local_.disk x.1 = true ∨ (oneCache [] []).local_.disk.at_ x.1 = none ∧
      (isDirAt (oneCache [] []).local_.disk x.1.dropLast = true ∨
        (oneCache [] []).local_.disk.at_ x.1.dropLast = none ∧ x.1.dropLast ∈ l1.map (·.1)) := by
  intro l1 x l2 h
  match l1, h with
  | [], h => simp at h; obtain ⟨rfl, -⟩ := h; decide
  | [_], h => simp at h; obtain ⟨rfl, rfl, -⟩ := h; decide
  | [_, _], h => simp at h; obtain ⟨rfl, rfl, rfl, -⟩ := h; decide
  | [_, _, _], h => simp at h
  | _ :: _ :: _ :: _ :: _, h => simp at h

/-- A directory that exists without metadata, as it is left by a run that was interrupted, is never given any: the next run succeeds and
leaves it so. -/
theorem C94_bare_counterexample :
    let l : List (Path × Meta) := [([['d']], onlyId ['i']), ([['d'], ['a']], onlyId ['j'])]
    let r := { calm with F := fun n => if n = 4 then some .osError else none }.mkdirCache l (oneCache [] []).local_
    let r' := calm.mkdirCache l r.2
    r.1 = .error .osError ∧ r'.1 = .ok () ∧ isDirAt r'.2.disk [['d'], ['a']] = true ∧ idAt r'.2.disk [['d'], ['a']] = none := by
  decide +kernel

/-- A file on the way counts as there; it is noticed only when something is to be made in it, which then fails. -/
theorem C94_file_counterexample :
    let w := oneCache [([['d'], ['a']], .file [1] none)] []
    (calm.mkdirCache [([['d'], ['a']], onlyId ['j'])] w.local_).1 = .ok () ∧
    (calm.mkdirCache [([['d'], ['a']], onlyId ['j']), ([['d'], ['a'], ['b']], onlyId ['k'])] w.local_).1 = .error .notADirectoryError := by
  decide +kernel

end Verif.Cache
