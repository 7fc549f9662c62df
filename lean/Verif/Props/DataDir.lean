import Verif.Model.DataDir
import Verif.Lemmas.Disk
import Verif.Lemmas.Hoare
import Verif.Lemmas.FS
import Verif.Lemmas.Decide

/-!
# C89, C90: resolving paths, and the directory of a cache
-/

namespace Verif.FS

open Verif.Spec

/-! ## C90: resolve -/

/-- No symlink is met on the way to a location. -/
def NoLinks (t : Tree) (q : Path) : Prop :=
  ∀ p n, p ++ [n] <+: q → n ≠ ['.'] ∧ n ≠ ['.', '.'] ∧ (t p = some (.dir true) → ∀ l, t (p ++ [n]) ≠ some (.link l))

theorem noLinks_nil (t : Tree) : NoLinks t [] := by
  intro p n h
  simp at h

theorem NoLinks.up {t : Tree} {q : Path} (h : NoLinks t q) : NoLinks t q.dropLast :=
  fun p n hp => h p n (hp.trans (List.dropLast_prefix q))

theorem NoLinks.down {t : Tree} {q : Path} {n : Name} (h : NoLinks t q) (h1 : n ≠ ['.']) (h2 : n ≠ ['.', '.'])
    (h3 : t q = some (.dir true) → ∀ l, t (q ++ [n]) ≠ some (.link l)) : NoLinks t (q ++ [n]) := by
  intro p m hp
  rw [List.prefix_concat_iff] at hp
  rcases hp with hp | hp
  · obtain ⟨rfl, hm⟩ := List.append_inj' hp rfl
    cases hm
    exact ⟨h1, h2, h3⟩
  · exact h p m hp

theorem noLinks_start {t : Tree} {q : Path} (h : NoLinks t q) (b : Bool) : NoLinks t (start q b) := by
  cases b
  · exact h
  · exact noLinks_nil t

/-- **C90**: what `resolve` returns has no symlinks in it. -/
theorem C90_straight (t : Tree) (budget : Nat) (cur : Path) (rest : List Name) (q : Path) (hc : NoLinks t cur)
    (h : realpath t budget cur rest = .ok q) : NoLinks t q := by
  fun_induction realpath t budget cur rest with
  | case1 b cur => cases h; exact hc
  | case2 b cur rest ih => exact ih hc h
  | case3 b cur rest hn ih => exact ih hc.up h
  | case4 cur n rest h1 h2 l hl hd => cases h
  | case5 cur n rest h1 h2 l hl hd b ih => exact ih (noLinks_start hc _) h
  | case6 b cur n rest h1 h2 hno ih =>
    exact ih (hc.down h1 h2 fun hd l hl => hno l hd hl) h

/-- Going down a way without symlinks. -/
theorem realpath_noLinks (t : Tree) (budget : Nat) (cur rest : Path) (h : NoLinks t (cur ++ rest)) :
    realpath t budget cur rest = .ok (cur ++ rest) := by
  induction rest generalizing cur with
  | nil => rw [realpath]; simp
  | cons n rest ih =>
    obtain ⟨h1, h2, h3⟩ := h cur n ⟨rest, by simp⟩
    rw [realpath, if_neg h1, if_neg h2]
    have := ih (cur ++ [n]) (by simpa using h)
    split
    · next l hd hl => exact absurd hl (h3 hd l)
    · rw [this]; simp

/-- **C90**: resolving what `resolve` returned changes nothing. -/
theorem C90_idempotent (t : Tree) (budget budget' : Nat) (cwd : Path) (hc : NoLinks t cwd) (p : UserPath) (q : Path)
    (h : realpath t budget (start cwd p.absolute) p.comps = .ok q) : realpath t budget' [] q = .ok q := by
  have := C90_straight t budget _ _ q (noLinks_start hc _) h
  exact realpath_noLinks t budget' [] q this

theorem realpath_of_leads {L : Limits} {t : Tree} {k : Nat} {cur : Path} {xs : List Name} {q : Path}
    (h : Leads L t k cur xs q) (b : Nat) (ys : List Name) : realpath t (k + b) cur (xs ++ ys) = realpath t b q ys := by
  induction h with
  | here cur => simp
  | dot h _ ih => rw [List.cons_append, realpath, if_pos rfl, ih]
  | up h _ ih => rw [List.cons_append, realpath, if_neg (by decide), if_pos rfl, ih]
  | @down k cur n rest q x h hn hx hl _ ih =>
    rw [List.cons_append, realpath, if_neg hn.1, if_neg hn.2.1]
    split
    · next l _ hx' => rw [hx] at hx'; exact absurd (Option.some.inj hx') (hl l)
    · exact ih
  | @follow k cur n rest q l h hn hx _ ih =>
    rw [List.cons_append, realpath, if_neg hn.1, if_neg hn.2.1, h, hx, Nat.add_right_comm]
    simp only
    rw [← List.append_assoc, ih]

/-- **C90**: where the system finds something at a path, `resolve` gives the location of just that. -/
theorem C90_agrees (L : Limits) (t : Tree) (budget : Nat) (cur : Path) (rest : List Name) (q : Path)
    (h : walk L t budget cur rest = .ok q) : realpath t budget cur rest = .ok q := by
  obtain ⟨k, hk, h⟩ := (walk_ok_iff ..).mp h
  have := realpath_of_leads h (budget - k) []
  rw [List.append_nil, Nat.add_sub_cancel' hk, realpath] at this
  exact this

/-- `/d/l` leads to `/e`; what is not there is kept. -/
def treeR : Tree := fun q =>
  if q = [] ∨ q = [['d']] ∨ q = [['e']] then some (.dir true)
  else if q = [['d'], ['l']] then some (.link ⟨false, [['.', '.'], ['e']]⟩)
  else none

example : realpath treeR 40 [['d']] [['l'], ['x'], ['.', '.'], ['y']] = .ok [['e'], ['y']] := by
  simp [realpath, treeR, start]
example : NoLinks treeR [['d']] := by
  intro p n h
  rcases List.prefix_concat_iff.mp (show p ++ [n] <+: [] ++ [['d']] from h) with h | h
  · obtain ⟨rfl, h⟩ := List.append_inj' h rfl
    cases h
    exact ⟨by decide, by decide, fun _ l => by simp [treeR]⟩
  · simp at h

/-! ## C89: the directory of a cache -/

/-- Where something can be found as a directory. -/
def Env.Dir (E : Env) (d : Disk Node) (p : UserPath) : Prop := FS.isDir E.L d.at_ E.cwd p = .ok true

theorem isDir_iff (E : Env) (d : Disk Node) (p : UserPath) : E.Dir d p ↔
    ∃ q b, walk E.L d.at_ E.L.maxLinks (start E.cwd p.absolute) p.comps = .ok q ∧ d.at_ q = some (.dir b) := by
  unfold Env.Dir isDir test stat node
  constructor
  · intro h
    cases hw : walk E.L d.at_ E.L.maxLinks (start E.cwd p.absolute) p.comps with
    | error e =>
      rw [hw] at h
      simp only at h
      split at h <;> simp at h
    | ok q =>
      rw [hw] at h
      simp only at h
      cases ha : d.at_ q with
      | none => simp [ha, ignored] at h
      | some x =>
        cases x <;> simp [ha] at h
        exact ⟨q, _, rfl, ha⟩
  · rintro ⟨q, b, hw, ha⟩
    simp [hw, ha]

theorem Env.Dir.mono {E : Env} {d d' : Disk Node} {p : UserPath} (h : E.Dir d p) (hs : d.Sub d') : E.Dir d' p := by
  obtain ⟨q, b, hw, ha⟩ := (isDir_iff E d p).mp h
  exact (isDir_iff E d' p).mpr ⟨q, b, walk_mono hs hw, hs _ _ ha⟩

/-- What is at the location that a path names is found there unless it is a symlink. -/
theorem walk_of_lloc (E : Env) (d : Disk Node) (p : UserPath) (q : Path) (x : Node) (h : E.lloc d p = .ok q)
    (hx : d.at_ q = some x) (hl : ∀ l, x ≠ .link l) :
    walk E.L d.at_ E.L.maxLinks (start E.cwd p.absolute) p.comps = .ok q := by
  unfold Env.lloc at h
  split at h
  · next hn =>
    rw [List.getLast?_eq_none_iff] at hn
    rw [hn, walk]
    exact h
  · next n hn =>
    obtain ⟨cs, hcs⟩ := List.getLast?_eq_some_iff.mp hn
    split at h
    · exact h
    · next hdot =>
      rw [not_or] at hdot
      rw [hcs, List.dropLast_concat] at h
      split at h
      · cases h
      · next m hm =>
        obtain ⟨k, hk, hlead⟩ := (walk_ok_iff ..).mp hm
        split at h
        · cases h
        · cases h
        · next hd =>
          split at h
          · cases h
          · next hlen =>
            cases h
            rw [hcs, walk_append hk hlead, walk_down hd ⟨hdot.1, hdot.2, by omega⟩ hx hl, walk]
        · cases h

theorem sub_put {d : Disk Node} {q : Path} {x : Node} (h : d.at_ q = none) : d.Sub (d.put q x) := by
  intro r y hr
  rw [Disk.at_put, if_neg (by rintro rfl; rw [h] at hr; cases hr)]
  exact hr

theorem create_ok {d d' : Disk Node} {q : Path} {x : Node} (h : d.create q x = .ok d') :
    d.at_ q = none ∧ d' = d.put q x := by
  unfold Disk.create at h
  split at h
  · cases h
  · next hq =>
    split at h
    · cases h
    · split at h
      · cases h; exact ⟨hq, rfl⟩
      · cases h

/-- One disk grown out of another by making directories. -/
def Grown (d0 d : Disk Node) : Prop := ∀ r, d.at_ r = d0.at_ r ∨ (d0.at_ r = none ∧ d.at_ r = some (.dir true))

theorem Grown.refl (d : Disk Node) : Grown d d := fun _ => .inl rfl

theorem Grown.sub {d0 d : Disk Node} (h : Grown d0 d) : d0.Sub d := by
  intro r x hr
  rcases h r with e | ⟨e, _⟩
  · rw [e]; exact hr
  · rw [hr] at e; cases e

theorem Grown.put {d0 d : Disk Node} {q : Path} (h : Grown d0 d) (hq : d.at_ q = none) : Grown d0 (d.put q (.dir true)) := by
  intro r
  rw [Disk.at_put]
  split
  · next e =>
    subst e
    rcases h r with e | ⟨_, e⟩
    · exact .inr ⟨by rw [← e, hq], rfl⟩
    · rw [hq] at e; cases e
  · exact h r

/-- `mkdir` makes at most a directory, and afterwards there is one. -/
theorem mkdir_triple (E : Env) (p : UserPath) (existOk : Bool) (P : Disk Node → Prop)
    (hP : ∀ d q, P d → d.at_ q = none → P (d.put q (.dir true))) :
    Hoare P (E.mkdir p existOk) (fun _ d => P d ∧ E.Dir d p) (fun _ => P) := by
  refine .try_ (R := fun _ => P) (.act_ ?_ fun _ _ h => h) fun e => ?_
  · intro d d' hd h
    split at h
    · cases h
    · next q hq =>
      obtain ⟨hn, rfl⟩ := create_ok h
      refine ⟨hP _ _ hd hn, (isDir_iff ..).mpr ⟨q, true, ?_, by rw [Disk.at_put, if_pos rfl]⟩⟩
      exact walk_of_lloc E _ p q _ (lloc_mono E (sub_put hn) hq) (by rw [Disk.at_put, if_pos rfl]) (by simp)
  · refine .ite_ (fun _ => .throw_ fun _ h => h) fun _ => .bind_ (Q := fun b d => P d ∧ (b = true → E.Dir d p)) (.look_ ?_ fun _ _ h => h) fun b => ?_
    · rintro d b hd h
      exact ⟨hd, fun hb => by subst hb; exact h⟩
    · refine .ite_ (fun hb => .pure_ fun d h => ⟨h.1, h.2 hb⟩) fun _ => .throw_ fun d h => h.1

theorem initTrash_triple (E : Env) (trash : Option UserPath) (existOk : Bool) (P : Disk Node → Prop)
    (hP : ∀ d q, P d → d.at_ q = none → P (d.put q (.dir true))) :
    Hoare P (E.initTrash trash existOk) (fun _ d => P d ∧ ∀ t, trash = some t → E.Dir d t) (fun _ => P) := by
  cases trash with
  | none => exact .pure_ fun d h => ⟨h, fun t ht => by cases ht⟩
  | some t =>
    refine (mkdir_triple E t existOk P hP).mono (fun _ h => h) ?_ fun _ _ h => h
    rintro a d ⟨h, hd⟩
    refine ⟨h, fun t' ht => ?_⟩
    cases ht
    exact hd

/-- The name of the directory for objects. -/
abbrev objects : Name := ['o', 'b', 'j', 'e', 'c', 't', 's']

/-- What may differ from the disk at the start: new directories, and where the objects are an empty directory, or nothing, may have
given way to a link to the target. -/
def Only (d0 : Disk Node) (to : Option UserPath) (d : Disk Node) : Prop :=
  ∀ r, d.at_ r = d0.at_ r ∨ (d0.at_ r = none ∧ d.at_ r = some (.dir true)) ∨
    ∃ t, to = some t ∧ r.getLast? = some objects ∧ (d0.at_ r = none ∨ ∃ b, d0.at_ r = some (.dir b) ∧ d0.names r = []) ∧
      (d.at_ r = none ∨ d.at_ r = some (.link ⟨t.absolute, t.comps⟩))

theorem Only.of_grown {d0 d : Disk Node} {to : Option UserPath} (h : Grown d0 d) : Only d0 to d := fun r => by
  rcases h r with e | e
  · exact .inl e
  · exact .inr (.inl e)

/-- After the objects became a link. -/
def Linked (E : Env) (d0 : Disk Node) (dir t : UserPath) (d : Disk Node) : Prop :=
  ∃ q, E.lloc d (objectsDir dir) = .ok q ∧ q.getLast? = some objects ∧
    (d0.at_ q = none ∨ ∃ b, d0.at_ q = some (.dir b) ∧ d0.names q = []) ∧
    d.at_ q = some (.link ⟨t.absolute, t.comps⟩) ∧
    ∀ r, r ≠ q → d.at_ r = d0.at_ r ∨ (d0.at_ r = none ∧ d.at_ r = some (.dir true))

theorem Linked.only {E : Env} {d0 d : Disk Node} {dir t : UserPath} (h : Linked E d0 dir t d) : Only d0 (some t) d := by
  obtain ⟨q, _, h1, h2, h3, h4⟩ := h
  intro r
  by_cases hr : r = q
  · subst hr
    exact .inr (.inr ⟨t, rfl, h1, h2, .inr h3⟩)
  · rcases h4 r hr with e | e
    · exact .inl e
    · exact .inr (.inl e)

theorem Linked.put {E : Env} {d0 d : Disk Node} {dir t : UserPath} {q : Path} (h : Linked E d0 dir t d) (hq : d.at_ q = none) :
    Linked E d0 dir t (d.put q (.dir true)) := by
  obtain ⟨o, h0, h1, h2, h3, h4⟩ := h
  have hne : o ≠ q := by rintro rfl; rw [hq] at h3; cases h3
  refine ⟨o, lloc_mono E (sub_put hq) h0, h1, h2, by rw [Disk.at_put, if_neg hne]; exact h3, fun r hr => ?_⟩
  rw [Disk.at_put]
  split
  · next e =>
    subst e
    rcases h4 r hr with e | ⟨_, e⟩
    · exact .inr ⟨by rw [← e, hq], rfl⟩
    · rw [hq] at e; cases e
  · exact h4 r hr

theorem lloc_objects_parent (E : Env) {d : Disk Node} {dir : UserPath} {q : Path} (h : E.lloc d (objectsDir dir) = .ok q) :
    ∃ m, walk E.L d.at_ E.L.maxLinks (start E.cwd dir.absolute) dir.comps = .ok m ∧ d.at_ m = some (.dir true) ∧ q = m ++ [objects] := by
  unfold Env.lloc objectsDir UserPath.child at h
  simp only [List.getLast?_append, List.getLast?_singleton, Option.some_or, List.dropLast_concat] at h
  rw [if_neg (by decide)] at h
  split at h
  · cases h
  · next m hm =>
    split at h
    · cases h
    · cases h
    · next hd =>
      split at h
      · cases h
      · cases h; exact ⟨m, hm, hd, rfl⟩
    · cases h

theorem lloc_objects (E : Env) {d : Disk Node} {dir : UserPath} {q : Path} (h : E.lloc d (objectsDir dir) = .ok q) :
    q.getLast? = some objects := by
  obtain ⟨m, -, -, rfl⟩ := lloc_objects_parent E h
  simp

/-- The state between removing the empty directory and making the link. -/
def Cleared (E : Env) (d0 : Disk Node) (dir : UserPath) (d : Disk Node) : Prop :=
  Grown d0 d ∨ ∃ d1 q b, Grown d0 d1 ∧ E.lloc d1 (objectsDir dir) = .ok q ∧ d1.at_ q = some (.dir b) ∧ d1.names q = [] ∧
    d = d1.erase q

theorem empty_before {d0 d1 : Disk Node} {q : Path} {b : Bool} (h : Grown d0 d1) (hq : d1.at_ q = some (.dir b))
    (hn : d1.names q = []) : d0.at_ q = none ∨ ∃ b, d0.at_ q = some (.dir b) ∧ d0.names q = [] := by
  rcases h q with e | ⟨e, _⟩
  · refine .inr ⟨b, by rw [← e, hq], List.eq_nil_iff_forall_not_mem.mpr fun n hm => ?_⟩
    obtain ⟨x, hx⟩ := (Disk.mem_names d0 q n).mp hm
    have : n ∈ d1.names q := (Disk.mem_names d1 q n).mpr ⟨x, h.sub _ _ hx⟩
    rw [hn] at this
    cases this
  · exact .inl e

theorem Cleared.only {E : Env} {d0 d : Disk Node} {dir t : UserPath} (h : Cleared E d0 dir d) : Only d0 (some t) d := by
  rcases h with h | ⟨d1, q, b, hg, hl, hq, hn, rfl⟩
  · exact .of_grown h
  · intro r
    rw [Disk.at_erase]
    split
    · next e =>
      subst e
      exact .inr (.inr ⟨t, rfl, lloc_objects E hl, empty_before hg hq hn, .inl rfl⟩)
    · rcases hg r with e | e
      · exact .inl e
      · exact .inr (.inl e)

theorem Cleared.link {E : Env} {d0 d : Disk Node} {dir t : UserPath} {q : Path} (h : Cleared E d0 dir d)
    (hl : E.lloc d (objectsDir dir) = .ok q) (hq : d.at_ q = none) :
    Linked E d0 dir t (d.put q (.link ⟨t.absolute, t.comps⟩)) := by
  refine ⟨q, lloc_mono E (sub_put hq) hl, lloc_objects E hl, ?_, by rw [Disk.at_put, if_pos rfl], ?_⟩
  · rcases h with h | ⟨d1, o, b, hg, hlo, ho, hn, rfl⟩
    · rcases h q with e | ⟨e, _⟩
      · exact .inl (by rw [← e, hq])
      · exact .inl e
    · have := lloc_mono E (Disk.Sub.erase d1 o) hl
      rw [hlo] at this
      cases this
      exact empty_before hg ho hn
  · intro r hr
    rw [Disk.at_put, if_neg hr]
    rcases h with h | ⟨d1, o, b, hg, hlo, ho, hn, rfl⟩
    · exact h r
    · have := lloc_mono E (Disk.Sub.erase d1 o) hl
      rw [hlo] at this
      cases this
      rw [Disk.at_erase, if_neg hr]
      exact hg r

/-- What a call leaves that returns. -/
def Prepared (E : Env) (d0 : Disk Node) (dir : UserPath) (trash to : Option UserPath) (d : Disk Node) : Prop :=
  E.Dir d dir ∧
  (to = none → Grown d0 d ∧ E.Dir d (objectsDir dir) ∧ ∀ t, trash = some t → E.Dir d t) ∧
  ∀ t, to = some t →
    (Linked E d0 dir t d ∧ ∀ t, trash = some t → E.Dir d t) ∨
    (Grown d0 d ∧ FS.isSymlink E.L d.at_ E.cwd (objectsDir dir) = .ok true ∧
      ∃ a, realpath d.at_ E.L.maxLinks (start E.cwd dir.absolute) (dir.comps ++ [objects]) = .ok a ∧
        realpath d.at_ E.L.maxLinks (start E.cwd t.absolute) t.comps = .ok a)

theorem dataDirInit_triple (E : Env) (dir : UserPath) (trash : Option UserPath) (existOk : Bool) (to : Option UserPath)
    (d0 : Disk Node) : Hoare (fun d => d = d0) (E.dataDirInit dir trash existOk to)
      (fun _ => Prepared E d0 dir trash to) (fun _ => Only d0 to) := by
  unfold Env.dataDirInit
  refine .bind_ (Q := fun _ d => Grown d0 d ∧ E.Dir d dir) ?_ fun _ => ?_
  · exact (mkdir_triple E dir existOk (Grown d0) fun d q h hq => h.put hq).mono (fun d h => h ▸ Grown.refl _) (fun _ _ h => h)
      fun _ _ h => .of_grown h
  cases to with
  | none =>
    refine .bind_ (Q := fun _ d => (Grown d0 d ∧ E.Dir d dir) ∧ E.Dir d (objectsDir dir)) ?_ fun _ => ?_
    · refine (mkdir_triple E (objectsDir dir) existOk _ ?_).mono (fun _ h => h) (fun _ _ h => h) fun _ _ h => .of_grown h.1
      exact fun d q h hq => ⟨h.1.put hq, h.2.mono (sub_put hq)⟩
    · refine (initTrash_triple E trash existOk _ ?_).mono (fun _ h => h) ?_ fun _ _ h => .of_grown h.1.1
      · exact fun d q h hq => ⟨⟨h.1.1.put hq, h.1.2.mono (sub_put hq)⟩, h.2.mono (sub_put hq)⟩
      · rintro _ d ⟨⟨⟨h1, h2⟩, h3⟩, h4⟩
        exact ⟨h2, fun _ => ⟨h1, h3, h4⟩, fun t ht => by cases ht⟩
  | some t =>
    refine .bind_ (Q := fun l d => (Grown d0 d ∧ E.Dir d dir) ∧ (l = true → FS.isSymlink E.L d.at_ E.cwd (objectsDir dir) = .ok true)) ?_
      fun l => ?_
    · refine .look_ (fun d a h ha => ⟨h, fun hl => by subst hl; exact ha⟩) fun _ _ h => .of_grown h.1
    refine .ite_ (fun hl => ?_) fun hl => ?_
    · refine .bind_ (Q := fun _ d => (Grown d0 d ∧ E.Dir d dir) ∧ FS.isSymlink E.L d.at_ E.cwd (objectsDir dir) = .ok true)
        (.look_ (fun d a h _ => ⟨h.1, h.2 hl⟩) fun _ _ h => .of_grown h.1.1) fun _ => ?_
      refine .bind_ (Q := fun a d => ((Grown d0 d ∧ E.Dir d dir) ∧ FS.isSymlink E.L d.at_ E.cwd (objectsDir dir) = .ok true) ∧
        realpath d.at_ E.L.maxLinks (start E.cwd dir.absolute) (dir.comps ++ [objects]) = .ok a)
        (.look_ (fun d a h ha => ⟨h, ha⟩) fun _ _ h => .of_grown h.1.1) fun a => ?_
      refine .bind_ (Q := fun b d => (((Grown d0 d ∧ E.Dir d dir) ∧ FS.isSymlink E.L d.at_ E.cwd (objectsDir dir) = .ok true) ∧
        realpath d.at_ E.L.maxLinks (start E.cwd dir.absolute) (dir.comps ++ [objects]) = .ok a) ∧
        realpath d.at_ E.L.maxLinks (start E.cwd t.absolute) t.comps = .ok b)
        (.look_ (fun d a h ha => ⟨h, ha⟩) fun _ _ h => .of_grown h.1.1.1) fun b => ?_
      refine .ite_ (fun hab => .pure_ ?_) fun _ => .throw_ fun d h => .of_grown h.1.1.1.1
      rintro d ⟨⟨⟨⟨h1, h2⟩, h3⟩, h4⟩, h5⟩
      subst hab
      refine ⟨h2, (by intro h; cases h), fun t' ht => .inr ?_⟩
      cases ht
      exact ⟨h1, h3, a, h4, h5⟩
    · refine .bind_ (Q := fun _ d => Grown d0 d) (.look_ (fun d a h ha => h.1.1) fun _ _ h => .of_grown h.1.1) fun ex => ?_
      refine .bind_ (Q := fun _ d => Cleared E d0 dir d) ?_ fun _ => ?_
      · refine .ite_ (fun _ => .act_ ?_ fun _ _ h => .of_grown h) fun _ => .pure_ fun d h => .inl h
        intro d d' hd h
        rw [if_neg (by simp [objectsDir, UserPath.child])] at h
        split at h
        · cases h
        · next q hq =>
          unfold Disk.rmdir at h
          split at h
          · cases h
          · next x hx =>
            split at h
            · cases h
            · next hxd =>
              split at h
              · cases h
              · next hne =>
                cases h
                cases x <;> simp [Kinded.isDir] at hxd
                rw [not_or] at hne
                exact .inr ⟨d, q, _, hd, hq, hx, Decidable.not_not.mp hne.2, rfl⟩
      refine .bind_ (Q := fun _ d => Linked E d0 dir t d) ?_ fun _ => ?_
      · unfold Env.symlinkTo Env.make
        refine .act_ (P := fun d => Cleared E d0 dir d) (R := fun _ => Only d0 (some t)) ?_ fun _ _ h => Cleared.only h
        intro d d' hd h
        split at h
        · cases h
        · next q hq =>
          obtain ⟨hn, rfl⟩ := create_ok h
          exact hd.link hq hn
      · refine (initTrash_triple E trash existOk (Linked E d0 dir t) fun d q h hq => h.put hq).mono (fun _ h => h) ?_
          fun _ _ h => h.only
        rintro _ d ⟨h, ht⟩
        refine ⟨?_, (by intro h; cases h), fun t' e => .inl (by cases e; exact ⟨h, ht⟩)⟩
        obtain ⟨q, hq, -⟩ := h
        obtain ⟨m, hm, hd, -⟩ := lloc_objects_parent E hq
        exact (isDir_iff ..).mpr ⟨m, true, hm, hd⟩

/-- **C89**: whatever calls fail, preparing the directory of a cache only adds directories, except that an empty directory for objects
may be replaced by a link when a target for it is given.  Nothing else on the disk is lost or changed. -/
theorem C89_nothing_lost (E : Env) (dir : UserPath) (trash : Option UserPath) (existOk : Bool) (to : Option UserPath)
    (s : Machine Node) : Only s.disk to (E.dataDirInit dir trash existOk to s).2.disk := by
  have := dataDirInit_triple E dir trash existOk to s.disk s rfl
  generalize E.dataDirInit dir trash existOk to s = r at this
  obtain ⟨r, s'⟩ := r
  cases r with
  | error e => exact this
  | ok a =>
    obtain ⟨-, h1, h2⟩ := (this : Prepared ..)
    cases to with
    | none => exact .of_grown (h1 rfl).1
    | some t =>
      rcases h2 t rfl with h | h
      · exact h.1.only
      · exact .of_grown h.1

/-- **C89**: when preparing the directory without a target returns, the directory, the one for objects and the trash are there. -/
theorem C89_ready (E : Env) (dir : UserPath) (trash : Option UserPath) (existOk : Bool) (s : Machine Node)
    (h : (E.dataDirInit dir trash existOk none s).1 = .ok ()) :
    ∀ p, p = dir ∨ p = ⟨dir.absolute, dir.comps ++ [objects]⟩ ∨ trash = some p →
      FS.isDir E.L (E.dataDirInit dir trash existOk none s).2.disk.at_ E.cwd p = .ok true := by
  obtain ⟨h1, h2, -⟩ := ((dataDirInit_triple E dir trash existOk none s.disk).result rfl).1 _ h
  rintro p (rfl | rfl | hp)
  · exact h1
  · exact (h2 rfl).2.1
  · exact (h2 rfl).2.2 p hp

/-- **C89**: with `exist_ok=False` a data directory that is there already is refused, whatever calls fail, and nothing changes. -/
theorem C89_fresh (E : Env) (dir : UserPath) (trash to : Option UserPath) (s : Machine Node) {q : Path} (hq : E.lloc s.disk dir = .ok q)
    (h : (s.disk.at_ q).isSome = true) :
    (∃ e, (E.dataDirInit dir trash false to s).1 = .error e ∧ ((∀ n, E.F n = none) → e = .fileExistsError)) ∧
    (E.dataDirInit dir trash false to s).2.disk = s.disk := by
  obtain ⟨x, h⟩ := Option.isSome_iff_exists.mp h
  have H : Hoare (fun d => d = s.disk) (E.dataDirInit dir trash false to) (fun _ _ => False)
      (fun e d => ((∀ n, E.F n = none) → e = .fileExistsError) ∧ d = s.disk) := by
    unfold Env.dataDirInit Env.mkdir
    refine .bind_ (Q := fun _ _ => False) (.try_ (R := fun e d => ((∀ n, E.F n = none) → e = .fileExistsError) ∧ d = s.disk) ?_ fun e => ?_) fun _ => ?_
    · unfold Env.make
      refine .act_err ?_ ?_
      · rintro d d' rfl h'
        simp [hq, Disk.create, h] at h'
      · rintro e d rfl (⟨n, h'⟩ | h')
        · exact ⟨fun hF => by simp [hF n] at h', rfl⟩
        · simp only [hq, Disk.create, h, Except.error.injEq] at h'
          exact ⟨fun _ => h'.symm, rfl⟩
    · simp only [or_true, if_true]
      exact .throw_ fun _ h => h
    · exact fun s h => h.elim
  have := H s rfl
  generalize E.dataDirInit dir trash false to s = r at this ⊢
  obtain ⟨r, s'⟩ := r
  cases r with
  | ok a => exact this.elim
  | error e => exact ⟨⟨e, rfl, this.1⟩, this.2⟩

/-- **C89**: when it returns with a target, the objects are a symlink, and it is a link to the target or leads where the target leads. -/
theorem C89_linked (E : Env) (dir : UserPath) (trash : Option UserPath) (existOk : Bool) (t : UserPath) (s : Machine Node)
    (h : (E.dataDirInit dir trash existOk (some t) s).1 = .ok ()) :
    ∃ l, lstat E.L (E.dataDirInit dir trash existOk (some t) s).2.disk.at_ E.cwd ⟨dir.absolute, dir.comps ++ [objects]⟩ = .ok (.link l) ∧
      (l = ⟨t.absolute, t.comps⟩ ∨
        ∃ a, realpath (E.dataDirInit dir trash existOk (some t) s).2.disk.at_ E.L.maxLinks (start E.cwd dir.absolute)
            (dir.comps ++ [objects]) = .ok a ∧
          realpath (E.dataDirInit dir trash existOk (some t) s).2.disk.at_ E.L.maxLinks (start E.cwd t.absolute) t.comps = .ok a) := by
  obtain ⟨h1, -, h2⟩ := ((dataDirInit_triple E dir trash existOk (some t) s.disk).result rfl).1 _ h
  rcases h2 t rfl with ⟨h, -⟩ | ⟨-, hl, ha⟩
  · refine ⟨_, ?_, .inl rfl⟩
    obtain ⟨q, hq, -, -, hx, -⟩ := h
    generalize (E.dataDirInit dir trash existOk (some t) s).2.disk = d at hq hx ⊢
    unfold Env.lloc objectsDir UserPath.child at hq
    unfold lstat
    simp only [List.getLast?_append, List.getLast?_singleton, Option.some_or, List.dropLast_concat] at hq ⊢
    rw [if_neg (by decide)] at hq ⊢
    split at hq
    · cases hq
    · next m hm =>
      rw [hm]
      dsimp only
      split at hq
      · cases hq
      · cases hq
      · next hd =>
        rw [hd]
        dsimp only
        split at hq
        · cases hq
        · next hlen => cases hq; rw [if_neg hlen, node, hx]
      · cases hq
  · unfold FS.isSymlink at hl
    rw [test_true_iff] at hl
    obtain ⟨x, hx, hk⟩ := hl
    cases x with
    | link l => exact ⟨l, hx, .inr ha⟩
    | _ => simp at hk

theorem lloc_of_link (E : Env) (d : Disk Node) (p : UserPath) (l : Target) (h : lstat E.L d.at_ E.cwd p = .ok (.link l)) :
    ∃ q x, E.lloc d p = .ok q ∧ d.at_ q = some x := by
  have hnode : ∀ q y, node d.at_ q = .ok y → ∃ x, d.at_ q = some x := by
    intro q y hq
    unfold node at hq
    split at hq
    · next x hx => exact ⟨x, hx⟩
    · cases hq
  unfold lstat at h
  unfold Env.lloc
  split at h
  · next hn =>
    rw [hn]
    obtain ⟨x, hx⟩ := hnode _ _ h
    exact ⟨_, x, rfl, hx⟩
  · next n hn =>
    rw [hn]
    dsimp only
    split at h
    · next hdot =>
      rw [if_pos hdot]
      unfold stat at h
      split at h
      · next q hq =>
        obtain ⟨x, hx⟩ := hnode _ _ h
        exact ⟨q, x, hq, hx⟩
      · cases h
    · next hdot =>
      rw [if_neg hdot]
      split at h
      · cases h
      · next m hm =>
        rw [hm]
        dsimp only
        split at h
        · cases h
        · cases h
        · next hd =>
          rw [hd]
          dsimp only
          split at h
          · cases h
          · next hlen =>
            rw [if_neg hlen]
            obtain ⟨x, hx⟩ := hnode _ _ h
            exact ⟨_, x, rfl, hx⟩
        · cases h

/-- A directory that is there is not made again. -/
theorem mkdir_there (E : Env) (hF : ∀ n, E.F n = none) (p : UserPath) (s : Machine Node) (h : E.Dir s.disk p) :
    (E.mkdir p true s).1 = .ok () ∧ (E.mkdir p true s).2.disk = s.disk := by
  have hl : ∃ q x, E.lloc s.disk p = .ok q ∧ s.disk.at_ q = some x := by
    by_cases hs : ∃ l, lstat E.L s.disk.at_ E.cwd p = .ok (.link l)
    · obtain ⟨l, hs⟩ := hs
      exact lloc_of_link E s.disk p l hs
    · obtain ⟨q, b, hw, ha⟩ := (isDir_iff ..).mp h
      exact ⟨q, _, walk_lloc E s.disk p q hw fun l hl => hs ⟨l, hl⟩, ha⟩
  obtain ⟨q, x, hq, hx⟩ := hl
  unfold Env.Dir at h
  simp [Env.mkdir, Env.make, Prog.catch_, Prog.act, Prog.sys, hF, hq, Disk.create, hx, Prog.bind, Env.isDir, Prog.look, h, Prog.pure]

theorem realpath_more (t : Tree) (b b' : Nat) (cur : Path) (rest : List Name) (q : Path) (hb : b ≤ b')
    (h : realpath t b cur rest = .ok q) : realpath t b' cur rest = .ok q := by
  fun_induction realpath t b cur rest generalizing b' with
  | case1 b cur => rw [realpath]; exact h
  | case2 b cur rest ih => rw [realpath, if_pos rfl]; exact ih _ hb h
  | case3 b cur rest hn ih => rw [realpath, if_neg (by decide), if_pos rfl]; exact ih _ hb h
  | case4 cur n rest h1 h2 l hl hd => cases h
  | case5 cur n rest h1 h2 l hl hd b ih =>
    obtain ⟨c, rfl⟩ : ∃ c, b' = c + 1 := ⟨b' - 1, by omega⟩
    rw [realpath, if_neg h1, if_neg h2, hl, hd]
    exact ih c (by omega) h
  | case6 b cur n rest h1 h2 hno ih =>
    rw [realpath, if_neg h1, if_neg h2]
    split
    · next l hd hl => exact absurd hl (hno l hd)
    · exact ih _ hb h

theorem realpath_error (t : Tree) (b : Nat) (cur : Path) (rest : List Name) (e : PyErr)
    (h : realpath t b cur rest = .error e) : e = .runtimeError := by
  fun_induction realpath t b cur rest with
  | case1 b cur => cases h
  | case2 b cur rest ih => exact ih h
  | case3 b cur rest hn ih => exact ih h
  | case4 cur n rest h1 h2 l hl hd => cases h; rfl
  | case5 cur n rest h1 h2 l hl hd b ih => exact ih h
  | case6 b cur n rest h1 h2 hno ih => exact ih h

/-- **C89**: preparing the directory again with the same absolute target changes nothing, and it is accepted unless the link cannot be
resolved. -/
theorem C89_again (E : Env) (hF : ∀ n, E.F n = none) (dir : UserPath) (trash : Option UserPath) (t : UserPath) (ht : t.absolute = true)
    (s s' : Machine Node) (h : E.dataDirInit dir trash true (some t) s = (.ok (), s')) :
    (E.dataDirInit dir trash true (some t) s').2.disk = s'.disk ∧
    ((∃ a, realpath s'.disk.at_ E.L.maxLinks (start E.cwd dir.absolute) (dir.comps ++ [objects]) = .ok a) →
      (E.dataDirInit dir trash true (some t) s').1 = .ok ()) := by
  obtain ⟨h1, -, h2⟩ := ((dataDirInit_triple E dir trash true (some t) s.disk).result rfl).1 () (by rw [h])
  obtain ⟨l, hl, -⟩ := C89_linked E dir trash true t s (by rw [h])
  rw [h] at h1 h2 hl
  dsimp only at h1 h2 hl
  have key : ∀ a, realpath s'.disk.at_ E.L.maxLinks (start E.cwd dir.absolute) (dir.comps ++ [objects]) = .ok a →
      realpath s'.disk.at_ E.L.maxLinks (start E.cwd t.absolute) t.comps = .ok a := by
    intro a ha
    rcases h2 t rfl with ⟨⟨q, hq, -, -, hx, -⟩, -⟩ | ⟨-, -, a', ha', hb⟩
    · obtain ⟨m, hm, hd, rfl⟩ := lloc_objects_parent E hq
      obtain ⟨k, hk, hlead⟩ := (walk_ok_iff ..).mp hm
      have := realpath_of_leads hlead (E.L.maxLinks - k) [objects]
      rw [Nat.add_sub_cancel' hk, ha, realpath, if_neg (by decide), if_neg (by decide), hd, hx] at this
      cases hb : E.L.maxLinks - k with
      | zero => rw [hb] at this; cases this
      | succ b =>
        rw [hb] at this
        simp only [List.append_nil, ht] at this
        rw [ht]
        exact realpath_more _ b _ _ _ _ (by omega) this.symm
    · rw [ha] at ha'
      cases ha'
      exact hb
  obtain ⟨m1, m2⟩ := mkdir_there E hF dir s' h1
  have hsl : FS.isSymlink E.L s'.disk.at_ E.cwd (objectsDir dir) = .ok true := by
    unfold FS.isSymlink objectsDir UserPath.child
    rw [hl]; rfl
  have hl' : lstat E.L s'.disk.at_ E.cwd (objectsDir dir) = .ok (.link l) := hl
  unfold Env.dataDirInit
  generalize hr : E.mkdir dir true s' = r at m1 m2
  obtain ⟨r, s₁⟩ := r
  dsimp only at m1 m2
  subst m1
  rw [← m2] at hsl hl' key ⊢
  cases ha : realpath s₁.disk.at_ E.L.maxLinks (start E.cwd dir.absolute) (dir.comps ++ [objects]) with
  | ok a =>
    have hb := key a ha
    have ha' : realpath s₁.disk.at_ E.L.maxLinks (start E.cwd (objectsDir dir).absolute) (objectsDir dir).comps = .ok a := ha
    simp [Prog.bind, hr, Env.isSymlink, Prog.look, Prog.sys, hF, hsl, hl', Env.resolve, ha', hb, Prog.pure]
  | error e =>
    have ha' : realpath s₁.disk.at_ E.L.maxLinks (start E.cwd (objectsDir dir).absolute) (objectsDir dir).comps = .error e := ha
    simp [Prog.bind, hr, Env.isSymlink, Prog.look, Prog.sys, hF, hsl, hl', Env.resolve, ha']

/-! ### What does not hold -/

def envD : Env := ⟨⟨255, 40⟩, [], fun _ => none⟩

/-- The directory `/d` of a cache, and a place `/o` for objects. -/
def diskD : Disk Node := [([], .dir true), ([['d']], .dir true), ([['o']], .dir true)]

/-- The same with a link for the objects. -/
def diskL (l : Target) : Disk Node := ([['d'], objects], .link l) :: diskD

theorem at_diskL (l : Target) (q : Path) : (diskL l).at_ q = if q = [['d'], objects] then some (.link l)
    else if q = [] ∨ q = [['d']] ∨ q = [['o']] then some (.dir true) else none := by
  simp only [diskL, diskD, Disk.at_cons]
  by_cases h1 : q = [['d'], objects] <;> by_cases h2 : q = [] <;> by_cases h3 : q = [['d']] <;> by_cases h4 : q = [['o']] <;>
    simp_all [Disk.at_, eq_comm (b := q)]

theorem at_diskD (q : Path) : diskD.at_ q = if q = [] ∨ q = [['d']] ∨ q = [['o']] then some (.dir true) else none := by
  simp only [diskD, Disk.at_cons]
  by_cases h2 : q = [] <;> by_cases h3 : q = [['d']] <;> by_cases h4 : q = [['o']] <;>
    simp_all [Disk.at_, eq_comm (b := q)]

/-- With a target that is not absolute the link leads elsewhere than the target does (link texts are relative to the directory of the
link), and preparing the directory again with the same target is refused. -/
theorem C89_relative_counterexample :
    ∃ (E : Env) (dir t : UserPath) (s s' : Machine Node), (∀ n, E.F n = none) ∧ t.absolute = false ∧
      E.dataDirInit dir none true (some t) s = (.ok (), s') ∧
      FS.isDir E.L s'.disk.at_ E.cwd t = .ok true ∧
      (E.dataDirInit dir none true (some t) s').1 = .error .notADirectoryError := by
  refine ⟨envD, ⟨true, [['d']]⟩, ⟨false, [['o']]⟩, ⟨diskD, 0⟩, ⟨diskL ⟨false, [['o']]⟩, 5⟩, fun _ => rfl, rfl, ?_, ?_, ?_⟩
  · simp [Env.dataDirInit, Env.mkdir, Env.make, Prog.bind, Prog.catch_, Prog.act, Prog.look, Prog.sys, envD, Env.lloc, at_diskD, walk,
      start, utf8, Char.utf8Size, Disk.create, Env.isDir, FS.isDir, test, stat, node, Prog.pure, Env.isSymlink, FS.isSymlink, lstat,
      objectsDir, UserPath.child, ignored, Env.pathExists, FS.pathExists, Env.symlinkTo, Kinded.isDir, Env.initTrash, diskL, Disk.put]
    decide
  · simp [FS.isDir, test, stat, walk, envD, at_diskL, node, start, utf8, Char.utf8Size]
  · simp [Env.dataDirInit, Env.mkdir, Env.make, Prog.bind, Prog.catch_, Prog.act, Prog.look, Prog.sys, envD, Env.lloc, at_diskL, walk,
      start, utf8, Char.utf8Size, Disk.create, Env.isDir, FS.isDir, test, stat, node, Prog.pure, Env.isSymlink, FS.isSymlink, lstat,
      objectsDir, UserPath.child, Env.resolve, realpath, Prog.throw]

/-- When the link is there already the trash is not made. -/
theorem C89_trash_counterexample :
    ∃ (E : Env) (dir trash t : UserPath) (s s' : Machine Node), (∀ n, E.F n = none) ∧ t.absolute = true ∧
      E.dataDirInit dir (some trash) true (some t) s = (.ok (), s') ∧
      FS.isDir E.L s'.disk.at_ E.cwd trash = .ok false := by
  refine ⟨envD, ⟨true, [['d']]⟩, ⟨true, [['d'], ['t']]⟩, ⟨true, [['o']]⟩, ⟨diskL ⟨true, [['o']]⟩, 0⟩, ⟨diskL ⟨true, [['o']]⟩, 6⟩,
    fun _ => rfl, rfl, ?_, ?_⟩
  · simp [Env.dataDirInit, Env.mkdir, Env.make, Prog.bind, Prog.catch_, Prog.act, Prog.look, Prog.sys, envD, Env.lloc, at_diskL, walk,
      start, utf8, Char.utf8Size, Disk.create, Env.isDir, FS.isDir, test, stat, node, Prog.pure, Env.isSymlink, FS.isSymlink, lstat,
      objectsDir, UserPath.child, Env.resolve, realpath]
  · simp [FS.isDir, test, stat, walk, envD, at_diskL, start, utf8, Char.utf8Size, ignored]

/-! The hypotheses of `C89_ready`, `C89_linked` and `C89_again` hold on `diskD`. -/

example : envD.lloc (diskL ⟨true, [['o']]⟩) ⟨true, [['d']]⟩ = .ok [['d']] ∧ ((diskL ⟨true, [['o']]⟩).at_ [['d']]).isSome = true := by
  constructor
  · simp [Env.lloc, walk, envD, at_diskL, start, utf8, Char.utf8Size]
  · simp [at_diskL]

example : (envD.dataDirInit ⟨true, [['d']]⟩ none true none ⟨diskD, 0⟩).1 = .ok () := by
  simp [Env.dataDirInit, Env.mkdir, Env.make, Prog.bind, Prog.catch_, Prog.act, Prog.look, Prog.sys, envD, Env.lloc, at_diskD, walk,
      start, utf8, Char.utf8Size, Disk.create, Env.isDir, FS.isDir, test, stat, node, Prog.pure, Env.isSymlink, FS.isSymlink, lstat,
      objectsDir, UserPath.child, ignored, Env.pathExists, FS.pathExists, Env.symlinkTo, Kinded.isDir, Env.initTrash]

example : (envD.dataDirInit ⟨true, [['d']]⟩ none true (some ⟨true, [['o']]⟩) ⟨diskD, 0⟩).1 = .ok () := by
  simp [Env.dataDirInit, Env.mkdir, Env.make, Prog.bind, Prog.catch_, Prog.act, Prog.look, Prog.sys, envD, Env.lloc, at_diskD, walk,
      start, utf8, Char.utf8Size, Disk.create, Env.isDir, FS.isDir, test, stat, node, Prog.pure, Env.isSymlink, FS.isSymlink, lstat,
      objectsDir, UserPath.child, ignored, Env.pathExists, FS.pathExists, Env.symlinkTo, Kinded.isDir, Env.initTrash]

/-- **C89**: objects that are there are not replaced by a link: with a target and a directory for objects that is not empty, preparing is
refused as `rmdir` refuses, and nothing changes. -/
theorem C89_objects_kept (E : Env) (hF : ∀ n, E.F n = none) (dir : UserPath) (trash : Option UserPath) (t : UserPath) (s : Machine Node)
    {q o : Path} {x : Node} {b : Bool} (hq : E.lloc s.disk dir = .ok q) (hx : s.disk.at_ q = some x)
    (ho : E.lloc s.disk ⟨dir.absolute, dir.comps ++ [objects]⟩ = .ok o) (hd : s.disk.at_ o = some (.dir b)) {n : Name} {y : Node}
    (hn : s.disk.at_ (o ++ [n]) = some y) :
    (E.dataDirInit dir trash true (some t) s).1 = .error .osError ∧ (E.dataDirInit dir trash true (some t) s).2.disk = s.disk := by
  have ho' : E.lloc s.disk (objectsDir dir) = .ok o := ho
  have hcs : (objectsDir dir).comps.getLast? = some objects := by simp [objectsDir, UserPath.child, objects]
  have hlast := lloc_objects E ho'
  obtain ⟨m, hm, hmd, rfl⟩ := lloc_objects_parent E ho'
  have hw := walk_of_lloc E s.disk _ _ _ ho' hd (by simp)
  have hisdir : FS.isDir E.L s.disk.at_ E.cwd dir = .ok true := (isDir_iff E s.disk dir).2 ⟨m, true, hm, hmd⟩
  have hstat : stat E.L s.disk.at_ E.cwd (objectsDir dir) = .ok (.dir b) := by simp [stat, hw, node, hd]
  have hlstat : lstat E.L s.disk.at_ E.cwd (objectsDir dir) = .ok (.dir b) := by
    unfold lstat
    rw [hcs]
    dsimp only
    rw [if_neg (by decide)]
    unfold Env.lloc at ho'
    rw [hcs] at ho'
    dsimp only at ho'
    rw [if_neg (by decide)] at ho'
    cases hk : walk E.L s.disk.at_ E.L.maxLinks (start E.cwd (objectsDir dir).absolute) (objectsDir dir).comps.dropLast with
    | error e => rw [hk] at ho'; simp at ho'
    | ok w =>
      rw [hk] at ho'
      dsimp only at ho' ⊢
      cases hwd : s.disk.at_ w with
      | none => rw [hwd] at ho'; simp at ho'
      | some z =>
        rw [hwd] at ho'
        cases z with
        | dir r =>
          cases r with
          | false => simp at ho'
          | true =>
            dsimp only at ho' ⊢
            split at ho'
            · simp at ho'
            · next hlen =>
              rw [if_neg hlen]
              simp only [Except.ok.injEq] at ho'
              rw [ho']
              simp [node, hd]
        | file c => simp at ho'
        | link l => simp at ho'
        | other => simp at ho'
  have hnames : s.disk.names (m ++ [objects]) ≠ [] := by
    intro e
    have := (Disk.mem_names s.disk (m ++ [objects]) n).2 ⟨y, hn⟩
    rw [e] at this
    cases this
  have hrm : s.disk.rmdir (m ++ [objects]) = .error .osError := by
    simp [Disk.rmdir, hd, Kinded.isDir, hnames]
  simp [Env.dataDirInit, Env.mkdir, Env.make, Prog.bind, Prog.catch_, Prog.act, Prog.look, Prog.sys, hF, hq, Disk.create, hx, Env.isDir,
    hisdir, Prog.pure, Env.isSymlink, FS.isSymlink, hlstat, test, Env.pathExists, FS.pathExists, hstat, Env.rmdir, hcs, ho', hrm]

/-- `/d/objects` with an object in it. -/
def diskO : Disk Node := ([['d'], objects, ['x']], .file [1]) :: ([['d'], objects], .dir true) :: diskD

example : envD.lloc diskO ⟨true, [['d']]⟩ = .ok [['d']] ∧ envD.lloc diskO ⟨true, [['d'], objects]⟩ = .ok [['d'], objects] ∧
    diskO.at_ [['d'], objects] = some (.dir true) ∧ diskO.at_ [['d'], objects, ['x']] = some (.file [1]) := by
  refine ⟨?_, ?_, by decide, by decide⟩ <;>
    simp [Env.lloc, walk, envD, diskO, diskD, Disk.at_cons, start, utf8, Char.utf8Size, objects]

theorem objects_last (dir : UserPath) : (objectsDir dir).comps.getLast? = some objects := by simp [objectsDir, UserPath.child, objects]

theorem lstat_of_lloc (E : Env) {d : Disk Node} {dir : UserPath} {o : Path} (ho : E.lloc d (objectsDir dir) = .ok o) :
    lstat E.L d.at_ E.cwd (objectsDir dir) = node d.at_ o := by
  have hcs := objects_last dir
  unfold lstat
  rw [hcs]
  dsimp only
  rw [if_neg (by decide)]
  unfold Env.lloc at ho
  rw [hcs] at ho
  dsimp only at ho
  rw [if_neg (by decide)] at ho
  split at ho
  · cases ho
  · next m hm =>
    rw [hm]
    dsimp only
    split at ho
    all_goals try cases ho
    next hd =>
    rw [hd]
    dsimp only
    split at ho
    · cases ho
    · next hlen => cases ho; rw [if_neg hlen]

theorem stat_of_lloc (E : Env) {d : Disk Node} {dir : UserPath} {o : Path} (ho : E.lloc d (objectsDir dir) = .ok o)
    (h : d.at_ o = none) : stat E.L d.at_ E.cwd (objectsDir dir) = .error .ENOENT := by
  obtain ⟨m, hm, hmd, rfl⟩ := lloc_objects_parent E ho
  obtain ⟨k, hk, hl⟩ := (walk_ok_iff ..).mp hm
  have hlen : ¬E.L.nameMax < (utf8 objects).length := by
    have := lstat_of_lloc E ho
    intro hlen
    unfold Env.lloc at ho
    rw [objects_last dir] at ho
    dsimp only at ho
    rw [if_neg (by decide), show (objectsDir dir).comps.dropLast = dir.comps by simp [objectsDir, UserPath.child]] at ho
    rw [show (objectsDir dir).absolute = dir.absolute from rfl, hm] at ho
    simp [hmd, hlen] at ho
  have : walk E.L d.at_ E.L.maxLinks (start E.cwd dir.absolute) (dir.comps ++ [objects]) = .error .ENOENT := by
    rw [walk_append hk hl, walk, hmd]
    simp only
    rw [if_neg (by decide), if_neg (by decide), if_neg hlen, h]
  unfold stat
  rw [show (objectsDir dir).absolute = dir.absolute from rfl, show (objectsDir dir).comps = dir.comps ++ [objects] from rfl, this]

/-- **C89**: what preparing does when no call fails, the data directory is there and the class has no trash: without a target it makes the
directory for objects or leaves what is a directory; with a target it makes the link where there is nothing or an empty directory, and
leaves a link, accepted if and only if it leads where the target leads. -/
theorem C89_outcome (E : Env) (hF : ∀ n, E.F n = none) (dir : UserPath) (s : Machine Node) {q o : Path} {x : Node}
    (hq : E.lloc s.disk dir = .ok q) (hx : s.disk.at_ q = some x) (ho : E.lloc s.disk ⟨dir.absolute, dir.comps ++ [objects]⟩ = .ok o) :
    (s.disk.at_ o = none →
      ((E.dataDirInit dir none true none s).1 = .ok () ∧ (E.dataDirInit dir none true none s).2.disk = s.disk.put o (.dir true)) ∧
      ∀ t, (E.dataDirInit dir none true (some t) s).1 = .ok () ∧
        (E.dataDirInit dir none true (some t) s).2.disk = s.disk.put o (.link ⟨t.absolute, t.comps⟩)) ∧
    (∀ b, s.disk.at_ o = some (.dir b) →
      ((E.dataDirInit dir none true none s).1 = .ok () ∧ (E.dataDirInit dir none true none s).2.disk = s.disk) ∧
      ∀ t, s.disk.names o = [] → E.lloc (s.disk.erase o) ⟨dir.absolute, dir.comps ++ [objects]⟩ = .ok o →
        (E.dataDirInit dir none true (some t) s).1 = .ok () ∧
        (E.dataDirInit dir none true (some t) s).2.disk = (s.disk.erase o).put o (.link ⟨t.absolute, t.comps⟩)) ∧
    ∀ l, s.disk.at_ o = some (.link l) →
      (∀ b, FS.isDir E.L s.disk.at_ E.cwd ⟨dir.absolute, dir.comps ++ [objects]⟩ = .ok b →
        (E.dataDirInit dir none true none s).1 = (if b then .ok () else .error .fileExistsError) ∧
        (E.dataDirInit dir none true none s).2.disk = s.disk) ∧
      ∀ t a b, realpath s.disk.at_ E.L.maxLinks (start E.cwd dir.absolute) (dir.comps ++ [objects]) = .ok a →
        realpath s.disk.at_ E.L.maxLinks (start E.cwd t.absolute) t.comps = .ok b →
        (E.dataDirInit dir none true (some t) s).1 = (if a = b then .ok () else .error .notADirectoryError) ∧
        (E.dataDirInit dir none true (some t) s).2.disk = s.disk := by
  have ho' : E.lloc s.disk (objectsDir dir) = .ok o := ho
  have hcs := objects_last dir
  have hls := lstat_of_lloc E ho'
  obtain ⟨m, hm, hmd, rfl⟩ := lloc_objects_parent E ho'
  have hisdir : FS.isDir E.L s.disk.at_ E.cwd dir = .ok true := (isDir_iff E s.disk dir).2 ⟨m, true, hm, hmd⟩
  refine ⟨fun h => ?_, fun b h => ?_, fun l h => ?_⟩
  · have hst := stat_of_lloc E ho' h
    have hcr : ∀ y, s.disk.create (m ++ [objects]) y = .ok (s.disk.put (m ++ [objects]) y) := fun y => by
      simp [Disk.create, h, hmd, Kinded.isDir]
    simp only [node, h] at hls
    refine ⟨?_, fun t => ?_⟩
    · simp [Env.dataDirInit, Env.mkdir, Env.make, Prog.bind, Prog.catch_, Prog.act, Prog.look, Prog.sys, hF, hq, hx, Disk.create, Env.isDir,
        hisdir, Prog.pure, ho', h, hmd, Kinded.isDir, Env.initTrash]
    · simp [Env.dataDirInit, Env.mkdir, Env.make, Prog.bind, Prog.catch_, Prog.act, Prog.look, Prog.sys, hF, hq, hx, Disk.create, Env.isDir,
        hisdir, Prog.pure, ho', h, hmd, Kinded.isDir, Env.initTrash, Env.isSymlink, FS.isSymlink, hls, test, ignored, Env.pathExists,
        FS.pathExists, hst, Env.symlinkTo]
  · have hw := walk_of_lloc E s.disk _ _ _ ho' h (by simp)
    have hst : stat E.L s.disk.at_ E.cwd (objectsDir dir) = .ok (.dir b) := by simp [stat, hw, node, h]
    have hobj : FS.isDir E.L s.disk.at_ E.cwd (objectsDir dir) = .ok true := by simp [FS.isDir, hst, test]
    simp only [node, h] at hls
    refine ⟨?_, fun t hn he => ?_⟩
    · simp [Env.dataDirInit, Env.mkdir, Env.make, Prog.bind, Prog.catch_, Prog.act, Prog.look, Prog.sys, hF, hq, hx, Disk.create, Env.isDir,
        hisdir, Prog.pure, ho', h, Env.initTrash, hobj]
    · have he' : E.lloc (s.disk.erase (m ++ [objects])) (objectsDir dir) = .ok (m ++ [objects]) := he
      have hne : m ≠ m ++ [objects] := by simp
      simp [Env.dataDirInit, Env.mkdir, Env.make, Prog.bind, Prog.catch_, Prog.act, Prog.look, Prog.sys, hF, hq, hx, Disk.create, Env.isDir,
        hisdir, Prog.pure, ho', h, hmd, Kinded.isDir, Env.initTrash, Env.isSymlink, FS.isSymlink, hls, test, Env.pathExists,
        FS.pathExists, hst, Env.symlinkTo, Env.rmdir, hcs, Disk.rmdir, hn, he', Disk.at_erase, objects, hne]
  · simp only [node, h] at hls
    refine ⟨fun b hb => ?_, fun t a b ha hb => ?_⟩
    · have hb' : FS.isDir E.L s.disk.at_ E.cwd (objectsDir dir) = .ok b := hb
      cases b <;> simp [Env.dataDirInit, Env.mkdir, Env.make, Prog.bind, Prog.catch_, Prog.act, Prog.look, Prog.sys, hF, hq, hx, Disk.create, Env.isDir,
        hisdir, Prog.pure, ho', h, Env.initTrash, hb', Prog.throw]
    · have ha' : realpath s.disk.at_ E.L.maxLinks (start E.cwd (objectsDir dir).absolute) (objectsDir dir).comps = .ok a := ha
      by_cases e : a = b <;>
        simp [Env.dataDirInit, Env.mkdir, Env.make, Prog.bind, Prog.catch_, Prog.act, Prog.look, Prog.sys, hF, hq, hx, Disk.create, Env.isDir,
          hisdir, Prog.pure, Env.isSymlink, FS.isSymlink, hls, test, Env.resolve, ha', hb, e, Prog.throw]

/-! The hypotheses of `C89_outcome` with nothing, an empty directory and a link at the place of the objects. -/

example : envD.lloc diskD ⟨true, [['d']]⟩ = .ok [['d']] ∧ (diskD.at_ [['d']]).isSome = true ∧
    envD.lloc diskD ⟨true, [['d'], objects]⟩ = .ok [['d'], objects] ∧ diskD.at_ [['d'], objects] = none := by
  refine ⟨?_, by decide, ?_, by decide⟩ <;>
    simp [Env.lloc, walk, envD, diskD, Disk.at_cons, start, utf8, Char.utf8Size, objects]

/-- `/d/objects` without an object in it. -/
def diskE : Disk Node := ([['d'], objects], .dir true) :: diskD

example : envD.lloc diskE ⟨true, [['d'], objects]⟩ = .ok [['d'], objects] ∧ diskE.at_ [['d'], objects] = some (.dir true) ∧
    diskE.names [['d'], objects] = [] ∧ envD.lloc (diskE.erase [['d'], objects]) ⟨true, [['d'], objects]⟩ = .ok [['d'], objects] := by
  refine ⟨?_, by decide, by decide, ?_⟩
  · simp [Env.lloc, walk, envD, diskE, diskD, Disk.at_cons, start, utf8, Char.utf8Size, objects]
  · simp [Env.lloc, walk, envD, diskE, diskD, Disk.at_erase, Disk.at_cons, start, utf8, Char.utf8Size, objects]

example : envD.lloc (diskL ⟨true, [['o']]⟩) ⟨true, [['d'], objects]⟩ = .ok [['d'], objects] ∧
    (diskL ⟨true, [['o']]⟩).at_ [['d'], objects] = some (.link ⟨true, [['o']]⟩) ∧
    realpath (diskL ⟨true, [['o']]⟩).at_ 40 [] [['d'], objects] = .ok [['o']] := by
  refine ⟨?_, ?_, ?_⟩
  · simp [Env.lloc, walk, envD, at_diskL, start, utf8, Char.utf8Size, objects]
  · simp [at_diskL, objects]
  · simp [realpath, at_diskL, start, objects]

end Verif.FS
