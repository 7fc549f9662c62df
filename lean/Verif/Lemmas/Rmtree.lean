import Verif.Lemmas.Disk
import Verif.Lemmas.Hoare

namespace Verif.FS
open Verif.Spec

/-! ## The single steps -/

/-- Asking changes nothing. -/
theorem isDir_keeps (E : Env) (p : UserPath) (I : Disk Node → Prop) :
    Hoare I (E.isDir p) (fun _ => I) (fun _ => I) := .look_ (fun _ _ h _ => h) (fun _ _ h => h)

theorem isSymlink_keeps (E : Env) (p : UserPath) (I : Disk Node → Prop) :
    Hoare I (E.isSymlink p)
      (fun b d => I d ∧ (b = false → ∀ l, lstat E.L d.at_ E.cwd p ≠ .ok (.link l))) (fun _ => I) := by
  refine .look_ (fun d b h hb => ⟨h, ?_⟩) (fun _ _ h => h)
  rintro rfl l hl
  simp [FS.isSymlink, hl, test] at hb

theorem iterdir_keeps (E : Env) (p : UserPath) (I : Disk Node → Prop) :
    Hoare I (E.iterdir p)
      (fun ks d => I d ∧ ∃ q, walk E.L d.at_ E.L.maxLinks (start E.cwd p.absolute) p.comps = .ok q ∧
        ks = (d.names q).map p.child) (fun _ => I) := by
  refine .look_ (fun d ks h hk => ⟨h, ?_⟩) (fun _ _ h => h)
  split at hk
  · simp at hk
  · rename_i q hq
    refine ⟨q, hq, ?_⟩
    split at hk <;> simp at hk
    exact hk.symm

theorem handle_keeps (E : Env) (ignore : Bool) (h : Handler) (b : Option UserPath) (e : PyErr) (I : Disk Node → Prop) :
    Hoare I (E.handle ignore h b e) (fun _ d => I d ∧ (ignore = true ∨ h = some (.ok ()))) (fun _ => I) := by
  unfold Env.handle
  refine .ite_ (fun _ => .throw_ fun _ h => h) fun _ => .ite_ (fun hi => .pure_ fun _ h => ⟨h, .inl hi⟩) fun _ => ?_
  cases h with
  | none => exact .throw_ fun _ h => h
  | some r =>
    cases b with
    | none => exact .throw_ fun _ h => h
    | some p =>
      refine .bind_ (isDir_keeps E p I) fun _ s hs => ?_
      cases r with
      | ok u => exact ⟨hs, .inr rfl⟩
      | error e => exact hs

theorem unlink_hoare (E : Env) (p : UserPath) (P : Disk Node → Prop) (Q : Disk Node → Prop)
    (h : ∀ d q x, P d → E.lloc d p = .ok q → d.at_ q = some x → Kinded.isDir x = false → Q (d.erase q)) :
    Hoare P (E.unlink p) (fun _ => Q) (fun _ => P) := by
  refine .act_ (fun d d' hd hf => ?_) (fun _ _ h => h)
  split at hf
  · simp at hf
  · rename_i q hq
    unfold Disk.unlink at hf
    split at hf
    · simp at hf
    · rename_i x hx
      split at hf
      · simp at hf
      · rename_i hk
        simp only [Except.ok.injEq] at hf
        rw [← hf]
        exact h d q x hd hq hx (by simpa using hk)

theorem rmdir_hoare (E : Env) (p : UserPath) (P : Disk Node → Prop) (Q : Disk Node → Prop)
    (h : ∀ d q, P d → E.lloc d p = .ok q → d.names q = [] → Q (d.erase q)) :
    Hoare P (E.rmdir p) (fun _ => Q) (fun _ => P) := by
  refine .act_ (fun d d' hd hf => ?_) (fun _ _ h => h)
  split at hf
  · simp at hf
  · split at hf
    · simp at hf
    · rename_i q hq
      unfold Disk.rmdir at hf
      split at hf
      · simp at hf
      · split at hf
        · simp at hf
        · split at hf
          · simp at hf
          · rename_i hk
            rw [not_or, Decidable.not_not] at hk
            simp only [Except.ok.injEq] at hf
            rw [← hf]
            exact h d q hd hq hk.2

/-! ## The invariant -/

/-- The names on the disk are names. -/
def Proper (d : Disk Node) : Prop := ∀ e ∈ d, ∀ n ∈ e.1, n ≠ ['.'] ∧ n ≠ ['.', '.']

/-- Everything but the root is in a directory. -/
def Rooted (d : Disk Node) : Prop := ∀ r n x, d.at_ (r ++ [n]) = some x → ∃ b, d.at_ r = some (.dir b)

/-- Every location is listed once. -/
def Distinct (d : Disk Node) : Prop := (d.map Prod.fst).Nodup

/-- The invariant of a removal inside `q`: nothing is added, nothing changes outside, the disk is sound. -/
def Inside (d0 : Disk Node) (q : Path) (d : Disk Node) : Prop :=
  d.Sub d0 ∧ (∀ r, ¬ q <+: r → d.at_ r = d0.at_ r) ∧ (Rooted d0 → Rooted d) ∧ (Distinct d0 → Distinct d)

theorem Inside.refl (d0 : Disk Node) (q : Path) : Inside d0 q d0 := ⟨Disk.Sub.refl _, fun _ _ => rfl, id, id⟩

theorem Distinct.erase {d : Disk Node} (h : Distinct d) (q : Path) : Distinct (d.erase q) := by
  unfold Distinct Disk.erase at *
  exact h.sublist (List.filter_sublist.map _)

theorem Inside.erase {d0 d : Disk Node} {q r : Path} (h : Inside d0 q d) (hr : q <+: r)
    (hleaf : Rooted d → ∀ n, d.at_ (r ++ [n]) = none) : Inside d0 q (d.erase r) := by
  refine ⟨(Disk.Sub.erase d r).trans h.1, ?_, ?_, fun h0 => (h.2.2.2 h0).erase r⟩
  · intro r' hr'
    rw [Disk.at_erase, if_neg (fun e : r' = r => hr' (e ▸ hr))]
    exact h.2.1 r' hr'
  · intro h0 a n x hx
    have hl := hleaf (h.2.2.1 h0)
    rw [Disk.at_erase] at hx ⊢
    split at hx
    · simp at hx
    · split
      · rename_i ha
        rw [ha, hl n] at hx
        simp at hx
      · exact h.2.2.1 h0 a n x hx

/-- Wherever the path leads, it is inside `q`. -/
def Under (E : Env) (d0 : Disk Node) (q : Path) (p : UserPath) : Prop := ∀ r, E.lloc d0 p = .ok r → q <+: r

theorem not_dir_leaf {d : Disk Node} {q : Path} {x : Node} (hx : d.at_ q = some x) (hk : Kinded.isDir x = false)
    (hr : Rooted d) (n : Name) : d.at_ (q ++ [n]) = none := by
  cases hn : d.at_ (q ++ [n]) with
  | none => rfl
  | some y =>
    obtain ⟨b, hb⟩ := hr q n y hn
    rw [hx] at hb
    simp only [Option.some.injEq] at hb
    subst hb
    simp [Kinded.isDir] at hk

theorem empty_leaf {d : Disk Node} {q : Path} (h : d.names q = []) (n : Name) : d.at_ (q ++ [n]) = none := by
  cases hn : d.at_ (q ++ [n]) with
  | none => rfl
  | some y =>
    have := (Disk.mem_names d q n).2 ⟨y, hn⟩
    rw [h] at this; simp at this

/-- What the path named on the disk `d0` is gone. -/
def Gone (E : Env) (p : UserPath) (d0 d : Disk Node) : Prop := ∀ q, E.lloc d0 p = .ok q → d.at_ q = none

theorem gone_erase (E : Env) (p : UserPath) {d0 d : Disk Node} (hs : d.Sub d0) (q : Path) (h : E.lloc d p = .ok q) :
    Gone E p d0 (d.erase q) := by
  intro q' h'
  have := lloc_mono E hs h
  rw [h'] at this
  simp only [Except.ok.injEq] at this
  rw [Disk.at_erase, if_pos this]

theorem unlink_inside (E : Env) {d0 : Disk Node} {q : Path} {p : UserPath} (hu : Under E d0 q p) :
    Hoare (Inside d0 q) (E.unlink p) (fun _ d => Inside d0 q d ∧ Gone E p d0 d) (fun _ => Inside d0 q) :=
  unlink_hoare E p _ _ fun d _ _ hd hq hx hk =>
    ⟨hd.erase (hu _ (lloc_mono E hd.1 hq)) fun hr n => not_dir_leaf hx hk hr n, gone_erase E p hd.1 _ hq⟩

theorem rmdir_inside (E : Env) {d0 : Disk Node} {q : Path} {p : UserPath} (hu : Under E d0 q p) :
    Hoare (Inside d0 q) (E.rmdir p) (fun _ d => Inside d0 q d ∧ Gone E p d0 d) (fun _ => Inside d0 q) :=
  rmdir_hoare E p _ _ fun d _ hd hq hn =>
    ⟨hd.erase (hu _ (lloc_mono E hd.1 hq)) fun _ n => empty_leaf hn n, gone_erase E p hd.1 _ hq⟩

/-- The entries of a directory inside `q` are inside `q`. -/
theorem under_child {E : Env} {d0 d : Disk Node} {q : Path} {p : UserPath} (hp : Proper d0) (hu : Under E d0 q p)
    (hs : d.Sub d0) {r : Path} (hw : walk E.L d.at_ E.L.maxLinks (start E.cwd p.absolute) p.comps = .ok r)
    (hns : ∀ l, lstat E.L d.at_ E.cwd p ≠ .ok (.link l)) {k : UserPath} (hk : k ∈ (d.names r).map p.child) :
    Under E d0 q k := by
  obtain ⟨n, hn, rfl⟩ := List.mem_map.1 hk
  obtain ⟨x, hx⟩ := (Disk.mem_names d r n).1 hn
  have hnn := hp _ (Disk.mem_of_at (hs _ _ hx)) n (by simp)
  have hr : q <+: r := hu r (lloc_mono E hs (walk_lloc E d p r hw hns))
  intro r' hr'
  rw [lloc_child E d0 p n r r' hnn (walk_mono hs hw) hr']
  exact hr.trans (List.prefix_append _ _)

/-- What a removal promises when it returns: the path is gone, unless errors were to be swallowed. -/
def Done (E : Env) (ignore : Bool) (h : Handler) (p : UserPath) (d0 : Disk Node) (q : Path) (d : Disk Node) : Prop :=
  Inside d0 q d ∧ (Gone E p d0 d ∨ ignore = true ∨ h = some (.ok ()))

mutual

theorem rmtree_inside (E : Env) (danger ignore : Bool) (h : Handler) {d0 : Disk Node} (hp : Proper d0) {q : Path}
    (fuel : Nat) (p : UserPath) (hu : Under E d0 q p) :
    Hoare (Inside d0 q) (E.rmtree danger ignore h fuel p) (fun _ => Done E ignore h p d0 q) (fun _ => Inside d0 q) := by
  cases fuel with
  | zero => rw [Env.rmtree]; exact .throw_ fun _ h => h
  | succ fuel =>
    rw [Env.rmtree]
    refine .ite_ (fun _ => .throw_ fun _ h => h) fun _ => ?_
    refine .bind_ (Q := fun b d => Inside d0 q d ∧ (b = none → ignore = true ∨ h = some (.ok ()))) ?_ ?_
    · refine .try_ (R := fun _ => Inside d0 q) (.bind_ (isDir_keeps E p _) fun b => .pure_ fun d hd => ⟨hd, by simp⟩) ?_
      exact fun e => .bind_ (handle_keeps E ignore h none e _) fun _ => .pure_ fun d hd => ⟨hd.1, fun _ => hd.2⟩
    · intro b
      cases b with
      | none => exact .pure_ fun d hd => ⟨hd.1, .inr (hd.2 rfl)⟩
      | some b =>
        refine Hoare.pre (P := Inside d0 q) ?_ fun d hd => hd.1
        cases b with
        | false =>
          refine .try_ ((unlink_inside E hu).mono (fun _ h => h) (fun _ d hd => ⟨hd.1, .inl hd.2⟩) (fun _ _ h => h)) ?_
          exact fun e => (handle_keeps E ignore h (some p) e _).mono (fun _ h => h)
            (fun _ d hd => ⟨hd.1, .inr hd.2⟩) (fun _ _ h => h)
        | true =>
          refine .bind_ (Q := fun o d => Inside d0 q d ∧ match o with
            | none => ignore = true ∨ h = some (.ok ())
            | some ks => ∀ k ∈ ks, Under E d0 q k) ?_ ?_
          · refine .try_ (R := fun _ => Inside d0 q) (.bind_ (isSymlink_keeps E p _) fun b => ?_) ?_
            · refine .ite_ (fun _ => .throw_ fun d hd => hd.1) fun hb => ?_
              refine .bind_ ((iterdir_keeps E p _).mono (fun _ h => h) (fun _ _ h => h) (fun _ d hd => hd.1)) fun ks => ?_
              refine .pure_ fun d hd => ⟨hd.1.1, ?_⟩
              obtain ⟨⟨h1, h2⟩, r, h3, rfl⟩ := hd
              exact fun k hk => under_child hp hu h1.1 h3 (h2 (by simpa using hb)) hk
            · exact fun e => .bind_ (handle_keeps E ignore h none e _) fun _ => .pure_ fun d hd => hd
          · intro o
            cases o with
            | none => exact .pure_ fun d hd => ⟨hd.1, .inr hd.2⟩
            | some ks =>
              intro s hs
              exact loop_inside E danger ignore h hp fuel p hu ks hs.2 s hs.1
termination_by (fuel, 0)

theorem loop_inside (E : Env) (danger ignore : Bool) (h : Handler) {d0 : Disk Node} (hp : Proper d0) {q : Path}
    (fuel : Nat) (p : UserPath) (hu : Under E d0 q p) (ks : List UserPath) (hk : ∀ k ∈ ks, Under E d0 q k) :
    Hoare (Inside d0 q) (E.loop danger ignore h fuel p ks) (fun _ => Done E ignore h p d0 q) (fun _ => Inside d0 q) := by
  cases ks with
  | nil =>
    rw [Env.loop]
    refine .try_ ((rmdir_inside E hu).mono (fun _ h => h) (fun _ d hd => ⟨hd.1, .inl hd.2⟩) (fun _ _ h => h)) ?_
    exact fun e => (handle_keeps E ignore h (some p) e _).mono (fun _ h => h)
      (fun _ d hd => ⟨hd.1, .inr hd.2⟩) (fun _ _ h => h)
  | cons k ks =>
    rw [Env.loop]
    intro s hs
    have step : Hoare (Inside d0 q) (Prog.bind (E.isSymlink k) fun b =>
        if b then E.unlink k else E.rmtree danger ignore h fuel k) (fun _ => Inside d0 q) (fun _ => Inside d0 q) := by
      refine .bind_ (isSymlink_keeps E k _) fun b => .pre (P := Inside d0 q) ?_ fun d hd => hd.1
      refine .ite_ (fun _ => ?_) fun _ => ?_
      · exact (unlink_inside E (hk k (by simp))).mono (fun _ h => h) (fun _ d hd => hd.1) (fun _ _ h => h)
      · exact (rmtree_inside E danger ignore h hp fuel k (hk k (by simp))).mono (fun _ h => h) (fun _ d hd => hd.1)
          (fun _ _ h => h)
    have := step s hs
    dsimp only
    generalize (Prog.bind (E.isSymlink k) fun b =>
      if b then E.unlink k else E.rmtree danger ignore h fuel k) s = r at this ⊢
    obtain ⟨r, s'⟩ := r
    cases r with
    | ok u => exact loop_inside E danger ignore h hp fuel p hu ks (fun k' hk' => hk k' (by simp [hk'])) s' this
    | error e =>
      exact ((handle_keeps E ignore h (some k) e (Inside d0 q)).mono (Q := fun _ => Done E ignore h p d0 q)
        (R' := fun _ => Inside d0 q) (fun _ h => h)
        (fun _ d hd => ⟨hd.1, .inr hd.2⟩) (fun _ _ h => h)) s' this
termination_by (fuel, ks.length + 1)

end

end Verif.FS

namespace Verif.FS
open Verif.Spec

/-- What `lstat` sees is at the location that the path names. -/
theorem lstat_lloc (E : Env) (d : Disk Node) (p : UserPath) (x : Node) (h : lstat E.L d.at_ E.cwd p = .ok x) :
    ∃ q, E.lloc d p = .ok q ∧ d.at_ q = some x := by
  have hnode : ∀ q, node d.at_ q = .ok x → d.at_ q = some x := by
    intro q hq
    unfold node at hq
    split at hq <;> simp at hq
    rename_i h; rw [h, hq]
  unfold lstat at h
  unfold Env.lloc
  split at h
  · rename_i hl
    rw [hl]
    exact ⟨_, rfl, hnode _ h⟩
  · rename_i n hl
    rw [hl]
    simp only
    split at h
    · rename_i hn
      rw [if_pos hn]
      unfold stat at h
      split at h
      · rename_i q hq; exact ⟨q, hq, hnode _ h⟩
      · simp at h
    · rename_i hn
      rw [if_neg hn]
      split at h
      · simp at h
      · rename_i q hq
        rw [hq]
        simp only
        split at h
        · simp at h
        · simp at h
        · rename_i hd
          rw [hd]
          simp only
          split at h
          · simp at h
          · rename_i hlen
            rw [if_neg hlen]
            exact ⟨_, rfl, hnode _ h⟩
        · simp at h

/-- The relation behind `lloc`. -/
theorem lloc_iff (E : Env) (d : Disk Node) (p : UserPath) (q : Path) :
    E.lloc d p = .ok q ↔ NamesLoc E.L d.at_ E.cwd p q := by
  unfold Env.lloc NamesLoc
  rcases List.eq_nil_or_concat p.comps with hc | ⟨cs, n, hc⟩
  · rw [hc]
    simp only [List.getLast?_nil, Except.ok.injEq, List.nil_eq, List.append_eq_nil_iff, List.cons_ne_self, and_false,
      false_and, exists_false, true_and, or_false, false_or, reduceCtorEq]
    exact eq_comm
  · rw [List.concat_eq_append] at hc
    simp only [hc, List.getLast?_append, List.getLast?_singleton, Option.some_or, List.dropLast_concat]
    split
    · rename_i hn
      rw [walk_ok_iff]
      constructor
      · rintro ⟨k, hk, h⟩
        exact .inr (.inr ⟨cs, n, k, rfl, hn, hk, h⟩)
      · rintro (⟨parent, m, w, k, he, hf, -⟩ | ⟨h, -⟩ | ⟨parent, m, k, he, -, hk, h⟩)
        · have := List.append_inj' he rfl
          simp only [List.cons.injEq, and_true] at this
          rw [this.2] at hn
          exact absurd hn (by rw [not_or]; exact ⟨hf.1, hf.2.1⟩)
        · simp at h
        · exact ⟨k, hk, h⟩
    · rename_i hn
      constructor
      · intro h
        split at h
        · simp at h
        · rename_i w hw
          obtain ⟨k, hk, hl⟩ := (walk_ok_iff ..).1 hw
          split at h
          · simp at h
          · simp at h
          · rename_i hd
            split at h
            · simp at h
            · rename_i hlen
              simp only [Except.ok.injEq] at h
              rw [not_or] at hn
              exact .inl ⟨cs, n, w, k, rfl, ⟨hn.1, hn.2, Nat.not_lt.1 hlen⟩, hk, hl, hd, h.symm⟩
          · simp at h
      · rintro (⟨parent, m, w, k, he, hf, hk, hl, hd, rfl⟩ | ⟨h, -⟩ | ⟨parent, m, k, he, hd, -⟩)
        · have := List.append_inj' he rfl
          simp only [List.cons.injEq, and_true] at this
          obtain ⟨rfl, rfl⟩ := this
          rw [(walk_ok_iff ..).2 ⟨k, hk, hl⟩]
          simp only [hd]
          rw [if_neg (Nat.not_lt.2 hf.2.2)]
        · simp at h
        · have := List.append_inj' he rfl
          simp only [List.cons.injEq, and_true] at this
          rw [this.2] at hn
          exact absurd hd hn

theorem Distinct.names {d : Disk Node} (h : Distinct d) (q : Path) : (d.names q).Nodup := by
  unfold Distinct at h
  unfold Disk.names
  induction d with
  | nil => simp
  | cons e d ih =>
    rw [List.map_cons, List.nodup_cons] at h
    rw [List.filterMap_cons]
    have ih := ih h.2
    split
    · exact ih
    · rename_i n hn
      rw [List.nodup_cons]
      refine ⟨?_, ih⟩
      intro hm
      obtain ⟨f, hf, hfn⟩ := List.mem_filterMap.1 hm
      apply h.1
      refine List.mem_map.2 ⟨f, hf, ?_⟩
      have key : ∀ g : Path × Node, (match g.1.getLast? with
          | some n => if g.1.dropLast = q then some n else none
          | none => none) = some n → g.1 = q ++ [n] := by
        intro g hg
        split at hg
        · rename_i m hm
          split at hg
          · rename_i hq
            simp only [Option.some.injEq] at hg
            obtain ⟨ys, hys⟩ := List.getLast?_eq_some_iff.1 hm
            rw [hys] at hq ⊢
            rw [← hq, ← hg]; simp
          · simp at hg
        · simp at hg
      rw [key f hfn, key e hn]

end Verif.FS
