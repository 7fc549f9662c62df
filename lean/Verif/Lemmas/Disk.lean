import Verif.Lemmas.FS
import Verif.Model.Rmtree

namespace Verif.FS
open Verif.Spec

namespace Disk
variable {ν : Type}

theorem at_cons (d : Disk ν) (e : Path × ν) (r : Path) :
    at_ (e :: d) r = if e.1 = r then some e.2 else at_ d r := by
  simp only [at_, List.find?_cons]
  by_cases h : e.1 = r <;> simp [h]

theorem at_erase (d : Disk ν) (q r : Path) : (d.erase q).at_ r = if r = q then none else d.at_ r := by
  induction d with
  | nil => simp [erase, at_]
  | cons e d ih =>
    simp only [erase, List.filter_cons] at ih ⊢
    by_cases h : e.1 = q
    · simp only [h, ne_eq, not_true_eq_false, decide_false, Bool.false_eq_true, if_false, ih, at_cons]
      by_cases hr : r = q
      · simp [hr]
      · rw [if_neg hr, if_neg hr, if_neg (fun h' => hr h'.symm)]
    · simp only [h, ne_eq, not_false_eq_true, decide_true, if_true, at_cons, ih]
      by_cases hr : e.1 = r
      · rw [if_pos hr, if_neg (fun h' => h (hr.trans h')), if_pos hr]
      · rw [if_neg hr, if_neg hr]

theorem at_put (d : Disk ν) (q r : Path) (x : ν) : (d.put q x).at_ r = if r = q then some x else d.at_ r := by
  rw [put, at_cons, at_erase]
  by_cases h : r = q
  · simp [h]
  · rw [if_neg (fun h' => h h'.symm), if_neg h, if_neg h]

theorem mem_of_at {d : Disk ν} {r : Path} {x : ν} (h : d.at_ r = some x) : (r, x) ∈ d := by
  simp only [at_, Option.map_eq_some_iff] at h
  obtain ⟨e, h1, h2⟩ := h
  have := List.find?_some h1
  have hm := List.mem_of_find?_eq_some h1
  simp only [decide_eq_true_eq] at this
  rw [← this, ← h2]; exact hm

theorem at_of_mem {d : Disk ν} {e : Path × ν} (h : e ∈ d) : ∃ x, d.at_ e.1 = some x := by
  induction d with
  | nil => simp at h
  | cons f d ih =>
    rw [at_cons]
    by_cases hf : f.1 = e.1
    · exact ⟨_, by rw [if_pos hf]⟩
    · rcases List.mem_cons.1 h with rfl | h
      · exact absurd rfl hf
      · rw [if_neg hf]; exact ih h

/-- A name is listed in a directory exactly when there is something at that location. -/
theorem mem_names (d : Disk ν) (q : Path) (n : Name) : n ∈ d.names q ↔ ∃ x, d.at_ (q ++ [n]) = some x := by
  simp only [names, List.mem_filterMap]
  constructor
  · rintro ⟨e, he, hc⟩
    cases hl : e.1.getLast? with
    | none => rw [hl] at hc; simp at hc
    | some m =>
      rw [hl] at hc
      simp only at hc
      split at hc
      · rename_i hd
        simp only [Option.some.injEq] at hc
        subst hc
        have : e.1 = q ++ [m] := by
          obtain ⟨h, e'⟩ := List.getLast?_eq_some_iff.1 hl
          rw [e'] at hd ⊢
          rw [← hd]; simp
        rw [← this]
        exact at_of_mem he
      · simp at hc
  · rintro ⟨x, hx⟩
    refine ⟨_, mem_of_at hx, ?_⟩
    simp

/-- `d` has nothing that `d0` does not have. -/
def Sub (d d0 : Disk ν) : Prop := ∀ r x, d.at_ r = some x → d0.at_ r = some x

theorem Sub.refl (d : Disk ν) : Sub d d := fun _ _ h => h

theorem Sub.trans {a b c : Disk ν} (h : Sub a b) (h' : Sub b c) : Sub a c := fun r x hx => h' r x (h r x hx)

theorem Sub.erase (d : Disk ν) (q : Path) : Sub (d.erase q) d := by
  intro r x h
  rw [at_erase] at h
  split at h
  · simp at h
  · exact h

end Disk

/-- Removing things never leads a path elsewhere. -/
theorem leads_mono {L : Limits} {d d0 : Disk Node} (hs : d.Sub d0) {k : Nat} {cur : Path} {rest : List Name} {q : Path}
    (h : Leads L d.at_ k cur rest q) : Leads L d0.at_ k cur rest q := by
  induction h with
  | here cur => exact .here cur
  | dot h _ ih => exact .dot (hs _ _ h) ih
  | up h _ ih => exact .up (hs _ _ h) ih
  | down h hn hx hl _ ih => exact .down (hs _ _ h) hn (hs _ _ hx) hl ih
  | follow h hn hx _ ih => exact .follow (hs _ _ h) hn (hs _ _ hx) ih

theorem walk_mono {L : Limits} {d d0 : Disk Node} (hs : d.Sub d0) {b : Nat} {cur : Path} {rest : List Name} {q : Path}
    (h : walk L d.at_ b cur rest = .ok q) : walk L d0.at_ b cur rest = .ok q := by
  rw [walk_ok_iff] at h ⊢
  obtain ⟨k, hk, h⟩ := h
  exact ⟨k, hk, leads_mono hs h⟩

theorem lloc_mono (E : Env) {d d0 : Disk Node} (hs : d.Sub d0) {p : UserPath} {q : Path} (h : E.lloc d p = .ok q) :
    E.lloc d0 p = .ok q := by
  unfold Env.lloc at h ⊢
  split
  · rename_i hl; rw [hl] at h; exact h
  · rename_i n hl
    rw [hl] at h
    simp only at h
    split at h
    · rename_i hn; rw [if_pos hn]; exact walk_mono hs h
    · rename_i hn
      rw [if_neg hn]
      split at h
      · simp at h
      · rename_i q' hw
        rw [walk_mono hs hw]
        simp only
        split at h
        · simp at h
        · simp at h
        · rename_i ha
          rw [hs _ _ ha]
          exact h
        · simp at h

/-- Where the child of a path is, once the path itself leads somewhere. -/
theorem lloc_child (E : Env) (d : Disk Node) (p : UserPath) (n : Name) (q r : Path)
    (hn : n ≠ ['.'] ∧ n ≠ ['.', '.'])
    (hw : walk E.L d.at_ E.L.maxLinks (start E.cwd p.absolute) p.comps = .ok q)
    (h : E.lloc d (p.child n) = .ok r) : r = q ++ [n] := by
  unfold Env.lloc at h
  simp only [UserPath.child, List.getLast?_append, List.getLast?_singleton, Option.some_or,
    List.dropLast_concat, hn.1, hn.2, or_self, if_false] at h
  rw [hw] at h
  simp only at h
  split at h
  · simp at h
  · simp at h
  · split at h
    · simp at h
    · simp only [Except.ok.injEq] at h; exact h.symm
  · simp at h

/-- A path that leads somewhere and is not a symlink leads to the location it names. -/
theorem walk_lloc (E : Env) (d : Disk Node) (p : UserPath) (q : Path)
    (hw : walk E.L d.at_ E.L.maxLinks (start E.cwd p.absolute) p.comps = .ok q)
    (hns : ∀ l, lstat E.L d.at_ E.cwd p ≠ .ok (.link l)) : E.lloc d p = .ok q := by
  unfold Env.lloc
  rcases List.eq_nil_or_concat p.comps with hc | ⟨cs, n, hc⟩
  · rw [hc] at hw ⊢
    rw [walk_nil] at hw
    simpa using hw
  · simp only [List.concat_eq_append] at hc
    rw [hc] at hw
    simp only [hc, List.getLast?_append, List.getLast?_singleton, Option.some_or, List.dropLast_concat]
    split
    · exact hw
    · rename_i hn
      rw [not_or] at hn
      unfold lstat at hns
      simp only [hc, List.getLast?_append, List.getLast?_singleton, Option.some_or, List.dropLast_concat,
        hn.1, hn.2, or_self, if_false] at hns
      -- split the walk before its last component
      have key : ∀ b (cur : Path) (cs : List Name), walk E.L d.at_ b cur (cs ++ [n]) = .ok q →
          ∃ m, walk E.L d.at_ b cur cs = .ok m ∧ d.at_ m = some (.dir true) ∧ ¬ E.L.nameMax < (utf8 n).length ∧
            ((∃ l, d.at_ (m ++ [n]) = some (.link l)) ∨ m ++ [n] = q) := by
        intro b cur cs
        fun_induction walk E.L d.at_ b cur cs with
        | case1 b cur =>
          intro h
          rw [List.nil_append, walk] at h
          split at h
          · simp at h
          · simp at h
          · rename_i hd
            rw [if_neg hn.1, if_neg hn.2] at h
            split at h
            · simp at h
            · rename_i hlen
              refine ⟨cur, rfl, hd, hlen, ?_⟩
              split at h
              · simp at h
              · rename_i l hl; exact .inl ⟨l, hl⟩
              · rw [walk_nil] at h; right; simpa using h
          · simp at h
        | case2 b cur m rest h1 => intro h; rw [List.cons_append, walk, h1] at h; simp at h
        | case3 b cur m rest h1 => intro h; rw [List.cons_append, walk, h1] at h; simp at h
        | case4 b cur rest h1 ih =>
          intro h; rw [List.cons_append, walk_dot h1] at h; exact ih h
        | case5 b cur rest h1 _ ih =>
          intro h; rw [List.cons_append, walk_up h1] at h; exact ih h
        | case6 b cur m rest h1 h2 h3 h4 =>
          intro h; rw [List.cons_append, walk, h1] at h; simp [h2, h3, h4] at h
        | case7 b cur m rest h1 h2 h3 h4 h5 =>
          intro h; rw [List.cons_append, walk, h1] at h; simp [h2, h3, h4, h5] at h
        | case8 cur m rest h1 h2 h3 h4 l h5 =>
          intro h; rw [List.cons_append, walk, h1] at h; simp [h2, h3, h4, h5] at h
        | case9 cur m rest h1 h2 h3 h4 l h5 b ih =>
          intro h
          rw [List.cons_append, walk_follow h1 ⟨h2, h3, Nat.not_lt.1 h4⟩ h5, ← List.append_assoc] at h
          exact ih h
        | case10 b cur m rest h1 h2 h3 h4 x h5 h6 ih =>
          intro h
          rw [List.cons_append, walk_down h1 ⟨h2, h3, Nat.not_lt.1 h4⟩ h6 h5] at h
          exact ih h
        | case11 =>
          intro h
          rw [List.cons_append, walk] at h
          split at h
          all_goals simp_all
      obtain ⟨m, hm, hd, hlen, hcase⟩ := key _ _ _ hw
      rw [hm] at hns ⊢
      simp only [hd, hlen, if_false] at hns ⊢
      rcases hcase with ⟨l, hl⟩ | hq
      · exact absurd (by simp [node, hl]) (hns l)
      · rw [hq]

end Verif.FS
