import Verif.Lemmas.Relative
import Verif.Spec.Dirs

namespace Verif.FS
open Verif.Spec

/-- Walking down a location can only end there. -/
theorem walk_location {L : Limits} {t : Tree} {b : Nat} (c s q : Path)
    (hd : ∀ e, e <+: c ++ s → ∃ x, t e = some (.dir x)) (hn : ∀ n ∈ s, n ≠ ['.'] ∧ n ≠ ['.', '.'])
    (h : walk L t b c s = .ok q) : q = c ++ s := by
  induction s generalizing c with
  | nil => rw [walk_nil] at h; cases h; simp
  | cons n s ih =>
    obtain ⟨x, hx⟩ := hd c (List.prefix_append ..)
    obtain ⟨y, hy⟩ := hd (c ++ [n]) ⟨s, by simp⟩
    obtain ⟨n1, n2⟩ := hn n (by simp)
    rw [walk] at h
    cases x with
    | false => simp [hx] at h
    | true =>
      simp only [hx, n1, n2, if_false, hy] at h
      split at h
      · cases h
      · have := ih (c ++ [n]) (by simpa using hd) (fun m hm => hn m (by simp [hm])) h
        simpa using this

theorem askCwd_ok {t : Tree} {cwd : Path} {u : UserPath} (h : askCwd t cwd = .ok u) : u = getcwd cwd := by
  unfold askCwd at h
  split at h
  · simp only [Except.ok.injEq] at h; exact h.symm
  · cases h

theorem askCwd_dir {t : Tree} {cwd : Path} {b : Bool} (h : t cwd = some (.dir b)) : askCwd t cwd = .ok (getcwd cwd) := by
  simp [askCwd, h]

theorem askCwd_gone {t : Tree} {cwd : Path} (h : ∀ b, t cwd ≠ some (.dir b)) : askCwd t cwd = .error .fileNotFoundError := by
  unfold askCwd
  split
  · rename_i h'; exact absurd h' (h _)
  · rfl

theorem chdirTo_location {L : Limits} {t : Tree} {cwd d q : Path} (hd : IsLocation t d)
    (h : chdirTo L t cwd (getcwd d) = .ok q) : q = d := by
  unfold chdirTo at h
  split at h
  · cases h
  · rename_i q' hq
    split at h
    · cases h
      have := walk_location [] d q (by simpa using hd.1) hd.2 (by simpa [getcwd, start] using hq)
      simpa using this
    all_goals cases h

theorem chdirTo_reachable {L : Limits} {t : Tree} {cwd d : Path} (hd : Reachable L t d) :
    chdirTo L t cwd (getcwd d) = .ok d := by
  have h := walk_down_all (L := L) (t := t) (b := L.maxLinks) [] d [] hd.2
    (fun e _ he => hd.1 e (by simpa using he))
  simp only [List.append_nil, List.nil_append, walk_nil] at h
  simp [chdirTo, getcwd, start, h, hd.1 d (List.prefix_refl _)]

theorem isLocation_dropLast {t : Tree} {d : Path} (h : IsLocation t d) : IsLocation t d.dropLast :=
  ⟨fun e he => h.1 e (he.trans (List.dropLast_prefix d)),
   fun n hn => h.2 n ((List.dropLast_sublist _).subset hn)⟩

/-- Resolution from a location ends at a location, if it ends at a directory. -/
theorem leads_location {L : Limits} {t : Tree} {k : Nat} {c q : Path} {s : List Name}
    (h : Leads L t k c s q) (hc : IsLocation t c) (hr : ∃ x, t [] = some (.dir x)) (x : Bool)
    (hq : t q = some (.dir x)) : IsLocation t q := by
  induction h with
  | here => exact hc
  | dot _ _ ih => exact ih hc hq
  | up _ _ ih => exact ih (isLocation_dropLast hc) hq
  | @down k cur n rest q' y h hn hy hl hrest ih =>
    -- the next component has to be a directory, or be the end
    have hloc : (∃ z, y = .dir z) → IsLocation t (cur ++ [n]) := by
      rintro ⟨z, rfl⟩
      refine ⟨fun e he => ?_, fun m hm => ?_⟩
      · rcases List.prefix_concat_iff.1 he with rfl | he
        · exact ⟨z, hy⟩
        · exact hc.1 e he
      · rcases List.mem_append.1 hm with hm | hm
        · exact hc.2 m hm
        · simp only [List.mem_singleton] at hm; subst hm; exact ⟨hn.1, hn.2.1⟩
    apply ih _ hq
    apply hloc
    cases hrest with
    | here => rw [hq] at hy; cases hy; exact ⟨x, rfl⟩
    | dot h' | up h' | down h' | follow h' => rw [hy] at h'; cases h'; exact ⟨true, rfl⟩
  | @follow k cur n rest q' l h hn hx hrest ih =>
    refine ih ?_ hq
    unfold start
    split
    · exact ⟨fun e he => by rw [List.prefix_nil.1 he]; exact hr, by simp⟩
    · exact hc

theorem isLocation_root {t : Tree} {c : Path} (hc : IsLocation t c) : ∃ x, t [] = some (.dir x) :=
  hc.1 [] List.nil_prefix

theorem chdirTo_isLocation {L : Limits} {t : Tree} {cwd q : Path} {p : UserPath}
    (hc : IsLocation t cwd) (h : chdirTo L t cwd p = .ok q) : IsLocation t q := by
  unfold chdirTo at h
  split at h
  · cases h
  · rename_i q' hq
    split at h
    · rename_i hd
      cases h
      obtain ⟨k, _, hk⟩ := (walk_ok_iff ..).1 hq
      refine leads_location hk ?_ (isLocation_root hc) true hd
      unfold start
      split
      · exact ⟨fun e he => by rw [List.prefix_nil.1 he]; exact isLocation_root hc, by simp⟩
      · exact hc
    all_goals cases h

theorem pyPop_last {α : Type} (l : List α) (x : α) : pyPop (l ++ [x]) (-(0 + 1)) = .ok (x, l) := by
  unfold pyPop
  have h : (if (-(0 + 1) : Int) < 0 then (-(0 + 1) : Int) + ((l ++ [x]).length : Int)
      else (-(0 + 1) : Int)) = (l.length : Int) := by
    simp; omega
  simp only [h]
  rw [if_neg (by omega)]
  simp [List.eraseIdx_append_of_length_le]

theorem popd_snoc {L : Limits} {s : Dirs} {st : List UserPath} {x : UserPath} (h : s.stack = st ++ [x]) :
    popd L 0 s = match chdirTo L s.tree s.cwd x with
      | .error e => (.error e, { s with stack := st })
      | .ok q => (.ok (some x), { s with stack := st, cwd := q }) := by
  unfold popd
  split
  · rename_i h'; rw [h'] at h; simp at h
  · simp only [h, pyPop_last]
    cases chdirTo L s.tree s.cwd x <;> rfl

theorem runOps_append (L : Limits) (a b : List DirOp) (s : Dirs) :
    runOps L (a ++ b) s = match runOps L a s with
      | (.ok _, s') => runOps L b s'
      | (.error e, s') => (.error e, s') := by
  induction a generalizing s with
  | nil => rfl
  | cons x a ih =>
    cases x with
    | pushd p =>
      simp only [List.cons_append, runOps]
      rcases pushd L p s with ⟨r, s'⟩
      cases r with
      | ok _ => exact ih s'
      | error e => rfl
    | popd n =>
      simp only [List.cons_append, runOps]
      rcases popd L n s with ⟨r, s'⟩
      cases r with
      | ok _ => exact ih s'
      | error e => rfl

theorem run_enteredFrom (L : Limits) (hs : Bool) (o : Nat) (g : Script) (hg : ¬Uses o g) (s : World) :
    (g.run L hs s).2.enteredFrom o = s.enteredFrom o := by
  induction g generalizing s with
  | act f =>
    simp only [Script.run]
    split <;> rfl
  | seq a b iha ihb =>
    simp only [Uses, not_or] at hg
    simp only [Script.run]
    have h1 := iha hg.1 s
    rcases h : a.run L hs s with ⟨r, s'⟩
    rw [h] at h1
    cases r with
    | ok _ => simp only; rw [ihb hg.2]; exact h1
    | error e => exact h1
  | block o' p body ih =>
    simp only [Uses, not_or] at hg
    have he : ∀ s, (enter L hs o' p s).2.enteredFrom o = s.enteredFrom o := by
      intro s
      have hne : o ≠ o' := fun e => hg.1 e.symm
      simp only [enter]
      split
      · rfl
      · split
        · rfl
        · split <;> simp [hne]
      · rfl
    have hl : ∀ s, (leave L hs o' s).2.enteredFrom o = s.enteredFrom o := by
      intro s
      simp only [leave]
      split
      · split <;> rfl
      · rfl
    simp only [Script.run]
    have h1 := he s
    rcases h : enter L hs o' p s with ⟨r, s1⟩
    rw [h] at h1
    cases r with
    | error e => exact h1
    | ok _ =>
      simp only
      have h2 := ih hg.2 s1
      rcases h' : body.run L hs s1 with ⟨r2, s2⟩
      rw [h'] at h2
      have h3 := hl s2
      simp only
      rcases h'' : leave L hs o' s2 with ⟨r3, s3⟩
      rw [h''] at h3
      cases r3 <;> exact h3.trans (h2.trans h1)

end Verif.FS
