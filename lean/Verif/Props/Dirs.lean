import Verif.Lemmas.Dirs
import Verif.Props.Exists
import Verif.Lemmas.Decide

/-!
# C50 and C51: the directory stack and `with path:`
-/

namespace Verif.FS
open Verif.Spec

/-! ## C50 -/

/-- **C50**: any balanced sequence of `pushd` and `popd()` that runs without exception ends in the
directory it started from, with the stack as it was; whatever paths were pushed (relative, through
symlinks, with dot-dot components), in every file system. -/
theorem C50_balanced (L : Limits) (ops : List DirOp) (hb : Balanced ops) (s s' : Dirs)
    (hc : IsLocation s.tree s.cwd) (h : runOps L ops s = (.ok (), s')) : s' = s := by
  induction hb generalizing s s' with
  | nil => simp only [runOps, Prod.mk.injEq, true_and] at h; exact h.symm
  | @wrap a b p ha hb iha ihb =>
    simp only [runOps] at h
    rcases h1 : pushd L p s with ⟨r, s1⟩
    rw [h1] at h
    cases r with
    | error e => simp at h
    | ok _ =>
      have hs1 : s1.tree = s.tree ∧ s1.stack = s.stack ++ [getcwd s.cwd] ∧
          IsLocation s.tree s1.cwd := by
        unfold pushd at h1
        split at h1
        · cases h1
        · cases h1
        · split at h1
          · cases h1
          · rename_i here hh
            dsimp only at h1
            split at h1
            · cases h1
            · rename_i q hq
              simp only [Prod.mk.injEq, true_and] at h1
              subst h1
              rw [askCwd_ok hh]
              exact ⟨rfl, rfl, chdirTo_isLocation hc hq⟩
      simp only [runOps_append] at h
      rcases h2 : runOps L a s1 with ⟨r2, s2⟩
      rw [h2] at h
      cases r2 with
      | error e => simp at h
      | ok _ =>
        have e2 := iha s1 s2 (by rw [hs1.1]; exact hs1.2.2) h2
        subst e2
        simp only [runOps] at h
        rw [popd_snoc hs1.2.1] at h
        split at h
        · cases h
        · rename_i s3 hh
          split at hh
          · cases hh
          · rename_i q hq
            rw [hs1.1] at hq
            have := chdirTo_location hc hq
            subst this
            simp only [Prod.mk.injEq] at hh
            obtain ⟨_, hh⟩ := hh
            have e3 : s3 = s := by
              rw [← hh]
              cases s; cases s2
              simp only [Dirs.mk.injEq, true_and] at hs1 ⊢
              exact ⟨hs1.1, trivial⟩
            rw [e3] at h
            exact ihb s s' hc h

/-- **C50**: `popd(N)` with `N ≥ 0` on a shorter stack raises `IndexError` and changes nothing, if
the stack is not empty.  Partial: on an empty stack it does not raise, see the counterexample. -/
theorem C50_short_stack_partial (L : Limits) (n : Nat) (s : Dirs) (hne : s.stack ≠ [])
    (h : s.stack.length ≤ n) : popd L n s = (.error .indexError, s) := by
  unfold popd
  split
  · rename_i h'; exact absurd h' hne
  · have : pyPop s.stack (-((n : Int) + 1)) = .error .indexError := by
      unfold pyPop
      have hneg : (-((n : Int) + 1)) < 0 := by omega
      simp only [hneg, if_true]
      rw [if_pos (by omega)]
    rw [this]

/-- **C50 is false** for the empty stack: nothing changes, but nothing is raised either. -/
theorem C50_empty_stack_counterexample (L : Limits) (n : Int) (s : Dirs) (h : s.stack = []) :
    popd L n s = (.ok none, s) := by
  unfold popd; rw [h]

/-- **C50 is false** when a step fails: `pushd` to a directory that may not be searched raises but
leaves a new entry on the stack. -/
theorem C50_failed_pushd_counterexample :
    ∃ (s s' : Dirs), pushd ⟨255, 40⟩ ⟨true, [lit "d"]⟩ s = (.error .permissionError, s') ∧
      s.stack = [] ∧ s'.stack = [⟨true, []⟩] := by
  let t : Tree := fun p => if p = [] then some (.dir true) else if p = [lit "d"] then some (.dir false) else none
  refine ⟨⟨t, [], []⟩, ⟨t, [], [⟨true, []⟩]⟩, ?_, rfl, rfl⟩
  simp [pushd, isDir, test, stat, walk, start, node, t, lit, utf8, Char.utf8Size, chdirTo, askCwd, getcwd]

/-- **C50**: `popd(N)` takes the entry `N` places below the top: it is returned, it is the new working
directory, and the other entries stay in order. -/
theorem C50_popd_nth (L : Limits) (s : Dirs) (older newer : List UserPath) (x : UserPath)
    (h : s.stack = older ++ x :: newer) (q : Path) (k : Nat) (hk : k ≤ L.maxLinks)
    (hl : Leads L s.tree k (start s.cwd x.absolute) x.comps q) (ht : s.tree q = some (.dir true)) :
    popd L newer.length s = (.ok (some x), { s with stack := older ++ newer, cwd := q }) := by
  have hq : chdirTo L s.tree s.cwd x = .ok q := by
    unfold chdirTo
    rw [(walk_ok_iff ..).2 ⟨k, hk, hl⟩]
    simp [ht]
  have hp : pyPop s.stack (-((newer.length : Int) + 1)) = .ok (x, older ++ newer) := by
    unfold pyPop
    have hj : (if (-((newer.length : Int) + 1)) < 0 then (-((newer.length : Int) + 1)) + (s.stack.length : Int)
        else (-((newer.length : Int) + 1))) = (older.length : Int) := by
      rw [if_pos (by omega), h]
      simp; omega
    simp only [hj]
    rw [if_neg (by omega)]
    simp [h, List.eraseIdx_append_of_length_le]
  unfold popd
  split
  · rename_i h'; rw [h'] at h; simp at h
  · simp only [hp, hq]

/-- a balanced sequence with a relative path, run from `/a` -/
example : ∃ (t : Tree), Balanced [.pushd ⟨false, [lit "b"]⟩, .pushd ⟨true, []⟩, .popd 0, .popd 0] ∧
    IsLocation t [lit "a"] ∧
    (runOps ⟨255, 40⟩ [.pushd ⟨false, [lit "b"]⟩, .pushd ⟨true, []⟩, .popd 0, .popd 0]
      ⟨t, [lit "a"], []⟩).1 = .ok () := by
  refine ⟨fun p => if p = [] ∨ p = [lit "a"] ∨ p = [lit "a", lit "b"] then some (.dir true) else none,
    ?_, ?_, ?_⟩
  · exact .wrap (a := [.pushd ⟨true, []⟩, .popd 0]) (b := []) _ (.wrap (a := []) (b := []) _ .nil .nil) .nil
  · refine ⟨fun e he => ⟨true, ?_⟩, by decide⟩
    rcases List.prefix_cons_iff.1 he with rfl | ⟨l, rfl, hl⟩
    · simp
    · simp [List.prefix_nil.1 hl]
  · simp [runOps, pushd, popd, pyPop, isDir, test, stat, walk, start, node, lit, utf8, Char.utf8Size,
      chdirTo, askCwd, getcwd]

/-! ## C51 -/

/-- **C51**: leaving a `with` block on a directory restores the working directory that was current on
entry: for every body, which may raise, change the working directory and the file system, and
contain further `with` blocks on other objects.  The directory has to be still reachable when the
block ends.  Partial: the body must not enter the same object again, see the counterexample. -/
theorem C51_restores_partial (L : Limits) (hs : Bool) (o : Nat) (p : UserPath) (body : Script)
    (hu : ¬Uses o body) (s : World) (s1 : World) (he : enter L hs o p s = (.ok (), s1))
    (hdir : isDir L s.tree s.cwd p = .ok true)
    (hreach : Reachable L (body.run L hs s1).2.tree s.cwd) :
    ((Script.block o p body).run L hs s).2.cwd = s.cwd ∧
    ((Script.block o p body).run L hs s).1 = (body.run L hs s1).1 := by
  have h1 : s1.enteredFrom o = some (getcwd s.cwd) := by
    unfold enter at he
    rw [hdir] at he
    dsimp only at he
    split at he
    · cases he
    · rename_i here hh
      split at he
      · cases he
      · simp only [Prod.mk.injEq, true_and] at he
        subst he; simp [askCwd_ok hh]
  have h2 := run_enteredFrom L hs o body hu s1
  simp only [Script.run, he]
  rcases hb : body.run L hs s1 with ⟨r, s2⟩
  rw [hb] at h2 hreach
  simp only
  have : leave L hs o s2 = (.ok (), { s2 with cwd := s.cwd }) := by
    unfold leave
    rw [h2, h1]
    simp only [chdirTo_reachable hreach]
  rw [this]
  exact ⟨rfl, rfl⟩

/-- **C51**: when entering fails nothing is run and the working directory does not change. -/
theorem C51_failed_enter (L : Limits) (hs : Bool) (o : Nat) (p : UserPath) (body : Script)
    (s s1 : World) (e : PyErr) (he : enter L hs o p s = (.error e, s1)) :
    (Script.block o p body).run L hs s = (.error e, s1) ∧ s1.cwd = s.cwd ∧ s1.tree = s.tree := by
  refine ⟨by simp only [Script.run, he], ?_⟩
  unfold enter at he
  split at he
  · simp only [Prod.mk.injEq] at he; rw [← he.2]; exact ⟨rfl, rfl⟩
  · split at he
    · simp only [Prod.mk.injEq] at he; rw [← he.2]; exact ⟨rfl, rfl⟩
    · dsimp only at he
      split at he
      · simp only [Prod.mk.injEq] at he; rw [← he.2]; exact ⟨rfl, rfl⟩
      · cases he
  · simp only [Prod.mk.injEq] at he; rw [← he.2]; exact ⟨rfl, rfl⟩

/-- **C51 is false** when the same object is entered twice: after `with d: with d: pass` started from
the root directory the working directory is `d`. -/
theorem C51_reentry_counterexample :
    ∃ (t : Tree) (s : World), s.tree = t ∧ s.cwd = [] ∧ Reachable ⟨255, 40⟩ t [] ∧
      (∀ o, s.enteredFrom o = none) ∧
      ((Script.block 0 ⟨true, [lit "d"]⟩ (.block 0 ⟨true, [lit "d"]⟩ (.act fun t c => (t, c, none)))).run
        ⟨255, 40⟩ true s).2.cwd = [lit "d"] := by
  let t : Tree := fun p => if p = [] ∨ p = [lit "d"] then some (.dir true) else none
  refine ⟨t, ⟨t, [], fun _ => none⟩, rfl, rfl, ⟨?_, by simp⟩, fun _ => rfl, ?_⟩
  · intro e he; rw [List.prefix_nil.1 he]; simp [t]
  · simp [Script.run, enter, leave, isDir, test, stat, walk, start, node, t, lit, utf8, Char.utf8Size,
      chdirTo, askCwd, getcwd]

/-- the hypotheses of the theorem are met with a body that changes directory and raises -/
example : ∃ (s s1 : World) (body : Script), ¬Uses 0 body ∧
    isDir ⟨255, 40⟩ s.tree s.cwd ⟨true, [lit "d"]⟩ = .ok true ∧
    enter ⟨255, 40⟩ true 0 ⟨true, [lit "d"]⟩ s = (.ok (), s1) ∧
    (body.run ⟨255, 40⟩ true s1).1 = .error .foreign ∧
    (body.run ⟨255, 40⟩ true s1).2.cwd ≠ s.cwd ∧
    Reachable ⟨255, 40⟩ (body.run ⟨255, 40⟩ true s1).2.tree s.cwd := by
  let t : Tree := fun p => if p = [] ∨ p = [lit "d"] then some (.dir true) else none
  refine ⟨⟨t, [], fun _ => none⟩, ⟨t, [lit "d"], fun i => if i = 0 then some ⟨true, []⟩ else none⟩,
    .act (fun t _ => (t, [lit "d"], some .foreign)), by simp [Uses], ?_, ?_, rfl, by simp [Script.run], ?_⟩
  · simp [isDir, test, stat, walk, start, node, t, lit, utf8, Char.utf8Size]
  · simp [enter, isDir, test, stat, walk, start, node, t, lit, utf8, Char.utf8Size, chdirTo, askCwd, getcwd]
  · refine ⟨?_, by simp⟩
    intro e he
    rw [List.prefix_nil.1 he]; simp [t, Script.run]

/-- **C50**: `pushd` works exactly for paths that lead to a directory that may be searched; then the directory is the working directory
and the old one is on top of the stack.  Whatever does not lead to a directory is refused with nothing changed.  The working directory
has to be there: `C50_removed` is about the others. -/
theorem C50_pushd (L : Limits) (p : UserPath) (s : Dirs) (hcwd : ∃ b, s.tree s.cwd = some (.dir b)) :
    ((pushd L p s).1 = .ok () ↔ LeadsTo L s.tree s.cwd p (.dir true)) ∧
    ((pushd L p s).1 = .ok () → ∃ k, k ≤ L.maxLinks ∧ Leads L s.tree k (start s.cwd p.absolute) p.comps (pushd L p s).2.cwd ∧
      (pushd L p s).2.tree = s.tree ∧ (pushd L p s).2.stack = s.stack ++ [⟨true, s.cwd⟩]) ∧
    ((¬ ∃ b, LeadsTo L s.tree s.cwd p (.dir b)) → (pushd L p s).2 = s ∧
      ((pushd L p s).1 = .error .notADirectoryError ∨ Refused L s.tree s.cwd p)) ∧
    (LeadsTo L s.tree s.cwd p (.dir false) → pushd L p s = (.error .permissionError, { s with stack := s.stack ++ [⟨true, s.cwd⟩] })) := by
  have hd := C52_is_dir_iff L s.tree s.cwd p
  have hx : ∀ b, stat L s.tree s.cwd p = .ok (.dir b) → ∃ q k, k ≤ L.maxLinks ∧ Leads L s.tree k (start s.cwd p.absolute) p.comps q ∧
      chdirTo L s.tree s.cwd p = if b then .ok q else .error .permissionError := by
    intro b h
    obtain ⟨k, q, h1, h2, h3⟩ := (stat_ok_iff ..).1 h
    refine ⟨q, k, h1, h2, ?_⟩
    unfold chdirTo
    rw [(walk_ok_iff ..).2 ⟨k, h1, h2⟩]
    cases b <;> simp [h3]
  cases hs : stat L s.tree s.cwd p with
  | ok x =>
    have hlt : ∀ y, LeadsTo L s.tree s.cwd p y ↔ y = x := by
      intro y
      rw [← stat_ok_iff, hs]
      simp [eq_comm]
    cases x with
    | dir b =>
      obtain ⟨q, k, h1, h2, h3⟩ := hx b hs
      have hi : isDir L s.tree s.cwd p = .ok true := by simp [isDir, test, hs]
      have hp : pushd L p s = if b then (.ok (), ⟨s.tree, q, s.stack ++ [⟨true, s.cwd⟩]⟩)
          else (.error .permissionError, { s with stack := s.stack ++ [⟨true, s.cwd⟩] }) := by
        cases b <;> simp [pushd, hi, h3, askCwd_dir hcwd.choose_spec, getcwd]
      cases b with
      | true =>
        simp only [if_true] at hp
        rw [hp]
        refine ⟨by simp [hlt], fun _ => ⟨k, h1, h2, rfl, rfl⟩, fun h => absurd ⟨true, (hlt _).2 rfl⟩ h, fun h => ?_⟩
        have := (hlt _).1 h
        cases this
      | false =>
        simp only [Bool.false_eq_true, if_false] at hp
        rw [hp]
        exact ⟨by simp [hlt], fun h => by simp at h, fun h => absurd ⟨false, (hlt _).2 rfl⟩ h, fun _ => rfl⟩
    | _ =>
      have hi : isDir L s.tree s.cwd p = .ok false := by simp [isDir, test, hs]
      have hp : pushd L p s = (.error .notADirectoryError, s) := by simp [pushd, hi]
      rw [hp]
      exact ⟨by simp [hlt], fun h => by simp at h, fun _ => ⟨rfl, .inl rfl⟩, fun h => by have := (hlt _).1 h; cases this⟩
  | error e =>
    have hlt : ∀ y, ¬ LeadsTo L s.tree s.cwd p y := by
      intro y
      rw [← stat_ok_iff, hs]
      simp
    cases hi : isDir L s.tree s.cwd p with
    | error e' =>
      have hp : pushd L p s = (.error e', s) := by simp [pushd, hi]
      rw [hp]
      exact ⟨by simp [hlt], fun h => by simp at h, fun _ => ⟨rfl, .inr ((C52_false_partial L s.tree s.cwd p).2.2.2.2 ⟨_, hi⟩)⟩, fun h => absurd h (hlt _)⟩
    | ok b =>
      cases b with
      | true => exact absurd (hd.1 hi).choose_spec (hlt _)
      | false =>
        have hp : pushd L p s = (.error .notADirectoryError, s) := by simp [pushd, hi]
        rw [hp]
        exact ⟨by simp [hlt], fun h => by simp at h, fun _ => ⟨rfl, .inl rfl⟩, fun h => absurd h (hlt _)⟩

/-- **C50**: when the working directory has been removed there is nothing to come back to: `pushd` raises and changes nothing. -/
theorem C50_removed (L : Limits) (p : UserPath) (s : Dirs) (hcwd : ∀ b, s.tree s.cwd ≠ some (.dir b)) :
    (∃ e, pushd L p s = (.error e, s)) ∧ (isDir L s.tree s.cwd p = .ok true → pushd L p s = (.error .fileNotFoundError, s)) := by
  unfold pushd
  rw [askCwd_gone hcwd]
  cases isDir L s.tree s.cwd p with
  | error e => exact ⟨⟨e, rfl⟩, nofun⟩
  | ok b => cases b with
    | false => exact ⟨⟨_, rfl⟩, nofun⟩
    | true => exact ⟨⟨_, rfl⟩, fun _ => rfl⟩

/-- **C51**: a directory cannot be entered from a working directory that has been removed; nothing changes and the body is not run. -/
theorem C51_removed (L : Limits) (hs : Bool) (o : Nat) (p : UserPath) (body : Script) (s : World)
    (hcwd : ∀ b, s.tree s.cwd ≠ some (.dir b)) (hdir : isDir L s.tree s.cwd p = .ok true) :
    (Script.block o p body).run L hs s = (.error .fileNotFoundError, s) := by
  simp only [Script.run, enter, hdir, askCwd_gone hcwd]

/-- **C51**: entering a cache is entering its path, except that for what is not a directory it is a `TypeError` with every version of
pathlib. -/
theorem C51_cache (L : Limits) (hs : Bool) (o : Nat) (p : UserPath) (s : World) :
    (enterCache L o p s = enter L hs o p s ↔ isDir L s.tree s.cwd p ≠ .ok false) ∧
    (isDir L s.tree s.cwd p = .ok false → enterCache L o p s = (.error .typeError, s)) := by
  unfold enterCache enter
  cases isDir L s.tree s.cwd p with
  | error e => simp
  | ok b => cases b <;> cases hs <;> simp

/-- A process whose directory is gone asks for the root. -/
example : ∃ t : Tree, (∀ b, t [lit "gone"] ≠ some (.dir b)) ∧ isDir ⟨255, 40⟩ t [lit "gone"] ⟨true, []⟩ = .ok true := by
  refine ⟨fun p => if p = [] then some (.dir true) else none, by simp, ?_⟩
  simp [isDir, test, stat, walk, start, node]

/-- **C50 is false** when the directory to go back to is gone: `popd` raises, but the entry is off the stack. -/
theorem C50_failed_popd_counterexample (L : Limits) (s : Dirs) (older : List UserPath) (x : UserPath)
    (h : s.stack = older ++ [x]) (hx : ¬ ∃ y, LeadsTo L s.tree s.cwd x y) :
    ∃ e, popd L 0 s = (.error e, { s with stack := older }) := by
  rw [popd_snoc h]
  have : ∃ e, chdirTo L s.tree s.cwd x = .error e := by
    unfold chdirTo
    cases hw : walk L s.tree L.maxLinks (start s.cwd x.absolute) x.comps with
    | error e => exact ⟨_, rfl⟩
    | ok q =>
      dsimp only
      obtain ⟨k, h1, h2⟩ := (walk_ok_iff ..).1 hw
      cases hq : s.tree q with
      | none => exact ⟨_, rfl⟩
      | some y => exact absurd ⟨y, k, q, h1, h2, hq⟩ hx
  obtain ⟨e, he⟩ := this
  exact ⟨e, by rw [he]⟩

example : ¬ ∃ y, LeadsTo ⟨255, 40⟩ (fun p => if p = [] then some (.dir true) else none) [] ⟨true, [lit "g"]⟩ y := by
  rintro ⟨y, h⟩
  rw [← stat_ok_iff] at h
  simp [stat, walk, start, lit, utf8, Char.utf8Size] at h

/-- **C51**: on something that is not a directory the statement does nothing but run its body, where pathlib has `__enter__` (up to 3.12);
where it does not, the body is not run and it is an `AttributeError`. -/
theorem C51_not_directory (L : Limits) (o : Nat) (p : UserPath) (body : Script) (hu : ¬Uses o body) (s : World)
    (hdir : isDir L s.tree s.cwd p = .ok false) :
    (s.enteredFrom o = none → (Script.block o p body).run L true s = body.run L true s) ∧
    (Script.block o p body).run L false s = (.error .attributeError, s) := by
  constructor
  · intro hn
    have h2 := run_enteredFrom L true o body hu s
    simp only [Script.run, enter, hdir, if_true]
    rcases hb : body.run L true s with ⟨r, s2⟩
    rw [hb, hn] at h2
    dsimp only at h2
    simp only [leave, h2, if_true]
  · simp only [Script.run, enter, hdir, Bool.false_eq_true, if_false]

example : isDir ⟨255, 40⟩ (fun q => if q = [] then some (.dir true) else none) [] ⟨true, [lit "d"]⟩ = .ok false := by
  simp [isDir, test, stat, walk, start, ignored, lit, utf8, Char.utf8Size]

/-- **C50**: what `popd` does, by what the newest entry leads to.  The entry is off the stack each time. -/
theorem C50_popd (L : Limits) (s : Dirs) (older : List UserPath) (x : UserPath) (h : s.stack = older ++ [x]) :
    (LeadsTo L s.tree s.cwd x (.dir true) → ∃ q k, k ≤ L.maxLinks ∧ Leads L s.tree k (start s.cwd x.absolute) x.comps q ∧
      popd L 0 s = (.ok (some x), ⟨s.tree, q, older⟩)) ∧
    (LeadsTo L s.tree s.cwd x (.dir false) → popd L 0 s = (.error .permissionError, { s with stack := older })) ∧
    (∀ y, LeadsTo L s.tree s.cwd x y → (∀ b, y ≠ .dir b) → popd L 0 s = (.error .notADirectoryError, { s with stack := older })) := by
  rw [popd_snoc h]
  have key : ∀ y, LeadsTo L s.tree s.cwd x y → ∃ q k, k ≤ L.maxLinks ∧ Leads L s.tree k (start s.cwd x.absolute) x.comps q ∧ s.tree q = some y ∧
      walk L s.tree L.maxLinks (start s.cwd x.absolute) x.comps = .ok q := by
    rintro y ⟨k, q, h1, h2, h3⟩
    exact ⟨q, k, h1, h2, h3, (walk_ok_iff ..).2 ⟨k, h1, h2⟩⟩
  refine ⟨fun hy => ?_, fun hy => ?_, fun y hy hd => ?_⟩
  · obtain ⟨q, k, h1, h2, h3, h4⟩ := key _ hy
    exact ⟨q, k, h1, h2, by simp [chdirTo, h4, h3]⟩
  · obtain ⟨q, k, h1, h2, h3, h4⟩ := key _ hy
    simp [chdirTo, h4, h3]
  · obtain ⟨q, k, h1, h2, h3, h4⟩ := key _ hy
    cases y with
    | dir b => exact absurd rfl (hd b)
    | _ => simp [chdirTo, h4, h3]

/-- A file where the directory was -/
example : popd ⟨255, 40⟩ 0 ⟨fun p => if p = [] then some (.dir true) else if p = [lit "g"] then some (.file []) else none, [], [⟨true, [lit "g"]⟩]⟩ =
    (.error .notADirectoryError, ⟨fun p => if p = [] then some (.dir true) else if p = [lit "g"] then some (.file []) else none, [], []⟩) := by
  refine (C50_popd _ _ [] _ rfl).2.2 (.file []) ?_ nofun
  rw [← stat_ok_iff]
  simp [stat, walk, start, node, lit, utf8, Char.utf8Size]

end Verif.FS
