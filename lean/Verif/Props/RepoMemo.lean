import Verif.Model.RepoMemo
import Verif.Lemmas.Decide

/-!
# C98: which repository a path gives after any history
-/

namespace Verif.RepoMemo
open Verif.FS

/-! ## Specification -/

/-- `d` is the nearest directory at or above `p` with a `.git`. -/
def Nearest (git : Path → Option Git) (p d : Path) : Prop :=
  d <+: p ∧ (git d).isSome ∧ ∀ q, q <+: p → (git q).isSome → q.length ≤ d.length

/-- The histories in which each step, at the state it happens in, is allowed. -/
inductive Reach (ok : World → Op → Prop) : World → Prop
  | start {w} : w.fresh → Reach ok w
  | step {w} (o : Op) : Reach ok w → ok w o → Reach ok (w.step o)

/-- Anything may happen. -/
abbrev Anything : World → Op → Prop := fun _ _ => True

/-- Other programs may do anything but put a repository where the process has opened another one, and `init` is not given a
relative path. -/
def Tame (w : World) : Op → Prop
  | .outside _ git => ∀ d, git d = none ∨ git d = w.git d ∨ w.memo ⟨true, d⟩ = none
  | .init p _ => p.absolute = true
  | _ => True

/-! ## Lemmas -/

theorem wda_spec (g : Path → Bool) : ∀ (n : Nat) (p : Path), p.length ≤ n →
    ∃ r, workingDirAbs (fun q => .ok (g q)) p = .ok r ∧
      (r = none → ∀ q, q <+: p → g q = false) ∧
      (∀ d, r = some d → d <+: p ∧ g d = true ∧ ∀ q, q <+: p → g q = true → q.length ≤ d.length) := by
  intro n
  induction n with
  | zero =>
    intro p hp
    have : p = [] := List.length_eq_zero_iff.1 (by omega)
    subst this
    rw [workingDirAbs]
    cases h : g [] with
    | true =>
      refine ⟨_, rfl, by simp, ?_⟩
      intro d hd; cases hd
      exact ⟨List.prefix_rfl, h, fun q hq _ => hq.length_le⟩
    | false =>
      refine ⟨none, by simp, ?_, by simp⟩
      intro _ q hq
      rw [List.prefix_nil] at hq; subst hq; exact h
  | succ n ih =>
    intro p hp
    rw [workingDirAbs]
    cases h : g p with
    | true =>
      refine ⟨_, rfl, by simp, ?_⟩
      intro d hd; cases hd
      exact ⟨List.prefix_rfl, h, fun q hq _ => hq.length_le⟩
    | false =>
      by_cases he : p = []
      · subst he
        refine ⟨none, by simp, ?_, by simp⟩
        intro _ q hq
        rw [List.prefix_nil] at hq; subst hq; exact h
      · have hl : (parentOf p).length ≤ n := by
          simp only [parentOf, List.length_dropLast]; omega
        obtain ⟨r, h1, h2, h3⟩ := ih (parentOf p) hl
        have hpre : ∀ q, q <+: p → q = p ∨ q <+: parentOf p := by
          intro q hq
          rcases Nat.lt_or_ge q.length p.length with hlt | hge
          · right
            rw [List.prefix_iff_eq_take] at hq ⊢
            rw [parentOf, List.dropLast_eq_take, List.take_take, Nat.min_eq_left (by omega)]
            exact hq
          · left; exact hq.eq_of_length (Nat.le_antisymm hq.length_le hge)
        refine ⟨r, by simp [he, h1], ?_, ?_⟩
        · intro hr q hq
          rcases hpre q hq with rfl | hq
          · exact h
          · exact h2 hr q hq
        · intro d hd
          obtain ⟨a, b, c⟩ := h3 d hd
          refine ⟨a.trans (List.dropLast_prefix p), b, ?_⟩
          intro q hq hg
          rcases hpre q hq with rfl | hq
          · rw [h] at hg; cases hg
          · exact c q hq hg

/-- What `working_dir` finds. -/
theorem workingDir_spec (w : World) (p : UserPath) :
    (w.workingDir p = none → ∀ q, q <+: absolute w.cwd p → w.git q = none) ∧
    (∀ d, w.workingDir p = some d → Nearest w.git (absolute w.cwd p) d) := by
  have key : ∀ a : Path, ∃ r, workingDirAbs (fun q => .ok (w.hasGit q)) a = .ok r ∧
      (r = none → ∀ q, q <+: a → w.hasGit q = false) ∧
      (∀ d, r = some d → d <+: a ∧ w.hasGit d = true ∧ ∀ q, q <+: a → w.hasGit q = true → q.length ≤ d.length) :=
    fun a => wda_spec w.hasGit a.length a (Nat.le_refl _)
  have hno : ∀ q, w.hasGit q = false → w.git q = none := by
    intro q h; simpa [World.hasGit] using h
  unfold World.workingDir absolute
  dsimp only
  by_cases ha : p.absolute = true
  · simp only [ha, if_true]
    obtain ⟨r, h1, h2, h3⟩ := key p.comps
    rw [h1]
    exact ⟨fun hr q hq => hno q (h2 hr q hq), fun d hd => h3 d hd⟩
  · simp only [ha, Bool.false_eq_true, if_false]
    cases hg : w.hasGit (w.cwd ++ p.comps) with
    | true =>
      simp only [if_true]
      refine ⟨by simp, ?_⟩
      intro d hd; cases hd
      exact ⟨List.prefix_rfl, hg, fun q hq _ => hq.length_le⟩
    | false =>
      simp only [Bool.false_eq_true, if_false]
      obtain ⟨r, h1, h2, h3⟩ := key (w.cwd ++ p.comps)
      have hr : ∃ r', workingDirAbs (fun q => .ok (w.hasGit q)) (parentOf (w.cwd ++ p.comps)) = .ok r' ∧ r' = r := by
        rw [workingDirAbs] at h1
        simp only [hg] at h1
        by_cases he : w.cwd ++ p.comps = []
        · refine ⟨none, ?_, ?_⟩
          · rw [he, workingDirAbs]; rw [he] at hg; simp [parentOf, hg]
          · simpa [he] using h1
        · exact ⟨r, by simpa [he] using h1, rfl⟩
      obtain ⟨r', h4, rfl⟩ := hr
      rw [h4]
      exact ⟨fun hr q hq => hno q (h2 hr q hq), fun d hd => h3 d hd⟩

/-- What is true of the objects that are kept, whatever happens. -/
structure Inv (w : World) : Prop where
  dir : ∀ (k : UserPath) (h : Handle), w.memo k = some h → k.absolute = true → h.dir = k.comps
  old : ∀ (k : UserPath) (h : Handle), w.memo k = some h → h.obj < w.next
  isOpen : ∀ (k : UserPath) (h : Handle), w.memo k = some h → w.closed h.obj = false
  one : ∀ (k k' : UserPath) (h h' : Handle), w.memo k = some h → w.memo k' = some h' → h.obj = h'.obj → k = k'
  was : ∀ o, w.closed o = true → o < w.next

theorem set_some {m : UserPath → Option Handle} {k q : UserPath} {v h : Handle} (e : set m k (some v) q = some h) :
    (q = k ∧ h = v) ∨ m q = some h := by
  unfold set at e
  split at e
  · rename_i hk; cases e; exact .inl ⟨hk, rfl⟩
  · exact .inr e

theorem set_none {m : UserPath → Option Handle} {k q : UserPath} {h : Handle} (e : set m k none q = some h) :
    q ≠ k ∧ m q = some h := by
  unfold set at e
  split at e
  · cases e
  · rename_i hk; exact ⟨hk, e⟩

theorem Inv.insert {w : World} (I : Inv w) (k : UserPath) (h : Handle) (n : Nat) (hd : k.absolute = true → h.dir = k.comps)
    (h1 : w.next ≤ h.obj) (h2 : h.obj < n) (t : Path → Bool) (g : Path → Option Git) :
    Inv { w with memo := set w.memo k (some h), next := n, there := t, git := g } := by
  have hc : w.closed h.obj = false := by
    cases hc : w.closed h.obj with
    | false => rfl
    | true => have := I.was _ hc; omega
  refine ⟨?_, ?_, ?_, ?_, ?_⟩
  · intro q x hq ha
    rcases set_some hq with ⟨rfl, rfl⟩ | hq
    · exact hd ha
    · exact I.dir q x hq ha
  · intro q x hq
    rcases set_some hq with ⟨rfl, rfl⟩ | hq
    · exact h2
    · have := I.old q x hq
      show x.obj < n
      omega
  · intro q x hq
    rcases set_some hq with ⟨rfl, rfl⟩ | hq
    · exact hc
    · exact I.isOpen q x hq
  · intro q q' x x' hq hq' e
    rcases set_some hq with ⟨a, b⟩ | a <;> rcases set_some hq' with ⟨a', b'⟩ | a'
    · rw [a, a']
    · have := I.old _ _ a'; rw [b] at e; omega
    · have := I.old _ _ a; rw [b'] at e; omega
    · exact I.one _ _ _ _ a a' e
  · intro o ho
    have := I.was o ho
    show o < n
    omega

theorem Inv.erase {w : World} (I : Inv w) (k : UserPath) : Inv { w with memo := set w.memo k none } := by
  refine ⟨?_, ?_, ?_, ?_, I.was⟩
  · intro q x hq; exact I.dir q x (set_none hq).2
  · intro q x hq; exact I.old q x (set_none hq).2
  · intro q x hq; exact I.isOpen q x (set_none hq).2
  · intro q q' x x' hq hq'; exact I.one _ _ _ _ (set_none hq).2 (set_none hq').2

/-- What `repo` does. -/
theorem repo_cases (w : World) (p : UserPath) :
    (w.workingDir p = none ∧ w.repo p = (.error .gitError, w)) ∨
    ∃ d, w.workingDir p = some d ∧
      ((∃ h, w.memo ⟨true, d⟩ = some h ∧ w.repo p = (.ok h, w)) ∨
       (w.memo ⟨true, d⟩ = none ∧ w.git d = some .bogus ∧ w.repo p = (.error .foreign, w)) ∨
       (∃ n, w.memo ⟨true, d⟩ = none ∧ w.git d = some (.repo n) ∧
        w.repo p = (.ok ⟨w.next, d, n⟩, { w with memo := set w.memo ⟨true, d⟩ (some ⟨w.next, d, n⟩), next := w.next + 1 }))) := by
  unfold World.repo
  cases hd : w.workingDir p with
  | none => exact .inl ⟨rfl, rfl⟩
  | some d =>
    right
    refine ⟨d, rfl, ?_⟩
    dsimp only
    cases hm : w.memo ⟨true, d⟩ with
    | some h => exact .inl ⟨h, rfl, rfl⟩
    | none =>
      right
      have := ((workingDir_spec w p).2 d hd).2.1
      unfold World.opens
      cases hg : w.git d with
      | none => rw [hg] at this; cases this
      | some g =>
        cases g with
        | bogus => exact .inl ⟨rfl, rfl, rfl⟩
        | repo n => exact .inr ⟨n, rfl, rfl, rfl⟩

theorem repo_inv {w : World} (I : Inv w) (p : UserPath) : Inv (w.repo p).2 := by
  rcases repo_cases w p with ⟨_, e⟩ | ⟨d, _, ⟨h, _, e⟩ | ⟨_, _, e⟩ | ⟨n, _, _, e⟩⟩ <;> rw [e]
  · exact I
  · exact I
  · exact I
  · exact I.insert _ _ _ (fun _ => rfl) (Nat.le_refl _) (Nat.lt_succ_self _) w.there w.git

theorem make_inv {w : World} (I : Inv w) (p : UserPath) (b : Bool) : Inv (w.make p b).2 := by
  unfold World.make
  split
  · refine I.insert p _ _ ?_ ?_ ?_ _ _
    · intro ha; simp [absolute, ha]
    · simp [World.create]
    · simp
  · exact I

/-- What `init` does: it gives up, or makes a repository where there is none at or above, or (never, see `C98_init`) where the
directory of a repository is missing. -/
theorem init_cases (w : World) (p : UserPath) (b : Bool) :
    (∃ e, w.init p b = (.error e, (w.repo p).2)) ∨
    (w.workingDir p = none ∧ w.init p b = w.make p b) ∨
    (∃ h, (w.repo p).1 = .ok h ∧ (w.repo p).2.there (absolute (w.repo p).2.cwd p) = false ∧ p.absolute = true ∧ h.dir = p.comps ∧
      w.init p b = { (w.repo p).2 with memo := set (w.repo p).2.memo p none }.make p b) := by
  unfold World.init
  rcases repo_cases w p with ⟨hw, e⟩ | ⟨d, hd, ⟨h, _, e⟩ | ⟨_, _, e⟩ | ⟨n, _, _, e⟩⟩ <;> rw [e]
  · exact .inr (.inl ⟨hw, rfl⟩)
  · dsimp only
    split
    · exact .inl ⟨_, rfl⟩
    · rename_i ht
      split
      · rename_i hp
        simp only [Bool.and_eq_true, decide_eq_true_eq] at hp
        split
        · exact .inl ⟨_, rfl⟩
        · exact .inr (.inr ⟨h, rfl, by simpa using ht, hp.1, hp.2, rfl⟩)
      · exact .inl ⟨_, rfl⟩
  · exact .inl ⟨_, rfl⟩
  · dsimp only
    split
    · exact .inl ⟨_, rfl⟩
    · rename_i ht
      split
      · rename_i hp
        simp only [Bool.and_eq_true, decide_eq_true_eq] at hp
        split
        · exact .inl ⟨_, rfl⟩
        · exact .inr (.inr ⟨_, rfl, by simpa using ht, hp.1, hp.2, rfl⟩)
      · exact .inl ⟨_, rfl⟩

theorem step_inv {w : World} (I : Inv w) (o : Op) : Inv (w.step o) := by
  cases o with
  | repo p => exact repo_inv I p
  | init p b =>
    show Inv (w.init p b).2
    rcases init_cases w p b with ⟨e, h⟩ | ⟨_, h⟩ | ⟨x, _, _, _, _, h⟩ <;> rw [h]
    · exact repo_inv I p
    · exact make_inv I p b
    · exact make_inv ((repo_inv I p).erase p) p b
  | rmtree p g =>
    show Inv (w.rmtree p g)
    unfold World.rmtree
    cases hm : w.memo p with
    | none => exact ⟨I.dir, I.old, I.isOpen, I.one, I.was⟩
    | some h =>
      have J := I.erase p
      refine ⟨J.dir, J.old, ?_, J.one, ?_⟩
      · intro k x hk
        obtain ⟨hne, hk'⟩ := set_none hk
        have h1 := I.isOpen k x hk'
        have h2 : x.obj ≠ h.obj := fun e => hne (I.one _ _ _ _ hk' hm e)
        simp [h1, h2]
      · intro o ho
        simp only [Bool.or_eq_true, decide_eq_true_eq] at ho
        rcases ho with rfl | ho
        · exact I.old p h hm
        · exact I.was o ho
  | chdir d => exact ⟨I.dir, I.old, I.isOpen, I.one, I.was⟩
  | outside t g => exact ⟨I.dir, I.old, I.isOpen, I.one, I.was⟩

theorem reach_inv {ok : World → Op → Prop} {w : World} (r : Reach ok w) : Inv w := by
  induction r with
  | start h =>
    refine ⟨?_, ?_, ?_, ?_, ?_⟩
    · intro k x hk; rw [h.1] at hk; cases hk
    · intro k x hk; rw [h.1] at hk; cases hk
    · intro k x hk; rw [h.1] at hk; cases hk
    · intro k _ x _ hk; rw [h.1] at hk; cases hk
    · intro o ho; rw [h.2] at ho; cases ho
  | step o _ _ ih => exact step_inv ih o

/-! ## Theorems -/

/-- After any history, the repository that a path gives has the nearest directory with a `.git` as its working directory, and has
not been closed. -/
theorem C98_dir {w : World} (r : Reach Anything w) (p : UserPath) (h : Handle) (e : (w.repo p).1 = .ok h) :
    Nearest w.git (absolute w.cwd p) h.dir ∧ (w.repo p).2.closed h.obj = false := by
  have I := reach_inv r
  rcases repo_cases w p with ⟨_, e'⟩ | ⟨d, hd, ⟨x, hm, e'⟩ | ⟨_, _, e'⟩ | ⟨n, hm, hg, e'⟩⟩ <;> rw [e'] at e ⊢
  · cases e
  · cases e
    rw [I.dir _ _ hm rfl]
    exact ⟨(workingDir_spec w p).2 d hd, I.isOpen _ _ hm⟩
  · cases e
  · cases e
    refine ⟨(workingDir_spec w p).2 d hd, ?_⟩
    cases hc : w.closed w.next with
    | false => rfl
    | true => have := I.was _ hc; omega

/-- `repo` raises `NotInRepoError` exactly when nothing at or above the path has a `.git`, `InvalidGitRepositoryError` exactly when
the nearest `.git` is not one of a repository and was not one of an opened one, and nothing else. -/
theorem C98_raises (w : World) (p : UserPath) :
    ((w.repo p).1 = .error .gitError ↔ ∀ q, q <+: absolute w.cwd p → w.git q = none) ∧
    ((w.repo p).1 = .error .foreign ↔
      ∃ d, Nearest w.git (absolute w.cwd p) d ∧ w.git d = some .bogus ∧ w.memo ⟨true, d⟩ = none) ∧
    ∀ e, (w.repo p).1 = .error e → e = .gitError ∨ e = .foreign := by
  have uniq : ∀ a d d', Nearest w.git a d → Nearest w.git a d' → d = d' := by
    intro a d d' h h'
    have hl := Nat.le_antisymm (h'.2.2 d h.1 h.2.1) (h.2.2 d' h'.1 h'.2.1)
    have e1 := List.prefix_iff_eq_take.1 h.1
    have e2 := List.prefix_iff_eq_take.1 h'.1
    rw [e1, e2, hl]
  rcases repo_cases w p with ⟨hw, e⟩ | ⟨d, hd, h⟩
  · have hn := (workingDir_spec w p).1 hw
    rw [e]
    refine ⟨⟨fun _ => hn, fun _ => rfl⟩, ⟨fun h => (by cases h), ?_⟩, fun e h => .inl (by cases h; rfl)⟩
    rintro ⟨d, hd, hb, _⟩
    rw [hn d hd.1] at hb; cases hb
  · have hn := (workingDir_spec w p).2 d hd
    have hno : ¬ ∀ q, q <+: absolute w.cwd p → w.git q = none := by
      intro h
      have := hn.2.1; rw [h d hn.1] at this; cases this
    rcases h with ⟨x, hm, e⟩ | ⟨hm, hg, e⟩ | ⟨n, hm, hg, e⟩ <;> rw [e]
    · refine ⟨⟨fun h => (by cases h), fun h => absurd h hno⟩, ⟨fun h => (by cases h), ?_⟩, fun e h => (by cases h)⟩
      rintro ⟨d', h, _, h'⟩
      rw [uniq _ _ _ h hn, hm] at h'; cases h'
    · exact ⟨⟨fun h => (by cases h), fun h => absurd h hno⟩, ⟨fun _ => ⟨d, hn, hg, hm⟩, fun _ => rfl⟩,
        fun e h => .inr (by cases h; rfl)⟩
    · refine ⟨⟨fun h => (by cases h), fun h => absurd h hno⟩, ⟨fun h => (by cases h), ?_⟩, fun e h => (by cases h)⟩
      rintro ⟨d', h, h', _⟩
      rw [uniq _ _ _ h hn, hg] at h'; cases h'

/-- What is kept for a directory is kept whatever happens, unless exactly this directory is given to `rmtree` or `init`. -/
theorem C98_kept (w : World) (o : Op) (k : UserPath) (h : Handle) (hm : w.memo k = some h)
    (h1 : ∀ g, o ≠ .rmtree k g) (h2 : ∀ b, o ≠ .init k b) : (w.step o).memo k = some h := by
  have hrepo : ∀ p, (w.repo p).2.memo k = some h := by
    intro p
    rcases repo_cases w p with ⟨_, e⟩ | ⟨d, _, ⟨x, _, e⟩ | ⟨_, _, e⟩ | ⟨n, hn, _, e⟩⟩ <;> rw [e]
    · exact hm
    · exact hm
    · exact hm
    · have : k ≠ ⟨true, d⟩ := by rintro rfl; rw [hn] at hm; cases hm
      simp [set, this, hm]
  cases o with
  | repo p => exact hrepo p
  | init p b =>
    have hp : k ≠ p := by rintro rfl; exact h2 b rfl
    show (w.init p b).2.memo k = some h
    rcases init_cases w p b with ⟨e, h⟩ | ⟨_, h⟩ | ⟨x, _, _, _, _, h⟩ <;> rw [h]
    · exact hrepo p
    · cases b <;> simp [World.make, World.create, set, hp, hm]
    · cases b <;> simp [World.make, World.create, set, hp, hrepo]
  | rmtree p g =>
    have hp : k ≠ p := by rintro rfl; exact h1 g rfl
    show (w.rmtree p g).memo k = some h
    unfold World.rmtree
    cases hx : w.memo p with
    | none => exact hm
    | some x => simp [set, hp, hm]
  | chdir d => exact hm
  | outside t g => exact hm

/-- Asking again, for any path with the same nearest `.git`, gives the same object and opens nothing. -/
theorem C98_same {w : World} (p q : UserPath) (h : Handle) (e : (w.repo p).1 = .ok h) (d : Path)
    (hp : Nearest w.git (absolute w.cwd p) d) (hq : Nearest w.git (absolute w.cwd q) d) :
    (w.repo p).2.repo q = (.ok h, (w.repo p).2) := by
  have uniq : ∀ a d d', Nearest w.git a d → Nearest w.git a d' → d = d' := by
    intro a d d' h h'
    have hl := Nat.le_antisymm (h'.2.2 d h.1 h.2.1) (h.2.2 d' h'.1 h'.2.1)
    have e1 := List.prefix_iff_eq_take.1 h.1
    have e2 := List.prefix_iff_eq_take.1 h'.1
    rw [e1, e2, hl]
  have hmemo : (w.repo p).2.memo ⟨true, d⟩ = some h ∧ (w.repo p).2.git = w.git ∧ (w.repo p).2.cwd = w.cwd := by
    rcases repo_cases w p with ⟨_, e'⟩ | ⟨d', hd, ⟨x, hm, e'⟩ | ⟨_, _, e'⟩ | ⟨n, hm, hg, e'⟩⟩ <;> rw [e'] at e ⊢
    · cases e
    · cases e; rw [uniq _ _ _ hp ((workingDir_spec w p).2 d' hd)]; exact ⟨hm, rfl, rfl⟩
    · cases e
    · cases e; rw [uniq _ _ _ hp ((workingDir_spec w p).2 d' hd)]; exact ⟨by simp [set], rfl, rfl⟩
  obtain ⟨hm, hg, hc⟩ := hmemo
  generalize (w.repo p).2 = v at hm hg hc
  rw [← hg, ← hc] at hq
  rcases repo_cases v q with ⟨hw, _⟩ | ⟨d', hd, h'⟩
  · have := (workingDir_spec v q).1 hw d hq.1
    have h2 := hq.2.1
    rw [this] at h2; cases h2
  · have hd' := (workingDir_spec v q).2 d' hd
    have : d' = d := by rw [hg, hc] at hd' hq; exact uniq _ _ _ hd' hq
    subst this
    rw [hm] at h'
    rcases h' with ⟨x, hx, e'⟩ | ⟨hx, _⟩ | ⟨_, hx, _⟩
    · cases hx; exact e'
    · cases hx
    · cases hx

/-- The object kept for a directory is of the repository that is there now, if one is there. -/
def Fresh (w : World) : Prop :=
  ∀ (d : Path) (h : Handle) (g : Git), w.memo ⟨true, d⟩ = some h → w.git d = some g → g = .repo h.rid

theorem repo_fresh {w : World} (F : Fresh w) (p : UserPath) : Fresh (w.repo p).2 := by
  rcases repo_cases w p with ⟨_, e⟩ | ⟨d, _, ⟨x, _, e⟩ | ⟨_, _, e⟩ | ⟨n, hn, hg, e⟩⟩ <;> rw [e]
  · exact F
  · exact F
  · exact F
  · intro q h g hm hq
    rcases set_some hm with ⟨hk, rfl⟩ | hm
    · cases hk
      have hq : w.git d = some g := hq
      rw [hg] at hq; cases hq; rfl
    · exact F q h g hm hq

theorem make_fresh {w : World} (F : Fresh w) (p : UserPath) (ha : p.absolute = true) (b : Bool) : Fresh (w.make p b).2 := by
  unfold World.make
  split
  · intro q h g hm hq
    have hq : (if q = absolute w.cwd p then some (Git.repo w.next) else w.git q) = some g := hq
    have hm : set w.memo p (some ⟨w.next + 1, absolute w.cwd p, w.next⟩) ⟨true, q⟩ = some h := hm
    by_cases hqp : q = absolute w.cwd p
    · have : (⟨true, q⟩ : UserPath) = p := by
        rw [hqp]; cases p; simp only at ha; subst ha; simp [absolute]
      rw [if_pos hqp] at hq
      simp only [set, this, if_true] at hm
      cases hm; cases hq; rfl
    · rw [if_neg hqp] at hq
      rcases set_some hm with ⟨hk, _⟩ | hm
      · exfalso; apply hqp; rw [← hk]; rfl
      · exact F q h g hm hq
  · exact F

theorem step_fresh {w : World} (F : Fresh w) (o : Op) (ht : Tame w o) : Fresh (w.step o) := by
  cases o with
  | repo p => exact repo_fresh F p
  | init p b =>
    show Fresh (w.init p b).2
    rcases init_cases w p b with ⟨e, h⟩ | ⟨_, h⟩ | ⟨x, _, _, _, _, h⟩ <;> rw [h]
    · exact repo_fresh F p
    · exact make_fresh F p ht b
    · refine make_fresh ?_ p ht b
      intro q y g hm hq
      exact repo_fresh F p q y g (set_none hm).2 hq
  | rmtree p g =>
    show Fresh (w.rmtree p g)
    unfold World.rmtree
    cases hx : w.memo p with
    | none =>
      intro q y x hm hq
      dsimp only at hm hq
      split at hq
      · cases hq
      · exact F q y x hm hq
    | some z =>
      intro q y x hm hq
      dsimp only at hm hq
      split at hq
      · cases hq
      · exact F q y x (set_none hm).2 hq
  | chdir d => exact F
  | outside t g =>
    intro q y x hm hq
    rcases ht q with h | h | h
    · have hq : g q = some x := hq
      rw [h] at hq; cases hq
    · have hq : g q = some x := hq
      exact F q y x hm (by rw [← h]; exact hq)
    · have hm : w.memo ⟨true, q⟩ = some y := hm
      rw [h] at hm; cases hm

/-- In a history in which other programs put no repository where the process has opened another one, and `init` gets absolute
paths, the repository that a path gives is the one that is on disk now: also after any removals, by `rmtree` of any directory, by
other programs, or ones that failed on the way, and after repositories are made anew in the same places. -/
theorem C98_fresh {w : World} (r : Reach Tame w) (p : UserPath) (h : Handle) (e : (w.repo p).1 = .ok h) :
    w.git h.dir = some (.repo h.rid) := by
  have I := reach_inv r
  have F : Fresh w := by
    clear I e
    induction r with
    | start hf => intro q y g hm; rw [hf.1] at hm; cases hm
    | step o _ ht ih => exact step_fresh ih o ht
  rcases repo_cases w p with ⟨_, e'⟩ | ⟨d, hd, ⟨x, hm, e'⟩ | ⟨_, _, e'⟩ | ⟨n, hm, hg, e'⟩⟩ <;> rw [e'] at e
  · cases e
  · cases e
    rw [I.dir _ _ hm rfl]
    obtain ⟨g, hg⟩ := Option.isSome_iff_exists.1 ((workingDir_spec w p).2 d hd).2.1
    rw [show (⟨true, d⟩ : UserPath).comps = d from rfl, hg, F d _ g hm hg]
  · cases e
  · cases e; exact hg

/-- The `.git` of a directory is in a directory that exists. -/
def World.sound (w : World) : Prop := ∀ d, (w.git d).isSome → w.there d = true

/-- `init` makes a repository only where none is at or above; the object that it gives is of the new repository, and the same path,
if it is absolute, gives this object from then on.  So the branch for a "stale cache on deleted repo" is never taken. -/
theorem C98_init {w : World} (r : Reach Anything w) (hs : w.sound) (p : UserPath) (b : Bool) (h : Handle) (e : (w.init p b).1 = .ok h) :
    (∀ q, q <+: absolute w.cwd p → w.git q = none) ∧
    h.dir = absolute w.cwd p ∧
    (∀ q, (w.init p b).2.git q = if q = absolute w.cwd p then some (.repo h.rid) else w.git q) ∧
    (p.absolute = true → ((w.init p b).2.repo p) = (.ok h, (w.init p b).2)) := by
  rcases init_cases w p b with ⟨x, h'⟩ | ⟨hw, h'⟩ | ⟨x, hx, ht, ha, hd, h'⟩
  · rw [h'] at e; cases e
  · rw [h'] at e ⊢
    refine ⟨(workingDir_spec w p).1 hw, ?_⟩
    unfold World.make at e ⊢
    cases b with
    | false => cases e
    | true =>
      simp only [if_true] at e ⊢
      cases e
      refine ⟨rfl, fun q => rfl, ?_⟩
      intro ha
      have hk : p = ⟨true, absolute w.cwd p⟩ := by cases p; simp only at ha; subst ha; simp [absolute]
      generalize hv : ({ w.create (absolute w.cwd p) with
        memo := set (w.create (absolute w.cwd p)).memo p
          (some ⟨(w.create (absolute w.cwd p)).next, absolute w.cwd p, w.next⟩),
        next := (w.create (absolute w.cwd p)).next + 1 } : World) = v
      have hg : v.git (absolute w.cwd p) = some (.repo w.next) := by subst hv; simp [World.create]
      have hc : v.cwd = w.cwd := by subst hv; rfl
      have hm : v.memo ⟨true, absolute w.cwd p⟩ =
          some ⟨(w.create (absolute w.cwd p)).next, absolute w.cwd p, w.next⟩ := by
        subst hv; simp only [set]; rw [← hk]; simp
      rcases repo_cases v p with ⟨hw', _⟩ | ⟨d, hd, h2⟩
      · have := (workingDir_spec v p).1 hw' (absolute w.cwd p) (by rw [hc]; exact List.prefix_rfl)
        rw [hg] at this; cases this
      · have hn := (workingDir_spec v p).2 d hd
        have : d = absolute w.cwd p := by
          rw [hc] at hn
          refine hn.1.eq_of_length (Nat.le_antisymm hn.1.length_le ?_)
          exact hn.2.2 _ List.prefix_rfl (by rw [hg]; rfl)
        subst this
        rw [hm] at h2
        rcases h2 with ⟨x, hx, e'⟩ | ⟨hx, _⟩ | ⟨_, hx, _⟩
        · cases hx; exact e'
        · cases hx
        · cases hx
  · exfalso
    have hdisk : (w.repo p).2.there = w.there ∧ (w.repo p).2.cwd = w.cwd := by
      rcases repo_cases w p with ⟨_, e'⟩ | ⟨d, _, ⟨x, _, e'⟩ | ⟨_, _, e'⟩ | ⟨n, _, _, e'⟩⟩ <;> rw [e'] <;> exact ⟨rfl, rfl⟩
    have hn := (C98_dir r p x hx).1
    rw [hd] at hn
    have hp : absolute w.cwd p = p.comps := by simp [absolute, ha]
    rw [hdisk.1, hdisk.2, hp, hs p.comps hn.2.1] at ht
    cases ht

/-- `rmtree` forgets and closes the object of exactly its path, even if it then refuses to remove anything. -/
theorem C98_rmtree (w : World) (p : UserPath) (gone : Path → Bool) :
    (w.rmtree p gone).memo p = none ∧
    (∀ h, w.memo p = some h → (w.rmtree p gone).closed h.obj = true) ∧
    (∀ k, k ≠ p → (w.rmtree p gone).memo k = w.memo k) ∧
    (∀ d, (∀ q, ¬ absolute w.cwd p <+: q ∨ gone q = false) → (w.rmtree p gone).git d = w.git d) := by
  have hgit : ∀ (v : World), v.cwd = w.cwd → ∀ d, (∀ q, ¬ absolute w.cwd p <+: q ∨ gone q = false) →
      ((gone d && decide (absolute v.cwd p <+: d)) ||
        (gone (d ++ [dotgit]) && decide (absolute v.cwd p <+: d ++ [dotgit]))) = false := by
    intro v hv d hd
    rw [hv]
    rcases hd d with h1 | h1 <;> rcases hd (d ++ [dotgit]) with h2 | h2 <;> simp [h1, h2]
  unfold World.rmtree
  cases hm : w.memo p with
  | none =>
    refine ⟨hm, by simp, fun _ _ => rfl, fun d hd => ?_⟩
    simp [hgit w rfl d hd]
  | some h =>
    refine ⟨by simp [set], fun x hx => by cases hx; simp, fun k hk => by simp [set, hk], fun d hd => ?_⟩
    dsimp only
    rw [hgit w rfl d hd]
    simp

/-! ## Where more would be false -/

/-- A disk with the directories of these paths and nothing else, and a process that has opened nothing. -/
def bare (dirs : List Path) : World :=
  ⟨fun q => dirs.contains q, fun _ => none, [], fun _ => none, fun _ => false, 0⟩

theorem bare_fresh (dirs : List Path) : (bare dirs).fresh := ⟨fun _ => rfl, fun _ => rfl⟩

/-- The path of a text for a name. -/
def at_ (s : List String) : UserPath := ⟨true, s.map String.toList⟩

/-- **Removing a directory above leaves the object**, so a clone that `git` on the command line puts there later is not the
repository of the object that is given. -/
theorem C98_parent_counterexample :
    ∃ w, Reach Anything w ∧ ∃ h, (w.repo (at_ ["a", "b"])).1 = .ok h ∧ w.git h.dir = some (.repo 7) ∧ h.rid ≠ 7 := by
  let w0 := bare [[], [lit "a"]]
  let w1 := w0.step (.init (at_ ["a", "b"]) true)
  let w2 := w1.step (.rmtree (at_ ["a"]) (fun _ => true))
  let w3 := w2.step (.outside (fun _ => true) (fun q => if q = [lit "a", lit "b"] then some (.repo 7) else none))
  refine ⟨w3, .step _ (.step _ (.step _ (.start (bare_fresh _)) trivial) trivial) trivial, ?_⟩
  have : (w3.repo (at_ ["a", "b"])).1 = .ok ⟨1, [lit "a", lit "b"], 0⟩ := by decide +kernel
  exact ⟨_, this, by decide +kernel, by decide⟩

/-- The hypotheses of `C98_fresh` hold of a history with a removal from above and a new repository in the same place. -/
example : ∃ w, Reach Tame w ∧ ∃ h, (w.repo (at_ ["a", "b", "c"])).1 = .ok h ∧ h.rid = 2 := by
  let w0 := bare [[], [lit "a"]]
  let w1 := w0.step (.init (at_ ["a", "b"]) true)
  let w2 := w1.step (.rmtree (at_ ["a"]) (fun _ => true))
  let w3 := w2.step (.init (at_ ["a", "b"]) true)
  refine ⟨w3, .step _ (.step _ (.step _ (.start (bare_fresh _)) rfl) trivial) rfl, ?_⟩
  have : (w3.repo (at_ ["a", "b", "c"])).1 = .ok ⟨3, [lit "a", lit "b"], 2⟩ := by decide +kernel
  exact ⟨_, this, rfl⟩

/-- **`init` of a relative path keeps the object under the relative path**, where `repo` never looks: the path then gives another
object, and, if a repository had been opened there and another program removed it, the object of the one that is gone. -/
theorem C98_relative_counterexample :
    (∃ w, Reach Anything w ∧ ∃ h h', (w.init ⟨false, [lit "b"]⟩ true).1 = .ok h ∧
      ((w.init ⟨false, [lit "b"]⟩ true).2.repo ⟨false, [lit "b"]⟩).1 = .ok h' ∧ h'.obj ≠ h.obj) ∧
    (∃ w, Reach Anything w ∧ ∃ h h', (w.init ⟨false, [lit "b"]⟩ true).1 = .ok h ∧
      ((w.init ⟨false, [lit "b"]⟩ true).2.repo ⟨false, [lit "b"]⟩).1 = .ok h' ∧ h'.rid ≠ h.rid) := by
  let w0 := bare [[]]
  refine ⟨⟨w0, .start (bare_fresh _), ⟨1, [lit "b"], 0⟩, ⟨2, [lit "b"], 0⟩, by decide +kernel, by decide +kernel, by decide⟩, ?_⟩
  let w1 := w0.step (.init (at_ ["b"]) true)
  let w2 := w1.step (.outside (fun q => q.isEmpty) (fun _ => none))
  exact ⟨w2, .step _ (.step _ (.start (bare_fresh _)) trivial) trivial,
    ⟨3, [lit "b"], 2⟩, ⟨1, [lit "b"], 0⟩, by decide +kernel, by decide +kernel, by decide⟩

/-- **`init` of a missing path inside a repository** raises an `AssertionError`, not a `RepoExistsError`. -/
theorem C98_missing_counterexample :
    ∃ w, Reach Anything w ∧ w.sound ∧ (w.init (at_ ["b", "c"]) true).1 = .error .assertionError := by
  refine ⟨(bare [[]]).step (.init (at_ ["b"]) true), .step _ (.start (bare_fresh _)) trivial, ?_, by decide +kernel⟩
  intro d hd
  by_cases h : d = [lit "b"]
  · subst h; decide +kernel
  · exfalso
    have : ((bare [[]]).step (.init (at_ ["b"]) true)).git d = none := by
      have hq := C98_init (w := bare [[]]) (.start (bare_fresh _)) (fun d hd => by cases hd) (at_ ["b"]) true
        ⟨1, [lit "b"], 0⟩ (by decide +kernel)
      have h3 := hq.2.2.1 d
      rw [if_neg (by exact h)] at h3
      exact h3
    rw [this] at hd; cases hd

/-- **A refused `rmtree` closes the object** that the caller may still hold, and the next one is another object. -/
theorem C98_refused_counterexample :
    ∃ w, Reach Anything w ∧ ∃ h h', (w.repo (at_ ["b"])).1 = .ok h ∧
      (w.step (.rmtree (at_ ["b"]) fun _ => false)).closed h.obj = true ∧
      ((w.step (.rmtree (at_ ["b"]) fun _ => false)).repo (at_ ["b"])).1 = .ok h' ∧ h'.obj ≠ h.obj := by
  exact ⟨(bare [[]]).step (.init (at_ ["b"]) true), .step _ (.start (bare_fresh _)) trivial,
    ⟨1, [lit "b"], 0⟩, ⟨2, [lit "b"], 0⟩, by decide +kernel, by decide +kernel, by decide +kernel, by decide⟩

/-- Of two paths in one repository the second gets the object of the first. -/
example : ∃ w : World, ∃ h, (w.repo (at_ ["b", "x"])).1 = .ok h ∧ (w.repo (at_ ["b", "x"])).2.memo (at_ ["b"]) = some h ∧
    w.memo (at_ ["b"]) = none ∧ ((w.repo (at_ ["b", "x"])).2.repo (at_ ["b", "y", "z"])).1 = .ok h :=
  ⟨{ bare [[]] with git := fun q => if q = [lit "b"] then some (.repo 4) else none }, ⟨0, [lit "b"], 4⟩,
    by decide +kernel, by decide +kernel, by decide +kernel, by decide +kernel⟩

/-- **Only the process itself changes where relative paths start**: nothing that is done with repositories changes the current directory, so
that it is the last one that was changed to. -/
theorem C98_cwd (ops : List Op) (w : World) :
    (ops.foldl World.step w).cwd = ((ops.filterMap fun | .chdir d => some d | _ => none).getLast?).getD w.cwd := by
  have one : ∀ (w : World) (o : Op), (w.step o).cwd = match o with | .chdir d => d | _ => w.cwd := by
    intro w o
    cases o with
    | repo p => show (w.repo p).2.cwd = w.cwd; unfold World.repo; grind
    | init p b =>
      have hr : ∀ w : World, (w.repo p).2.cwd = w.cwd := by intro w; unfold World.repo; grind
      have hm : ∀ w : World, (w.make p b).2.cwd = w.cwd := by intro w; unfold World.make World.create; grind
      have := hr w
      show (w.init p b).2.cwd = w.cwd
      unfold World.init
      cases hw : w.repo p with
      | mk r w' =>
        rw [hw] at this
        cases r with
        | error e => cases e <;> first | exact this | (dsimp only; rw [hm]; exact this)
        | ok r =>
          dsimp only
          split
          · exact this
          · split
            · split
              · exact this
              · rw [hm]; exact this
            · exact this
    | rmtree p g => show (w.rmtree p g).cwd = w.cwd; unfold World.rmtree; grind
    | chdir d => rfl
    | outside t g => rfl
  induction ops generalizing w with
  | nil => rfl
  | cons o ops ih =>
    rw [List.foldl_cons, ih, one]
    cases o <;> simp [List.getLast?_cons]

example : ([Op.chdir [], .repo ⟨false, []⟩, .chdir [['d']], .repo ⟨false, []⟩].filterMap
    fun | .chdir d => some d | _ => none).getLast? = some [['d']] := rfl

/-- Whatever this process does, each `.git` stays in a directory that exists, so what `C98_init` needs holds after any history in which the other
programs keep to it too; and no directory is removed but by `rmtree`. -/
theorem C98_sound {w : World} (hs : w.sound) (o : Op) (ho : ∀ t g, o = .outside t g → ∀ d, (g d).isSome → t d = true) :
    (w.step o).sound ∧ ∀ d, w.there d = true → (w.step o).there d = true ∨ (∃ p g, o = .rmtree p g ∧ g d = true ∧ absolute w.cwd p <+: d) ∨
      ∃ t g, o = .outside t g := by
  have hrepo : ∀ p, (w.repo p).2.there = w.there ∧ (w.repo p).2.git = w.git := by
    intro p
    rcases repo_cases w p with ⟨_, e'⟩ | ⟨d, _, ⟨x, _, e'⟩ | ⟨_, _, e'⟩ | ⟨n, _, _, e'⟩⟩ <;> rw [e'] <;> exact ⟨rfl, rfl⟩
  have hmake : ∀ (v : World) p b, v.there = w.there → v.git = w.git →
      (v.make p b).2.sound ∧ ∀ d, w.there d = true → (v.make p b).2.there d = true := by
    intro v p b ht hg
    unfold World.make
    cases b with
    | false => exact ⟨fun d hd => by
        show v.there d = true
        rw [ht]
        exact hs d (by rw [← hg]; exact hd), fun d hd => by
        show v.there d = true
        rw [ht]; exact hd⟩
    | true =>
      refine ⟨fun d hd => ?_, fun d hd => ?_⟩
      · show (decide (d <+: absolute v.cwd p) || v.there d) = true
        have hd : (if d = absolute v.cwd p then some (Git.repo v.next) else v.git d).isSome := hd
        by_cases h : d = absolute v.cwd p
        · rw [h]; simp
        · rw [if_neg h, hg] at hd
          rw [ht, hs d hd]; simp
      · show (decide (d <+: absolute v.cwd p) || v.there d) = true
        rw [ht, hd]; simp
  cases o with
  | repo p =>
    show (w.repo p).2.sound ∧ ∀ d, _ → (w.repo p).2.there d = true ∨ _
    unfold World.sound
    rw [(hrepo p).1, (hrepo p).2]
    exact ⟨hs, fun d hd => .inl hd⟩
  | init p b =>
    show (w.init p b).2.sound ∧ ∀ d, _ → (w.init p b).2.there d = true ∨ _
    rcases init_cases w p b with ⟨e, h⟩ | ⟨_, h⟩ | ⟨x, _, _, _, _, h⟩ <;> rw [h]
    · unfold World.sound
      rw [(hrepo p).1, (hrepo p).2]
      exact ⟨hs, fun d hd => .inl hd⟩
    · exact ⟨(hmake w p b rfl rfl).1, fun d hd => .inl ((hmake w p b rfl rfl).2 d hd)⟩
    · have := hmake { (w.repo p).2 with memo := set (w.repo p).2.memo p none } p b (hrepo p).1 (hrepo p).2
      exact ⟨this.1, fun d hd => .inl (this.2 d hd)⟩
  | rmtree p g =>
    show (w.rmtree p g).sound ∧ ∀ d, _ → (w.rmtree p g).there d = true ∨ _
    have hd : ∀ d, (w.rmtree p g).there d = (w.there d && !(g d && decide (absolute w.cwd p <+: d))) ∧ ((w.rmtree p g).git d).isSome =
        ((w.git d).isSome && !(g d && decide (absolute w.cwd p <+: d)) && !(g (d ++ [dotgit]) && decide (absolute w.cwd p <+: d ++ [dotgit]))) := by
      intro d
      have hh : ∀ a b : Bool, (if (a || b) = true then none else w.git d).isSome = ((w.git d).isSome && !a && !b) := by
        intro a b
        cases a <;> cases b <;> simp
      unfold World.rmtree
      cases hm : w.memo p with
      | none =>
        refine ⟨rfl, ?_⟩
        exact hh _ _
      | some h =>
        refine ⟨rfl, ?_⟩
        exact hh _ _
    refine ⟨fun d h => ?_, fun d h => ?_⟩
    · rw [(hd d).2] at h
      rw [(hd d).1]
      simp only [Bool.and_eq_true] at h
      rw [hs d h.1.1]
      simpa using h.1.2
    · rw [(hd d).1, h]
      by_cases hg : g d = true ∧ absolute w.cwd p <+: d
      · exact .inr (.inl ⟨p, g, rfl, hg.1, hg.2⟩)
      · left
        cases hgd : g d with
        | false => rfl
        | true => simpa using fun h => hg ⟨hgd, h⟩
  | chdir d => exact ⟨hs, fun d hd => .inl hd⟩
  | outside t g => exact ⟨ho t g rfl, fun d hd => .inr (.inr ⟨t, g, rfl⟩)⟩

-- C98_sound: a repository is made two levels below where nothing was, beside a directory that stays
example : (bare [[], [['a']]]).sound ∧ ∃ v, v = (bare [[], [['a']]]).step (.init ⟨true, [['b'], ['c']]⟩ true) ∧
    v.there [['a']] = true ∧ v.there [['b']] = true ∧ (v.git [['b'], ['c']]).isSome = true :=
  ⟨fun d h => (by cases h), _, rfl, by decide +kernel, by decide +kernel, by decide +kernel⟩

/-- **C98**: where no repository is and none can be made, `init` lets the exception of GitPython through, and nothing is remembered or changed. -/
theorem C98_not_made (w : World) (p : UserPath) (h : w.workingDir p = none) : w.init p false = (.error .foreign, w) := by
  simp [World.init, World.repo, h, World.make]

example : (⟨fun _ => true, fun _ => none, [], fun _ => none, fun _ => false, 0⟩ : World).workingDir ⟨true, [lit "x"]⟩ = none := by
  decide +kernel

end Verif.RepoMemo
