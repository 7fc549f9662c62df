import Verif.Lemmas.Crumple
import Verif.Lemmas.Decide

/-!
# C29: The trash keeps every version moved into it
-/

namespace Verif.Cache
open Verif.FS

variable {ν : Type} [Kinded ν]

/-- What is known about one move to the trash: the id, the path that the move returned, and everything that was
at and below the moved path just before. -/
structure Record (ν : Type) where
  id : Str
  ret : Path
  content : List Name → Option ν

/-- Everything that may happen to a disk over time: moves to the trash of things that are not in the trash,
failed ones, and anything else that leaves alone what is in the trash.  The latest move comes first. -/
inductive History (T : Trash ν) (d0 : Disk ν) : List (Record ν) → Disk ν → Prop
  | start : History T d0 [] d0
  | other {rs d d'} : History T d0 rs d → (∀ n r, d'.at_ (T.loc ++ n :: r) = d.at_ (T.loc ++ n :: r)) → History T d0 rs d'
  | failed {rs d id src k e s} : History T d0 rs d → T.crumple id src ⟨d, k⟩ = (.error e, s) → History T d0 rs s.disk
  | trashed {rs d id src k p s} : History T d0 rs d → ¬ T.loc <+: src → T.crumple (some id) src ⟨d, k⟩ = (.ok p, s) →
      History T d0 (⟨id, p, fun r => d.at_ (src ++ r)⟩ :: rs) s.disk

/-- An id that makes a file name: not empty, not a dot, not two dots, and not too long for the file system. -/
def Usable (T : Trash ν) (i : Str) : Prop :=
  fsSafeId i ≠ [] ∧ fsSafeId i ≠ ['.'] ∧ fsSafeId i ≠ ['.', '.'] ∧ T.long (fsSafeId i) = false

theorem Usable.place {T : Trash ν} {i : Str} (h : Usable T i) : T.place (fsSafeId i) = T.loc ++ [fsSafeId i] := by
  rw [Trash.place, if_neg h.2.2.1, Trash.path, if_neg (by simp [h.1, h.2.1])]

theorem Usable.short {T : Trash ν} {i : Str} (h : Usable T i) (hF : ∀ n, T.F n ≠ some .nameTooLongError) : ¬ TooLong T i := by
  rintro (h' | ⟨n, hn⟩)
  · rw [h.place] at h'; simp [h.2.2.2] at h'
  · exact hF n hn

/-- A directory on the way to the trash is not in the trash. -/
theorem Grown.inside {T : Trash ν} {d0 d : Disk ν} (h : Grown T T.loc d0 d) (n : Name) (r : List Name) :
    d.at_ (T.loc ++ n :: r) = d0.at_ (T.loc ++ n :: r) := by
  rcases h (T.loc ++ n :: r) with h' | ⟨h', -⟩
  · exact h'
  · have := h'.length_le
    simp at this
    omega

/-- Where the content of a move is afterwards, and what else may be different: nothing in the trash but what is
now at the returned path. -/
theorem moved_usable {T : Trash ν} {src : Path} {n : Name} {d0 d : Disk ν} (hs : ¬ T.loc <+: src)
    (h : Moved T src (T.loc ++ [n]) d0 d) :
    (∃ x, d0.at_ src = some x) ∧ (∀ r, d.at_ (T.loc ++ n :: r) = d0.at_ (src ++ r)) ∧
    (∀ r, d.at_ (src ++ r) = none) ∧
    (∀ m r, m ≠ n → d.at_ (T.loc ++ m :: r) = d0.at_ (T.loc ++ m :: r)) := by
  obtain ⟨d1, hg, hx, h | ⟨hap, h⟩⟩ := h
  · exact absurd (h.1 ▸ List.prefix_append _ _) hs
  · have hsrc : ∀ r, d1.at_ (src ++ r) = d0.at_ (src ++ r) := by
      intro r
      rcases hg (src ++ r) with h' | ⟨h', -⟩
      · exact h'
      · exact absurd (((List.prefix_append _ _).trans h').trans (List.prefix_append _ _)) hap.1
    refine ⟨?_, ?_, ?_, ?_⟩
    · obtain ⟨x, hx⟩ := hx
      have := hsrc []
      simp only [List.append_nil] at this
      exact ⟨x, this ▸ hx⟩
    · intro r
      have he : T.loc ++ n :: r = (T.loc ++ [n]) ++ r := by simp
      rw [h, he, mv, if_pos (List.prefix_append _ _), drop_append_prefix, hsrc]
    · intro r
      rw [h, mv, if_neg (hap.below r), if_pos (List.prefix_append _ _)]
    · intro m r hm
      rw [h, mv, if_neg, if_neg, hg.inside]
      · intro hc
        rcases List.prefix_or_prefix_of_prefix hc (List.prefix_append T.loc (m :: r)) with h' | h'
        · exact hap.1 (h'.trans (List.prefix_append _ _))
        · exact hs h'
      · intro hc
        rw [List.prefix_append_right_inj] at hc
        simp only [List.cons_prefix_cons] at hc
        exact hm hc.1.symm

theorem apart_append' {t a : Path} (h : Apart t a) (s : List Name) : Apart (t ++ s) a :=
  ⟨fun hc => h.1 ((List.prefix_append _ _).trans hc), h.below s⟩

instance (T : Trash ν) (i : Str) : Decidable (Usable T i) := by unfold Usable; infer_instance

/-- A move with a usable id. -/
theorem crumple_usable {T : Trash ν} (hF : ∀ n, T.F n ≠ some .nameTooLongError) {i : Str} (hu : Usable T i) {src : Path}
    {d : Disk ν} {k : Nat} {p : Path} {s : Machine ν} (hs : ¬ T.loc <+: src)
    (h : T.crumple (some i) src ⟨d, k⟩ = (.ok p, s)) :
    p = T.loc ++ [fsSafeId i] ∧ (∃ x, d.at_ src = some x) ∧ (∀ r, s.disk.at_ (p ++ r) = d.at_ (src ++ r)) ∧
    (∀ r, s.disk.at_ (src ++ r) = none) ∧
    (∀ m r, m ≠ fsSafeId i → s.disk.at_ (T.loc ++ m :: r) = d.at_ (T.loc ++ m :: r)) := by
  have := crumple_hoare T i src d ⟨d, k⟩ rfl
  rw [h] at this
  obtain ⟨rfl, hm | ⟨hl, -⟩⟩ := this
  · rw [hu.place] at hm
    obtain ⟨h1, h2, h3, h4⟩ := moved_usable hs hm
    rw [hu.place]
    exact ⟨rfl, h1, fun r => by rw [← h2]; simp, h3, h4⟩
  · exact absurd hl (hu.short hF)

/-- The path returned for a record. -/
theorem ret_eq {T : Trash ν} (hF : ∀ n, T.F n ≠ some .nameTooLongError) {d0 : Disk ν} : ∀ {rs d}, History T d0 rs d →
    (∀ x ∈ rs, Usable T x.id) → ∀ x ∈ rs, x.ret = T.loc ++ [fsSafeId x.id] := by
  intro rs d h
  induction h with
  | start => simp
  | other _ _ ih => exact ih
  | failed _ _ ih => exact ih
  | trashed h hs hc ih =>
    intro hu x hx
    rcases List.mem_cons.1 hx with rfl | hx
    · exact (crumple_usable hF (hu _ List.mem_cons_self) hs hc).1
    · exact ih (fun y hy => hu y (List.mem_cons_of_mem _ hy)) x hx

/-- **C29** (partial): for every history of the trash with ids that make file names, each path returned by a move
holds exactly what was moved by the *latest* move that returned it.  What is missing from the full claim: a later
move whose id has the same safe form overwrites the earlier version (`C29_collision_counterexample`), and for an id
that is too long for a file name the returned path does not exist (`C29_long_counterexample`). -/
theorem C29_latest_partial {T : Trash ν} (hF : ∀ n, T.F n ≠ some .nameTooLongError) {d0 d : Disk ν} {rs : List (Record ν)}
    (h : History T d0 rs d) (hu : ∀ x ∈ rs, Usable T x.id) (pre post : List (Record ν)) (x : Record ν)
    (hrs : rs = pre ++ x :: post) (hlast : ∀ y ∈ pre, y.ret ≠ x.ret) :
    (∃ o, x.content [] = some o) ∧ ∀ r, d.at_ (x.ret ++ r) = x.content r := by
  have hret := @ret_eq ν _ T hF d0
  induction h generalizing pre with
  | start => simp at hrs
  | other h hk ih =>
    have hx := hret h hu x (by rw [hrs]; simp)
    obtain ⟨h1, h2⟩ := ih hu pre hrs hlast
    refine ⟨h1, fun r => ?_⟩
    rw [← h2 r, hx]
    simpa using hk (fsSafeId x.id) r
  | @failed rs d id src k e s h hc ih =>
    have hx := hret h hu x (by rw [hrs]; simp)
    obtain ⟨h1, h2⟩ := ih hu pre hrs hlast
    refine ⟨h1, fun r => ?_⟩
    rw [← h2 r]
    cases id with
    | none =>
      simp only [Trash.crumple, Prog.throw, Prod.mk.injEq] at hc
      rw [← hc.2]
    | some i =>
      have := crumple_hoare T i src d ⟨d, k⟩ rfl
      rw [hc] at this
      rw [hx]
      simpa using Grown.inside this.1 (fsSafeId x.id) r
  | @trashed rs d id src k p s h hs hc ih =>
    have hcu := crumple_usable hF (hu _ List.mem_cons_self) hs hc
    cases pre with
    | nil =>
      simp only [List.nil_append, List.cons.injEq] at hrs
      obtain ⟨rfl, -⟩ := hrs
      refine ⟨?_, hcu.2.2.1⟩
      simpa using hcu.2.1
    | cons y pre =>
      simp only [List.cons_append, List.cons.injEq] at hrs
      obtain ⟨rfl, hrs⟩ := hrs
      have hu' : ∀ x ∈ rs, Usable T x.id := fun z hz => hu z (List.mem_cons_of_mem _ hz)
      obtain ⟨h1, h2⟩ := ih hu' pre hrs (fun z hz => hlast z (List.mem_cons_of_mem _ hz))
      have hx := hret h hu' x (by rw [hrs]; simp)
      have hne := hlast _ List.mem_cons_self
      refine ⟨h1, fun r => ?_⟩
      rw [← h2 r, hx]
      simp only [hcu.1, hx] at hne
      have := hcu.2.2.2.2 (fsSafeId x.id) r (fun he => hne (by rw [he]))
      simpa using this

/-- **C29** (partial): when the ids of a history have pairwise different safe forms, every version ever moved to
the trash is at the path that the move returned. -/
theorem C29_history_partial {T : Trash ν} (hF : ∀ n, T.F n ≠ some .nameTooLongError) {d0 d : Disk ν} {rs : List (Record ν)}
    (h : History T d0 rs d) (hu : ∀ x ∈ rs, Usable T x.id) (hd : rs.Pairwise fun a b => fsSafeId a.id ≠ fsSafeId b.id) :
    ∀ x ∈ rs, (∃ o, x.content [] = some o) ∧ ∀ r, d.at_ (x.ret ++ r) = x.content r := by
  intro x hx
  have hr := ret_eq hF h hu
  obtain ⟨pre, post, rfl⟩ := List.append_of_mem hx
  refine C29_latest_partial hF h hu pre post x rfl fun y hy he => ?_
  have := (List.pairwise_append.1 hd).2.2 y hy x List.mem_cons_self
  rw [hr y (by simp [hy]), hr x (by simp)] at he
  exact this (by simpa using he)

/-- **C29** (partial): the move itself.  If the trash is a directory that already exists, no call fails and the id
makes a file name that is free in the trash, then moving whatever is at `src` succeeds. -/
theorem C29_move_partial {T : Trash ν} (hF : ∀ n, T.F n = none) {i : Str} (hu : Usable T i) {src : Path} {d : Disk ν} {x t : ν}
    (hsrc : d.at_ src = some x) (ht : d.at_ T.loc = some t) (htd : Kinded.isDir t = true) (htl : T.leads d T.loc = true)
    (hfree : d.at_ (T.loc ++ [fsSafeId i]) = none) (hap : Apart src T.loc) (k : Nat) :
    ∃ s, T.crumple (some i) src ⟨d, k⟩ = (.ok (T.loc ++ [fsSafeId i]), s) ∧
      (∀ r, s.disk.at_ (T.loc ++ fsSafeId i :: r) = d.at_ (src ++ r)) ∧ (∀ r, s.disk.at_ (src ++ r) = none) ∧
      ∀ r, ¬ src <+: r → ¬ T.loc ++ [fsSafeId i] <+: r → s.disk.at_ r = d.at_ r := by
  have hpl := hu.place
  have hpa : T.path (fsSafeId i) = T.loc ++ [fsSafeId i] := by
    rw [Trash.path, if_neg (by simp [hu.1, hu.2.1])]
  have hap' : Apart src (T.loc ++ [fsSafeId i]) := (apart_append' hap.symm _).symm
  have hren : d.rename src (T.loc ++ [fsSafeId i]) = .ok (d.move src (T.loc ++ [fsSafeId i])) := by
    simp only [Disk.rename, hsrc, List.dropLast_concat, ht, htd]
    rw [if_neg (by simp), if_neg (fun he : src = _ => hap'.1 (he ▸ List.prefix_refl _)), if_neg hap'.1, if_neg hap'.2, hfree]
  have hmv := at_move d hap'
  refine ⟨⟨d.move src (T.loc ++ [fsSafeId i]), k + 2⟩, ?_, ?_, ?_, ?_⟩
  · simp only [Trash.crumple, Prog.bind, Prog.look, Prog.sys, hF, hpa, List.dropLast_concat, ht, htl,
      if_true, Prog.pure, Prog.catch_, Trash.osRename, Prog.act, hpl, hsrc, htd, List.getLast?_concat, Option.any_some,
      hu.2.2.2, Bool.false_eq_true, and_false, if_false, hren]
  · intro r
    have he : T.loc ++ fsSafeId i :: r = (T.loc ++ [fsSafeId i]) ++ r := by simp
    rw [hmv, he, mv, if_pos (List.prefix_append _ _), drop_append_prefix]
  · intro r
    rw [hmv, mv, if_neg (hap'.below r), if_pos (List.prefix_append _ _)]
  · intro r h1 h2
    rw [hmv, mv, if_neg h2, if_neg h1]

/-- **C29** (partial): when a move fails, nothing has changed except that directories on the way to the trash may have
been made. -/
theorem C29_failed_partial {T : Trash ν} {id : Option Str} {src : Path} {d : Disk ν} {k : Nat} {e : PyErr} {s : Machine ν}
    (h : T.crumple id src ⟨d, k⟩ = (.error e, s)) (r : Path) :
    s.disk.at_ r = d.at_ r ∨ (r <+: T.loc ∧ d.at_ r = none ∧ s.disk.at_ r = some T.newDir) := by
  cases id with
  | none =>
    simp only [Trash.crumple, Prog.throw, Prod.mk.injEq] at h
    rw [← h.2]; exact .inl rfl
  | some i =>
    have := crumple_hoare T i src d ⟨d, k⟩ rfl
    rw [h] at this
    exact this.1 r

/-! ## Where the claim fails -/

/-- A disk with two files, with content `1` and `2`, beside an empty trash. -/
def twoFiles : Disk Node :=
  [([], .dir true), ([['t']], .dir true), ([['a']], .file [1]), ([['b']], .file [2])]

/-- The usual limit on file names is 255 bytes; the ids here are of ASCII characters only. -/
def usual : Trash Node := ⟨fun _ => none, fun d p => (d.at_ p).isSome, fun n => 255 < n.length, .dir true, [['t']]⟩

/-- Two different ids with the same safe form: the second move replaces the first version, which is nowhere on the
disk any more, although both moves returned normally. -/
theorem C29_collision_counterexample :
    ∃ s₁ s₂, usual.crumple (some ['N', ':', '1']) [['a']] ⟨twoFiles, 0⟩ = (.ok [['t'], ['N', '-', '1']], s₁) ∧
      usual.crumple (some ['N', '/', '1']) [['b']] s₁ = (.ok [['t'], ['N', '-', '1']], s₂) ∧
      s₂.disk.at_ [['t'], ['N', '-', '1']] = some (.file [2]) ∧ ∀ p, s₂.disk.at_ p ≠ some (.file [1]) := by
  refine ⟨_, _, rfl, rfl, by decide, fun p hp => ?_⟩
  have := Disk.mem_of_at hp
  revert this
  have : ∀ e ∈ ([([], Node.dir true), ([['t']], .dir true), ([['t'], ['N', '-', '1']], .file [2])] : Disk Node), e.2 ≠ .file [1] := by decide
  exact fun hm => this _ hm rfl

/-- The same id again: the same happens. -/
theorem C29_again_counterexample :
    ∃ s₁ s₂, usual.crumple (some ['1']) [['a']] ⟨twoFiles, 0⟩ = (.ok [['t'], ['1']], s₁) ∧
      usual.crumple (some ['1']) [['b']] s₁ = (.ok [['t'], ['1']], s₂) ∧
      s₁.disk.at_ [['t'], ['1']] = some (.file [1]) ∧ s₂.disk.at_ [['t'], ['1']] = some (.file [2]) :=
  ⟨_, _, rfl, rfl, by decide, by decide⟩

/-- The limit is small here to keep the example small. -/
def strict : Trash Node := { usual with long := fun n => 8 < n.length }

/-- An id that is too long for a file name: the returned path does not exist. -/
theorem C29_long_counterexample :
    ∃ p s, strict.crumple (some (List.replicate 9 'x')) [['a']] ⟨twoFiles, 0⟩ = (.ok p, s) ∧
      p = [['t'], List.replicate 9 'x'] ∧ s.disk.at_ p = none ∧ s.disk.at_ [['t'], ['a']] = some (.file [1]) :=
  ⟨_, _, rfl, by decide, by decide, by decide⟩

example : Usable usual ['N', ':', '1'] ∧ (∀ n, usual.F n ≠ some .nameTooLongError) ∧ Apart [['a']] usual.loc ∧
    twoFiles.at_ usual.loc = some (.dir true) ∧ twoFiles.at_ (usual.loc ++ [fsSafeId ['N', ':', '1']]) = none := by
  refine ⟨by decide, by intro n; simp [usual], ?_, by decide, by decide⟩
  unfold Apart; decide

/-- A history with two versions. -/
example : ∃ rs d, History usual twoFiles rs d ∧ rs.length = 2 ∧ (∀ x ∈ rs, Usable usual x.id) ∧
    rs.Pairwise fun a b => fsSafeId a.id ≠ fsSafeId b.id := by
  refine ⟨_, _, .trashed (id := ['2']) (src := [['b']]) (k := 0) (s := _) (p := _)
    (.trashed (id := ['1']) (src := [['a']]) (k := 0) (p := _) (s := _) .start (by decide) rfl) (by decide) rfl, rfl, ?_, ?_⟩
  · intro x hx
    simp only [List.mem_cons, List.not_mem_nil, or_false] at hx
    rcases hx with rfl | rfl <;> decide
  · simp only [List.pairwise_cons, List.mem_cons, List.not_mem_nil, or_false, forall_eq]
    refine ⟨by decide, by simp⟩

/-- Making the directories `b` below the directory `a` when none of them is there. -/
theorem mkdirs_new {T : Trash ν} (hF : ∀ n, T.F n = none) (hd : Kinded.isDir T.newDir = true) {a : Path} {d : Disk ν} {t : ν}
    (ha : d.at_ a = some t) (ht : Kinded.isDir t = true) (r : List Name) : ∀ (n : Name) (ok : Bool) (k : Nat),
    (∀ c, c ≠ [] → c <+: (n :: r).reverse → d.at_ (a ++ c) = none) →
    ∃ d' k', T.mkdirs (n :: (r ++ a.reverse)) ok ⟨d, k⟩ = (.ok (), ⟨d', k'⟩) ∧
      ∀ p, d'.at_ p = if a.length < p.length ∧ p <+: a ++ (n :: r).reverse then some T.newDir else d.at_ p := by
  induction r with
  | nil =>
    intro n ok k hno
    have h1 : d.at_ (a ++ [n]) = none := hno [n] (by simp) (by simp)
    refine ⟨d.put (a ++ [n]) T.newDir, k + 1, ?_, fun p => ?_⟩
    · rw [Trash.mkdirs.eq_def]
      simp [Prog.catch_, Trash.osMkdir, Prog.act, Prog.sys, hF, Disk.create, h1, ha, ht]
    · rw [Disk.at_put]
      by_cases hp : p = a ++ [n]
      · subst hp; simp
      · rw [if_neg (fun h => hp (by first | exact h | exact h.symm)), if_neg]
        rintro ⟨h2, h3⟩
        refine hp (h3.eq_of_length ?_)
        have := h3.length_le
        simp at this ⊢
        omega
  | cons m r ih =>
    intro n ok k hno
    have h1 : d.at_ (a ++ (n :: m :: r).reverse) = none := hno _ (by simp) (List.prefix_refl _)
    have h2 : d.at_ (a ++ (m :: r).reverse) = none := hno _ (by simp) (by rw [List.reverse_cons (a := n)]; exact List.prefix_append _ _)
    obtain ⟨d', k', h3, h4⟩ := ih m true (k + 1) (fun c hc hp => hno c hc (hp.trans (by rw [List.reverse_cons (a := n)]; exact List.prefix_append _ _)))
    have e1 : (n :: ((m :: r) ++ a.reverse)).reverse = a ++ (n :: m :: r).reverse := by simp
    have e2 : (a ++ (n :: m :: r).reverse).dropLast = a ++ (m :: r).reverse := by
      rw [List.reverse_cons (a := n), ← List.append_assoc, List.dropLast_concat]
    have h5 : d'.at_ (a ++ (n :: m :: r).reverse) = none := by
      rw [h4, if_neg, h1]
      rintro ⟨-, h⟩
      have := h.length_le
      simp at this
    have h6 : d'.at_ (a ++ (m :: r).reverse) = some T.newDir := by
      rw [h4, if_pos ⟨by simp, List.prefix_refl _⟩]
    refine ⟨d'.put (a ++ (n :: m :: r).reverse) T.newDir, k' + 1, ?_, fun p => ?_⟩
    · rw [Trash.mkdirs.eq_def]
      dsimp only
      rw [e1]
      have c1 : d.create (a ++ (n :: m :: r).reverse) T.newDir = .error .fileNotFoundError := by
        simp only [Disk.create, h1, e2, h2]
      have c2 : d'.create (a ++ (n :: m :: r).reverse) T.newDir = .ok (d'.put (a ++ (n :: m :: r).reverse) T.newDir) := by
        simp only [Disk.create, h5, e2, h6, hd, if_true]
      have h3' : T.mkdirs (m :: r ++ a.reverse) true ⟨d, k + 1⟩ = (.ok (), ⟨d', k'⟩) := h3
      simp only [Prog.catch_, Trash.osMkdir, Prog.act, Prog.sys, hF, c1, if_true, Prog.bind, h3', c2]
    · rw [Disk.at_put]
      by_cases hp : p = a ++ (n :: m :: r).reverse
      · subst hp; simp
      · rw [if_neg (fun h => hp (by first | exact h | exact h.symm)), h4]
        have : p <+: a ++ (n :: m :: r).reverse ↔ p <+: a ++ (m :: r).reverse := by
          rw [List.reverse_cons (a := n), ← List.append_assoc, List.prefix_concat_iff]
          constructor
          · rintro (h | h)
            · exact absurd (by rw [h]; simp) hp
            · exact h
          · exact .inr
        simp only [this]

/-- **C29** (partial): when the trash is not there yet, the directories on the way to it are made, from the last one that is there, and the
move succeeds all the same. -/
theorem C29_move_new_partial {T : Trash ν} (hF : ∀ n, T.F n = none) {i : Str} (hu : Usable T i) {src : Path} {d : Disk ν} {x t : ν}
    (hsrc : d.at_ src = some x) {a b : Path} (hloc : T.loc = a ++ b) (hb : b ≠ []) (ha : d.at_ a = some t) (ht : Kinded.isDir t = true)
    (hno : ∀ c, c ≠ [] → c <+: b → d.at_ (a ++ c) = none) (hd : Kinded.isDir T.newDir = true) (htl : T.leads d T.loc = false)
    (hfree : d.at_ (T.loc ++ [fsSafeId i]) = none) (hap : Apart src T.loc) (k : Nat) :
    ∃ s, T.crumple (some i) src ⟨d, k⟩ = (.ok (T.loc ++ [fsSafeId i]), s) ∧
      (∀ r, s.disk.at_ (T.loc ++ fsSafeId i :: r) = d.at_ (src ++ r)) ∧ (∀ r, s.disk.at_ (src ++ r) = none) ∧
      (∀ c, c ≠ [] → c <+: b → s.disk.at_ (a ++ c) = some T.newDir) ∧
      ∀ r, ¬ src <+: r → ¬ T.loc ++ [fsSafeId i] <+: r → ¬ (r <+: T.loc ∧ a.length < r.length) → s.disk.at_ r = d.at_ r := by
  have hpl := hu.place
  have hpa : T.path (fsSafeId i) = T.loc ++ [fsSafeId i] := by
    rw [Trash.path, if_neg (by simp [hu.1, hu.2.1])]
  have hap' : Apart src (T.loc ++ [fsSafeId i]) := (apart_append' hap.symm _).symm
  obtain ⟨n, r, hr⟩ : ∃ n r, b.reverse = n :: r := by
    cases h : b.reverse with
    | nil => simp at h; exact absurd h hb
    | cons n r => exact ⟨n, r, rfl⟩
  have hbr : (n :: r).reverse = b := by rw [← hr, List.reverse_reverse]
  obtain ⟨d', k', h1, h2⟩ := mkdirs_new hF hd ha ht r n false (k + 1) (by rw [hbr]; exact hno)
  rw [hbr, ← hloc] at h2
  have hrev : T.loc.reverse = n :: (r ++ a.reverse) := by rw [hloc, List.reverse_append, hr]; rfl
  have hl : a.length < T.loc.length := by
    have := List.length_pos_iff.2 hb
    rw [hloc, List.length_append]; omega
  have hs0 : ∀ r, d'.at_ (src ++ r) = d.at_ (src ++ r) := fun r => by
    rw [h2, if_neg fun h => hap.1 ((List.prefix_append _ _).trans h.2)]
  have hsrc' : d'.at_ src = some x := by have := hs0 []; rw [List.append_nil] at this; rw [this, hsrc]
  have hloc' : d'.at_ T.loc = some T.newDir := by rw [h2, if_pos ⟨hl, List.prefix_refl _⟩]
  have hfree' : d'.at_ (T.loc ++ [fsSafeId i]) = none := by
    rw [h2, if_neg, hfree]
    rintro ⟨-, h⟩
    have := h.length_le
    simp at this
    omega
  have hren : d'.rename src (T.loc ++ [fsSafeId i]) = .ok (d'.move src (T.loc ++ [fsSafeId i])) := by
    simp only [Disk.rename, hsrc', List.dropLast_concat, hloc', hd]
    rw [if_neg (by simp), if_neg (fun he : src = _ => hap'.1 (he ▸ List.prefix_refl _)), if_neg hap'.1, if_neg hap'.2, hfree']
  have hmv := at_move d' hap'
  refine ⟨⟨d'.move src (T.loc ++ [fsSafeId i]), k' + 1⟩, ?_, ?_, ?_, ?_, ?_⟩
  · simp only [Trash.crumple, Prog.bind, Prog.look, Prog.sys, hF, hpa, List.dropLast_concat, htl, hrev, h1,
      Prog.pure, Prog.catch_, Trash.osRename, Prog.act, hpl, hsrc', hloc', hd, List.getLast?_concat, Option.any_some,
      hu.2.2.2, Bool.false_eq_true, and_false, if_false, hren]
  · intro r
    have he : T.loc ++ fsSafeId i :: r = (T.loc ++ [fsSafeId i]) ++ r := by simp
    rw [hmv, he, mv, if_pos (List.prefix_append _ _), drop_append_prefix, hs0]
  · intro r
    rw [hmv, mv, if_neg (hap'.below r), if_pos (List.prefix_append _ _)]
  · intro c hc hcb
    have hp : a ++ c <+: T.loc := by rw [hloc]; exact (List.prefix_append_right_inj a).2 hcb
    rw [hmv, mv, if_neg, if_neg, h2, if_pos]
    · have := List.length_pos_iff.2 hc
      exact ⟨by rw [List.length_append]; omega, hp⟩
    · exact fun h => hap.1 (h.trans hp)
    · intro h
      have := (h.trans hp).length_le
      simp at this
      omega
  · intro r h1 h3 h4
    rw [hmv, mv, if_neg h3, if_neg h1, h2, if_neg (fun h => h4 ⟨h.2, h.1⟩)]

/-- The trash two directories below the root, neither of which is there. -/
example : ∃ s, ({ (usual : Trash Node) with loc := [['u'], ['v']] } : Trash Node).crumple (some ['N', ':', '1']) [['a']] ⟨twoFiles, 0⟩ =
      (.ok [['u'], ['v'], ['N', '-', '1']], s) ∧ s.disk.at_ [['u'], ['v'], ['N', '-', '1']] = some (.file [1]) :=
  ⟨_, rfl, by decide⟩

/-- **C29** (partial): an id that makes no file name (the empty one and a single dot) is refused, because the path in the trash is then the
trash itself: the file that should go there stays where it is, and nothing changes. -/
theorem C29_no_name_partial {ν : Type} [Kinded ν] {T : Trash ν} (hF : ∀ n, T.F n = none) {i : Str} (hi : fsSafeId i = [] ∨ fsSafeId i = ['.'])
    {src : Path} {d : Disk ν} {x t p : ν} (hsrc : d.at_ src = some x) (hx : Kinded.isDir x = false) (ht : d.at_ T.loc = some t)
    (htd : Kinded.isDir t = true) (hp : d.at_ T.loc.dropLast = some p) (hpd : Kinded.isDir p = true)
    (hpl : T.leads d T.loc.dropLast = true) (hlong : T.loc.getLast?.any T.long = false) (hap : Apart src T.loc) (k : Nat) :
    ∃ s, T.crumple (some i) src ⟨d, k⟩ = (.error .isADirectoryError, s) ∧ s.disk = d := by
  have hpath : T.path (fsSafeId i) = T.loc := by rw [Trash.path, if_pos hi]
  have hplace : T.place (fsSafeId i) = T.loc := by
    rw [Trash.place, if_neg (by rcases hi with h | h <;> simp [h]), hpath]
  have hren : d.rename src T.loc = .error .isADirectoryError := by
    simp only [Disk.rename, hsrc, hp, hpd, hx, ht, htd]
    rw [if_neg (by simp), if_neg (fun he : src = _ => hap.1 (he ▸ List.prefix_refl _)), if_neg hap.1, if_neg hap.2]
    simp
  refine ⟨⟨d, k + 2⟩, ?_, rfl⟩
  simp [Trash.crumple, Prog.bind, Prog.look, Prog.sys, hF, hpath, hplace, hpl, Prog.pure, Prog.catch_, Trash.osRename, Prog.act, hsrc, hp,
    hpd, hlong, hren, Prog.throw]

example : fsSafeId ['.'] = ['.'] ∧ twoFiles.at_ [['a']] = some (.file [1]) ∧ twoFiles.at_ usual.loc = some (.dir true) ∧
    twoFiles.at_ usual.loc.dropLast = some (.dir true) ∧ usual.leads twoFiles usual.loc.dropLast = true ∧
    usual.loc.getLast?.any usual.long = false ∧ Apart [['a']] usual.loc := by
  refine ⟨by decide, by decide, by decide, by decide, by decide, by decide, ?_⟩
  unfold Apart; decide

section
variable {ν : Type} [Kinded ν]

/-- There is a directory at the location. -/
def IsDirAt (q : Path) (d : Disk ν) : Prop := ∃ x, d.at_ q = some x ∧ Kinded.isDir x = true

theorem mkdirs_made (T : Trash ν) (hd : Kinded.isDir T.newDir = true) (r : List Name) (eo : Bool) :
    Hoare (fun _ => True) (T.mkdirs r eo) (fun _ => IsDirAt r.reverse) (fun _ _ => True) := by
  have mk : ∀ q, Hoare (fun _ => True) (T.osMkdir q) (fun _ => IsDirAt q) (fun _ _ => True) := fun q =>
    .act_ (fun d d' _ h => by obtain ⟨_, rfl⟩ := create_ok h; exact ⟨T.newDir, by simp [Disk.at_put], hd⟩) (fun _ _ _ => trivial)
  have tol : ∀ q e, Hoare (fun _ => True) (T.tolerate q eo e) (fun _ => IsDirAt q) (fun _ _ => True) := by
    intro q e
    refine .ite_ (fun _ => ?_) (fun _ => .throw_ fun _ _ => trivial)
    refine .bind_ (.look_ (Q := fun b d => b = true → IsDirAt q d) ?_ (fun _ _ _ => trivial)) fun b => ?_
    · intro d b _ hb hb'
      simp only [Except.ok.injEq] at hb
      subst hb'
      cases hq : d.at_ q with
      | none => rw [hq] at hb; simp at hb
      | some x =>
        rw [hq] at hb
        simp only [Bool.and_eq_true] at hb
        exact ⟨x, hq, hb.2⟩
    · exact .ite_ (fun hb => .pure_ fun d h => h hb) (fun _ => .throw_ fun _ _ => trivial)
  cases r with
  | nil => exact .try_ (mk _) fun e => tol _ e
  | cons n r =>
    refine .try_ (mk _) fun e => .ite_ (fun _ => ?_) (fun _ => tol _ e)
    refine .bind_ (Q := fun _ _ => True) ?_ fun _ => ?_
    · intro s _
      cases h : T.mkdirs r true s with
      | mk a b => cases a <;> trivial
    · exact .try_ (mk _) fun e => .ite_ (fun _ => .throw_ fun _ _ => trivial) (fun _ => tol _ e)

/-- **C29**: whatever calls fail, if making the trash returns then it is there: an error of `mkdir` is passed over only for a directory
that exists. -/
theorem C29_made (T : Trash ν) (hd : Kinded.isDir T.newDir = true) (q : Path) (eo : Bool) (s : Machine ν)
    (h : (T.mkdirs q.reverse eo s).1 = .ok ()) : ∃ x, (T.mkdirs q.reverse eo s).2.disk.at_ q = some x ∧ Kinded.isDir x = true := by
  have := mkdirs_made T hd q.reverse eo s trivial
  generalize T.mkdirs q.reverse eo s = r at h this
  obtain ⟨a, s'⟩ := r
  subst h
  simpa [IsDirAt] using this
end

example : (usual.mkdirs [['v'], ['u']] true ⟨twoFiles, 0⟩).1 = .ok () := by decide +kernel

/-- **C29** (partial): without an id nothing is trashed: it raises an `AttributeError` before anything is done. -/
theorem C29_no_id_partial {ν : Type} [Kinded ν] (T : Trash ν) (src : Path) (s : Machine ν) :
    T.crumple none src s = (.error .attributeError, s) := rfl

end Verif.Cache
