import Verif.Lemmas.SymlinkCache
import Verif.Props.Symlink
import Verif.Lemmas.Decide

/-!
# C27, C28: What setting metadata on a broken symlink may replace
-/

namespace Verif.Cache
open Verif.FS

/-! ## Specification -/

/-- Two times that can be compared, as numbers on the same clock: microseconds of universal time, microseconds of
the local clock, or plain numbers. -/
inductive SameClock : PyVal → PyVal → Int → Int → Prop
  | aware {d e : DateTime} {o p : Int} : d.offset = some o → e.offset = some p →
      SameClock (.dt d) (.dt e) (d.wall - o * 60000000) (e.wall - p * 60000000)
  | naive {d e : DateTime} : d.offset = none → e.offset = none → SameClock (.dt d) (.dt e) d.wall e.wall
  | int (i j : Int) : SameClock (.int i) (.int j) i j

/-- `new` was updated later than `old`, or at the same time and was created later. -/
def LaterThan (env : Env) (old new : PathMeta) : Prop :=
  ∃ u v x y, old.get env .updated = .ok u ∧ new.get env .updated = .ok v ∧ SameClock u v x y ∧
    (x < y ∨ x = y ∧ ∃ c c' z w, old.get env .created = .ok c ∧ new.get env .created = .ok c' ∧ SameClock c c' z w ∧ z < w)

/-- What may be replaced by what. -/
def MayReplace (env : Env) (old new : PathMeta) : Prop :=
  old.eq new = .ok false ∧ (old.plain .id = new.plain .id ∨ LaterThan env old new) ∧
  ¬ (old.plain .size ≠ .none ∧ new.plain .size = .none)

/-! ## The decision -/

theorem pyLt_iff (u v : PyVal) (b : Bool) : pyLt u v = .ok b ↔ ∃ x y, SameClock u v x y ∧ b = decide (x < y) := by
  constructor
  · intro h
    unfold pyLt at h
    split at h
    · split at h
      · rename_i d e o p ho hp
        simp only [Except.ok.injEq] at h
        exact ⟨_, _, .aware ho hp, by rw [← h]; rfl⟩
      · rename_i d e ho hp
        simp only [Except.ok.injEq] at h
        refine ⟨_, _, .naive ho hp, ?_⟩
        rw [← h]
        simp
      · simp at h
    · simp only [Except.ok.injEq] at h
      exact ⟨_, _, .int _ _, h.symm⟩
    · simp at h
  · rintro ⟨x, y, h, rfl⟩
    cases h with
    | aware ho hp => simp only [pyLt, ho, hp, DateTime.instant]; rfl
    | naive ho hp => simp [pyLt, ho, hp]
    | int i j => simp [pyLt]

theorem SameClock.symm {u v : PyVal} {x y : Int} (h : SameClock u v x y) : SameClock v u y x := by
  cases h with
  | aware ho hp => exact .aware hp ho
  | naive ho hp => exact .naive hp ho
  | int => exact .int _ _

theorem SameClock.fun {u v : PyVal} {x y x' y' : Int} (h : SameClock u v x y) (h' : SameClock u v x' y') : x = x' ∧ y = y' := by
  cases h <;> cases h' <;> simp_all

theorem SameClock.ne_none {u v : PyVal} {x y : Int} (h : SameClock u v x y) : u ≠ .none ∧ v ≠ .none := by
  cases h <;> simp

theorem newerCheck_iff (env : Env) (old new : PathMeta) : newerCheck env old new = .ok true ↔ LaterThan env old new := by
  unfold newerCheck LaterThan
  cases hu : old.get env .updated with
  | error e => simp [bind, Except.bind]
  | ok u =>
    cases hv : new.get env .updated with
    | error e => simp [bind, Except.bind]
    | ok v =>
      simp only [bind, Except.bind]
      cases hl : pyLt v u with
      | error e =>
        simp only
        constructor
        · intro h; split at h <;> simp at h
        · rintro ⟨u', v', x, y, hu', hv', hs, -⟩
          simp only [Except.ok.injEq] at hu' hv'
          subst hu' hv'
          have := (pyLt_iff v u (decide (y < x))).2 ⟨y, x, hs.symm, rfl⟩
          rw [hl] at this; simp at this
      | ok b =>
        obtain ⟨y, x, hs, hb⟩ := (pyLt_iff v u b).1 hl
        have hl' := (pyLt_iff u v (decide (x < y))).2 ⟨x, y, hs.symm, rfl⟩
        have hnn : ¬ (u = .none ∧ v = .none) := fun h => hs.ne_none.2 h.1
        have hex : ∀ P : Int → Int → Prop, (∃ u' v' x y, Except.ok (ε := PyErr) u = .ok u' ∧ Except.ok (ε := PyErr) v = .ok v' ∧ SameClock u' v' x y ∧ P x y) ↔ P x y := by
          intro P
          constructor
          · rintro ⟨u', v', x', y', h1, h2, h3, h4⟩
            simp only [Except.ok.injEq] at h1 h2
            subst h1 h2
            obtain ⟨rfl, rfl⟩ := h3.fun hs.symm
            exact h4
          · intro h
            exact ⟨u, v, x, y, rfl, rfl, hs.symm, h⟩
        rw [hex]
        simp only [if_neg hnn, hl', hb]
        by_cases h1 : y < x
        · simp only [h1, decide_true, if_true]
          constructor
          · intro h; simp at h
          · rintro (h | ⟨h, -⟩) <;> omega
        · by_cases h2 : x < y
          · simp [h1, h2]
          · obtain rfl : x = y := by omega
            simp only [Int.lt_irrefl, decide_false, Bool.false_eq_true, if_false, false_or, true_and]
            cases hc : old.get env .created with
            | error e => simp
            | ok c =>
              cases hc' : new.get env .created with
              | error e => simp
              | ok c' =>
                simp only
                by_cases hcn : c ≠ .none ∧ c' ≠ .none
                · rw [if_pos hcn]
                  cases hd : pyLt c' c with
                  | error e =>
                    simp only
                    constructor
                    · intro h; simp at h
                    · rintro ⟨a, a', z, w, h4, h5, h6, -⟩
                      simp only [Except.ok.injEq] at h4 h5
                      subst h4 h5
                      have := (pyLt_iff c' c (decide (w < z))).2 ⟨w, z, h6.symm, rfl⟩
                      rw [hd] at this; simp at this
                  | ok b' =>
                    obtain ⟨w, z, hs', hb'⟩ := (pyLt_iff c' c b').1 hd
                    have hd' := (pyLt_iff c c' (decide (z < w))).2 ⟨z, w, hs'.symm, rfl⟩
                    simp only [hd', hb']
                    have : (∃ a a' z w, Except.ok (ε := PyErr) c = .ok a ∧ Except.ok (ε := PyErr) c' = .ok a' ∧ SameClock a a' z w ∧ z < w) ↔ z < w := by
                      constructor
                      · rintro ⟨a, a', z', w', h4, h5, h6, h7⟩
                        simp only [Except.ok.injEq] at h4 h5
                        subst h4 h5
                        obtain ⟨rfl, rfl⟩ := h6.fun hs'.symm
                        exact h7
                      · intro h
                        exact ⟨c, c', z, w, rfl, rfl, hs'.symm, h⟩
                    rw [this]
                    by_cases h8 : w < z
                    · simp [h8]; omega
                    · by_cases h9 : z < w <;> simp [h8, h9]
                · rw [if_neg hcn]
                  constructor
                  · intro h
                    split at h
                    · simp at h
                    · split at h <;> exact absurd h (by simp)
                  · rintro ⟨a, a', z, w, h4, h5, h6, -⟩
                    simp only [Except.ok.injEq] at h4 h5
                    subst h4 h5
                    exact absurd h6.ne_none hcn

theorem replaceCheck_iff (env : Env) (old new : PathMeta) : replaceCheck env old new = .ok true ↔ MayReplace env old new := by
  unfold replaceCheck MayReplace
  cases he : old.eq new with
  | error e => simp [bind, Except.bind]
  | ok b =>
    cases b with
    | true => simp [bind, Except.bind]
    | false =>
      simp only [bind, Except.bind, Bool.false_eq_true, if_false, true_and]
      by_cases hi : old.plain .id = new.plain .id
      · simp only [hi, ne_eq, not_true_eq_false, if_false, Bool.not_true, Bool.false_eq_true, true_or, true_and]
        by_cases hs : ¬ old.plain .size = .none ∧ new.plain .size = .none
        · simp [hs]
        · simp [hs]
      · rw [if_pos hi, ← newerCheck_iff]
        cases hn : newerCheck env old new with
        | error e => simp [hi]
        | ok b =>
          cases b with
          | false => simp [hi]
          | true =>
            simp only [Bool.not_true, Bool.false_eq_true, if_false, or_true, true_and]
            by_cases hs : old.plain .size ≠ .none ∧ new.plain .size = .none
            · simp [hs]
            · rw [if_neg hs]
              simp only [true_iff]
              exact hs

/-! ## The setter -/

theorem bool_of_id {m : PathMeta} {i : Str} (h : m.plain .id = .str i) : m.bool = true := by
  unfold PathMeta.bool
  rw [List.any_eq_true]
  refine ⟨.plain .id, ?_, ?_⟩
  · unfold PathMeta.keys
    simp [plainFields]
  · simp [PathMeta.attr, h]

theorem idOf_iff {m : PathMeta} {i : Str} : idOf m = some i ↔ m.plain .id = .str i := by
  unfold idOf
  constructor
  · intro h
    split at h
    · split at h
      · rename_i s hs
        rw [hs, ← Option.some.inj h]
      · simp at h
    · simp at h
  · intro h
    rw [if_pos (bool_of_id h), h]

/-- The situation: at `q` is a link with metadata `old`, and the trash is there. -/
structure Stored (C : LinkEnv) (q : Path) (d : Disk Obj) (t : Str) (old : PathMeta) : Prop where
  link : d.at_ q = some (.link t)
  reads : Symlink.fromSymlink (nameOf q) t false = .ok old
  name : Nameable (nameOf q)
  id : ∀ i, old.plain .id = .str i → Nameable (fsSafeId i)
  trash : C.trash.leads d C.trash.loc = true

/-- **C27**: whatever happens during the call (any other call to the operating system may fail), if the link at the path
is different afterwards, then the offered metadata may replace the stored one (other, and with the same id or later, and
not without a size if the stored one has a size), the stored link is in the trash, and apart from the path and that
place in the trash nothing has changed. -/
theorem C27_replaced_partial (C : LinkEnv) (hF : ∀ n, C.trash.F n ≠ some .fileExistsError) {q : Path} {d : Disk Obj} {t : Str}
    {old : PathMeta} (h : Stored C q d t old) (new : PathMeta) (k : Nat)
    (hch : (C.setMeta q new ⟨d, k⟩).2.disk.at_ q ≠ some (.link t)) :
    MayReplace C.env old new ∧ ∃ n, (C.setMeta q new ⟨d, k⟩).2.disk.at_ (C.trash.loc ++ [n]) = some (.link t) ∧
      ∀ r, ¬ q <+: r → ¬ C.trash.loc ++ [n] <+: r → (C.setMeta q new ⟨d, k⟩).2.disk.at_ r = d.at_ r := by
  have hh := setMeta_hoare C q new old d t h.link h.reads h.name (fun i hi => h.id i (idOf_iff.1 hi)) h.trash hF ⟨d, k⟩ rfl
  rw [← replaceCheck_iff]
  generalize C.setMeta q new ⟨d, k⟩ = res at hh hch ⊢
  obtain ⟨r, s⟩ := res
  cases r with
  | ok a =>
    rcases hh with ⟨hd, -⟩ | ⟨h1, t', -, n, -, h2, -, h4⟩
    · exact absurd (hd ▸ h.link) hch
    · exact ⟨h1, n, h2, h4⟩
  | error e =>
    rcases hh with hd | ⟨h1, ⟨n, -, h2, -, h4⟩, -⟩
    · exact absurd (hd ▸ h.link) hch
    · exact ⟨h1, n, h2, h4⟩

/-- **C27**: a call that returns normally either found that the stored metadata may not be replaced and changed nothing
at all, or the link at the path now is the one for the offered metadata. -/
theorem C27_returned (C : LinkEnv) (hF : ∀ n, C.trash.F n ≠ some .fileExistsError) {q : Path} {d : Disk Obj} {t : Str}
    {old : PathMeta} (h : Stored C q d t old) (new : PathMeta) (k : Nat) (hok : (C.setMeta q new ⟨d, k⟩).1 = .ok ()) :
    (¬ MayReplace C.env old new ∧ (C.setMeta q new ⟨d, k⟩).2.disk = d) ∨
    (MayReplace C.env old new ∧ ∃ t', linkText C.env new (nameOf q) = .ok t' ∧
      (C.setMeta q new ⟨d, k⟩).2.disk.at_ q = some (.link t')) := by
  have hh := setMeta_hoare C q new old d t h.link h.reads h.name (fun i hi => h.id i (idOf_iff.1 hi)) h.trash hF ⟨d, k⟩ rfl
  simp only [← replaceCheck_iff]
  generalize C.setMeta q new ⟨d, k⟩ = res at hh hok ⊢
  obtain ⟨r, s⟩ := res
  simp only at hok
  subst hok
  rcases hh with ⟨hd, h1⟩ | ⟨h1, t', h2, n, -, -, h3, -⟩
  · exact .inl ⟨by rw [h1]; simp, hd⟩
  · exact .inr ⟨h1, t', h2, h3⟩

/-- **C27**: an update that is allowed happens, when no call fails, the id makes a name that is not too long and is not
taken by a directory in the trash, and the metadata can be written as a link. -/
theorem C27_accepted (C : LinkEnv) (hF : ∀ n, C.trash.F n = none) {q : Path} {d : Disk Obj} {t i t' : Str}
    {old new : PathMeta} (h : Stored C q d t old) (hb : C.trash.leads d q = false) (hm : MayReplace C.env old new)
    (hi : old.plain .id = .str i) (hlong : C.trash.long (fsSafeId i) = false) (ht : linkText C.env new (nameOf q) = .ok t')
    (htd : d.at_ C.trash.loc = some .dir) (hpd : d.at_ q.dropLast = some .dir) (hap : Apart q C.trash.loc)
    (hfree : d.at_ (C.trash.loc ++ [fsSafeId i]) ≠ some .dir) (k : Nat) :
    (C.setMeta q new ⟨d, k⟩).1 = .ok () ∧ (C.setMeta q new ⟨d, k⟩).2.disk.at_ q = some (.link t') ∧
      (C.setMeta q new ⟨d, k⟩).2.disk.at_ (C.trash.loc ++ [fsSafeId i]) = some (.link t) := by
  have hn := h.id i hi
  rw [← idOf_iff] at hi
  have hap' : Apart q (C.trash.loc ++ [fsSafeId i]) :=
    ⟨fun hc => (List.prefix_or_prefix_of_prefix hc (List.prefix_append _ _)).elim hap.1 hap.2,
     fun hc => hap.2 ((List.prefix_append _ _).trans hc)⟩
  have hren : d.rename q (C.trash.loc ++ [fsSafeId i]) = .ok (d.move q (C.trash.loc ++ [fsSafeId i])) := by
    simp only [Disk.rename, h.link, List.dropLast_concat, htd]
    rw [if_neg (by simp [Kinded.isDir]), if_neg (fun he : q = _ => hap'.1 (he ▸ List.prefix_refl _)), if_neg hap'.1, if_neg hap'.2]
    cases hx : d.at_ (C.trash.loc ++ [fsSafeId i]) with
    | none => rfl
    | some x => cases x <;> simp_all [Kinded.isDir]
  have hmv := at_move d hap'
  have hnone : (d.move q (C.trash.loc ++ [fsSafeId i])).at_ q = none := by
    rw [hmv, mv, if_neg hap'.2, if_pos (List.prefix_refl _)]
  have hpar : (d.move q (C.trash.loc ++ [fsSafeId i])).at_ q.dropLast = some .dir := by
    rw [hmv, mv, if_neg (fun hc => hap'.2 (hc.trans (List.dropLast_prefix _))), if_neg, hpd]
    intro hc
    have h1 := hc.length_le
    have h2 : q ≠ [] := fun he => hap.1 (he ▸ List.nil_prefix)
    have h3 := List.length_pos_iff.2 h2
    rw [List.length_dropLast] at h1
    omega
  have hgo := (replaceCheck_iff C.env old new).2 hm
  have hrun : C.setMeta q new ⟨d, k⟩ = (.ok (), ⟨(d.move q (C.trash.loc ++ [fsSafeId i])).put q (.link t'), k + 6⟩) := by
    simp [LinkEnv.setMeta, Prog.bind, Prog.look, Prog.sys, hF, LinkEnv.exists_, h.link, hb, isLink, LinkEnv.getMeta, h.reads,
      hgo, Prog.catch_, Trash.crumpleOr, Trash.crumple, hi, hn.path, hn.place, h.trash, Prog.pure, Trash.osRename, Prog.act, htd, Kinded.isDir,
      hlong, hren, LinkEnv.writeLink, ht, Disk.create, hnone, hpar]
  rw [hrun]
  refine ⟨rfl, ?_, ?_⟩
  · rw [Disk.at_put, if_pos rfl]
  · rw [Disk.at_put, if_neg (fun he : _ = q => hap'.1 (he ▸ List.prefix_refl _)), hmv, mv, if_pos (List.prefix_refl _),
      List.drop_length, List.append_nil, h.link]

theorem view_eq {env : Env} {m : PathMeta} {v : Meta} (h : m.Shows env v) : view env m = .ok v := by
  unfold view
  rw [h .created, h .updated]
  dsimp only
  congr 1
  funext f
  by_cases hc : f = .created
  · rw [if_pos hc, hc]
  · rw [if_neg hc]
    by_cases hu : f = .updated
    · rw [if_pos hu, hu]
    · rw [if_neg hu]
      have := h f
      cases f <;> first | exact absurd rfl hc | exact absurd rfl hu | exact Except.ok.inj this

/-- **C27**: metadata that can be stored and may replace the old ones are what is read from the link afterwards, in every field, and
the text of the link begins with its own name. -/
theorem C27_read_back (C : LinkEnv) (hF : ∀ n, C.trash.F n ≠ some .fileExistsError) {q : Path} {d : Disk Obj} {t : Str}
    {old new : PathMeta} (h : Stored C q d t old) {v : Meta} (hv : new.Shows C.env v) (hp : Spec.ParsesIso C.env)
    (ht : Spec.WellTyped v) (hs : ∀ f, Spec.SymlinkStorable f (v f)) (hn : Spec.IsName (nameOf q))
    (hm : MayReplace C.env old new) (k : Nat) (hok : (C.setMeta q new ⟨d, k⟩).1 = .ok ())
    (hb : C.trash.leads (C.setMeta q new ⟨d, k⟩).2.disk q = false) :
    (∃ o, C.getMeta (C.setMeta q new ⟨d, k⟩).2.disk q = .ok o ∧ o.Shows C.env v) ∧
    ∃ id data, (C.setMeta q new ⟨d, k⟩).2.disk.at_ q = some (.link (nameOf q ++ '/' :: id ++ '/' :: data)) := by
  rcases C27_returned C hF h new k hok with ⟨h1, -⟩ | ⟨-, t', h2, h3⟩
  · exact absurd hm h1
  · obtain ⟨p, o, h4, h5, h6⟩ := Symlink.C15_symlink_round_trip_partial C.env hp v ht hs (nameOf q) hn
    rw [linkText, view_eq hv] at h2
    dsimp only at h2
    rw [h4] at h2
    cases h2
    obtain ⟨i, data, -, -, -, hpe⟩ := Symlink.C17_three_components_partial C.env v ht (nameOf q) hn
      (fun he => by have := hs .id; rw [he] at this; exact this.1 rfl)
      (fun l he x hx => by have := hs .errors; rw [he] at this; exact (this.2 x hx).2.2.2) p h4
    refine ⟨⟨o, ?_, h6⟩, i, data, by rw [h3, hpe]; simp [Symlink.Pure.str, joinC]⟩
    unfold LinkEnv.getMeta
    rw [h3]
    dsimp only
    rw [if_neg (by simp [LinkEnv.exists_, h3, hb])]
    revert h5
    unfold Symlink.fromSymlink
    split
    · exact id
    · exact id
    · split
      · simp
      · simp

/-- **C28** (partial): a call that raises leaves the stored metadata at the path, or, when it was already moved away, the
path is empty and the stored link is in the trash.  Missing from the full claim: the second case, which happens when
the metadata cannot be written as a link or the last call fails (`C28_not_encodable_counterexample`). -/
theorem C28_raised_partial (C : LinkEnv) (hF : ∀ n, C.trash.F n ≠ some .fileExistsError) {q : Path} {d : Disk Obj} {t : Str}
    {old : PathMeta} (h : Stored C q d t old) (new : PathMeta) (k : Nat) (e : PyErr)
    (herr : (C.setMeta q new ⟨d, k⟩).1 = .error e) :
    (∀ r, (C.setMeta q new ⟨d, k⟩).2.disk.at_ r = d.at_ r) ∨
    (MayReplace C.env old new ∧ (C.setMeta q new ⟨d, k⟩).2.disk.at_ q = none ∧
      ∃ n, (C.setMeta q new ⟨d, k⟩).2.disk.at_ (C.trash.loc ++ [n]) = some (.link t)) := by
  have hh := setMeta_hoare C q new old d t h.link h.reads h.name (fun i hi => h.id i (idOf_iff.1 hi)) h.trash hF ⟨d, k⟩ rfl
  rw [← replaceCheck_iff]
  generalize C.setMeta q new ⟨d, k⟩ = res at hh herr ⊢
  obtain ⟨r, s⟩ := res
  simp only at herr
  subst herr
  rcases hh with hd | ⟨h1, ⟨n, -, h2, h3, -⟩, -⟩
  · exact .inl fun r => by rw [hd]
  · exact .inr ⟨h1, h3, n, h2⟩

/-- **C28**: metadata is never set on something that exists (that is no link, or a link that leads somewhere): this raises
and changes nothing. -/
theorem C28_exists_refused (C : LinkEnv) {q : Path} {d : Disk Obj} {x : Obj} (hx : d.at_ q = some x)
    (hl : (∃ t, x = .link t) → C.trash.leads d q = true) (new : PathMeta) (k : Nat) :
    (∃ e, (C.setMeta q new ⟨d, k⟩).1 = .error e ∧ (C.trash.F k = none → e = .pathExistsError)) ∧
    (C.setMeta q new ⟨d, k⟩).2.disk = d := by
  have hex : C.exists_ d q = true := by
    unfold LinkEnv.exists_
    rw [hx]
    cases x with
    | link t => exact hl ⟨t, rfl⟩
    | dir => rfl
    | file => rfl
  unfold LinkEnv.setMeta
  cases hF : C.trash.F k with
  | some e => exact ⟨⟨e, by simp [Prog.bind, Prog.look, Prog.sys, hF], by simp⟩, by simp [Prog.bind, Prog.look, Prog.sys, hF]⟩
  | none =>
    refine ⟨⟨.pathExistsError, ?_, fun _ => rfl⟩, ?_⟩
    · simp [Prog.bind, Prog.look, Prog.sys, hF, hex, Prog.throw]
    · simp [Prog.bind, Prog.look, Prog.sys, hF, hex, Prog.throw]

/-- **C28** (partial): if the metadata can be written as a link and no call to the operating system fails for reasons of
its own, then a call that raises has changed nothing. -/
theorem C28_encodable_partial (C : LinkEnv) (hF : ∀ n, C.trash.F n = none) {q : Path} {d : Disk Obj} {t t' : Str}
    {old : PathMeta} (h : Stored C q d t old) (new : PathMeta) (ht : linkText C.env new (nameOf q) = .ok t')
    (hpd : d.at_ q.dropLast = some .dir) (k : Nat) (e : PyErr) (herr : (C.setMeta q new ⟨d, k⟩).1 = .error e) (r : Path) :
    (C.setMeta q new ⟨d, k⟩).2.disk.at_ r = d.at_ r := by
  have hh := setMeta_hoare C q new old d t h.link h.reads h.name (fun i hi => h.id i (idOf_iff.1 hi)) h.trash (by simp [hF]) ⟨d, k⟩ rfl
  generalize C.setMeta q new ⟨d, k⟩ = res at hh herr ⊢
  obtain ⟨x, s⟩ := res
  simp only at herr
  subst herr
  rcases hh with hd | ⟨-, ⟨n, hap, -, hq, hfr⟩, hw⟩
  · rw [hd]
  · exfalso
    rcases hw with ⟨e, he⟩ | ⟨n, e, he⟩ | ⟨t, e, he⟩
    · rw [ht] at he; simp at he
    · rw [hF] at he; simp at he
    · have hne : q ≠ [] := fun hc => by
        have := h.name.1
        simp [nameOf, hc] at this
      have hpar : s.disk.at_ q.dropLast = some .dir := by
        rw [hfr q.dropLast, hpd]
        · intro hc
          have h1 := hc.length_le
          have h3 := List.length_pos_iff.2 hne
          rw [List.length_dropLast] at h1
          omega
        · exact fun hc => hap.2 (hc.trans (List.dropLast_prefix _))
      simp [Disk.create, hq, hpar, Kinded.isDir] at he

/-! ## Where the claims fail -/

/-- An environment in which a text of `n` characters is the time `n`. -/
def lenEnv : Env := ⟨fun s => .ok (.dt ⟨1, 1, 1, 0, 0, 0, s.length, some 0⟩), fun _ => .error .valueError, fun _ => []⟩

/-- Metadata with an id and the time of the last update. -/
def stamped (id : Str) (time : Str) : PathMeta :=
  ⟨fun f => if f = .id then .str id else if f = .errors then .strs [] else .none, ⟨some .none, .none⟩, ⟨none, .str time⟩, []⟩

/-- Over several calls the cache may go back in time: metadata of the time 3 for one id may be replaced by metadata of
the time 1 for the same id, and that by metadata of the time 2 for another id, which could not have replaced the first. -/
theorem C27_sequence_counterexample :
    replaceCheck lenEnv (stamped ['x'] ['-', '-', '-']) (stamped ['x'] ['-']) = .ok true ∧
    replaceCheck lenEnv (stamped ['x'] ['-']) (stamped ['y'] ['-', '-']) = .ok true ∧
    replaceCheck lenEnv (stamped ['x'] ['-', '-', '-']) (stamped ['y'] ['-', '-']) = .ok false := by
  decide +kernel

/-- The text of a link with an id only. -/
def idLink : Str := ['f', '/', 'x', '/', '.', 'm', 'd', 'v', '6'] ++ (List.replicate 17 ['.', '#']).flatten

/-- A disk with such a link and a trash. -/
def linkDisk (trash : Obj) : Disk Obj := [([], .dir), ([['t']], trash), ([['f']], .link idLink)]

/-- No link leads anywhere, no call fails. -/
def brokenEnv : LinkEnv := ⟨lenEnv, ⟨fun _ => none, fun d p => match d.at_ p with | some (.link _) => false | some _ => true | none => false,
  fun n => 255 < n.length, .dir, [['t']]⟩⟩

/-- Metadata with an id and a name. -/
def named (id name : Str) : PathMeta :=
  ⟨fun f => if f = .id then .str id else if f = .name then .str name else if f = .errors then .strs [] else .none,
   ⟨some .none, .none⟩, ⟨some .none, .none⟩, []⟩

/-- What the link says. -/
def idOnly : PathMeta :=
  ⟨fun f => if f = .id then .str ['x'] else if f = .errors then .strs [] else .none, ⟨some .none, .none⟩, ⟨some .none, .none⟩, []⟩

theorem idLink_reads : ∃ o, Symlink.fromSymlink ['f'] idLink false = .ok o ∧ o.plain .id = .str ['x'] ∧ idOf o = some ['x'] := by
  refine ⟨_, rfl, ?_, ?_⟩ <;> decide +kernel

/-- Metadata with a slash in the name cannot be written as a link, which is found out after the stored link was moved to
the trash: the call raises and there is nothing at the path any more. -/
theorem C28_not_encodable_counterexample :
    (brokenEnv.setMeta [['f']] (named ['x'] ['a', '/', 'b']) ⟨linkDisk .dir, 0⟩).1 = .error .valueError ∧
    (linkDisk .dir).at_ [['f']] = some (.link idLink) ∧
    (brokenEnv.setMeta [['f']] (named ['x'] ['a', '/', 'b']) ⟨linkDisk .dir, 0⟩).2.disk.at_ [['f']] = none := by
  refine ⟨?_, ?_, ?_⟩ <;> decide +kernel

/-- If the trash itself is a broken link, making it fails because it exists; this is taken to mean that the version is
already in the trash, and the stored metadata is unlinked: it is nowhere on the disk after a normal return. -/
theorem C27_broken_trash_counterexample :
    (brokenEnv.setMeta [['f']] (named ['x'] ['b']) ⟨linkDisk (.link ['n']), 0⟩).1 = .ok () ∧
    ∀ e ∈ (brokenEnv.setMeta [['f']] (named ['x'] ['b']) ⟨linkDisk (.link ['n']), 0⟩).2.disk, e.2 ≠ .link idLink := by
  refine ⟨?_, ?_⟩ <;> decide +kernel

/-- The hypotheses can be met: a link, a trash, and an update that is allowed. -/
example : ∃ o t', Stored brokenEnv [['f']] (linkDisk .dir) idLink o ∧ MayReplace brokenEnv.env o (named ['x'] ['b']) ∧
    linkText brokenEnv.env (named ['x'] ['b']) (nameOf [['f']]) = .ok t' ∧ o.plain .id = .str ['x'] ∧ Apart [['f']] brokenEnv.trash.loc := by
  obtain ⟨o, h1, h2, h3⟩ := idLink_reads
  have hgo : replaceCheck lenEnv (match Symlink.fromSymlink ['f'] idLink false with | .ok o => o | .error _ => idOnly) (named ['x'] ['b']) = .ok true := by
    decide +kernel
  rw [h1] at hgo
  refine ⟨o, _, ⟨by decide, h1, by decide, ?_, by decide⟩, (replaceCheck_iff _ _ _).1 hgo, rfl, h2, ?_⟩
  · intro i hi
    rw [h2] at hi
    cases hi
    decide
  · unfold Apart; decide

/-- **C27**: where there is nothing yet, a call changes at most the path, and there only to the link for the metadata; it returns
normally if no call fails, the directory is there and the metadata can be written as a link. -/
theorem C27_first (C : LinkEnv) {q : Path} {d : Disk Obj} (hq : d.at_ q = none) (new : PathMeta) (k : Nat) :
    (∀ r, r ≠ q → (C.setMeta q new ⟨d, k⟩).2.disk.at_ r = d.at_ r) ∧
    ((C.setMeta q new ⟨d, k⟩).1 = .ok () →
      ∃ t, linkText C.env new (nameOf q) = .ok t ∧ (C.setMeta q new ⟨d, k⟩).2.disk.at_ q = some (.link t)) ∧
    (∀ e, (C.setMeta q new ⟨d, k⟩).1 = .error e → (C.setMeta q new ⟨d, k⟩).2.disk = d) ∧
    ((∀ n, C.trash.F n = none) → d.at_ q.dropLast = some .dir → (∃ t, linkText C.env new (nameOf q) = .ok t) →
      (C.setMeta q new ⟨d, k⟩).1 = .ok ()) := by
  have hex : C.exists_ d q = false := by simp [LinkEnv.exists_, hq]
  have hil : isLink d q = false := by simp [isLink, hq]
  have hh : Hoare (fun d' => d' = d) (C.setMeta q new)
      (fun _ d' => ∃ t, linkText C.env new (nameOf q) = .ok t ∧ d' = d.put q (.link t)) (fun _ d' => d' = d) := by
    unfold LinkEnv.setMeta
    refine .bind_ (Q := fun b d' => b = false ∧ d' = d) (.look_ ?_ fun _ _ h => h) fun b => .of_pre fun hb => ?_
    · rintro d a rfl h
      simp only [Except.ok.injEq] at h
      exact ⟨h ▸ hex, rfl⟩
    subst hb
    rw [if_neg (by simp)]
    refine .bind_ (Q := fun b d' => b = false ∧ d' = d) (.look_ ?_ fun _ _ h => h) fun b => .of_pre fun hb => ?_
    · rintro d a rfl h
      simp only [Except.ok.injEq] at h
      exact ⟨h ▸ hil, rfl⟩
    subst hb
    rw [if_neg (by simp)]
    unfold LinkEnv.writeLink
    cases ht : linkText C.env new (nameOf q) with
    | error e => exact .throw_ fun _ h => h
    | ok t =>
      refine .act_ ?_ fun _ _ h => h
      rintro d a rfl h
      refine ⟨t, rfl, ?_⟩
      simp only [Disk.create, hq] at h
      split at h
      · simp at h
      · split at h
        · simpa using h.symm
        · simp at h
  have hr := hh ⟨d, k⟩ rfl
  refine ⟨?_, ?_, ?_, ?_⟩
  · intro r hne
    generalize C.setMeta q new ⟨d, k⟩ = res at hr ⊢
    obtain ⟨x, s⟩ := res
    cases x with
    | error e => rw [show s.disk = d from hr]
    | ok a =>
      obtain ⟨t, -, h⟩ := hr
      rw [h, Disk.at_put, if_neg (by first | exact hne | exact fun h => hne h.symm)]
  · intro hok
    generalize C.setMeta q new ⟨d, k⟩ = res at hr hok ⊢
    obtain ⟨x, s⟩ := res
    simp only at hok
    subst hok
    obtain ⟨t, h1, h⟩ := hr
    exact ⟨t, h1, by rw [h, Disk.at_put, if_pos rfl]⟩
  · intro e he
    generalize C.setMeta q new ⟨d, k⟩ = res at hr he ⊢
    obtain ⟨x, s⟩ := res
    simp only at he
    subst he
    exact hr
  · rintro hF hp ⟨t, ht⟩
    simp [LinkEnv.setMeta, Prog.bind, Prog.look, Prog.sys, hF, hex, hil, LinkEnv.writeLink, ht, Prog.act, Disk.create, hq, hp, Kinded.isDir]

/-- **C27**: and what is stored first is read back, in every field. -/
theorem C27_first_read_back (C : LinkEnv) {q : Path} {d : Disk Obj} (hq : d.at_ q = none) {new : PathMeta} {v : Meta}
    (hv : new.Shows C.env v) (hp : Spec.ParsesIso C.env) (ht : Spec.WellTyped v) (hs : ∀ f, Spec.SymlinkStorable f (v f))
    (hn : Spec.IsName (nameOf q)) (k : Nat) (hok : (C.setMeta q new ⟨d, k⟩).1 = .ok ())
    (hb : C.trash.leads (C.setMeta q new ⟨d, k⟩).2.disk q = false) :
    ∃ o, C.getMeta (C.setMeta q new ⟨d, k⟩).2.disk q = .ok o ∧ o.Shows C.env v := by
  obtain ⟨t', h2, h3⟩ := (C27_first C hq new k).2.1 hok
  obtain ⟨p, o, h4, h5, h6⟩ := Symlink.C15_symlink_round_trip_partial C.env hp v ht hs (nameOf q) hn
  rw [linkText, view_eq hv] at h2
  dsimp only at h2
  rw [h4] at h2
  cases h2
  refine ⟨o, ?_, h6⟩
  unfold LinkEnv.getMeta
  rw [h3]
  dsimp only
  rw [if_neg (by simp [LinkEnv.exists_, h3, hb])]
  revert h5
  unfold Symlink.fromSymlink
  split
  · exact id
  · exact id
  · split
    · simp
    · simp

/-- **C27**: the metadata is asked of symlinks that lead nowhere only: of one that leads to something it raises `PathExistsError`, and of
anything else, and of nothing, `NoCachedMetadataError`. -/
theorem C27_asked (C : LinkEnv) (d : Disk Obj) (q : Path) :
    ((∀ t, d.at_ q ≠ some (.link t)) → C.getMeta d q = .error .noCachedMetadataError) ∧
    (∀ t, d.at_ q = some (.link t) → C.trash.leads d q = true → C.getMeta d q = .error .pathExistsError) := by
  constructor
  · intro h
    unfold LinkEnv.getMeta
    split
    · rename_i t ht; exact absurd ht (h t)
    · rfl
  · intro t ht hl
    simp [LinkEnv.getMeta, LinkEnv.exists_, ht, hl]

/-- Metadata with another id, updated at the same time, say when they were created, and the stored ones do not. -/
structure CreatedUnknown (env : Env) (old new : PathMeta) : Prop where
  ids : old.plain .id ≠ new.plain .id
  same : ∃ u v x, old.get env .updated = .ok u ∧ new.get env .updated = .ok v ∧ SameClock u v x x
  none : old.get env .created = .ok .none
  some : ∃ c, new.get env .created = .ok c ∧ c ≠ .none

/-- **C27**: when only the offered metadata say when they were created, the call raises and changes nothing. -/
theorem C27_unknown (C : LinkEnv) (hF : ∀ n, C.trash.F n = none) {q : Path} {d : Disk Obj} {t : Str} {old new : PathMeta}
    (h : Stored C q d t old) (hb : C.trash.leads d q = false) (he : old.eq new = .ok false) (hu : CreatedUnknown C.env old new) (k : Nat) :
    (C.setMeta q new ⟨d, k⟩).1 = .error .metadataIdMismatchError ∧ (C.setMeta q new ⟨d, k⟩).2.disk = d := by
  obtain ⟨u, v, x, h1, h2, h3⟩ := hu.same
  obtain ⟨c, h4, h5⟩ := hu.some
  have hl := (pyLt_iff v u _).2 ⟨x, x, h3.symm, rfl⟩
  have hl' := (pyLt_iff u v _).2 ⟨x, x, h3, rfl⟩
  have hn : ¬ (u = .none ∧ v = .none) := fun h => h3.ne_none.1 h.1
  have hgo : replaceCheck C.env old new = .error .metadataIdMismatchError := by
    simp [replaceCheck, he, bind, Except.bind, hu.ids, newerCheck, h1, h2, hn, hl, hl', hu.none, h4, h5]
  simp [LinkEnv.setMeta, Prog.bind, Prog.look, Prog.sys, hF, LinkEnv.exists_, h.link, hb, isLink, LinkEnv.getMeta, h.reads, hgo, Prog.throw]

/-- **C27**: nothing else makes the call raise for this reason. -/
theorem C27_unknown_only {env : Env} {old new : PathMeta} (h : newerCheck env old new = .error .metadataIdMismatchError)
    (hp : ∀ m f, PathMeta.get env m f ≠ .error .metadataIdMismatchError) (hi : old.plain .id ≠ new.plain .id) :
    CreatedUnknown env old new := by
  unfold newerCheck at h
  have hlt : ∀ a b, pyLt a b ≠ .error .metadataIdMismatchError := by
    intro a b
    unfold pyLt
    repeat' split
    all_goals simp
  cases hu : old.get env .updated with
  | error e => rw [hu] at h; simp only [bind, Except.bind, Except.error.injEq] at h; subst h; exact absurd hu (hp _ _)
  | ok u =>
    cases hv : new.get env .updated with
    | error e => rw [hu, hv] at h; simp only [bind, Except.bind, Except.error.injEq] at h; subst h; exact absurd hv (hp _ _)
    | ok v =>
      simp only [hu, hv, bind, Except.bind] at h
      split at h
      · cases h
      · split at h
        · rename_i e hl
          simp only [Except.error.injEq] at h
          subst h
          exact absurd hl (hlt _ _)
        · rename_i b hl
          split at h
          · cases h
          · rename_i hb
            split at h
            · rename_i e hl'
              simp only [Except.error.injEq] at h
              subst h
              exact absurd hl' (hlt _ _)
            · rename_i b' hl'
              split at h
              · cases h
              · rename_i hb'
                obtain ⟨y, x, hs, hx⟩ := (pyLt_iff _ _ _).1 hl
                obtain ⟨x', y', hs', hx'⟩ := (pyLt_iff _ _ _).1 hl'
                obtain ⟨rfl, rfl⟩ := hs'.fun hs.symm
                have hxy : x' = y' := by
                  subst hx hx'
                  simp at hb hb'
                  omega
                subst hxy
                cases hc : old.get env .created with
                | error e => rw [hc] at h; simp only [Except.error.injEq] at h; subst h; exact absurd hc (hp _ _)
                | ok c =>
                  cases hc' : new.get env .created with
                  | error e => rw [hc, hc'] at h; simp only [Except.error.injEq] at h; subst h; exact absurd hc' (hp _ _)
                  | ok c' =>
                    simp only [hc, hc'] at h
                    split at h
                    · split at h
                      · rename_i e hd
                        simp only [Except.error.injEq] at h
                        subst h
                        exact absurd hd (hlt _ _)
                      · split at h
                        · cases h
                        · split at h
                          · rename_i e hd
                            simp only [Except.error.injEq] at h
                            subst h
                            exact absurd hd (hlt _ _)
                          · split at h <;> cases h
                    · split at h
                      · cases h
                      · rename_i h6
                        split at h
                        · rename_i h7
                          exact ⟨hi, ⟨u, v, x', hu, hv, hs'⟩, by rw [hc]; simpa using h6, c', hc', h7⟩
                        · cases h

/-- The stored link says nothing about when it was created, and was updated when the offered metadata were. -/
example : CreatedUnknown lenEnv (stamped ['x'] ['-']) { stamped ['y'] ['-'] with created := ⟨none, .str ['-']⟩ } := by
  exact ⟨by decide, ⟨_, _, _, rfl, rfl, .aware (o := 0) (p := 0) rfl rfl⟩, rfl, ⟨_, rfl, by decide⟩⟩

end Verif.Cache
