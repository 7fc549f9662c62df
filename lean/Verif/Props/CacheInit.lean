import Verif.Model.CacheInit
import Verif.Props.Mirror
import Verif.Props.MkdirRemote
import Verif.Lemmas.Decide

/-!
# C132: making the cache of a remote object together with those of its parents
-/

namespace Verif.Cache
open Verif.FS Verif.Spec Verif.Sweep Verif.Yields

section
variable (C : PEnv) {q : Path} {d0 : Disk CObj}

/-- The directory above was made, without metadata, and `x` is at the path. -/
def WithParent (q : Path) (x : Option CObj) (d0 d : Disk CObj) : Prop :=
  d.at_ q.dropLast = some (.dir none) ∧ d.at_ q = x ∧ ∀ r, r ≠ q → r ≠ q.dropLast → d.at_ r = d0.at_ r

/-- Metadata given for a path in a directory that is not there. -/
theorem setMeta_orphan (m : Meta) (hm : metaBool m = true) (hne : q ≠ []) (hq : d0.at_ q = none) (hp : d0.at_ q.dropLast = none)
    (hg : d0.at_ q.dropLast.dropLast = none ∨ ∃ mp, d0.at_ q.dropLast.dropLast = some (.dir mp)) :
    Hoare (fun d => d = d0) (C.setMeta q (some m))
      (fun _ d => C.remoteIsDir = false ∧ d0.at_ q.dropLast.dropLast ≠ none ∧ WithParent q (some (.link (some m))) d0 d)
      (fun e d => (∃ n, C.F n = some e) ∧ (d = d0 ∨ C.remoteIsDir = false ∧ d0.at_ q.dropLast.dropLast ≠ none ∧ WithParent q none d0 d) ∨
        e = .fileNotFoundError ∧ d = d0 ∧ (C.remoteIsDir = true ∨ d0.at_ q.dropLast.dropLast = none)) := by
  have hdl : q ≠ q.dropLast := by
    intro h
    have := congrArg List.length h
    have hl : 0 < q.length := List.length_pos_iff.2 hne
    simp at this
    omega
  have herr : ∀ (α : Type) (a : α) (e : PyErr) (d : Disk CObj), d = d0 → (∃ n, C.F n = some e) ∨ (Except.ok a : Except PyErr α) = .error e →
      (∃ n, C.F n = some e) ∧ (d = d0 ∨ C.remoteIsDir = false ∧ d0.at_ q.dropLast.dropLast ≠ none ∧ WithParent q none d0 d) ∨
        e = .fileNotFoundError ∧ d = d0 ∧ (C.remoteIsDir = true ∨ d0.at_ q.dropLast.dropLast = none) := by
    rintro α a e d rfl (h | h)
    · exact .inl ⟨h, .inl rfl⟩
    · simp at h
  rw [setMeta_unfold C m hm]
  refine .bind_ (Q := fun ex d => ex = false ∧ d = d0) (.look_err ?_ (fun e d hd h => herr _ _ e d hd h)) fun ex => .of_pre fun hex => ?_
  · rintro d a rfl h
    simp only [Except.ok.injEq] at h
    exact ⟨h ▸ not_there_none hq, rfl⟩
  subst hex
  simp only [Bool.false_eq_true, if_false]
  cases hr : C.remoteIsDir with
  | true =>
    rw [hr] at herr
    refine .bind_ (Q := fun _ _ => False) ?_ fun _ => fun _ h => h.elim
    unfold PEnv.prepare
    rw [if_pos hr]
    refine .bind_ (Q := fun ex d => ex = false ∧ d = d0) (.look_err ?_ (fun e d hd h => herr _ _ e d hd h)) fun ex => .of_pre fun hex => ?_
    · rintro d a rfl h
      simp only [Except.ok.injEq] at h
      exact ⟨h ▸ not_there_none hq, rfl⟩
    subst hex
    refine .act_err ?_ ?_
    · rintro d d' rfl h
      simp [Disk.create, hq, hp] at h
    · rintro e d rfl (h | h)
      · exact .inl ⟨h, .inl rfl⟩
      · simp only [Disk.create, hq, hp, Except.error.injEq] at h
        exact .inr ⟨h.symm, rfl, .inl rfl⟩
  | false =>
    rw [hr] at herr
    refine .bind_ (Q := fun _ d => d0.at_ q.dropLast.dropLast ≠ none ∧ WithParent q none d0 d) ?_ fun _ => ?_
    · unfold PEnv.prepare
      rw [if_neg (by simp [hr])]
      refine .bind_ (Q := fun ex d => ex = false ∧ d = d0) (.look_err ?_ (fun e d hd h => herr _ _ e d hd h)) fun ex => .of_pre fun hex => ?_
      · rintro d a rfl h
        simp only [Except.ok.injEq] at h
        exact ⟨h ▸ not_there_none hp, rfl⟩
      subst hex
      refine .act_err ?_ ?_
      · rintro d d' rfl h
        rcases hg with hg | ⟨mp, hg⟩
        · simp [Disk.create, hp, hg] at h
        · simp only [Disk.create, hp, hg, Kinded.isDir, if_true, Except.ok.injEq] at h
          subst h
          refine ⟨by simp [hg], at_put_self _ _ _, ?_, fun r _ h => ?_⟩
          · rw [Disk.at_put, if_neg hdl, hq]
          · rw [Disk.at_put, if_neg h]
      · rintro e d rfl (h | h)
        · exact .inl ⟨h, .inl rfl⟩
        · rcases hg with hg | ⟨mp, hg⟩
          · simp only [Disk.create, hp, hg, Except.error.injEq] at h
            exact .inr ⟨h.symm, rfl, .inr hg⟩
          · simp [Disk.create, hp, hg, Kinded.isDir] at h
    · refine .bind_ (Q := fun ex d => ex = false ∧ d0.at_ q.dropLast.dropLast ≠ none ∧ WithParent q none d0 d) (.look_err ?_ ?_) fun ex => .of_pre fun hex => ?_
      · rintro d a ⟨h1, h2⟩ h
        simp only [Except.ok.injEq] at h
        exact ⟨h ▸ not_there_none h2.2.1, h1, h2⟩
      · rintro e d ⟨h1, h2⟩ (h | h)
        · exact .inl ⟨h, .inr ⟨rfl, h1, h2⟩⟩
        · simp at h
      subst hex
      simp only [Bool.false_eq_true, if_false]
      unfold PEnv.setLink
      refine .bind_ (Q := fun o d => o = none ∧ d0.at_ q.dropLast.dropLast ≠ none ∧ WithParent q none d0 d) (.look_err ?_ ?_) fun o => .of_pre fun ho => ?_
      · rintro d a ⟨h1, h2⟩ h
        simp only [Except.ok.injEq] at h
        exact ⟨h ▸ h2.2.1, h1, h2⟩
      · rintro e d ⟨h1, h2⟩ (h | h)
        · exact .inl ⟨h, .inr ⟨trivial, h1, h2⟩⟩
        · simp at h
      subst ho
      refine .act_err ?_ ?_
      · rintro d d' ⟨h1, h2⟩ h
        obtain ⟨-, rfl⟩ := create_ok h
        refine ⟨trivial, h1, ?_, at_put_self _ _ _, fun r h3 h4 => ?_⟩
        · rw [Disk.at_put, if_neg (Ne.symm hdl), h2.1]
        · rw [Disk.at_put, if_neg h3, h2.2.2 r h3 h4]
      · rintro e d ⟨h1, h2⟩ (h | h)
        · exact .inl ⟨h, .inr ⟨trivial, h1, h2⟩⟩
        · simp [Disk.create, h2.1, h2.2.1, Kinded.isDir] at h

/-- Where nothing is, updating is storing. -/
theorem updater_none (m : Meta) (hq : d0.at_ q = none) {Q : Unit → Disk CObj → Prop} {R : PyErr → Disk CObj → Prop}
    (hF : ∀ n e, C.F n = some e → R e d0) (h : Hoare (fun d => d = d0) (C.setMeta q (some m)) Q R) :
    Hoare (fun d => d = d0) (C.metaUpdater q m true) (fun _ d => Q () d) R := by
  unfold PEnv.metaUpdater
  refine .bind_ (Q := fun mo d => mo = none ∧ d = d0) (.look_err ?_ ?_) fun mo => .of_pre fun hmo => ?_
  · rintro d x rfl h
    rw [hq] at h
    simp only [Except.ok.injEq] at h
    exact ⟨h.symm, rfl⟩
  · rintro e d rfl (⟨n, h⟩ | h)
    · exact hF n e h
    · rw [hq] at h; simp at h
  · subst hmo
    simp only [updateMeta, Bool.false_eq_true, if_false]
    refine .bind_ (Q := fun b d => b = false ∧ d = d0) (.pure_ fun d h => ⟨rfl, h⟩) fun b => .of_pre fun hb => ?_
    subst hb
    simp only [Bool.false_and, Bool.false_eq_true, if_false]
    exact .bind_ h fun _ => .pure_ fun d h => h

end

variable {C : PEnv} {S : Sent} {a : Path} {c : Child} {d0 : Disk CObj}

/-- The cache of a remote object in a directory that is not there: a symlink for a remote file if at least the directory above that one
is there, and then the directory is made without metadata; otherwise a `FileNotFoundError`. -/
theorem childInit_orphan (hw : c.Sound) (hne : a ++ c.path ≠ []) (hq : d0.at_ (a ++ c.path) = none)
    (hp : d0.at_ (a ++ c.path).dropLast = none)
    (hg : d0.at_ (a ++ c.path).dropLast.dropLast = none ∨ ∃ mp, d0.at_ (a ++ c.path).dropLast.dropLast = some (.dir mp)) :
    Hoare (fun d => d = d0) (C.childInit S a c)
      (fun p d => p = a ++ c.path ∧ c.dir = false ∧ d0.at_ (a ++ c.path).dropLast.dropLast ≠ none ∧
        WithParent (a ++ c.path) (some (.link (some c.info))) d0 d)
      (fun e d => C.Raised e ∧ (d = d0 ∨ c.dir = false ∧ d0.at_ (a ++ c.path).dropLast.dropLast ≠ none ∧ WithParent (a ++ c.path) none d0 d) ∨
        e = .fileNotFoundError ∧ d = d0 ∧ (c.dir = true ∨ d0.at_ (a ++ c.path).dropLast.dropLast = none)) := by
  have hmb : metaBool c.info = true := (metaBool_iff _ (errors_strs hw.2.1)).2 (sound_set hw)
  refine (makeChild_hoare (C.of S c) (updater_none (C.of S c) c.info hq ?_ (setMeta_orphan (C.of S c) c.info hmb hne hq hp hg))).mono (fun _ h => h) (fun _ _ h => h) ?_
  · exact fun n e h => .inl ⟨⟨n, h⟩, .inl rfl⟩
  · rintro e d ⟨e', ⟨⟨n, h⟩, h'⟩ | ⟨rfl, h, h'⟩, he⟩
    · exact .inl ⟨⟨n, e', h, he⟩, h'⟩
    · simp only [reduceCtorEq, false_and, or_false] at he
      exact .inr ⟨he, h, h'⟩

/-- The remote objects on the way from the anchor to one of them, whose names are `R`, the last one first. -/
structure Line (C : PEnv) (kid : Rel → Child) (R : List Name) : Prop where
  path : ∀ r, r <:+ R → (kid r.reverse).path = r.reverse
  sound : ∀ r, r <:+ R → (kid r.reverse).Sound
  dirs : ∀ n r, n :: r <:+ R → (kid r.reverse).shape = .dir
  last : (kid R.reverse).shape = .dir ∨ (kid R.reverse).shape = .file
  same : ∀ r, r <:+ R → C.replace (kid r.reverse).info (kid r.reverse).info = .ok false

theorem Line.tail {kid : Rel → Child} {n : Name} {r : List Name} (h : Line C kid (n :: r)) : Line C kid r where
  path := fun r' h' => h.path r' (h'.trans (List.suffix_cons _ _))
  sound := fun r' h' => h.sound r' (h'.trans (List.suffix_cons _ _))
  dirs := fun m r' h' => h.dirs m r' (h'.trans (List.suffix_cons _ _))
  last := .inl (h.dirs n r (List.suffix_refl _))
  same := fun r' h' => h.same r' (h'.trans (List.suffix_cons _ _))

/-- On the way from the anchor nothing is there, or a directory with some of the metadata of the remote directory (for a remote file a
symlink), and what is there is in a directory. -/
def Way (a : Path) (kid : Rel → Child) : List Name → Disk CObj → Prop
  | [], d => (∃ mp, d.at_ a.dropLast = some (.dir mp)) ∧ Ready a d (kid [])
  | n :: r, d => Way a kid r d ∧ Ready a d (kid (n :: r).reverse) ∧
    (d.at_ (a ++ (n :: r).reverse) ≠ none → ∃ mp, d.at_ (a ++ r.reverse) = some (.dir mp))

/-- Only places on the way are different. -/
def AlongOnly (a : Path) (R : List Name) (d0 d : Disk CObj) : Prop :=
  ∀ p, (∀ r, r <:+ R → p ≠ a ++ r.reverse) → d.at_ p = d0.at_ p

/-- Nothing has gone. -/
def Grew (d0 d : Disk CObj) : Prop := ∀ p, d0.at_ p ≠ none → d.at_ p ≠ none

theorem Way.ready {kid : Rel → Child} {R : List Name} {d : Disk CObj} (h : Way a kid R d) : Ready a d (kid R.reverse) := by
  cases R with
  | nil => exact h.2
  | cons n r => exact h.2.1

/-- A remote directory has a directory or nothing. -/
theorem ready_dir {d : Disk CObj} (h : Ready a d c) (hs : c.shape = .dir) {p : Path} (hp : a ++ c.path = p) :
    d.at_ p = none ∨ ∃ mp, d.at_ p = some (.dir mp) := by
  subst hp
  rcases h with h | ⟨-, o, h, -⟩ | ⟨h, -⟩
  · exact .inl h
  · exact .inr ⟨o, h⟩
  · rw [hs] at h; simp at h

theorem ready_congr {d d' : Disk CObj} (h : d'.at_ (a ++ c.path) = d.at_ (a ++ c.path)) (hr : Ready a d c) : Ready a d' c := by
  unfold Ready
  rw [h]
  exact hr

theorem Way.congr {kid : Rel → Child} {d d' : Disk CObj} (htop : d'.at_ a.dropLast = d.at_ a.dropLast) : ∀ {R : List Name},
    (∀ r, r <:+ R → (kid r.reverse).path = r.reverse) →
    (∀ r, r <:+ R → d'.at_ (a ++ r.reverse) = d.at_ (a ++ r.reverse)) → Way a kid R d → Way a kid R d'
  | [], hp, h, ⟨h1, h2⟩ => by
    have hp0 := hp [] (List.suffix_refl _)
    simp only [List.reverse_nil] at hp0
    refine ⟨by rw [htop]; exact h1, ready_congr ?_ h2⟩
    rw [hp0]
    exact h [] (List.suffix_refl _)
  | n :: r, hp, h, ⟨h1, h2, h3⟩ => by
    refine ⟨Way.congr htop (fun r' h' => hp r' (h'.trans (List.suffix_cons _ _))) (fun r' h' => h r' (h'.trans (List.suffix_cons _ _))) h1,
      ready_congr ?_ h2, ?_⟩
    · rw [hp _ (List.suffix_refl _)]
      exact h _ (List.suffix_refl _)
    · rw [h _ (List.suffix_refl _), h r (List.suffix_cons _ _)]
      exact h3

theorem top_ne (ha : a ≠ []) (r : List Name) : a.dropLast ≠ a ++ r.reverse := by
  intro h
  have := congrArg List.length h
  have := List.length_pos_iff.2 ha
  simp at *
  omega

theorem place_ne {r R : List Name} (h : r.length ≠ R.length) : a ++ r.reverse ≠ a ++ R.reverse := by
  intro he
  apply h
  have := congrArg List.length (List.append_cancel_left he)
  simpa using this

/-- Changing only the last place. -/
theorem Way.last {kid : Rel → Child} {n : Name} {r : List Name} {d d' : Disk CObj} (ha : a ≠ [])
    (hpath : ∀ r', r' <:+ n :: r → (kid r'.reverse).path = r'.reverse) (h : Way a kid r d)
    (hon : OnlyAt (a ++ (n :: r).reverse) d d') (hr : Ready a d' (kid (n :: r).reverse))
    (hp : d'.at_ (a ++ (n :: r).reverse) ≠ none → ∃ mp, d.at_ (a ++ r.reverse) = some (.dir mp)) : Way a kid (n :: r) d' := by
  have hlen : ∀ r', r' <:+ r → r'.length ≠ (n :: r).length := fun r' h' => by
    have := h'.length_le
    simp; omega
  refine ⟨h.congr (hon _ (top_ne ha _)) (fun r' h' => hpath r' (h'.trans (List.suffix_cons _ _))) (fun r' h' => hon _ (place_ne (hlen r' h'))), hr, ?_⟩
  intro h'
  rw [hon _ (place_ne (hlen r (List.suffix_refl _)))]
  exact hp h'

theorem AlongOnly.of_onlyAt {R : List Name} {d0 d : Disk CObj} (h : OnlyAt (a ++ R.reverse) d0 d) : AlongOnly a R d0 d :=
  fun p hp => h p (hp R (List.suffix_refl _))

theorem grew_onlyAt {q : Path} {d0 d : Disk CObj} (h : OnlyAt q d0 d) (h' : d0.at_ q ≠ none → d.at_ q ≠ none) : Grew d0 d := by
  intro p hp
  by_cases hq : p = q
  · subst hq; exact h' hp
  · rw [h p hq]; exact hp

theorem drop_place (a : Path) (n : Name) (r : List Name) : (a ++ (n :: r).reverse).dropLast = a ++ r.reverse := by
  rw [List.reverse_cons, ← List.append_assoc, List.dropLast_concat]

theorem done_some {d : Disk CObj} (h : Done a d c) : d.at_ (a ++ c.path) ≠ none := by
  rcases h with ⟨-, o, h, -⟩ | ⟨-, h⟩ <;> simp [h]

/-- The grandparent, if the parent is not there. -/
theorem Way.above {kid : Rel → Child} : ∀ {r : List Name} {d : Disk CObj}, (∀ r', r' <:+ r → (kid r'.reverse).path = r'.reverse) →
    (∀ n r', n :: r' <:+ r → (kid r'.reverse).shape = .dir) → Way a kid r d →
    d.at_ (a ++ r.reverse).dropLast = none ∨ ∃ mp, d.at_ (a ++ r.reverse).dropLast = some (.dir mp)
  | [], d, _, _, h => .inr (by simpa using h.1)
  | n :: r, d, hp, hd, h => by
    rw [drop_place]
    exact ready_dir h.1.ready (hd n r (List.suffix_refl _)) (by rw [hp r (List.suffix_cons _ _)])

/-- One cache on the way. -/
theorem childInit_way {kid : Rel → Child} {R : List Name} (hl : Line C kid R) (ha : a ≠ []) (hw : Way a kid R d0) :
    Hoare (fun d => d = d0) (C.childInit S a (kid R.reverse))
      (fun p d => p = a ++ R.reverse ∧ Done a d (kid R.reverse) ∧ Way a kid R d ∧ AlongOnly a R d0 d ∧ Grew d0 d)
      (fun _ d => Way a kid R d ∧ AlongOnly a R d0 d ∧ Grew d0 d) := by
  have hpR := hl.path R (List.suffix_refl _)
  cases R with
  | nil =>
    simp only [List.reverse_nil] at hpR
    obtain ⟨mp, hm⟩ := hw.1
    have h := childInit_stays C (S := S) (a := a) (c := kid []) (mp := mp) (hl.sound [] (List.suffix_refl _)) hl.last (hl.same [] (List.suffix_refl _)) (by rw [hpR, List.append_nil]; exact hm) hw.2
    rw [hpR, List.append_nil] at h
    have htop : a.dropLast ≠ a := by simpa using top_ne ha []
    simp only [List.reverse_nil, List.append_nil]
    refine h.mono (fun _ h => h) ?_ ?_
    · rintro p d ⟨h1, h2, h3⟩
      refine ⟨h1, h3, ⟨⟨mp, by rw [h2 _ htop]; exact hm⟩, h3.ready⟩, .of_onlyAt (by simpa using h2), grew_onlyAt h2 fun _ => ?_⟩
      have := done_some h3
      rwa [hpR, List.append_nil] at this
    · rintro e d ⟨-, h2, h3, h4⟩
      exact ⟨⟨⟨mp, by rw [h2 _ htop]; exact hm⟩, h3⟩, .of_onlyAt (by simpa using h2), grew_onlyAt h2 h4⟩
  | cons n r =>
    obtain ⟨hw1, hw2, hw3⟩ := hw
    have hpr := hl.path r (List.suffix_cons _ _)
    have hdr := hl.dirs n r (List.suffix_refl _)
    rcases ready_dir hw1.ready hdr (by rw [hpr] : _ = a ++ r.reverse) with hpn | ⟨mp, hpd⟩
    · have hq : d0.at_ (a ++ (n :: r).reverse) = none := by
        cases h : d0.at_ (a ++ (n :: r).reverse) with
        | none => rfl
        | some x =>
          obtain ⟨mp, h'⟩ := hw3 (by rw [h]; simp)
          rw [hpn] at h'; simp at h'
      have hg := Way.above (fun r' h' => hl.path r' (h'.trans (List.suffix_cons _ _))) (fun m r' h' => hl.dirs m r' (h'.trans (List.suffix_cons _ _))) hw1
      have h := childInit_orphan (C := C) (S := S) (a := a) (c := kid (n :: r).reverse) (d0 := d0) (hl.sound _ (List.suffix_refl _))
        (by simp [ha]) (by rw [hpR]; exact hq) (by rw [hpR, drop_place]; exact hpn) (by rw [hpR, drop_place]; exact hg)
      rw [hpR, drop_place] at h
      have hway : ∀ x d, d0.at_ (a ++ r.reverse).dropLast ≠ none → WithParent (a ++ (n :: r).reverse) x d0 d → Ready a d (kid (n :: r).reverse) →
          Way a kid (n :: r) d ∧ AlongOnly a (n :: r) d0 d ∧ Grew d0 d := by
        rintro x d hne ⟨h1, h2, h3⟩ hrd
        rw [drop_place] at h1 h3
        have hlen : ∀ m r', m :: r' <:+ r → r'.length ≠ (n :: r).length ∧ r'.length ≠ r.length := fun m r' h' => by
          have := h'.length_le
          simp at this ⊢; omega
        have hlast : Ready a d (kid r.reverse) := by
          refine .inr (.inl ⟨hdr, none, by rw [hpr]; exact h1, fun f => .inl rfl⟩)
        refine ⟨⟨?_, hrd, fun _ => ⟨none, h1⟩⟩, fun p hp => h3 p (hp _ (List.suffix_refl _)) (hp _ (List.suffix_cons _ _)), fun p hp => ?_⟩
        · cases r with
          | nil =>
            refine ⟨?_, hlast⟩
            rw [h3 _ (top_ne ha _) (top_ne ha _)]
            exact hw1.1
          | cons m r2 =>
            refine ⟨hw1.1.congr (h3 _ (top_ne ha _) (top_ne ha _)) (fun r' h' => hl.path r' (h'.trans ((List.suffix_cons _ _).trans (List.suffix_cons _ _)))) ?_, hlast, fun _ => ?_⟩
            · intro r' h'
              have := h'.length_le
              exact h3 _ (place_ne (by simp; omega)) (place_ne (by simp; omega))
            · rw [h3 _ (place_ne (by simp; omega)) (place_ne (by simp))]
              rw [drop_place] at hg hne
              exact hg.resolve_left hne
        · by_cases hp1 : p = a ++ (n :: r).reverse
          · rw [hp1, hq] at hp; simp at hp
          · by_cases hp2 : p = a ++ r.reverse
            · rw [hp2, h1]; simp
            · rw [h3 p hp1 hp2]; exact hp
      have hsame : Way a kid (n :: r) d0 ∧ AlongOnly a (n :: r) d0 d0 ∧ Grew d0 d0 := ⟨⟨hw1, hw2, hw3⟩, fun _ _ => rfl, fun _ h => h⟩
      refine h.mono (fun _ h => h) ?_ ?_
      · rintro p d ⟨h1, h2, h3, h4⟩
        have hfile : (kid (n :: r).reverse).shape = .file := hl.last.resolve_left fun h => by rw [Child.dir, h] at h2; simp at h2
        have hd : Done a d (kid (n :: r).reverse) := .inr ⟨hfile, by rw [hpR]; exact h4.2.1⟩
        exact ⟨h1, hd, hway _ d h3 h4 hd.ready⟩
      · rintro e d (⟨-, rfl | ⟨-, h3, h4⟩⟩ | ⟨-, rfl, -⟩)
        · exact hsame
        · exact hway _ d h3 h4 (.inl (by rw [hpR]; exact h4.2.1))
        · exact hsame
    · have h := childInit_stays C (S := S) (a := a) (c := kid (n :: r).reverse) (mp := mp) (hl.sound _ (List.suffix_refl _)) hl.last
        (hl.same _ (List.suffix_refl _)) (by rw [hpR, drop_place]; exact hpd) hw2
      rw [hpR] at h
      refine h.mono (fun _ h => h) ?_ ?_
      · rintro p d ⟨h1, h2, h3⟩
        refine ⟨h1, h3, Way.last ha hl.path hw1 h2 h3.ready fun _ => ⟨mp, hpd⟩, .of_onlyAt h2, grew_onlyAt h2 fun _ => ?_⟩
        have := done_some h3
        rwa [hpR] at this
      · rintro e d ⟨-, h2, h3, h4⟩
        exact ⟨Way.last ha hl.path hw1 h2 h3 fun _ => ⟨mp, hpd⟩, .of_onlyAt h2, grew_onlyAt h2 h4⟩


/-- A directory that is done holds metadata. -/
theorem Done.held {d : Disk CObj} (h : Done a d c) (hw : c.Sound) (hs : c.shape = .dir) :
    ∃ m, d.at_ (a ++ c.path) = some (.dir (some m)) ∧ metaBool m = true := by
  rcases h with ⟨-, o, h, ho⟩ | ⟨h, -⟩
  · have hid := ho .id
    rw [hw.2.2, if_pos (by simp [Storable, PyVal.emptyIterable, hw.1])] at hid
    cases o with
    | none => simp [shownField, unset] at hid
    | some m =>
      refine ⟨m, h, ?_⟩
      simp only [shownField] at hid
      simp only [metaBool, List.any_eq_true]
      exact ⟨.id, by decide, by simp [hid]⟩
  · rw [hs] at h; simp at h

/-- `local.cache_init(meta)` on a directory that is done raises. -/
theorem cacheInit_done (C : PEnv) {P : Disk CObj → Prop} (hw : c.Sound) (hs : c.shape = .dir) (m : Meta) {q : Path} (hq : q = a ++ c.path) :
    Hoare (fun d => Done a d c ∧ P d) (C.cacheInit q m) (fun _ _ => False) (fun e d => ((∀ n, C.F n = none) → e = .cacheExistsError) ∧ Done a d c ∧ P d) := by
  rintro s ⟨h1, h2⟩
  subst hq
  obtain ⟨m', hm, hb⟩ := h1.held hw hs
  obtain ⟨h3, e, h4, h5⟩ := C93_init_again C m hb (.inl hm)
  generalize C.cacheInit (a ++ c.path) m s = x at h3 h4
  obtain ⟨x, s'⟩ := x
  subst h4
  simp only at h3 ⊢
  rw [h3]
  exact ⟨h5, h1, h2⟩

theorem Way.up {kid : Rel → Child} {n : Name} {r : List Name} {d1 d2 : Disk CObj} (hl : Line C kid (n :: r)) (h1 : Way a kid (n :: r) d1)
    (h2 : Way a kid r d2) (ho : AlongOnly a r d1 d2) (hg : Grew d1 d2) : Way a kid (n :: r) d2 := by
  have hq : d2.at_ (a ++ (n :: r).reverse) = d1.at_ (a ++ (n :: r).reverse) := ho _ fun r' h' => place_ne (by
    have := h'.length_le
    simp; omega)
  refine ⟨h2, ready_congr (by rw [hl.path _ (List.suffix_refl _)]; exact hq) h1.2.1, fun h => ?_⟩
  rw [hq] at h
  obtain ⟨mp, h'⟩ := h1.2.2 h
  exact (ready_dir h2.ready (hl.dirs n r (List.suffix_refl _)) (by rw [hl.path _ (List.suffix_cons _ _)])).resolve_left (hg _ (by rw [h']; simp))

theorem AlongOnly.trans_tail {n : Name} {r : List Name} {d0 d1 d2 : Disk CObj} (h : AlongOnly a (n :: r) d0 d1) (h' : AlongOnly a r d1 d2) :
    AlongOnly a (n :: r) d0 d2 := fun p hp => by
  rw [h' p fun r' hr => hp r' (hr.trans (List.suffix_cons _ _)), h p hp]

/-- However often it goes up, only the way changes, and it returns only what the first attempt returns. -/
theorem initUp_way {kid : Rel → Child} {parents : Bool} (ha : a ≠ []) {R : List Name} (hl : Line C kid R) (hw : Way a kid R d0) :
    Hoare (fun d => d = d0) (C.initUp S a kid parents R)
      (fun p d => p = a ++ R.reverse ∧ Done a d (kid R.reverse) ∧ Way a kid R d ∧ AlongOnly a R d0 d ∧ Grew d0 d)
      (fun _ d => Way a kid R d ∧ AlongOnly a R d0 d ∧ Grew d0 d) := by
  induction R generalizing d0 with
  | nil =>
    have h := childInit_way (S := S) hl ha hw
    unfold PEnv.initUp
    rw [List.reverse_nil] at h ⊢
    exact h
  | cons n r ih =>
    unfold PEnv.initUp
    refine .try_ (childInit_way hl ha hw) fun e => .ite_ (fun _ => ?_) fun _ => .throw_ fun _ h => h
    intro s hs
    have hk := hl.path r (List.suffix_cons _ _)
    have hup : ∀ d, Way a kid r d ∧ AlongOnly a r s.disk d ∧ Grew s.disk d → Way a kid (n :: r) d ∧ AlongOnly a (n :: r) d0 d ∧ Grew d0 d :=
      fun d ⟨h1, h2, h3⟩ => ⟨hs.1.up hl h1 h2 h3, hs.2.1.trans_tail h2, fun p hp => h3 p (hs.2.2 p hp)⟩
    have : Hoare (fun d => d = s.disk) (.bind (C.initUp S a kid parents r) fun q =>
        .bind ((C.of S (kid r.reverse)).cacheInit q (kid r.reverse).info) fun _ => C.childInit S a (kid (n :: r).reverse))
        (fun _ _ => False) (fun _ d => Way a kid (n :: r) d ∧ AlongOnly a (n :: r) d0 d ∧ Grew d0 d) := by
      refine .bind_ ((ih hl.tail hs.1.1).mono (fun _ h => h) (fun _ _ h => h) fun _ d h => hup d h) fun q => .of_pre fun hq => ?_
      refine .bind_ (Q := fun _ _ => False) ?_ fun _ => fun _ h => h.elim
      refine (cacheInit_done (C.of S (kid r.reverse)) (hl.sound r (List.suffix_cons _ _)) (hl.dirs n r (List.suffix_refl _)) _ (by rw [hq, hk])).mono
        (fun _ h => h) (fun _ _ h => h) fun _ d h => hup d h.2.2
    exact (this.mono (P' := fun d => d = s.disk) (Q := fun p d => p = a ++ (n :: r).reverse ∧ Done a d (kid (n :: r).reverse) ∧ Way a kid (n :: r) d ∧
      AlongOnly a (n :: r) d0 d ∧ Grew d0 d) (fun _ h => h) (fun _ _ h => h.elim) (fun _ _ h => h)) s rfl

/-- It returns only what the first attempt returns. -/
theorem initUp_ok {kid : Rel → Child} {parents : Bool} (ha : a ≠ []) {R : List Name} (hl : Line C kid R) {s s' : Machine CObj} {p : Path}
    (hw : Way a kid R s.disk) (h : C.initUp S a kid parents R s = (.ok p, s')) : C.childInit S a (kid R.reverse) s = (.ok p, s') := by
  cases R with
  | nil => exact h
  | cons n r =>
    unfold PEnv.initUp at h
    have h0 := childInit_way (S := S) hl ha hw s rfl
    simp only [Prog.catch_] at h
    generalize C.childInit S a (kid (n :: r).reverse) s = x at h h0 ⊢
    obtain ⟨x, s1⟩ := x
    cases x with
    | ok p' => exact h
    | error e =>
      exfalso
      simp only at h h0
      split at h
      · have hk := hl.path r (List.suffix_cons _ _)
        have : Hoare (fun d => d = s1.disk) (.bind (C.initUp S a kid parents r) fun q =>
            .bind ((C.of S (kid r.reverse)).cacheInit q (kid r.reverse).info) fun _ => C.childInit S a (kid (n :: r).reverse))
            (fun _ _ => False) (fun _ _ => True) := by
          refine .bind_ ((initUp_way ha hl.tail h0.1.1).mono (fun _ h => h) (fun _ _ h => h) fun _ _ _ => trivial) fun q => .of_pre fun hq => ?_
          refine .bind_ (Q := fun _ _ => False) ?_ fun _ => fun _ h => h.elim
          exact (cacheInit_done (C.of S (kid r.reverse)) (hl.sound r (List.suffix_cons _ _)) (hl.dirs n r (List.suffix_refl _)) _ (by rw [hq, hk])).mono
            (fun _ h => h) (fun _ _ h => h) fun _ _ _ => trivial
        have := this s1 rfl
        rw [h] at this
        exact this
      · simp [Prog.throw] at h

section
variable {kid : Rel → Child} {parents : Bool} {R : List Name} {s : Machine CObj}

/-- **C132** However the call ends and whichever system calls fail: nothing is different but at the remote object and at the directories
above it, below and at the anchor; nothing has gone; and on the way there is still nothing but what a bootstrap leaves. -/
theorem C132_touched (ha : a ≠ []) (hl : Line C kid R) (hw : Way a kid R s.disk) :
    (∀ p, (∀ r, r <+: R.reverse → p ≠ a ++ r) → (C.initUp S a kid parents R s).2.disk.at_ p = s.disk.at_ p) ∧
    (∀ p, s.disk.at_ p ≠ none → (C.initUp S a kid parents R s).2.disk.at_ p ≠ none) ∧
    Way a kid R (C.initUp S a kid parents R s).2.disk := by
  have h := initUp_way (S := S) (parents := parents) ha hl hw s rfl
  have hal : ∀ d, AlongOnly a R s.disk d → ∀ p, (∀ r, r <+: R.reverse → p ≠ a ++ r) → d.at_ p = s.disk.at_ p :=
    fun d h p hp => h p fun r hr => hp _ (List.reverse_prefix.2 hr)
  generalize C.initUp S a kid parents R s = x at h ⊢
  obtain ⟨x | x, s'⟩ := x
  · exact ⟨hal _ h.2.1, h.2.2, h.1⟩
  · exact ⟨hal _ h.2.2.2.1, h.2.2.2.2, h.2.2.1⟩

/-- **C132** If it returns, it is with the path of the remote object, and the cache there has the metadata of the remote: a directory
shows them, a symlink holds them. -/
theorem C132_returned (ha : a ≠ []) (hl : Line C kid R) (hw : Way a kid R s.disk) {p : Path} {s' : Machine CObj}
    (h : C.initUp S a kid parents R s = (.ok p, s')) :
    p = a ++ R.reverse ∧
    ((kid R.reverse).shape = .dir → ∃ o, s'.disk.at_ p = some (.dir o) ∧ Overlaid none (kid R.reverse).info o) ∧
    ((kid R.reverse).shape = .file → s'.disk.at_ p = some (.link (some (kid R.reverse).info))) := by
  have h' := initUp_way (S := S) (parents := parents) ha hl hw s rfl
  rw [h] at h'
  obtain ⟨rfl, h1, -⟩ := h'
  refine ⟨rfl, fun hs => ?_, fun hs => ?_⟩
  · rcases h1 with ⟨-, h⟩ | ⟨h, -⟩
    · rwa [hl.path R (List.suffix_refl _)] at h
    · rw [hs] at h; simp at h
  · rcases h1 with ⟨h, -⟩ | ⟨-, h⟩
    · rw [hs] at h; simp at h
    · rwa [hl.path R (List.suffix_refl _)] at h

/-- **C132** Asking for the parents never makes a call return that does not return without: what it returns, and what it leaves then, is
what it returns and leaves without them. -/
theorem C132_useless (ha : a ≠ []) (hl : Line C kid R) (hw : Way a kid R s.disk) {p : Path} {s' : Machine CObj}
    (h : C.initUp S a kid true R s = (.ok p, s')) : C.initUp S a kid false R s = (.ok p, s') := by
  have h' := initUp_ok ha hl hw h
  cases R with
  | nil => exact h'
  | cons n r =>
    unfold PEnv.initUp
    simp only [Prog.catch_, h']

end

/-- One cache on the way when no system call fails: in a directory that is there. -/
theorem childInit_works {kid : Rel → Child} {R : List Name} (hl : Line C kid R) (hF : ∀ n, C.F n = none)
    (hp : ∃ mp, d0.at_ (a ++ R.reverse).dropLast = some (.dir mp)) (hr : Ready a d0 (kid R.reverse)) :
    Hoare (fun d => d = d0) (C.childInit S a (kid R.reverse))
      (fun p d => p = a ++ R.reverse ∧ OnlyAt (a ++ R.reverse) d0 d ∧ Done a d (kid R.reverse)) (fun _ _ => False) := by
  obtain ⟨mp, hm⟩ := hp
  have h := childInit_stays C (S := S) (a := a) (c := kid R.reverse) (mp := mp) (hl.sound R (List.suffix_refl _)) hl.last (hl.same R (List.suffix_refl _))
    (by rw [hl.path R (List.suffix_refl _)]; exact hm) hr
  rw [hl.path R (List.suffix_refl _)] at h
  refine h.mono (fun _ h => h) (fun _ _ h => h) ?_
  rintro e d ⟨⟨n, e', h, -⟩, -⟩
  simp [hF] at h

/-- In a directory that is not there. -/
theorem childInit_blocked {kid : Rel → Child} {n : Name} {r : List Name} (hl : Line C kid (n :: r)) (ha : a ≠ []) (hF : ∀ n, C.F n = none)
    (hw : Way a kid (n :: r) d0) (hp : d0.at_ (a ++ r.reverse) = none)
    (hb : (kid (n :: r).reverse).shape = .dir ∨ d0.at_ (a ++ r.reverse).dropLast = none) :
    Hoare (fun d => d = d0) (C.childInit S a (kid (n :: r).reverse)) (fun _ _ => False) (fun e d => e = .fileNotFoundError ∧ d = d0) := by
  obtain ⟨hw1, hw2, hw3⟩ := hw
  have hpR := hl.path _ (List.suffix_refl _)
  have hq : d0.at_ (a ++ (n :: r).reverse) = none := by
    cases h : d0.at_ (a ++ (n :: r).reverse) with
    | none => rfl
    | some x =>
      obtain ⟨mp, h'⟩ := hw3 (by rw [h]; simp)
      rw [hp] at h'; simp at h'
  have hg := Way.above (fun r' h' => hl.path r' (h'.trans (List.suffix_cons _ _))) (fun m r' h' => hl.dirs m r' (h'.trans (List.suffix_cons _ _))) hw1
  have h := childInit_orphan (C := C) (S := S) (a := a) (c := kid (n :: r).reverse) (d0 := d0) (hl.sound _ (List.suffix_refl _))
    (by simp [ha]) (by rw [hpR]; exact hq) (by rw [hpR, drop_place]; exact hp) (by rw [hpR, drop_place]; exact hg)
  rw [hpR, drop_place] at h
  refine h.mono (fun _ h => h) ?_ ?_
  · rintro p d ⟨-, h2, h3, -⟩
    rcases hb with hb | hb
    · rw [Child.dir, hb] at h2; simp at h2
    · exact h3 hb
  · rintro e d (⟨⟨k, e', h, -⟩, -⟩ | ⟨h1, h2, -⟩)
    · simp [hF] at h
    · exact ⟨h1, h2⟩


theorem Line.drop {kid : Rel → Child} {X : List Name} : ∀ {u : List Name}, Line C kid (u ++ X) → Line C kid X
  | [], h => h
  | _ :: _, h => Line.drop h.tail

theorem Way.drop {kid : Rel → Child} {X : List Name} {d : Disk CObj} : ∀ {u : List Name}, Way a kid (u ++ X) d → Way a kid X d
  | [], h => h
  | _ :: _, h => Way.drop h.1

theorem Line.sound_self {kid : Rel → Child} {R : List Name} (h : Line C kid R) : (kid R.reverse).Sound := h.sound R (List.suffix_refl _)

theorem done_congr {d d' : Disk CObj} (h : d'.at_ (a ++ c.path) = d.at_ (a ++ c.path)) (hr : Done a d c) : Done a d' c := by
  unfold Done
  rw [h]
  exact hr

/-- Below what is not there nothing is. -/
theorem Way.missing {kid : Rel → Child} {X : List Name} {d : Disk CObj} (hX : d.at_ (a ++ X.reverse) = none) : ∀ {u : List Name},
    Way a kid (u ++ X) d → d.at_ (a ++ (u ++ X).reverse) = none
  | [], _ => hX
  | n :: u, h => by
    cases hq : d.at_ (a ++ (n :: u ++ X).reverse) with
    | none => rfl
    | some x =>
      rw [List.cons_append] at h hq
      obtain ⟨mp, h'⟩ := h.2.2 (by rw [hq]; simp)
      rw [Way.missing hX h.1] at h'
      simp at h'

/-- The outermost of the directories that are not there is `X`, seen from the remote object at `u ++ X`. -/
structure Outermost (a : Path) (X : List Name) (d : Disk CObj) : Prop where
  gone : d.at_ (a ++ X.reverse) = none
  above : ∃ mp, d.at_ (a ++ X.reverse).dropLast = some (.dir mp)

/-- Going up to the outermost directory that is not there. -/
theorem initUp_outermost {kid : Rel → Child} (ha : a ≠ []) (hF : ∀ n, C.F n = none) {X : List Name} (hX : Outermost a X d0) : ∀ {u : List Name},
    Line C kid (u ++ X) → Way a kid (u ++ X) d0 → ((kid (u ++ X).reverse).shape = .file → u.length ≠ 1) →
    Hoare (fun d => d = d0) (C.initUp S a kid true (u ++ X))
      (fun p d => u = [] ∧ p = a ++ X.reverse ∧ OnlyAt (a ++ X.reverse) d0 d ∧ Done a d (kid X.reverse))
      (fun e d => u ≠ [] ∧ e = .cacheExistsError ∧ OnlyAt (a ++ X.reverse) d0 d ∧ Done a d (kid X.reverse)) := by
  intro u
  induction u with
  | nil =>
    intro hl hw _
    have h1 := childInit_works (S := S) (a := a) (d0 := d0) hl hF hX.above hw.ready
    simp only [List.nil_append] at h1 hl hw ⊢
    cases X with
    | nil => exact h1.mono (fun _ h => h) (fun _ _ h => ⟨trivial, h⟩) fun _ _ h => h.elim
    | cons n r =>
      unfold PEnv.initUp
      exact .try_ (h1.mono (fun _ h => h) (fun _ _ h => ⟨trivial, h⟩) (R' := fun _ _ => False) fun _ _ h => h.elim) fun _ _ h => h.elim
  | cons n u ih =>
    intro hl hw hf
    simp only [List.cons_append] at hl hw hf ⊢
    have hdir : (kid (u ++ X).reverse).shape = .dir := hl.dirs n _ (List.suffix_refl _)
    have hmiss := hw.1.missing hX.gone
    have hb : (kid (n :: (u ++ X)).reverse).shape = .dir ∨ d0.at_ (a ++ (u ++ X).reverse).dropLast = none := by
      rcases hl.last with h | h
      · exact .inl h
      · refine .inr ?_
        cases u with
        | nil => exact absurd rfl (hf h)
        | cons m u =>
          simp only [List.cons_append] at hw ⊢
          rw [drop_place]
          exact hw.1.1.missing hX.gone
    unfold PEnv.initUp
    refine .try_ (childInit_blocked (S := S) hl ha hF hw hmiss hb |>.mono (fun _ h => h) (fun _ _ h => h.elim) fun _ _ h => h) fun e => .of_pre fun he => ?_
    subst he
    rw [if_pos ⟨rfl, rfl⟩]
    refine .bind_ ((ih hl.tail hw.1 (fun h => by rw [hdir] at h; simp at h)).mono (fun _ h => h) (fun _ _ h => h) fun _ _ h => ⟨by simp, h.2⟩) fun q =>
      .of_pre fun hu => .of_pre fun hq => ?_
    subst hu
    simp only [List.nil_append] at hl hdir ⊢
    refine .bind_ (Q := fun _ _ => False) ?_ fun _ => fun _ h => h.elim
    refine (cacheInit_done (C.of S (kid X.reverse)) (P := fun d => OnlyAt (a ++ X.reverse) d0 d) (hl.sound _ (List.suffix_cons _ _)) hdir _
      (by rw [hq, hl.path _ (List.suffix_cons _ _)])).mono (fun _ h => ⟨h.2, h.1⟩) (fun _ _ h => h) fun e d h => ⟨by simp, h.1 hF, h.2.2, h.2.1⟩

section
variable {kid : Rel → Child} {X u R : List Name} {s : Machine CObj}

/-- **C132** If no system call fails and the directory of the remote object is there, the call returns, and nothing is different but the
cache of the object, which is as it should be. -/
theorem C132_works (hF : ∀ n, C.F n = none) (hl : Line C kid R) (hw : Way a kid R s.disk) (parents : Bool)
    (hp : ∃ mp, s.disk.at_ (a ++ R.reverse).dropLast = some (.dir mp)) :
    ∃ s', C.initUp S a kid parents R s = (.ok (a ++ R.reverse), s') ∧ Done a s'.disk (kid R.reverse) ∧
      ∀ p, p ≠ a ++ R.reverse → s'.disk.at_ p = s.disk.at_ p := by
  have h := childInit_works (S := S) (a := a) hl hF hp hw.ready s rfl
  have heq : ∀ p s', C.childInit S a (kid R.reverse) s = (.ok p, s') → C.initUp S a kid parents R s = (.ok p, s') := by
    intro p s' h
    cases R with
    | nil => exact h
    | cons n r =>
      unfold PEnv.initUp
      simp only [Prog.catch_, h]
  generalize hx : C.childInit S a (kid R.reverse) s = x at h heq
  obtain ⟨x | x, s'⟩ := x
  · exact h.elim
  · obtain ⟨rfl, h2, h3⟩ := h
    exact ⟨s', heq _ _ rfl, h3, h2⟩

/-- **C132** Without `parents`, if no system call fails: for a remote directory whose parent is not there, or a remote file whose parent
and whose parent's parent are not there, it is a `FileNotFoundError` and nothing is different. -/
theorem C132_plain {n : Name} {r : List Name} (ha : a ≠ []) (hF : ∀ n, C.F n = none) (hl : Line C kid (n :: r)) (hw : Way a kid (n :: r) s.disk)
    (hp : s.disk.at_ (a ++ r.reverse) = none)
    (hb : (kid (n :: r).reverse).shape = .dir ∨ s.disk.at_ (a ++ r.reverse).dropLast = none) :
    ∃ s', C.initUp S a kid false (n :: r) s = (.error .fileNotFoundError, s') ∧ s'.disk = s.disk := by
  have h := childInit_blocked (S := S) hl ha hF hw hp hb s rfl
  unfold PEnv.initUp
  simp only [Prog.catch_]
  generalize C.childInit S a (kid (n :: r).reverse) s = x at h
  obtain ⟨x | x, s'⟩ := x
  · obtain ⟨rfl, h⟩ := h
    exact ⟨s', by simp [Prog.throw], h⟩
  · exact h.elim

/-- **C132** fails with `parents`: if no system call fails, and the outermost directory that is not there is `X`, further out than the remote
object is (for a remote file further out than its parent), it is a `CacheExistsError`, and `X` is made with its metadata, and nothing
else. -/
theorem C132_parents_counterexample (ha : a ≠ []) (hF : ∀ n, C.F n = none) (hl : Line C kid (u ++ X)) (hw : Way a kid (u ++ X) s.disk)
    (hX : Outermost a X s.disk) (hu : u ≠ []) (hf : (kid (u ++ X).reverse).shape = .file → u.length ≠ 1) :
    ∃ s', C.initUp S a kid true (u ++ X) s = (.error .cacheExistsError, s') ∧ Done a s'.disk (kid X.reverse) ∧
      (∃ mp, s'.disk.at_ (a ++ X.reverse) = some (.dir mp)) ∧ ∀ p, p ≠ a ++ X.reverse → s'.disk.at_ p = s.disk.at_ p := by
  have h := initUp_outermost (S := S) ha hF hX hl hw hf s rfl
  have hdir : (kid X.reverse).shape = .dir := by
    rcases List.eq_nil_or_concat u with h | ⟨u', n, rfl⟩
    · exact absurd h hu
    · exact hl.dirs n X ⟨u', by simp⟩
  generalize C.initUp S a kid true (u ++ X) s = x at h
  obtain ⟨x | x, s'⟩ := x
  · obtain ⟨-, rfl, h1, h2⟩ := h
    obtain ⟨m, hm, -⟩ := h2.held hl.drop.sound_self hdir
    rw [hl.drop.path X (List.suffix_refl _)] at hm
    exact ⟨s', rfl, h2, ⟨_, hm⟩, h1⟩
  · exact absurd h.1 hu

/-- Calling it again and again. -/
def calls (C : PEnv) (S : Sent) (a : Path) (kid : Rel → Child) (R : List Name) : Nat → Machine CObj → Machine CObj
  | 0, s => s
  | k + 1, s => calls C S a kid R k (C.initUp S a kid true R s).2

/-- **C132** For a remote directory with `u.length` directories to make before it, it raises so many times, and then returns; then all the
directories are as they should be. -/
theorem C132_repeated (ha : a ≠ []) (hF : ∀ n, C.F n = none) (hl : Line C kid (u ++ X)) (hdir : (kid (u ++ X).reverse).shape = .dir)
    (hw : Way a kid (u ++ X) s.disk) (hX : Outermost a X s.disk) :
    (∀ k, k < u.length → (C.initUp S a kid true (u ++ X) (calls C S a kid (u ++ X) k s)).1 = .error .cacheExistsError) ∧
    ∃ s', C.initUp S a kid true (u ++ X) (calls C S a kid (u ++ X) u.length s) = (.ok (a ++ (u ++ X).reverse), s') ∧
      (∀ v, v <:+ u → Done a s'.disk (kid (v ++ X).reverse)) ∧
      ∀ p, (∀ v, v <:+ u → p ≠ a ++ (v ++ X).reverse) → s'.disk.at_ p = s.disk.at_ p := by
  generalize hk : u.length = k
  induction k generalizing u X s with
  | zero =>
    have := List.length_eq_zero_iff.1 hk
    subst this
    simp only [List.nil_append] at *
    obtain ⟨s', h1, h2, h3⟩ := C132_works (S := S) hF hl hw true hX.above
    refine ⟨fun k h => by omega, s', h1, fun v hv => ?_, fun p hp => h3 p ?_⟩
    · rw [List.suffix_nil.1 hv]; exact h2
    · exact hp [] (List.suffix_refl _)
  | succ k ih =>
    rcases List.eq_nil_or_concat u with h | ⟨u', n, rfl⟩
    · subst h; simp at hk
    · have hR : u'.concat n ++ X = u' ++ (n :: X) := by simp
      have hXs : s.disk.at_ (a ++ (n :: X).reverse) = none := by
        rw [hR] at hw
        exact hw.drop.missing (u := [n]) hX.gone
      obtain ⟨s1, h1, h2, ⟨mp, h3⟩, h4⟩ := C132_parents_counterexample (S := S) ha hF hl hw hX (by simp) (fun h => by rw [hdir] at h; simp at h)
      have hw1 := (C132_touched (S := S) (parents := true) ha hl hw).2.2
      rw [h1] at hw1
      rw [hR] at hl hw1 hdir h1 ⊢
      obtain ⟨h5, s', h6, h7, h8⟩ := ih (u := u') (X := n :: X) (s := s1) hl hdir hw1
        ⟨by rw [h4 _ (place_ne (by simp)), hXs], ⟨mp, by rw [drop_place]; exact h3⟩⟩ (by simpa using hk)
      have hcalls : ∀ j, calls C S a kid (u' ++ n :: X) (j + 1) s = calls C S a kid (u' ++ n :: X) j s1 := fun j => by
        simp only [calls, h1]
      have hsuf : ∀ v, v <:+ u'.concat n ↔ v = [] ∨ ∃ w, v = w ++ [n] ∧ w <:+ u' := by
        intro v
        rw [List.concat_eq_append, List.suffix_concat_iff]
      refine ⟨fun j hj => ?_, s', by rw [hcalls]; exact h6, fun v hv => ?_, fun p hp => ?_⟩
      · cases j with
        | zero => simp only [calls, h1]
        | succ j => rw [hcalls]; exact h5 j (by omega)
      · rcases (hsuf v).1 hv with rfl | ⟨w, rfl, hw'⟩
        · simp only [List.nil_append]
          have hpX := hl.drop.tail.path X (List.suffix_refl _)
          refine done_congr (d := s1.disk) ?_ h2
          rw [hpX]
          refine h8 _ fun v hv => place_ne ?_
          simp; omega
        · simpa using h7 w hw'
      · rw [h8 p fun v hv => by simpa using hp (v ++ [n]) ((hsuf _).2 (.inr ⟨v, rfl, hv⟩)), h4 p (by simpa using hp [] List.nil_suffix)]


/-- **C132** fails for a remote file of which only the parent is not there: if no system call fails it returns, with or without `parents`,
but the parent is made without metadata. -/
theorem C132_orphan_counterexample {n : Name} {r : List Name} (ha : a ≠ []) (hF : ∀ n, C.F n = none) (hl : Line C kid (n :: r))
    (hw : Way a kid (n :: r) s.disk) (hfile : (kid (n :: r).reverse).shape = .file) (hX : Outermost a r s.disk) (parents : Bool) :
    ∃ s', C.initUp S a kid parents (n :: r) s = (.ok (a ++ (n :: r).reverse), s') ∧
      s'.disk.at_ (a ++ (n :: r).reverse) = some (.link (some (kid (n :: r).reverse).info)) ∧
      s'.disk.at_ (a ++ r.reverse) = some (.dir none) ∧
      ∀ p, p ≠ a ++ (n :: r).reverse → p ≠ a ++ r.reverse → s'.disk.at_ p = s.disk.at_ p := by
  have hpR := hl.path _ (List.suffix_refl _)
  have hq : s.disk.at_ (a ++ (n :: r).reverse) = none := hw.missing (u := [n]) hX.gone
  have h := childInit_orphan (C := C) (S := S) (a := a) (c := kid (n :: r).reverse) (d0 := s.disk) (hl.sound _ (List.suffix_refl _))
    (by simp [ha]) (by rw [hpR]; exact hq) (by rw [hpR, drop_place]; exact hX.gone) (by rw [hpR, drop_place]; exact .inr hX.above) s rfl
  rw [hpR, drop_place] at h
  have heq : ∀ p s', C.childInit S a (kid (n :: r).reverse) s = (.ok p, s') → C.initUp S a kid parents (n :: r) s = (.ok p, s') := by
    intro p s' h
    unfold PEnv.initUp
    simp only [Prog.catch_, h]
  generalize C.childInit S a (kid (n :: r).reverse) s = x at h heq
  obtain ⟨x | x, s'⟩ := x
  · exfalso
    rcases h with ⟨⟨k, e', h, -⟩, -⟩ | ⟨-, -, h | h⟩
    · simp [hF] at h
    · rw [Child.dir, hfile] at h; simp at h
    · obtain ⟨mp, h'⟩ := hX.above
      rw [h] at h'; simp at h'
  · obtain ⟨rfl, -, -, h1, h2, h3⟩ := h
    rw [drop_place] at h1 h3
    exact ⟨s', heq _ _ rfl, h2, h1, h3⟩

end

/-! ### Examples -/

/-- A remote with the directories `/`, `/a`, `/a/b` and `/a/b/c`, and with the files `/a/f` and `/a/b/f`. -/
def lineKid (p : Rel) : Child :=
  mirrorChild p (lit "N:" ++ p.flatten) (if p.getLast? = some (lit "f") then .file else .dir) true

theorem lineKid_line {R : List Name} (h : ∀ n r, n :: r <:+ R.tail → n ≠ lit "f") : Line mirrorEnv lineKid R where
  path := fun _ _ => rfl
  sound := fun r _ => by
    refine ⟨by simp [lineKid, mirrorChild, lit], fun f => ?_, by simp [lineKid, mirrorChild]⟩
    cases f <;> simp [lineKid, mirrorChild, unset, HasType]
  dirs := fun n r h' => by
    have : (r.reverse).getLast? ≠ some (lit "f") := by
      rw [List.getLast?_reverse]
      cases r with
      | nil => simp
      | cons m r =>
        simp only [List.head?_cons, ne_eq, Option.some.injEq]
        refine h m r ?_
        obtain ⟨t, ht⟩ := h'
        cases t with
        | nil => rw [← ht]; exact List.suffix_refl _
        | cons x t => rw [← ht]; exact ⟨t ++ [n], by simp⟩
    simp only [lineKid, mirrorChild]
    rw [if_neg this]
  last := by
    unfold lineKid mirrorChild
    simp only
    split <;> simp
  same := fun _ _ => rfl

/-- The anchor is there, and nothing in it. -/
def lineDisk : Disk CObj := [([lit "top"], .dir none), ([lit "top", lit "r"], .dir none)]

theorem lineDisk_way : ∀ R : List Name, Way [lit "top", lit "r"] lineKid R lineDisk
  | [] => ⟨⟨none, by decide⟩, .inr (.inl ⟨by decide, none, by decide, fun f => .inl rfl⟩)⟩
  | n :: r => by
    have h : lineDisk.at_ ([lit "top", lit "r"] ++ (n :: r).reverse) = none := by
      have h2 : ([lit "top", lit "r"] ++ (n :: r).reverse).length ≥ 3 := by simp
      have h3 : ∀ p : Path, p.length ≥ 3 → lineDisk.at_ p = none := by
        intro p hp
        have ha : [lit "top"] ≠ p := by rintro rfl; simp at hp
        have hb : [lit "top", lit "r"] ≠ p := by rintro rfl; simp at hp
        simp [lineDisk, Disk.at_, ha, hb]
      exact h3 _ h2
    exact ⟨lineDisk_way r, .inl h, fun h' => absurd h h'⟩

/-- The hypotheses are met, and what `C132` says in these cases. -/
example : Line mirrorEnv lineKid ([lit "c", lit "b"] ++ [lit "a"]) ∧ Way [lit "top", lit "r"] lineKid ([lit "c", lit "b"] ++ [lit "a"]) lineDisk ∧
    Outermost [lit "top", lit "r"] [lit "a"] lineDisk ∧
    (mirrorEnv.initUp mirrorSent [lit "top", lit "r"] lineKid true [lit "c", lit "b", lit "a"] ⟨lineDisk, 0⟩).1 = .error .cacheExistsError ∧
    (mirrorEnv.initUp mirrorSent [lit "top", lit "r"] lineKid false [lit "c", lit "b", lit "a"] ⟨lineDisk, 0⟩).1 = .error .fileNotFoundError ∧
    (mirrorEnv.initUp mirrorSent [lit "top", lit "r"] lineKid true [lit "a"] ⟨lineDisk, 0⟩).1 = .ok [lit "top", lit "r", lit "a"] ∧
    (mirrorEnv.initUp mirrorSent [lit "top", lit "r"] lineKid true [lit "f", lit "a"] ⟨lineDisk, 0⟩).1 = .ok [lit "top", lit "r", lit "a", lit "f"] := by
  refine ⟨lineKid_line ?_, lineDisk_way _, ⟨by decide, none, by decide⟩, by decide +kernel, by decide +kernel, by decide +kernel, by decide +kernel⟩
  intro n r h
  have : n ∈ [lit "b", lit "a"] := h.subset (by simp)
  simp only [List.mem_cons, List.not_mem_nil, or_false] at this
  rcases this with rfl | rfl <;> decide

end Verif.Cache
