import Verif.Model.Rmdirtree
import Verif.Lemmas.Rmtree

namespace Verif.FS.Rmdirtree
open Verif.Spec

/-! ## Whatever fails -/

/-- What holds during the whole run: only directories without content have disappeared, inside `q`. -/
def Keep (d0 : Disk Node) (q : Path) (d : Disk Node) : Prop :=
  Rooted d ∧ ∀ r, d.at_ r = d0.at_ r ∨ (d.at_ r = none ∧ q <+: r ∧ Hollow d0.at_ r)

theorem Keep.rmdir {d0 d d' : Disk Node} {q p : Path} (h : Keep d0 q d) (hp : q <+: p) (hd : d.rmdir p = .ok d') :
    Keep d0 q d' := by
  unfold Disk.rmdir at hd
  split at hd
  · simp at hd
  · rename_i x hx
    split at hd
    · simp at hd
    · rename_i hk
      split at hd
      · simp at hd
      · rename_i hn
        rw [not_or, Decidable.not_not] at hn
        simp only [Except.ok.injEq] at hd
        subst hd
        obtain ⟨b, rfl⟩ : ∃ b, x = .dir b := by cases x <;> simp_all [Kinded.isDir]
        have hleaf := empty_leaf hn.2
        have hbelow : ∀ t : List Name, t ≠ [] → d.at_ (p ++ t) = none := by
          have : ∀ tr : List Name, tr ≠ [] → d.at_ (p ++ tr.reverse) = none := by
            intro tr
            induction tr with
            | nil => intro h; exact absurd rfl h
            | cons m tr ih =>
              intro _
              rw [List.reverse_cons, ← List.append_assoc]
              cases tr with
              | nil => simpa using hleaf m
              | cons m' tr =>
                cases hz : d.at_ (p ++ (m' :: tr).reverse ++ [m]) with
                | none => rfl
                | some z =>
                  obtain ⟨b, hb⟩ := h.1 _ m z hz
                  rw [ih (by simp)] at hb; simp at hb
          intro t ht
          have := this t.reverse (by simpa using ht)
          simpa using this
        refine ⟨?_, ?_⟩
        · intro a n y hy
          rw [Disk.at_erase] at hy ⊢
          split at hy
          · simp at hy
          · split
            · rename_i ha
              rw [ha, hleaf n] at hy; simp at hy
            · exact h.1 a n y hy
        · intro r
          rw [Disk.at_erase]
          split
          · rename_i hr
            subst hr
            right
            refine ⟨rfl, hp, ?_⟩
            have h0 : d0.at_ r = some (.dir b) := by
              rcases h.2 r with h' | ⟨h', -, -⟩
              · rw [← h', hx]
              · rw [hx] at h'; simp at h'
            refine ⟨⟨b, h0⟩, ?_⟩
            rintro r' y ⟨t, rfl⟩ hy
            by_cases ht : t = []
            · subst ht
              rw [List.append_nil, h0] at hy
              exact ⟨b, by simpa using hy.symm⟩
            · rcases h.2 (r ++ t) with h' | ⟨-, -, h'⟩
              · rw [hbelow t ht, hy] at h'; simp at h'
              · exact h'.2 _ y (List.prefix_refl _) hy
          · exact h.2 r

theorem scan_keeps (E : Env) (q : Path) (I : Disk Node → Prop) : Hoare I (E.scan q) (fun _ => I) (fun _ => I) :=
  .look_ (fun _ _ h _ => h) (fun _ _ h => h)

theorem body_keeps (E : Env) {d0 : Disk Node} {q p : Path} (hp : q <+: p) (l : Listing) (deleted : List Path) :
    Hoare (Keep d0 q) (E.body p l deleted) (fun _ => Keep d0 q) (fun _ => Keep d0 q) := by
  unfold Env.body
  refine .ite_ (fun _ => ?_) fun _ => .pure_ fun _ h => h
  exact .bind_ (.act_ (Q := fun _ => Keep d0 q) (fun d d' h hd => h.rmdir hp hd) fun _ _ h => h)
    fun _ => .pure_ fun _ h => h

mutual

theorem visit_keeps (E : Env) {d0 : Disk Node} {q : Path} (fuel : Nat) (p : Path) (hp : q <+: p) (deleted : List Path) :
    Hoare (Keep d0 q) (E.visit fuel p deleted) (fun _ => Keep d0 q) (fun _ => Keep d0 q) := by
  cases fuel with
  | zero => rw [Env.visit]; exact .throw_ fun _ h => h
  | succ fuel =>
    rw [Env.visit]
    refine .bind_ (Q := fun _ => Keep d0 q) ?_ ?_
    · exact .try_ (R := fun _ => Keep d0 q) (.bind_ (scan_keeps E p _) fun _ => .pure_ fun _ h => h)
        fun _ => .pure_ fun _ h => h
    · intro o
      cases o with
      | none => exact .pure_ fun _ h => h
      | some l => exact .bind_ (visitAll_keeps E fuel p hp l.walked deleted) fun _ => body_keeps E hp l _
termination_by (fuel, 0)

theorem visitAll_keeps (E : Env) {d0 : Disk Node} {q : Path} (fuel : Nat) (p : Path) (hp : q <+: p) (ns : List Name)
    (deleted : List Path) :
    Hoare (Keep d0 q) (E.visitAll fuel p ns deleted) (fun _ => Keep d0 q) (fun _ => Keep d0 q) := by
  cases ns with
  | nil => rw [Env.visitAll]; exact .pure_ fun _ h => h
  | cons n ns =>
    rw [Env.visitAll]
    exact .bind_ (visit_keeps E fuel (p ++ [n]) (hp.trans (List.prefix_append _ _)) deleted)
      fun _ => visitAll_keeps E fuel p hp ns _
termination_by (fuel, ns.length + 1)

end

theorem rmdirtree_keeps (E : Env) {d0 : Disk Node} (fuel : Nat) (q : Path) :
    Hoare (Keep d0 q) (E.rmdirtree fuel q) (fun _ => Keep d0 q) (fun _ => Keep d0 q) := by
  unfold Env.rmdirtree
  refine .bind_ (Q := fun _ => Keep d0 q) (.look_ (fun _ _ h _ => h) fun _ _ h => h) fun b => ?_
  refine .ite_ (fun _ => .throw_ fun _ h => h) fun _ => ?_
  exact .bind_ (visit_keeps E fuel q (List.prefix_refl _) []) fun _ => .pure_ fun _ h => h

/-! ## When nothing fails -/

theorem check_spec (deleted : List Path) (q : Path) (ns : List Name) (sps : List Path) :
    ((check deleted q ns sps).1 = false ↔ ∀ n ∈ ns, q ++ [n] ∈ deleted) ∧
    (∀ p ∈ (check deleted q ns sps).2, p ∈ sps ∨ ∃ n ∈ ns, p = q ++ [n]) := by
  induction ns generalizing sps with
  | nil => simp [check]
  | cons n ns ih =>
    rw [check]
    split
    · rename_i h
      refine ⟨by rw [(ih _).1]; simp [h], ?_⟩
      intro p hp
      rcases (ih _).2 p hp with hp | ⟨m, hm, rfl⟩
      · rcases List.mem_cons.1 hp with rfl | hp
        · exact .inr ⟨n, by simp, rfl⟩
        · exact .inl hp
      · exact .inr ⟨m, by simp [hm], rfl⟩
    · rename_i h
      exact ⟨by simp [h], fun p hp => .inl hp⟩

/-- The disk without the hollow directories in `q`. -/
def Pruned (d : Disk Node) (q : Path) (d' : Disk Node) : Prop :=
  ∀ r, (q <+: r ∧ Hollow d.at_ r → d'.at_ r = none) ∧ (¬ (q <+: r ∧ Hollow d.at_ r) → d'.at_ r = d.at_ r)

/-- The disk without the hollow directories below the entries `ns` of `q`. -/
def PrunedAll (d : Disk Node) (q : Path) (ns : List Name) (d' : Disk Node) : Prop :=
  ∀ r, ((∃ n ∈ ns, q ++ [n] <+: r) ∧ Hollow d.at_ r → d'.at_ r = none) ∧
    (¬ ((∃ n ∈ ns, q ++ [n] <+: r) ∧ Hollow d.at_ r) → d'.at_ r = d.at_ r)

theorem real_iff (d : Disk Node) (q : Path) (n : Name) : real d q n = true ↔ ∃ b, d.at_ (q ++ [n]) = some (.dir b) := by
  unfold real
  split <;> simp_all

/-- Hollowness is a matter of the entries. -/
theorem hollow_iff {d : Disk Node} {q : Path} {b : Bool} (hr : Rooted d) (hq : d.at_ q = some (.dir b)) :
    Hollow d.at_ q ↔ ∀ n x, d.at_ (q ++ [n]) = some x → Hollow d.at_ (q ++ [n]) := by
  constructor
  · intro h n x hx
    obtain ⟨b', rfl⟩ := h.2 _ x (List.prefix_append _ _) hx
    exact ⟨⟨b', hx⟩, fun r y hpre hy => h.2 r y ((List.prefix_append _ _).trans hpre) hy⟩
  · intro h
    refine ⟨⟨b, hq⟩, ?_⟩
    rintro r x ⟨t, rfl⟩ hx
    cases t with
    | nil => rw [List.append_nil, hq] at hx; exact ⟨b, by simpa using hx.symm⟩
    | cons n t =>
      have hn : ∃ y, d.at_ (q ++ [n]) = some y := by
        clear h
        have : ∀ tr : List Name, (∃ x, d.at_ (q ++ [n] ++ tr.reverse) = some x) → ∃ y, d.at_ (q ++ [n]) = some y := by
          intro tr
          induction tr with
          | nil => simp
          | cons m tr ih =>
            rintro ⟨x, hx⟩
            rw [List.reverse_cons, ← List.append_assoc] at hx
            obtain ⟨b, hb⟩ := hr _ m x hx
            exact ih ⟨_, hb⟩
        exact this t.reverse ⟨x, by simpa using hx⟩
      obtain ⟨y, hy⟩ := hn
      exact (h n y hy).2 _ x ⟨t, by simp⟩ hx

/-- Hollowness below `q` only depends on what is below `q`. -/
theorem hollow_congr {d d' : Disk Node} {q : Path} (h : ∀ r, q <+: r → d'.at_ r = d.at_ r) :
    Hollow d'.at_ q ↔ Hollow d.at_ q := by
  unfold Hollow
  rw [h q (List.prefix_refl _)]
  constructor
  · rintro ⟨h1, h2⟩
    exact ⟨h1, fun r x hp hx => h2 r x hp (by rw [h r hp]; exact hx)⟩
  · rintro ⟨h1, h2⟩
    exact ⟨h1, fun r x hp hx => h2 r x hp (by rw [← h r hp]; exact hx)⟩

theorem not_prefix_sibling {q r : Path} {n m : Name} (hne : n ≠ m) (h : q ++ [n] <+: r) : ¬ q ++ [m] <+: r := by
  rintro ⟨t', rfl⟩
  obtain ⟨t, ht⟩ := h
  rw [List.append_assoc, List.append_assoc] at ht
  have := List.append_cancel_left ht
  simp at this
  exact hne this.1

theorem Pruned.keep {d d' : Disk Node} {q : Path} (h : Pruned d q d') (hr : Rooted d) : Rooted d' := by
  intro a n x hx
  have h1 : d.at_ (a ++ [n]) = some x := by
    by_cases hc : q <+: a ++ [n] ∧ Hollow d.at_ (a ++ [n])
    · rw [(h _).1 hc] at hx; simp at hx
    · rw [← (h _).2 hc]; exact hx
  have hnot : ¬ (q <+: a ++ [n] ∧ Hollow d.at_ (a ++ [n])) := by
    intro hc
    rw [(h _).1 hc] at hx; simp at hx
  obtain ⟨b, hb⟩ := hr a n x h1
  refine ⟨b, ?_⟩
  rw [(h a).2]
  · exact hb
  · rintro ⟨h2, h3⟩
    refine hnot ⟨h2.trans (List.prefix_append _ _), ?_⟩
    exact (hollow_iff hr hb).1 h3 n x h1

/-- The depth below `q`. -/
def Depth (d : Disk Node) (q : Path) (fuel : Nat) : Prop := ∀ r x, q <+: r → d.at_ r = some x → r.length < q.length + fuel

mutual

theorem visit_prunes (E : Env) (hF : ∀ n, E.F n = none) (fuel : Nat) (q : Path) (deleted : List Path) (s : Machine Node)
    (b : Bool) (hr : Rooted s.disk) (hd : s.disk.at_ q = some (.dir b)) (hdis : Distinct s.disk) (hq : q ≠ [])
    (hf : Depth s.disk q fuel) (hdel : ∀ p ∈ deleted, ¬ q <+: p) :
    ∃ deleted' s', E.visit fuel q deleted s = (.ok deleted', s') ∧ Pruned s.disk q s'.disk ∧ Distinct s'.disk ∧
      (q ∈ deleted' ↔ Hollow s.disk.at_ q) ∧ ∀ p, ¬ q <+: p → (p ∈ deleted' ↔ p ∈ deleted) := by
  cases fuel with
  | zero => exact absurd (hf q _ (List.prefix_refl _) hd) (by simp)
  | succ fuel =>
    rw [Env.visit]
    simp only [Prog.bind, Prog.catch_, Env.scan, Prog.look, Prog.sys, hF, hd, Prog.pure]
    obtain ⟨del1, s1, h1, h2, h3, h4, h5⟩ := visitAll_prunes E hF fuel q ((s.disk.names q).filter fun n => real s.disk q n)
      deleted ⟨s.disk, s.tick + 1⟩ b hr hd hdis (fun r x h h' => by have := hf r x h h'; omega)
      (fun p hp n _ h => hdel p hp ((List.prefix_append _ _).trans h))
      ((hdis.names q).filter _) (fun n hn => (real_iff _ _ _).1 (List.mem_filter.1 hn).2)
    rw [h1]
    dsimp only at h2 h5 ⊢
    have hmem : ∀ n, n ∈ s.disk.names q ↔ ∃ x, s.disk.at_ (q ++ [n]) = some x := fun n => Disk.mem_names _ _ _
    unfold Env.body
    dsimp only
    have hchk := check_spec del1 q ((s.disk.names q).filter fun n => real s.disk q n || E.linked s.disk q n) []
    generalize check del1 q ((s.disk.names q).filter fun n => real s.disk q n || E.linked s.disk q n) [] = chk at hchk ⊢
    -- the condition says that the directory is hollow
    have hcond : (((s.disk.names q).filter fun n => !(real s.disk q n || E.linked s.disk q n)).isEmpty && !chk.1) = true ↔
        Hollow s.disk.at_ q := by
      rw [hollow_iff hr hd, Bool.and_eq_true, Bool.not_eq_true', hchk.1, List.isEmpty_iff]
      constructor
      · rintro ⟨ha, hb⟩ n x hx
        have hn := (hmem n).2 ⟨x, hx⟩
        have hin : (real s.disk q n || E.linked s.disk q n) = true := by
          cases hc : (real s.disk q n || E.linked s.disk q n) with
          | true => rfl
          | false =>
            have : n ∈ (s.disk.names q).filter fun n => !(real s.disk q n || E.linked s.disk q n) :=
              List.mem_filter.2 ⟨hn, by simp [hc]⟩
            rw [ha] at this; simp at this
        have hdl := hb n (List.mem_filter.2 ⟨hn, hin⟩)
        by_cases hre : real s.disk q n = true
        · exact (h4 n (List.mem_filter.2 ⟨hn, hre⟩)).1 hdl
        · exfalso
          refine hdel _ ((h5 _ ?_).1 hdl) (List.prefix_append _ _)
          rintro m hm hpre
          have : n = m := by
            have := List.prefix_append_right_inj (l₁ := [m]) (l₂ := [n]) q
            rw [this] at hpre
            simp at hpre; exact hpre.symm
          subst this
          exact hre (List.mem_filter.1 hm).2
      · intro h
        constructor
        · rw [List.filter_eq_nil_iff]
          intro n hn hc
          obtain ⟨x, hx⟩ := (hmem n).1 hn
          obtain ⟨b', hb'⟩ := (h n x hx).1
          have := (real_iff s.disk q n).2 ⟨b', hb'⟩
          simp [this] at hc
        · intro n hn
          have hn' := (List.mem_filter.1 hn).1
          obtain ⟨x, hx⟩ := (hmem n).1 hn'
          have hh := h n x hx
          exact (h4 n (List.mem_filter.2 ⟨hn', (real_iff s.disk q n).2 hh.1⟩)).2 hh
    have hq1 : ∀ n, ¬ q ++ [n] <+: q := by
      intro n hc; have := hc.length_le; simp at this; omega
    have hkids : ∀ r, (∃ n ∈ (s.disk.names q).filter fun n => real s.disk q n, q ++ [n] <+: r) ∧ Hollow s.disk.at_ r ↔
        r ≠ q ∧ q <+: r ∧ Hollow s.disk.at_ r := by
      intro r
      constructor
      · rintro ⟨⟨n, hn, hpre⟩, hh⟩
        exact ⟨fun he => hq1 n (he ▸ hpre), (List.prefix_append _ _).trans hpre, hh⟩
      · rintro ⟨hne, ⟨t, rfl⟩, hh⟩
        refine ⟨?_, hh⟩
        cases t with
        | nil => simp at hne
        | cons n t =>
          refine ⟨n, ?_, ⟨t, by simp⟩⟩
          obtain ⟨b', hb'⟩ := hh.1
          -- the entry is a directory, since something is below it or it is it
          have : ∀ tr : List Name, (∃ b', s.disk.at_ (q ++ [n] ++ tr.reverse) = some (.dir b')) →
              ∃ b', s.disk.at_ (q ++ [n]) = some (.dir b') := by
            intro tr
            induction tr with
            | nil => simp
            | cons m tr ih =>
              rintro ⟨x, hx⟩
              rw [List.reverse_cons, ← List.append_assoc] at hx
              exact ih (hr _ m _ hx)
          have hre := this t.reverse ⟨b', by simpa using hb'⟩
          exact List.mem_filter.2 ⟨(hmem n).2 ⟨_, hre.choose_spec⟩, (real_iff _ _ _).2 hre⟩
    by_cases hh : Hollow s.disk.at_ q
    · rw [if_pos (hcond.2 hh)]
      have hd1 : s1.disk.at_ q = some (.dir b) := by
        rw [(h2 q).2, hd]
        intro hc
        exact ((hkids q).1 hc).1 rfl
      have hempty : s1.disk.names q = [] := by
        cases hn : s1.disk.names q with
        | nil => rfl
        | cons n _ =>
          obtain ⟨x, hx⟩ := (Disk.mem_names s1.disk q n).1 (by rw [hn]; simp)
          by_cases hc : Hollow s.disk.at_ (q ++ [n])
          · rw [(h2 _).1 ((hkids _).2 ⟨by simp, List.prefix_append _ _, hc⟩)] at hx; simp at hx
          · rw [(h2 _).2 (fun h => hc h.2)] at hx
            exact absurd ((hollow_iff hr hd).1 hh n x hx) hc
      simp only [Prog.act, Prog.sys, hF, Disk.rmdir, hd1, Kinded.isDir, Bool.not_true, Bool.false_eq_true, if_false, hq,
        hempty, ne_eq, not_true_eq_false, or_self, Prog.bind]
      refine ⟨_, _, rfl, ?_, h3.erase q, ?_, ?_⟩
      · intro r
        dsimp only
        rw [Disk.at_erase]
        by_cases hrq : r = q
        · subst hrq
          simp [hh]
        · rw [if_neg hrq]
          refine ⟨fun h => (h2 r).1 ((hkids r).2 ⟨hrq, h⟩), fun h => (h2 r).2 fun hc => h ((hkids r).1 hc).2⟩
      · refine ⟨fun _ => hh, fun _ => ?_⟩
        rw [List.mem_filter]
        refine ⟨by simp, ?_⟩
        rw [decide_eq_true_eq]
        intro hc
        rcases hchk.2 q hc with hc | ⟨n, -, hc⟩
        · simp at hc
        · have := congrArg List.length hc; simp at this
      · intro p hp
        rw [List.mem_filter]
        constructor
        · rintro ⟨h6, -⟩
          rcases List.mem_cons.1 h6 with rfl | h6
          · exact absurd (List.prefix_refl _) hp
          · exact (h5 p fun n _ h => hp ((List.prefix_append _ _).trans h)).1 h6
        · intro h6
          refine ⟨List.mem_cons_of_mem _ ((h5 p fun n _ h => hp ((List.prefix_append _ _).trans h)).2 h6), ?_⟩
          rw [decide_eq_true_eq]
          intro hc
          rcases hchk.2 p hc with hc | ⟨n, -, rfl⟩
          · simp at hc
          · exact hp (List.prefix_append _ _)
    · rw [if_neg (fun h => hh (hcond.1 h))]
      refine ⟨del1, s1, rfl, ?_, h3, ?_, ?_⟩
      · intro r
        refine ⟨fun h => (h2 r).1 ((hkids r).2 ⟨fun he => hh (he ▸ h.2), h⟩), fun h => (h2 r).2 fun hc => h ((hkids r).1 hc).2⟩
      · refine ⟨fun h => ?_, fun h => absurd h hh⟩
        exact absurd (List.prefix_refl _) (hdel q ((h5 q fun n _ h => hq1 n h).1 h))
      · exact fun p hp => h5 p fun n _ h => hp ((List.prefix_append _ _).trans h)
termination_by (fuel, 0)

theorem visitAll_prunes (E : Env) (hF : ∀ n, E.F n = none) (fuel : Nat) (q : Path) (ns : List Name) (deleted : List Path)
    (s : Machine Node) (b : Bool) (hr : Rooted s.disk) (hd : s.disk.at_ q = some (.dir b)) (hdis : Distinct s.disk)
    (hf : Depth s.disk q (fuel + 1)) (hdel : ∀ p ∈ deleted, ∀ n ∈ ns, ¬ q ++ [n] <+: p) (hnd : ns.Nodup)
    (hns : ∀ n ∈ ns, ∃ b, s.disk.at_ (q ++ [n]) = some (.dir b)) :
    ∃ deleted' s', E.visitAll fuel q ns deleted s = (.ok deleted', s') ∧ PrunedAll s.disk q ns s'.disk ∧ Distinct s'.disk ∧
      (∀ n ∈ ns, q ++ [n] ∈ deleted' ↔ Hollow s.disk.at_ (q ++ [n])) ∧
      ∀ p, (∀ n ∈ ns, ¬ q ++ [n] <+: p) → (p ∈ deleted' ↔ p ∈ deleted) := by
  cases ns with
  | nil =>
    rw [Env.visitAll]
    exact ⟨deleted, s, rfl, fun r => ⟨by simp, fun _ => rfl⟩, hdis, by simp, fun _ _ => Iff.rfl⟩
  | cons n ns =>
    rw [List.nodup_cons] at hnd
    obtain ⟨b1, hb1⟩ := hns n (by simp)
    obtain ⟨del1, s1, h1, h2, h3, h4, h5⟩ := visit_prunes E hF fuel (q ++ [n]) deleted s b1 hr hb1 hdis (by simp)
      (fun r x hpre hx => by have := hf r x ((List.prefix_append _ _).trans hpre) hx; simp; omega)
      (fun p hp => hdel p hp n (by simp))
    have hsame : ∀ r, ¬ q ++ [n] <+: r → s1.disk.at_ r = s.disk.at_ r := fun r hr' => (h2 r).2 fun h => hr' h.1
    have hne : ∀ m ∈ ns, n ≠ m := fun m hm he => hnd.1 (he ▸ hm)
    have hholl : ∀ m ∈ ns, ∀ r, q ++ [m] <+: r → (Hollow s1.disk.at_ r ↔ Hollow s.disk.at_ r) := fun m hm r hpre =>
      hollow_congr fun r' hr' => hsame r' (not_prefix_sibling (Ne.symm (hne m hm)) (hpre.trans hr'))
    obtain ⟨del2, s2, g1, g2, g3, g4, g5⟩ := visitAll_prunes E hF fuel q ns del1 s1 b (h2.keep hr)
      (by rw [hsame]; · exact hd
          · intro hc; have := hc.length_le; simp at this; omega) h3
      (by
        intro r x hpre hx
        by_cases hc : q ++ [n] <+: r ∧ Hollow s.disk.at_ r
        · rw [(h2 r).1 hc] at hx; simp at hx
        · rw [(h2 r).2 hc] at hx; exact hf r x hpre hx)
      (by
        intro p hp m hm hpre
        have := (h5 p (not_prefix_sibling (Ne.symm (hne m hm)) hpre)).1 hp
        exact hdel p this m (by simp [hm]) hpre) hnd.2
      (by
        intro m hm
        obtain ⟨b2, hb2⟩ := hns m (by simp [hm])
        refine ⟨b2, ?_⟩
        rw [hsame _ (not_prefix_sibling (Ne.symm (hne m hm)) (List.prefix_refl _)), hb2])
    rw [Env.visitAll]
    simp only [Prog.bind, h1, g1]
    refine ⟨del2, s2, rfl, ?_, g3, ?_, ?_⟩
    · intro r
      by_cases hin : ∃ m ∈ ns, q ++ [m] <+: r
      · obtain ⟨m, hm, hpre⟩ := hin
        have hiff : ((∃ n ∈ ns, q ++ [n] <+: r) ∧ Hollow s1.disk.at_ r) ↔
            ((∃ m ∈ n :: ns, q ++ [m] <+: r) ∧ Hollow s.disk.at_ r) := by
          rw [hholl m hm r hpre]
          exact ⟨fun h => ⟨⟨m, by simp [hm], hpre⟩, h.2⟩, fun h => ⟨⟨m, hm, hpre⟩, h.2⟩⟩
        rw [← hiff, ← hsame r (not_prefix_sibling (Ne.symm (hne m hm)) hpre)]
        exact g2 r
      · have e2 : s2.disk.at_ r = s1.disk.at_ r := (g2 r).2 fun h => hin h.1
        rw [e2]
        have hiff : (q ++ [n] <+: r ∧ Hollow s.disk.at_ r) ↔ ((∃ m ∈ n :: ns, q ++ [m] <+: r) ∧ Hollow s.disk.at_ r) := by
          constructor
          · exact fun h => ⟨⟨n, by simp, h.1⟩, h.2⟩
          · rintro ⟨⟨m, hm, hpre⟩, h⟩
            rcases List.mem_cons.1 hm with rfl | hm
            · exact ⟨hpre, h⟩
            · exact absurd ⟨m, hm, hpre⟩ hin
        rw [← hiff]
        exact h2 r
    · intro m hm
      rcases List.mem_cons.1 hm with rfl | hm
      · rw [g5 _ fun k hk => not_prefix_sibling (hne k hk) (List.prefix_refl _), h4]
      · rw [g4 m hm]
        exact hholl m hm _ (List.prefix_refl _)
    · intro p hp
      rw [g5 p fun m hm => hp m (by simp [hm]), h5 p (hp n (by simp))]
termination_by (fuel, ns.length + 1)

end

end Verif.FS.Rmdirtree
