import Verif.Lemmas.Move
import Verif.Lemmas.Decide

/-!
# C48: Swapping two paths
-/

namespace Verif.FS.Swap
open Verif.Spec

/-- At and below `loc` is on the disk `d` what was at and below `a` on the disk `d0`. -/
def Holds (d : Disk Node) (loc : Path) (d0 : Disk Node) (a : Path) : Prop := ∀ s, d.at_ (loc ++ s) = d0.at_ (a ++ s)

/-- The two paths have exchanged their content, and nothing else is different. -/
def Exchanged (d0 : Disk Node) (a b : Path) (d : Disk Node) : Prop :=
  Holds d a d0 b ∧ Holds d b d0 a ∧ ∀ r, ¬ a <+: r → ¬ b <+: r → d.at_ r = d0.at_ r

/-- Both contents are on the disk, in different places. -/
def BothExist (d0 : Disk Node) (a b : Path) (d : Disk Node) : Prop :=
  ∃ la lb, Apart la lb ∧ Holds d la d0 a ∧ Holds d lb d0 b

theorem Exchanged.both {d0 d : Disk Node} {a b : Path} (hab : Apart a b) (h : Exchanged d0 a b d) : BothExist d0 a b d :=
  ⟨b, a, hab.symm, h.2.1, h.1⟩

theorem both_refl {d0 : Disk Node} {a b : Path} (hab : Apart a b) : BothExist d0 a b d0 := ⟨a, b, hab, fun _ => rfl, fun _ => rfl⟩

theorem rooted_none {d : Disk Node} (hr : Rooted d) {t : Path} (ht : d.at_ t = none) (s : List Name) : d.at_ (t ++ s) = none := by
  have : ∀ tr : List Name, d.at_ (t ++ tr.reverse) = none := by
    intro tr
    induction tr with
    | nil => simpa using ht
    | cons n tr ih =>
      rw [List.reverse_cons, ← List.append_assoc]
      cases hx : d.at_ (t ++ tr.reverse ++ [n]) with
      | none => rfl
      | some x =>
        obtain ⟨b, hb⟩ := hr _ n x hx
        rw [ih] at hb; simp at hb
  simpa using this s.reverse

theorem apart_append {t a : Path} (h : Apart t a) (s : List Name) : Apart (t ++ s) a :=
  ⟨fun hc => h.1 ((List.prefix_append _ _).trans hc), h.below s⟩

/-- The temporary directory is apart from both paths. -/
theorem temp_apart {d : Disk Node} (hr : Rooted d) {a b t : Path} {xa xb : Node} {n tmp : Name} {par : Path}
    (hb : b = par ++ [n]) (ht : t = par ++ [tmp]) (hab : Apart a b) (ha : d.at_ a = some xa) (hbx : d.at_ b = some xb)
    (hfree : d.at_ t = none) : Apart t a ∧ Apart t b := by
  have hno : ∀ c x, d.at_ c = some x → ¬ t <+: c := by
    rintro c x hc ⟨s, rfl⟩
    rw [rooted_none hr hfree s] at hc; simp at hc
  have hcase : ∀ c x, d.at_ c = some x → c <+: t → c <+: par := by
    intro c x hc hct
    rw [ht] at hct
    rcases List.prefix_concat_iff.1 hct with h | h
    · rw [h, ← ht, hfree] at hc; simp at hc
    · exact h
  refine ⟨⟨hno a xa ha, fun h => ?_⟩, hno b xb hbx, fun h => ?_⟩
  · exact hab.1 ((hcase a xa ha h).trans (by rw [hb]; exact List.prefix_append _ _))
  · have := (hcase b xb hbx h).length_le
    rw [hb] at this; simp at this; omega

section
variable (E : Env) {a b : Path} {xa xb : Node} (s : Machine Node)

/-- The contents after the single steps. -/
theorem steps_content {d0 : Disk Node} {a b t : Path} {n : Name} (hr : Rooted d0) (hab : Apart a b) (hta : Apart t a)
    (htb : Apart t b) (hfree : d0.at_ t = none) :
    let f1 := (d0.put t (.dir true)).at_
    let f2 := mv f1 b (t ++ [n])
    let f3 := mv f2 a b
    let f4 := mv f3 (t ++ [n]) a
    (∀ s, f1 (a ++ s) = d0.at_ (a ++ s) ∧ f1 (b ++ s) = d0.at_ (b ++ s)) ∧
    (∀ s, f2 (a ++ s) = d0.at_ (a ++ s) ∧ f2 (t ++ [n] ++ s) = d0.at_ (b ++ s) ∧ f2 (b ++ s) = none) ∧
    (∀ s, f3 (b ++ s) = d0.at_ (a ++ s) ∧ f3 (t ++ [n] ++ s) = d0.at_ (b ++ s) ∧ f3 (a ++ s) = none) ∧
    (∀ s, f4 (b ++ s) = d0.at_ (a ++ s) ∧ f4 (a ++ s) = d0.at_ (b ++ s)) ∧
    (∀ r, ¬ a <+: r → ¬ b <+: r → r ≠ t → f4 r = d0.at_ r) ∧
    (∀ m, f4 (t ++ [m]) = none) ∧ f1 (t ++ [n]) = none ∧
    f2 t = some (.dir true) ∧ f4 t = some (.dir true) := by
  intro f1 f2 f3 f4
  have hua := apart_append hta [n]
  have hub := apart_append htb [n]
  have below := rooted_none hr hfree
  have g1 : ∀ r, f1 r = if r = t then some (.dir true) else d0.at_ r := fun r => Disk.at_put ..
  have ne : ∀ {c : Path}, Apart t c → ∀ s, c ++ s ≠ t := fun h s he => h.2 ⟨s, he⟩
  have c1 : ∀ s, f1 (a ++ s) = d0.at_ (a ++ s) ∧ f1 (b ++ s) = d0.at_ (b ++ s) := fun s =>
    ⟨by rw [g1, if_neg (ne hta s)], by rw [g1, if_neg (ne htb s)]⟩
  have c2 : ∀ s, f2 (a ++ s) = d0.at_ (a ++ s) ∧ f2 (t ++ [n] ++ s) = d0.at_ (b ++ s) ∧ f2 (b ++ s) = none := by
    intro s
    refine ⟨?_, ?_, ?_⟩
    · simp only [f2, mv]
      rw [if_neg (hua.symm.below s), if_neg (hab.below s), (c1 s).1]
    · simp only [f2, mv]
      rw [if_pos (List.prefix_append _ _), drop_append_prefix, (c1 s).2]
    · simp only [f2, mv]
      rw [if_neg (hub.symm.below s), if_pos (List.prefix_append _ _)]
  have c3 : ∀ s, f3 (b ++ s) = d0.at_ (a ++ s) ∧ f3 (t ++ [n] ++ s) = d0.at_ (b ++ s) ∧ f3 (a ++ s) = none := by
    intro s
    refine ⟨?_, ?_, ?_⟩
    · simp only [f3, mv]
      rw [if_pos (List.prefix_append _ _), drop_append_prefix, (c2 s).1]
    · simp only [f3, mv]
      rw [if_neg (hub.below s), if_neg (hua.below s), (c2 s).2.1]
    · simp only [f3, mv]
      rw [if_neg (hab.below s), if_pos (List.prefix_append _ _)]
  have c4 : ∀ s, f4 (b ++ s) = d0.at_ (a ++ s) ∧ f4 (a ++ s) = d0.at_ (b ++ s) := by
    intro s
    refine ⟨?_, ?_⟩
    · simp only [f4, mv]
      rw [if_neg (hab.symm.below s), if_neg (hub.symm.below s), (c3 s).1]
    · simp only [f4, mv]
      rw [if_pos (List.prefix_append _ _), drop_append_prefix, (c3 s).2.1]
  have ht1 : ∀ {c : Path}, Apart t c → ∀ s, ¬ c <+: t ++ s := fun h s => h.below s
  have c5 : ∀ r, ¬ a <+: r → ¬ b <+: r → r ≠ t → f4 r = d0.at_ r := by
    intro r ha hb hrt
    simp only [f4, f3, f2, mv]
    rw [if_neg ha]
    by_cases hu : t ++ [n] <+: r
    · rw [if_pos hu]
      obtain ⟨s, rfl⟩ := hu
      rw [List.append_assoc, below]
    · rw [if_neg hu, if_neg hb, if_neg ha, if_neg hu, if_neg hb, g1, if_neg hrt]
  refine ⟨c1, c2, c3, c4, c5, ?_, ?_, ?_, ?_⟩
  · intro m
    rw [c5 _ (ht1 hta _) (ht1 htb _) (by simp), below]
  · rw [g1, if_neg (by simp), below]
  · have h1 : ¬ t ++ [n] <+: t := fun h => by have := h.length_le; simp at this; omega
    simp only [f2, mv]
    rw [if_neg h1, if_neg htb.2, g1, if_pos rfl]
  · have h1 : ¬ t ++ [n] <+: t := fun h => by have := h.length_le; simp at this; omega
    simp only [f4, f3, f2, mv]
    rw [if_neg hta.2, if_neg h1, if_neg htb.2, if_neg hta.2, if_neg h1, if_neg htb.2, g1, if_pos rfl]

/-- The steps by hand. -/
theorem byHand_spec (hr : Rooted s.disk) (hab : Apart a b) (ha : s.disk.at_ a = some xa) (hb : s.disk.at_ b = some xb) :
    ((E.byHand a b s).1 = .ok () → Exchanged s.disk a b (E.byHand a b s).2.disk) ∧
    BothExist s.disk a b (E.byHand a b s).2.disk := by
  obtain ⟨par, n, rfl⟩ : ∃ par n, b = par ++ [n] := by
    rcases List.eq_nil_or_concat b with rfl | ⟨par, n, h⟩
    · exact absurd List.nil_prefix hab.2
    · exact ⟨par, n, by rw [h, List.concat_eq_append]⟩
  have htmp : E.temp (par ++ [n]) = par ++ [E.tmp] := by simp [Env.temp]
  unfold Env.byHand
  rw [htmp]
  simp only [List.getLast?_append, List.getLast?_singleton, Option.some_or, Option.toList_some]
  generalize hb' : par ++ [n] = b' at *
  generalize ht : par ++ [E.tmp] = t at *
  have hskip : ∀ {d : Disk Node}, d.at_ = s.disk.at_ → BothExist s.disk a b' d := fun h =>
    ⟨a, b', hab, fun _ => by rw [h], fun _ => by rw [h]⟩
  -- first step
  simp only [Prog.bind, Prog.act, Prog.sys]
  cases hF0 : E.F s.tick with
  | some e => exact ⟨by simp, hskip rfl⟩
  | none =>
    cases hc : s.disk.create t (.dir true) with
    | error e => exact ⟨by simp, hskip rfl⟩
    | ok d1 =>
      have hfree : s.disk.at_ t = none := by
        unfold Disk.create at hc
        split at hc
        · simp at hc
        · assumption
      have hd1 : d1 = s.disk.put t (.dir true) := by
        unfold Disk.create at hc
        rw [hfree] at hc
        dsimp only at hc
        split at hc
        · simp at hc
        · split at hc
          · simpa using hc.symm
          · simp at hc
      obtain ⟨hta, htb⟩ := temp_apart hr hb'.symm ht.symm hab ha hb hfree
      obtain ⟨c1, c2, c3, c4, c5, c6, c7, c8, c9⟩ := steps_content (n := n) hr hab hta htb hfree
      have hua := apart_append hta [n]
      have hub := apart_append htb [n]
      subst hd1
      dsimp only
      -- second step
      cases hF1 : E.F (s.tick + 1) with
      | some e => exact ⟨by simp, a, b', hab, fun s => (c1 s).1, fun s => (c1 s).2⟩
      | none =>
        cases hr1 : (s.disk.put t (.dir true)).rename b' (t ++ [n]) with
        | error e => exact ⟨by simp, a, b', hab, fun s => (c1 s).1, fun s => (c1 s).2⟩
        | ok d2 =>
          obtain ⟨e2, -⟩ := rename_free hub.symm c7 hr1
          rw [← e2] at c2 c3 c4 c5 c6 c8 c9
          dsimp only
          cases hF2 : E.F (s.tick + 1 + 1) with
          | some e => exact ⟨by simp, a, t ++ [n], hua.symm, fun s => (c2 s).1, fun s => (c2 s).2.1⟩
          | none =>
            cases hr2 : d2.rename a b' with
            | error e => exact ⟨by simp, a, t ++ [n], hua.symm, fun s => (c2 s).1, fun s => (c2 s).2.1⟩
            | ok d3 =>
              obtain ⟨e3, -⟩ := rename_free hab (by simpa using (c2 []).2.2) hr2
              rw [← e3] at c3 c4 c5 c6 c9
              dsimp only
              cases hF3 : E.F (s.tick + 1 + 1 + 1) with
              | some e => exact ⟨by simp, b', t ++ [n], hub.symm, fun s => (c3 s).1, fun s => (c3 s).2.1⟩
              | none =>
                cases hr3 : d3.rename (t ++ [n]) a with
                | error e => exact ⟨by simp, b', t ++ [n], hub.symm, fun s => (c3 s).1, fun s => (c3 s).2.1⟩
                | ok d4 =>
                  obtain ⟨e4, -⟩ := rename_free hua (by simpa using (c3 []).2.2) hr3
                  rw [← e4] at c4 c5 c6 c9
                  dsimp only
                  have hboth4 : BothExist s.disk a b' d4 := ⟨b', a, hab.symm, fun s => (c4 s).1, fun s => (c4 s).2⟩
                  cases hF4 : E.F (s.tick + 1 + 1 + 1 + 1) with
                  | some e => exact ⟨by simp, hboth4⟩
                  | none =>
                    cases hr4 : d4.rmdir t with
                    | error e => exact ⟨by simp, hboth4⟩
                    | ok d5 =>
                      have hd5 : d5 = d4.erase t := by
                        unfold Disk.rmdir at hr4
                        split at hr4
                        · simp at hr4
                        · split at hr4
                          · simp at hr4
                          · split at hr4
                            · simp at hr4
                            · simpa using hr4.symm
                      subst hd5
                      have ne : ∀ {c : Path}, Apart t c → ∀ s, c ++ s ≠ t := fun h s he => h.2 ⟨s, he⟩
                      have hex : Exchanged s.disk a b' (d4.erase t) := by
                        refine ⟨fun s => ?_, fun s => ?_, fun r h1 h2 => ?_⟩
                        · rw [Disk.at_erase, if_neg (ne hta s)]; exact (c4 s).2
                        · rw [Disk.at_erase, if_neg (ne htb s)]; exact (c4 s).1
                        · rw [Disk.at_erase]
                          split
                          · rename_i h; rw [h, hfree]
                          · exact c5 r h1 h2 ‹_›
                      exact ⟨fun _ => hex, hex.both hab⟩

/-- And when nothing fails they succeed. -/
theorem byHand_live (hF : ∀ n, E.F n = none) (hr : Rooted s.disk) (hab : Apart a b) (ha : s.disk.at_ a = some xa)
    (hb : s.disk.at_ b = some xb) (hfree : s.disk.at_ (E.temp b) = none) : (E.byHand a b s).1 = .ok () := by
  obtain ⟨par, n, rfl⟩ : ∃ par n, b = par ++ [n] := by
    rcases List.eq_nil_or_concat b with rfl | ⟨par, n, h⟩
    · exact absurd List.nil_prefix hab.2
    · exact ⟨par, n, by rw [h, List.concat_eq_append]⟩
  have htmp : E.temp (par ++ [n]) = par ++ [E.tmp] := by simp [Env.temp]
  obtain ⟨bp, hpar⟩ := hr par n xb hb
  obtain ⟨apar, an, rfl⟩ : ∃ p n, a = p ++ [n] := by
    rcases List.eq_nil_or_concat a with rfl | ⟨par, n, h⟩
    · exact absurd List.nil_prefix hab.1
    · exact ⟨par, n, by rw [h, List.concat_eq_append]⟩
  obtain ⟨ap, hapar⟩ := hr apar an xa ha
  unfold Env.byHand
  rw [htmp] at hfree ⊢
  simp only [List.getLast?_append, List.getLast?_singleton, Option.some_or, Option.toList_some]
  obtain ⟨hta, htb⟩ := temp_apart hr (a := apar ++ [an]) (b := par ++ [n]) (t := par ++ [E.tmp]) rfl rfl hab ha hb hfree
  obtain ⟨c1, c2, c3, c4, c5, c6, c7, c8, c9⟩ := steps_content (n := n) hr hab hta htb hfree
  have hua := apart_append hta [n]
  have hub := apart_append htb [n]
  have hre : ∀ {d : Disk Node} {src dst : Path} {x p : Node}, Apart src dst → d.at_ src = some x →
      d.at_ dst.dropLast = some p → Kinded.isDir p = true → d.at_ dst = none → ∃ d', d.rename src dst = .ok d' := by
    intro d src dst x p hap hx hp hk hd
    unfold Disk.rename
    simp only [hx, hp, hk, Bool.not_true, Bool.false_eq_true, if_false, hd]
    rw [if_neg (fun he : src = dst => hap.1 (he ▸ List.prefix_refl _)), if_neg hap.1, if_neg hap.2]
    exact ⟨_, rfl⟩
  -- a parent of one of the two paths stays where it is
  have hkeep : ∀ (q : Path) (m : Name) (b : Bool), s.disk.at_ q = some (.dir b) →
      ((q ++ [m] = par ++ [n] ∧ ¬ apar ++ [an] <+: q) ∨ (q ++ [m] = apar ++ [an] ∧ ¬ par ++ [n] <+: q)) →
      ¬ apar ++ [an] <+: q ∧ ¬ par ++ [n] <+: q ∧ q ≠ par ++ [E.tmp] := by
    rintro q m b hq h
    refine ⟨?_, ?_, fun he => by rw [he, hfree] at hq; simp at hq⟩
    · rcases h with ⟨-, h⟩ | ⟨h, -⟩
      · exact h
      · intro hc; have := hc.length_le; rw [← h] at this; simp at this; omega
    · rcases h with ⟨h, -⟩ | ⟨-, h⟩
      · intro hc; have := hc.length_le; rw [← h] at this; simp at this; omega
      · exact h
  have hk1 := hkeep par n bp hpar (.inl ⟨rfl, fun h => hab.1 (h.trans (List.prefix_append _ _))⟩)
  have hk2 := hkeep apar an ap hapar (.inr ⟨rfl, fun h => hab.2 (h.trans (List.prefix_append _ _))⟩)
  have hmid : ∀ q, ¬ apar ++ [an] <+: q → ¬ par ++ [n] <+: q → q ≠ par ++ [E.tmp] → ∀ x, s.disk.at_ q = some x →
      ¬ par ++ [E.tmp] ++ [n] <+: q ∧ (s.disk.put (par ++ [E.tmp]) (.dir true)).at_ q = some x := by
    intro q h1 h2 h3 x hx
    constructor
    · rintro ⟨t, rfl⟩
      rw [List.append_assoc, rooted_none hr hfree] at hx; simp at hx
    · rw [Disk.at_put, if_neg h3, hx]
  obtain ⟨hm1, hp1⟩ := hmid par hk1.1 hk1.2.1 hk1.2.2 _ hpar
  obtain ⟨hm2, hp2⟩ := hmid apar hk2.1 hk2.2.1 hk2.2.2 _ hapar
  have hcr : s.disk.create (par ++ [E.tmp]) (.dir true) = .ok (s.disk.put (par ++ [E.tmp]) (.dir true)) := by
    unfold Disk.create
    simp [hfree, hpar, Kinded.isDir]
  simp only [Prog.bind, Prog.act, Prog.sys, hF, hcr]
  obtain ⟨d2, hr1⟩ := hre (d := s.disk.put (par ++ [E.tmp]) (.dir true)) (dst := par ++ [E.tmp] ++ [n]) hub.symm
    (by rw [show par ++ [n] = par ++ [n] ++ [] by simp, (c1 []).2]; simpa using hb)
    (by rw [List.dropLast_concat, Disk.at_put, if_pos rfl]) rfl c7
  obtain ⟨e2, -⟩ := rename_free hub.symm c7 hr1
  rw [← e2] at c2 c3 c4 c5 c6 c8 c9
  simp only [hr1]
  have hfree2 : d2.at_ (par ++ [n]) = none := by simpa using (c2 []).2.2
  obtain ⟨d3, hr2⟩ := hre (d := d2) (dst := par ++ [n]) (p := .dir bp) (x := xa) hab
    (by have := (c2 []).1; simp only [List.append_nil] at this; rw [this, ha])
    (by rw [List.dropLast_concat, e2]; simp only [mv]; rw [if_neg hm1, if_neg hk1.2.1, hp1]) rfl hfree2
  obtain ⟨e3, -⟩ := rename_free hab hfree2 hr2
  rw [← e3] at c3 c4 c5 c6 c9
  simp only [hr2]
  have hfree3 : d3.at_ (apar ++ [an]) = none := by simpa using (c3 []).2.2
  obtain ⟨d4, hr3⟩ := hre (d := d3) (dst := apar ++ [an]) (p := .dir ap) (x := xb) hua
    (by have := (c3 []).2.1; simp only [List.append_nil] at this; rw [this, hb])
    (by
      rw [List.dropLast_concat, e3, e2]
      simp only [mv]
      rw [if_neg hk2.2.1, if_neg hk2.1, if_neg hm2, if_neg hk2.2.1, hp2]) rfl hfree3
  obtain ⟨e4, -⟩ := rename_free hua hfree3 hr3
  rw [← e4] at c4 c5 c6 c9
  simp only [hr3]
  have hempty : d4.names (par ++ [E.tmp]) = [] := by
    cases hn : d4.names (par ++ [E.tmp]) with
    | nil => rfl
    | cons m _ =>
      obtain ⟨x, hx⟩ := (Disk.mem_names d4 (par ++ [E.tmp]) m).1 (by rw [hn]; simp)
      rw [c6 m] at hx; simp at hx
  simp [Disk.rmdir, c9, Kinded.isDir, hempty]

end

/-! ## The exchange call -/

/-- The call gets the paths themselves: they are absolute or do not lead to a directory. -/
def Direct (E : Env) (d : Disk Node) (p : P) : Prop :=
  p.absolute = true ∨ ∀ m, E.follow d (E.loc p) = some m → ∀ b, d.at_ m ≠ some (.dir b)

theorem given_direct {E : Env} {d : Disk Node} {p : P} (h : Direct E d p) {x : Path} (hx : E.given d p = .ok x) :
    x = E.loc p := by
  unfold Env.given at hx
  split at hx
  · rename_i ha
    simp only [Except.ok.injEq] at hx
    simp [Env.loc, ha, hx]
  · rename_i ha
    rcases h with h | h
    · exact absurd h ha
    · split at hx
      · simp at hx
      · rename_i m hm
        split at hx
        · rename_i b hb
          exact absurd hb (h m hm b)
        · simp at hx

theorem xchg_exchanged {d0 d : Disk Node} {a b : Path} (hab : Apart a b) (h : d.at_ = xchg d0.at_ a b) :
    Exchanged d0 a b d := by
  refine ⟨fun s => ?_, fun s => ?_, fun r h1 h2 => ?_⟩
  · rw [h, xchg, if_pos (List.prefix_append _ _), drop_append_prefix]
  · rw [h, xchg, if_neg (hab.symm.below s), if_pos (List.prefix_append _ _), drop_append_prefix]
  · rw [h, xchg, if_neg h1, if_neg h2]

/-- `swap` either exchanges, or raises with the disk unchanged. -/
theorem swap_hoare (E : Env) (a b : P) (d0 : Disk Node) (hab : Apart (E.loc a) (E.loc b)) (ha : Direct E d0 a) (hb : Direct E d0 b) :
    Hoare (fun d => d = d0) (E.swap a b) (fun _ => Exchanged d0 (E.loc a) (E.loc b)) (fun _ d => d = d0) := by
  unfold Env.swap
  refine .bind_ (Q := fun _ d => d = d0) (.look_ (fun _ _ h _ => h) fun _ _ h => h) fun sa => ?_
  refine .bind_ (Q := fun _ d => d = d0) (.look_ (fun _ _ h _ => h) fun _ _ h => h) fun sb => ?_
  split
  · exact .throw_ fun _ h => h
  · exact .throw_ fun _ h => h
  · refine .ite_ (fun _ => .throw_ fun _ h => h) fun _ => .ite_ (fun _ => ?_) fun _ => .throw_ fun _ h => h
    unfold Env.swapLinux Env.open_
    refine .bind_ (Q := fun _ d => d = d0) (.look_ (fun _ _ h _ => h) fun _ _ h => h) fun _ => ?_
    refine .bind_ (Q := fun _ d => d = d0) (.look_ (fun _ _ h _ => h) fun _ _ h => h) fun _ => ?_
    refine .try_ (R := fun _ d => d = d0) (.act_ (fun d d' h hd => ?_) fun _ _ h => h) fun _ => .throw_ fun _ h => h
    subst h
    split at hd
    · rename_i x y hx hy
      rw [given_direct ha hx, given_direct hb hy] at hd
      unfold Disk.exchange at hd
      split at hd
      · rw [if_neg (fun he : E.loc a = E.loc b => hab.1 (he ▸ List.prefix_refl _)),
          if_neg (not_or.2 ⟨hab.1, hab.2⟩)] at hd
        simp only [Except.ok.injEq] at hd
        rw [← hd]
        exact xchg_exchanged hab (at_exchange d hab)
      · simp at hd
    · simp at hd
    · simp at hd

section
variable (E : Env) (a b : P) (s : Machine Node) {xa xb : Node}

/-- C48 (part): if `swap_carefree` returns, the two paths have exchanged their content and nothing else is
different.  (Full claim: also for relative paths to directories, see the counterexample.) -/
theorem C48_exchanged_partial (hr : Rooted s.disk) (hab : Apart (E.loc a) (E.loc b)) (ha : s.disk.at_ (E.loc a) = some xa)
    (hb : s.disk.at_ (E.loc b) = some xb) (hda : Direct E s.disk a) (hdb : Direct E s.disk b)
    (hok : (E.swapCarefree a b s).1 = .ok ()) :
    Exchanged s.disk (E.loc a) (E.loc b) (E.swapCarefree a b s).2.disk := by
  have hs := swap_hoare E a b s.disk hab hda hdb s rfl
  unfold Env.swapCarefree at hok ⊢
  simp only [Prog.catch_] at hok ⊢
  generalize E.swap a b s = r at hs hok ⊢
  obtain ⟨r, s'⟩ := r
  cases r with
  | ok u => exact hs
  | error e =>
    dsimp only at hs hok ⊢
    have := (byHand_spec E s' (by rw [hs]; exact hr) hab (by rw [hs]; exact ha) (by rw [hs]; exact hb)).1 hok
    rw [← hs]; exact this

/-- C48 (part): whatever fails, and wherever the process dies, both contents are on the disk.  (Same guard.) -/
theorem C48_nothing_lost_partial (hr : Rooted s.disk) (hab : Apart (E.loc a) (E.loc b)) (ha : s.disk.at_ (E.loc a) = some xa)
    (hb : s.disk.at_ (E.loc b) = some xb) (hda : Direct E s.disk a) (hdb : Direct E s.disk b) :
    BothExist s.disk (E.loc a) (E.loc b) (E.swapCarefree a b s).2.disk := by
  have hs := swap_hoare E a b s.disk hab hda hdb s rfl
  unfold Env.swapCarefree
  simp only [Prog.catch_]
  generalize E.swap a b s = r at hs ⊢
  obtain ⟨r, s'⟩ := r
  cases r with
  | ok u => exact hs.both hab
  | error e =>
    dsimp only at hs ⊢
    have := (byHand_spec E s' (by rw [hs]; exact hr) hab (by rw [hs]; exact ha) (by rw [hs]; exact hb)).2
    rw [hs] at this; exact this

/-- C48: when no call fails and the name of the temporary directory is free, it does return. -/
theorem C48_returns (hF : ∀ n, E.F n = none) (hr : Rooted s.disk) (hab : Apart (E.loc a) (E.loc b))
    (ha : s.disk.at_ (E.loc a) = some xa) (hb : s.disk.at_ (E.loc b) = some xb) (hda : Direct E s.disk a)
    (hdb : Direct E s.disk b) (hfree : s.disk.at_ (E.temp (E.loc b)) = none) :
    (E.swapCarefree a b s).1 = .ok () := by
  have hs := swap_hoare E a b s.disk hab hda hdb s rfl
  unfold Env.swapCarefree
  simp only [Prog.catch_]
  generalize E.swap a b s = r at hs ⊢
  obtain ⟨r, s'⟩ := r
  cases r with
  | ok u => rfl
  | error e =>
    dsimp only at hs ⊢
    exact byHand_live E s' hF (by rw [hs]; exact hr) hab (by rw [hs]; exact ha) (by rw [hs]; exact hb) (by rw [hs]; exact hfree)

end

/-- C48 is false in its last part: when the source does not exist, `swap_carefree` raises, but the target has
been moved into a temporary directory. -/
theorem C48_moved_counterexample (E : Env) (a b : P) (s : Machine Node) (par : Path) (n : Name) (xb : Node)
    (hF : ∀ n, E.F n = none) (hr : Rooted s.disk) (hbl : E.loc b = par ++ [n]) (ha : s.disk.at_ (E.loc a) = none)
    (hfa : E.follow s.disk (E.loc a) = none) (hb : s.disk.at_ (E.loc b) = some xb)
    (hfree : s.disk.at_ (par ++ [E.tmp]) = none) (hat : ¬ par ++ [E.tmp] <+: E.loc a) :
    (E.swapCarefree a b s).1 = .error .fileNotFoundError ∧
    (E.swapCarefree a b s).2.disk.at_ (E.loc b) = none ∧
    (E.swapCarefree a b s).2.disk.at_ (par ++ [E.tmp] ++ [n]) = some xb := by
  have htmp : E.temp (par ++ [n]) = par ++ [E.tmp] := by simp [Env.temp]
  rw [hbl] at hb
  have hpar := hr par n xb hb
  obtain ⟨bp, hpar⟩ := hpar
  have htb : Apart (par ++ [E.tmp]) (par ++ [n]) := by
    refine ⟨?_, ?_⟩
    · rintro ⟨t, ht⟩
      rw [← ht, rooted_none hr hfree] at hb; simp at hb
    · intro h
      rw [List.prefix_append_right_inj] at h
      simp at h
      rw [h, hfree] at hb; simp at hb
  have hub := apart_append htb [n]
  have hcr : s.disk.create (par ++ [E.tmp]) (.dir true) = .ok (s.disk.put (par ++ [E.tmp]) (.dir true)) := by
    unfold Disk.create
    simp [hfree, hpar, Kinded.isDir]
  have h1 : (s.disk.put (par ++ [E.tmp]) (.dir true)).at_ (par ++ [n]) = some xb := by
    rw [Disk.at_put, if_neg, hb]
    intro h; exact htb.2 (h ▸ List.prefix_refl _)
  have h2 : (s.disk.put (par ++ [E.tmp]) (.dir true)).at_ (par ++ [E.tmp] ++ [n]) = none := by
    rw [Disk.at_put, if_neg (by simp), rooted_none hr hfree]
  obtain ⟨d2, hr1⟩ : ∃ d2, (s.disk.put (par ++ [E.tmp]) (.dir true)).rename (par ++ [n]) (par ++ [E.tmp] ++ [n]) = .ok d2 := by
    unfold Disk.rename
    rw [h1, List.dropLast_concat, Disk.at_put, if_pos rfl, h2]
    dsimp only
    rw [if_neg (by simp [Kinded.isDir]), if_neg (fun he : par ++ [n] = _ => hub.2 (he ▸ List.prefix_refl _)),
      if_neg hub.2, if_neg hub.1]
    exact ⟨_, rfl⟩
  obtain ⟨e2, -⟩ := rename_free hub.symm h2 hr1
  have h3 : d2.at_ (E.loc a) = none := by
    rw [e2]
    simp only [mv]
    rw [if_neg (fun h => hat ((List.prefix_append _ _).trans h))]
    split
    · rfl
    · rw [Disk.at_put, if_neg (fun h : E.loc a = _ => hat (h ▸ List.prefix_refl _)), ha]
  have h4 : d2.rename (E.loc a) (par ++ [n]) = .error .fileNotFoundError := by
    unfold Disk.rename
    rw [h3]
  unfold Env.swapCarefree Env.swap
  simp only [Prog.catch_, Prog.bind, Prog.look, Prog.sys, hF, hfa, Prog.throw, Env.byHand, hbl, htmp, Prog.act, hcr,
    List.getLast?_append, List.getLast?_singleton, Option.some_or, Option.toList_some, hr1, h4]
  refine ⟨trivial, ?_, ?_⟩
  · rw [e2]
    simp only [mv]
    rw [if_neg hub.1, if_pos (List.prefix_refl _)]
  · rw [e2]
    simp only [mv]
    rw [if_pos (List.prefix_refl _)]
    simpa using h1

/-- C48 is false for relative paths to directories: the call takes `x` to be in the directory `x`, so that
`x/x` and `y/y` are exchanged, and `x` and `y` are not. -/
theorem C48_relative_counterexample (E : Env) (s : Machine Node) (x y : Name) (bx byy : Bool) (cx cy : Node)
    (hn : E.native = true) (hF : ∀ n, E.F n = none) (hxy : x ≠ y)
    (hx : s.disk.at_ (E.cwd ++ [x]) = some (.dir bx)) (hy : s.disk.at_ (E.cwd ++ [y]) = some (.dir byy))
    (hxx : s.disk.at_ (E.cwd ++ [x] ++ [x]) = some cx) (hyy : s.disk.at_ (E.cwd ++ [y] ++ [y]) = some cy)
    (hfx : E.follow s.disk (E.cwd ++ [x]) = some (E.cwd ++ [x])) (hfy : E.follow s.disk (E.cwd ++ [y]) = some (E.cwd ++ [y]))
    (hdev : E.dev (E.cwd ++ [x]) = E.dev (E.cwd ++ [y])) :
    (E.swapCarefree ⟨false, [x]⟩ ⟨false, [y]⟩ s).1 = .ok () ∧
    Exchanged s.disk (E.cwd ++ [x] ++ [x]) (E.cwd ++ [y] ++ [y]) (E.swapCarefree ⟨false, [x]⟩ ⟨false, [y]⟩ s).2.disk ∧
    ∀ f, f ≠ x → (E.swapCarefree ⟨false, [x]⟩ ⟨false, [y]⟩ s).2.disk.at_ (E.cwd ++ [x, f]) = s.disk.at_ (E.cwd ++ [x, f]) := by
  have hap : Apart (E.cwd ++ [x] ++ [x]) (E.cwd ++ [y] ++ [y]) := by
    constructor <;> intro h <;> rw [List.append_assoc, List.append_assoc, List.prefix_append_right_inj] at h <;>
      simp at h <;> simp_all
  have hl : ∀ z, E.loc ⟨false, z⟩ = E.cwd ++ z := fun z => by simp [Env.loc]
  have hgx : E.given s.disk ⟨false, [x]⟩ = .ok (E.cwd ++ [x] ++ [x]) := by simp [Env.given, hl, hfx, hx]
  have hgy : E.given s.disk ⟨false, [y]⟩ = .ok (E.cwd ++ [y] ++ [y]) := by simp [Env.given, hl, hfy, hy]
  have hex : ∃ d', s.disk.exchange (E.cwd ++ [x] ++ [x]) (E.cwd ++ [y] ++ [y]) = .ok d' ∧
      Exchanged s.disk (E.cwd ++ [x] ++ [x]) (E.cwd ++ [y] ++ [y]) d' := by
    unfold Disk.exchange
    rw [hxx, hyy]
    dsimp only
    rw [if_neg (fun he : E.cwd ++ [x] ++ [x] = _ => hap.1 (he ▸ List.prefix_refl _)), if_neg (not_or.2 ⟨hap.1, hap.2⟩)]
    exact ⟨_, rfl, xchg_exchanged hap (at_exchange s.disk hap)⟩
  obtain ⟨d', h1, h2⟩ := hex
  have hrun : E.swapCarefree ⟨false, [x]⟩ ⟨false, [y]⟩ s = (.ok (), ⟨d', s.tick + 1 + 1 + 1 + 1 + 1⟩) := by
    unfold Env.swapCarefree Env.swap Env.swapLinux Env.open_
    simp only [Prog.catch_, Prog.bind, Prog.look, Prog.sys, hF, hl, hfx, hfy, hdev, ne_eq, not_true_eq_false, if_false, hn, if_true,
      Prog.act, hgx, hgy, h1]
  rw [hrun]
  refine ⟨rfl, h2, fun f hf => h2.2.2 _ ?_ ?_⟩
  · intro h; rw [List.append_assoc, List.prefix_append_right_inj] at h; simp at h; exact hf h.symm
  · intro h; rw [List.append_assoc, List.prefix_append_right_inj] at h; simp at h; exact hxy h.1.symm

/-! ## A concrete case -/

/-- `/w/x` and `/w/y`, with `x` and a file in the first, `y` in the second. -/
def sample : Disk Node :=
  [([], .dir true), ([['w']], .dir true), ([['w'], ['x']], .dir true), ([['w'], ['y']], .dir true),
   ([['w'], ['x'], ['x']], .file [1]), ([['w'], ['y'], ['y']], .file [2]), ([['w'], ['x'], ['f']], .file [3])]

def sampleEnv : Env where
  native := true
  cwd := [['w']]
  F := fun _ => none
  follow := fun d p => if (d.at_ p).isSome then some p else none
  dev := fun _ => 0
  tmp := ['t']

example : Rooted sample ∧ Apart (sampleEnv.loc ⟨true, [['w'], ['x']]⟩) (sampleEnv.loc ⟨true, [['w'], ['y']]⟩) ∧
    Direct sampleEnv sample ⟨true, [['w'], ['x']]⟩ ∧ sample.at_ (sampleEnv.temp [['w'], ['y']]) = none := by
  refine ⟨?_, ⟨by decide, by decide⟩, .inl rfl, by decide⟩
  have : ∀ e ∈ sample, e.1 ≠ [] → sample.at_ e.1.dropLast = some (.dir true) := by decide
  intro r n x hx
  exact ⟨true, by simpa using this _ (Disk.mem_of_at hx) (by simp)⟩

example : sample.at_ (sampleEnv.cwd ++ [['x']]) = some (.dir true) ∧ sample.at_ (sampleEnv.cwd ++ [['x']] ++ [['x']]) = some (.file [1]) ∧
    sampleEnv.follow sample (sampleEnv.cwd ++ [['x']]) = some (sampleEnv.cwd ++ [['x']]) ∧
    sample.at_ (sampleEnv.loc ⟨true, [['w'], ['z']]⟩) = none ∧ sampleEnv.follow sample (sampleEnv.loc ⟨true, [['w'], ['z']]⟩) = none := by
  decide

/-- C48: `swap` itself refuses, with nothing changed, whatever is not there, what is on different devices, and systems without the call;
each with its own exception, when no call fails. -/
theorem C48_refuses (E : Env) (a b : P) (s : Machine Node) (hF : ∀ n, E.F n = none) :
    (E.follow s.disk (E.loc a) = none ∨ E.follow s.disk (E.loc b) = none →
      (E.swap a b s).1 = .error .fileNotFoundError ∧ (E.swap a b s).2.disk = s.disk) ∧
    ∀ x y, E.follow s.disk (E.loc a) = some x → E.follow s.disk (E.loc b) = some y →
      (E.dev x ≠ E.dev y → (E.swap a b s).1 = .error .valueError ∧ (E.swap a b s).2.disk = s.disk) ∧
      (E.dev x = E.dev y → E.native = false → (E.swap a b s).1 = .error .notImplementedError ∧ (E.swap a b s).2.disk = s.disk) := by
  refine ⟨?_, fun x y hx hy => ⟨fun hd => ?_, fun hd hn => ?_⟩⟩
  · intro h
    cases ha : E.follow s.disk (E.loc a) with
    | none => simp [Env.swap, Prog.bind, Prog.look, Prog.sys, Prog.throw, hF, ha]
    | some x =>
      rcases h with h | h
      · rw [ha] at h; simp at h
      · simp [Env.swap, Prog.bind, Prog.look, Prog.sys, Prog.throw, hF, ha, h]
  · simp [Env.swap, Prog.bind, Prog.look, Prog.sys, Prog.throw, hF, hx, hy, hd]
  · simp [Env.swap, Prog.bind, Prog.look, Prog.sys, Prog.throw, hF, hx, hy, hd, hn]

/-- C48: on linux, what the exchange refuses is an `OSError` with nothing changed, and what it does is what `swap` does. -/
theorem C48_linux (E : Env) (a b : P) (s : Machine Node) (hF : ∀ n, E.F n = none) (x y u v : Path) (hn : E.native = true)
    (hx : E.follow s.disk (E.loc a) = some x) (hy : E.follow s.disk (E.loc b) = some y) (hd : E.dev x = E.dev y)
    (hu : E.given s.disk a = .ok u) (hv : E.given s.disk b = .ok v) :
    (∀ d, s.disk.exchange u v = .ok d → (E.swap a b s).1 = .ok () ∧ (E.swap a b s).2.disk = d) ∧
    ∀ e, s.disk.exchange u v = .error e → (E.swap a b s).1 = .error .osError ∧ (E.swap a b s).2.disk = s.disk := by
  constructor
  · intro d hd'
    simp [Env.swap, Env.swapLinux, Env.open_, Prog.bind, Prog.look, Prog.sys, Prog.act, Prog.catch_, hF, hx, hy, hd, hn, hu, hv, hd']
  · intro e he
    simp [Env.swap, Env.swapLinux, Env.open_, Prog.bind, Prog.look, Prog.sys, Prog.act, Prog.catch_, Prog.throw, hF, hx, hy, hd, hn, hu, hv, he]

example : sampleEnv.given sample ⟨true, [['w']]⟩ = .ok [['w']] ∧ sampleEnv.given sample ⟨false, [['x']]⟩ = .ok [['w'], ['x'], ['x']] ∧
    sample.exchange [['w']] [['w'], ['x'], ['x']] = .error .osError ∧ (∃ d, sample.exchange [['w'], ['x']] [['w'], ['y']] = .ok d) := by
  refine ⟨by decide, by decide, by decide, ⟨_, rfl⟩⟩

end Verif.FS.Swap
