import Verif.Lemmas.Rmdirtree

/-!
# C47: rmdirtree
-/

namespace Verif.FS.Rmdirtree
open Verif.Spec

/-- C47: whichever calls fail and whichever way the run ends, what has disappeared is a directory in the
tree that had no content, at any depth; everything else is as it was.  So files and symlinks are never
removed. -/
theorem C47_only_hollow (E : Env) (fuel : Nat) (q : Path) (s : Machine Node) (hr : Rooted s.disk) (r : Path)
    (h : ¬ (q <+: r ∧ Hollow s.disk.at_ r)) :
    (E.rmdirtree fuel q s).2.disk.at_ r = s.disk.at_ r := by
  have hk : Keep s.disk q (E.rmdirtree fuel q s).2.disk := by
    have := Hoare.result (rmdirtree_keeps E (d0 := s.disk) fuel q) (s := s) ⟨hr, fun _ => .inl rfl⟩
    cases hres : (E.rmdirtree fuel q s).1 with
    | ok u => exact this.1 u hres
    | error e => exact this.2 e hres
  rcases hk.2 r with h' | ⟨-, h'⟩
  · exact h'
  · exact absurd h' h

/-- C47: when no call fails, exactly the directories without content are removed. -/
theorem C47_exactly_hollow (E : Env) (hF : ∀ n, E.F n = none) (fuel : Nat) (q : Path) (s : Machine Node) (b : Bool)
    (hr : Rooted s.disk) (hdis : Distinct s.disk) (hd : s.disk.at_ q = some (.dir b)) (hq : q ≠ [])
    (hf : Depth s.disk q fuel) :
    ∃ s', E.rmdirtree fuel q s = (.ok (), s') ∧
      ∀ r, (q <+: r ∧ Hollow s.disk.at_ r → s'.disk.at_ r = none) ∧
        (¬ (q <+: r ∧ Hollow s.disk.at_ r) → s'.disk.at_ r = s.disk.at_ r) := by
  obtain ⟨del, s', h1, h2, -⟩ := visit_prunes E hF fuel q [] ⟨s.disk, s.tick + 1⟩ b hr hd hdis hq hf (by simp)
  refine ⟨s', ?_, h2⟩
  unfold Env.rmdirtree
  simp [Prog.bind, Prog.look, Prog.sys, hF, hd, h1, Prog.pure]

/-- C47: a symlink is refused, whatever it points to, and nothing changes. -/
theorem C47_symlink (E : Env) (hF : ∀ n, E.F n = none) (fuel : Nat) (q : Path) (s : Machine Node) (l : Target)
    (hd : s.disk.at_ q = some (.link l)) :
    (E.rmdirtree fuel q s).1 = .error .notADirectoryError ∧ (E.rmdirtree fuel q s).2.disk = s.disk := by
  unfold Env.rmdirtree
  simp [Prog.bind, Prog.look, Prog.sys, hF, hd, Prog.throw]

/-- C47 is false for a directory that cannot be read: the walk skips it without a word, so that `rmdirtree`
returns although a directory without content is still there. -/
theorem C47_unreadable_counterexample (E : Env) (fuel : Nat) (q : Path) (s : Machine Node) (b : Bool) (e : PyErr)
    (hd : s.disk.at_ q = some (.dir b)) (h0 : E.F s.tick = none) (h1 : E.F (s.tick + 1) = some e) :
    (E.rmdirtree (fuel + 1) q s).1 = .ok () ∧ (E.rmdirtree (fuel + 1) q s).2.disk = s.disk := by
  unfold Env.rmdirtree
  simp [Prog.bind, Prog.look, Prog.sys, h0, h1, hd, Env.visit, Env.scan, Prog.catch_, Prog.pure]

/-- What is not a directory is passed over without a word, too. -/
theorem C47_file_ignored (E : Env) (hF : ∀ n, E.F n = none) (fuel : Nat) (q : Path) (s : Machine Node) (c : Bytes)
    (hd : s.disk.at_ q = some (.file c)) :
    (E.rmdirtree (fuel + 1) q s).1 = .ok () ∧ (E.rmdirtree (fuel + 1) q s).2.disk = s.disk := by
  unfold Env.rmdirtree
  simp [Prog.bind, Prog.look, Prog.sys, hF, hd, Env.visit, Env.scan, Prog.catch_, Prog.pure]

/-! ## A concrete case -/

/-- `/t` with the hollow `/t/a` (and `/t/a/b` in it), and `/t/k` with a symlink. -/
def sample : Disk Node :=
  [([], .dir true), ([['t']], .dir true), ([['t'], ['a']], .dir true), ([['t'], ['a'], ['b']], .dir true),
   ([['t'], ['k']], .dir true), ([['t'], ['k'], ['l']], .link ⟨true, [['t'], ['a']]⟩)]

theorem sample_entries (P : Path → Node → Prop) (h : ∀ e ∈ sample, P e.1 e.2) : ∀ r x, sample.at_ r = some x → P r x :=
  fun _ _ hx => h _ (Disk.mem_of_at hx)

example : Rooted sample ∧ Distinct sample ∧ Depth sample [['t']] 3 ∧ sample.at_ [['t']] = some (.dir true) := by
  refine ⟨?_, by unfold Distinct; decide, ?_, by decide⟩
  · have : ∀ r x, sample.at_ r = some x → r ≠ [] → sample.at_ r.dropLast = some (.dir true) :=
      sample_entries _ (by decide)
    intro r n x hx
    exact ⟨true, by simpa using this _ x hx (by simp)⟩
  · have : ∀ r x, sample.at_ r = some x → r.length < 4 := sample_entries _ (by decide)
    exact fun r x _ hx => this r x hx

example : Hollow sample.at_ [['t'], ['a']] ∧ ¬ Hollow sample.at_ [['t'], ['k']] ∧ ¬ Hollow sample.at_ [['t']] := by
  refine ⟨⟨⟨true, by decide⟩, ?_⟩, ?_, ?_⟩
  · intro r x hpre hx
    have : ∀ r x, sample.at_ r = some x → [['t'], ['a']] <+: r → x = .dir true := sample_entries _ (by decide)
    exact ⟨true, this r x hx hpre⟩
  · intro h
    obtain ⟨b, hb⟩ := h.2 [['t'], ['k'], ['l']] (.link ⟨true, [['t'], ['a']]⟩) ⟨[['l']], rfl⟩ (by decide)
    simp at hb
  · intro h
    obtain ⟨b, hb⟩ := h.2 [['t'], ['k'], ['l']] (.link ⟨true, [['t'], ['a']]⟩) ⟨[['k'], ['l']], rfl⟩ (by decide)
    simp at hb

/-! ## Both versions do the same -/

/-- What is deleted was a directory, and the disk has only shrunk. -/
def Shrunk (d0 d : Disk Node) (deleted : List Path) : Prop :=
  d.Sub d0 ∧ ∀ p ∈ deleted, ∃ b, d0.at_ p = some (.dir b)

theorem check_stops {deleted : List Path} {q : Path} {n : Name} (hn : q ++ [n] ∉ deleted) :
    ∀ {ns : List Name} (sps : List Path), n ∈ ns → (check deleted q ns sps).1 = true := by
  intro ns
  induction ns with
  | nil => simp
  | cons m ms ih =>
    intro sps hm
    unfold check
    split
    · next h =>
      rcases List.mem_cons.1 hm with rfl | hm
      · exact absurd h hn
      · exact ih _ hm
    · rfl

/-- The two versions of the scan. -/
def Env.found (E : Env) (d : Disk Node) (q : Path) : Listing :=
  { subs := (d.names q).filter fun n => real d q n || E.linked d q n
    files := (d.names q).filter fun n => !(real d q n || E.linked d q n)
    walked := (d.names q).filter fun n => real d q n }

theorem body_agree {E E' : Env} (hF : E.F = E'.F) {d0 d : Disk Node} {del : List Path} (h : Shrunk d0 d del)
    (q : Path) : E.body q (E.found d q) del = E'.body q (E'.found d q) del := by
  by_cases hl : ∃ n ∈ d.names q, ∃ l, d.at_ (q ++ [n]) = some (.link l)
  · obtain ⟨n, hn, l, hl⟩ := hl
    have hnd : q ++ [n] ∉ del := by
      intro hm
      obtain ⟨b, hb⟩ := h.2 _ hm
      rw [h.1 _ _ hl] at hb
      cases hb
    have : ∀ E : Env, E.body q (E.found d q) del = .pure del := by
      intro E
      have : ((E.found d q).files.isEmpty && !(check del q (E.found d q).subs []).1) = false := by
        cases hx : E.linked d q n with
        | true =>
          have hs : n ∈ (E.found d q).subs := List.mem_filter.2 ⟨hn, by simp [hx]⟩
          rw [check_stops hnd [] hs]
          simp
        | false =>
          have hr : real d q n = false := by simp [real, hl]
          have hs : n ∈ (E.found d q).files := List.mem_filter.2 ⟨hn, by simp [hx, hr]⟩
          cases hf : (E.found d q).files with
          | nil => rw [hf] at hs; simp at hs
          | cons a as => rfl
      unfold Env.body
      simp only [this, Bool.false_eq_true, if_false]
    rw [this E, this E']
  · have hno : ∀ (E : Env), ∀ n ∈ d.names q, E.linked d q n = false := by
      intro E n hn
      unfold Env.linked
      split
      · next l hx => exact absurd ⟨n, hn, l, hx⟩ hl
      · rfl
    have hff : E.found d q = E'.found d q := by
      unfold Env.found
      congr 1 <;> apply List.filter_congr <;> intro n hn <;> rw [hno E n hn, hno E' n hn]
    rw [hff]
    unfold Env.body
    rw [hF]

theorem body_shrunk {E : Env} {d0 : Disk Node} {del del' : List Path} {q : Path} {l : Listing} {s s' : Machine Node}
    (h : Shrunk d0 s.disk del) (hq : ∃ b, d0.at_ q = some (.dir b)) (hrun : E.body q l del s = (.ok del', s')) :
    Shrunk d0 s'.disk del' := by
  unfold Env.body at hrun
  split at hrun
  · simp only [Prog.bind, Prog.act, Prog.sys, Prog.pure] at hrun
    cases hF : E.F s.tick with
    | some e => rw [hF] at hrun; simp at hrun
    | none =>
      rw [hF] at hrun
      dsimp only at hrun
      cases hr : s.disk.rmdir q with
      | error e => rw [hr] at hrun; simp at hrun
      | ok d =>
        rw [hr] at hrun
        simp only [Prod.mk.injEq, Except.ok.injEq] at hrun
        obtain ⟨rfl, rfl⟩ := hrun
        refine ⟨?_, fun p hp => ?_⟩
        · have : d = s.disk.erase q := by
            unfold Disk.rmdir at hr
            split at hr
            · cases hr
            · split at hr
              · cases hr
              · split at hr
                · cases hr
                · cases hr; rfl
          subst this
          exact fun r x hx => h.1 _ _ (Disk.Sub.erase _ _ _ _ hx)
        · rcases List.mem_cons.1 (List.mem_filter.1 hp).1 with rfl | hp
          · exact hq
          · exact h.2 p hp
  · simp only [Prog.pure, Prod.mk.injEq, Except.ok.injEq] at hrun
    obtain ⟨rfl, rfl⟩ := hrun
    exact h

/-- The same run, after which what holds still holds. -/
def Alike (d0 : Disk Node) (A B : Prog Node (List Path)) (s : Machine Node) : Prop :=
  A s = B s ∧ ∀ del s', A s = (.ok del, s') → Shrunk d0 s'.disk del

theorem visit_agree {E E' : Env} (hF : E.F = E'.F) {d0 : Disk Node} : ∀ (fuel : Nat),
    (∀ (q : Path) (del : List Path) (s : Machine Node), Shrunk d0 s.disk del → Alike d0 (E.visit fuel q del) (E'.visit fuel q del) s) ∧
    (∀ (q : Path) (ns : List Name) (del : List Path) (s : Machine Node), Shrunk d0 s.disk del →
      Alike d0 (E.visitAll fuel q ns del) (E'.visitAll fuel q ns del) s) := by
  have all : ∀ fuel, (∀ (q : Path) (del : List Path) (s : Machine Node), Shrunk d0 s.disk del →
      Alike d0 (E.visit fuel q del) (E'.visit fuel q del) s) →
      ∀ (ns : List Name) (q : Path) (del : List Path) (s : Machine Node), Shrunk d0 s.disk del →
      Alike d0 (E.visitAll fuel q ns del) (E'.visitAll fuel q ns del) s := by
    intro fuel hv ns
    induction ns with
    | nil =>
      intro q del s h
      rw [Env.visitAll, Env.visitAll]
      refine ⟨rfl, fun del' s' hr => ?_⟩
      simp only [Prog.pure, Prod.mk.injEq, Except.ok.injEq] at hr
      obtain ⟨rfl, rfl⟩ := hr
      exact h
    | cons n ns ih =>
      intro q del s h
      rw [Env.visitAll, Env.visitAll]
      obtain ⟨h1, h2⟩ := hv (q ++ [n]) del s h
      unfold Alike
      simp only [Prog.bind]
      rw [← h1]
      cases hr : E.visit fuel (q ++ [n]) del s with
      | mk r s1 =>
        cases r with
        | error e => exact ⟨rfl, fun _ _ hx => by simp at hx⟩
        | ok del1 => exact ih q del1 s1 (h2 _ _ hr)
  intro fuel
  induction fuel with
  | zero =>
    have : ∀ (q : Path) (del : List Path) (s : Machine Node), Shrunk d0 s.disk del → Alike d0 (E.visit 0 q del) (E'.visit 0 q del) s := by
      intro q del s h
      rw [Env.visit, Env.visit]
      exact ⟨rfl, fun _ _ hx => by simp [Prog.throw] at hx⟩
    exact ⟨this, fun q ns => all 0 this ns q⟩
  | succ fuel ih =>
    have : ∀ (q : Path) (del : List Path) (s : Machine Node), Shrunk d0 s.disk del →
        Alike d0 (E.visit (fuel + 1) q del) (E'.visit (fuel + 1) q del) s := by
      intro q del s h
      rw [Env.visit, Env.visit]
      unfold Alike
      simp only [Prog.bind, Prog.catch_, Env.scan, Prog.look, Prog.sys, Prog.pure, ← hF]
      cases hf : E.F s.tick with
      | some e =>
        refine ⟨rfl, fun del' s' hr => ?_⟩
        simp only [Prod.mk.injEq, Except.ok.injEq] at hr
        obtain ⟨rfl, rfl⟩ := hr
        exact h
      | none =>
        dsimp only
        cases hd : s.disk.at_ q with
        | none =>
          refine ⟨rfl, fun del' s' hr => ?_⟩
          simp only [Prod.mk.injEq, Except.ok.injEq] at hr
          obtain ⟨rfl, rfl⟩ := hr
          exact h
        | some x =>
          cases x with
          | dir b =>
            dsimp only
            obtain ⟨h1, h2⟩ := ih.2 q ((s.disk.names q).filter fun n => real s.disk q n) del ⟨s.disk, s.tick + 1⟩ h
            unfold Prog.bind
            rw [← h1]
            cases hr : E.visitAll fuel q ((s.disk.names q).filter fun n => real s.disk q n) del ⟨s.disk, s.tick + 1⟩ with
            | mk r s1 =>
              cases r with
              | error e => exact ⟨rfl, fun _ _ hx => by simp at hx⟩
              | ok del1 =>
                have hs := h2 _ _ hr
                dsimp only
                refine ⟨congrFun (body_agree hF (d0 := d0) (d := s.disk) ⟨h.1, hs.2⟩ q) s1, fun del' s' hx => ?_⟩
                exact body_shrunk hs ⟨b, h.1 _ _ hd⟩ hx
          | _ =>
            refine ⟨rfl, fun del' s' hr => ?_⟩
            simp only [Prod.mk.injEq, Except.ok.injEq] at hr
            obtain ⟨rfl, rfl⟩ := hr
            exact h
    exact ⟨this, fun q ns => all _ this ns q⟩

/-- C47: it makes no difference which of the two walks is used and how symlinks resolve: with the same calls failing, both versions have
the same outcome and leave the same disk. -/
theorem C47_versions_agree (F : Nat → Option PyErr) (t t' : Disk Node → Path → Bool) (b b' : Bool) (fuel : Nat) (q : Path) (s : Machine Node) :
    (Env.mk b F t).rmdirtree fuel q s = (Env.mk b' F t').rmdirtree fuel q s := by
  have h : ∀ k, Shrunk s.disk (⟨s.disk, k⟩ : Machine Node).disk [] := fun _ => ⟨fun _ _ h => h, fun _ h => by simp at h⟩
  unfold Env.rmdirtree
  simp only [Prog.bind, Prog.look, Prog.sys]
  cases F s.tick with
  | some e => rfl
  | none =>
    dsimp only
    have h2 := ((visit_agree (E := Env.mk b F t) (E' := Env.mk b' F t') rfl fuel).1 q [] ⟨s.disk, s.tick + 1⟩ (h _)).1
    cases hd : s.disk.at_ q with
    | none => dsimp only; simp only [Bool.false_eq_true, if_false, h2, Prog.bind]
    | some x => cases x <;> dsimp only <;> simp only [Bool.false_eq_true, if_false, if_true, h2, Prog.bind]

end Verif.FS.Rmdirtree
