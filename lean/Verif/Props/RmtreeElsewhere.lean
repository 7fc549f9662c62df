import Verif.Props.RmdirtreeRace

/-!
# C128: removing a tree while other processes work elsewhere
-/

namespace Verif.FS
open Verif.Spec Amid Sweeping

namespace Lockstep

/-- From disks that are the same in the tree, the two programs end alike, and `Hoare P m0 Q R` for the second. -/
def Both {α : Type} (q : Path) (P : Disk Node → Prop) (m1 m0 : Prog Node α) (Q : α → Disk Node → Prop) (R : PyErr → Disk Node → Prop) : Prop :=
  ∀ s1 s0 : Machine Node, s1.tick = s0.tick → Same q s1.disk s0.disk → P s0.disk →
    (m1 s1).1 = (m0 s0).1 ∧ (m1 s1).2.tick = (m0 s0).2.tick ∧ Same q (m1 s1).2.disk (m0 s0).2.disk ∧
    match m0 s0 with
    | (.ok a, s) => Q a s.disk
    | (.error e, s) => R e s.disk

namespace Both
variable {α β : Type} {q : Path} {P P' : Disk Node → Prop} {Q : α → Disk Node → Prop} {R R' : PyErr → Disk Node → Prop}

theorem pure_ {a : α} (h : ∀ d, P d → Q a d) : Both q P (Prog.pure a) (Prog.pure a) Q R := fun _ _ ht hs hp => ⟨rfl, ht, hs, h _ hp⟩

theorem throw_ {e : PyErr} (h : ∀ d, P d → R e d) : Both q P (Prog.throw e : Prog Node α) (Prog.throw e) Q R := fun _ _ ht hs hp => ⟨rfl, ht, hs, h _ hp⟩

theorem bind_ {m1 m0 : Prog Node α} {f1 f0 : α → Prog Node β} {Q' : β → Disk Node → Prop} (hm : Both q P m1 m0 Q R) (hf : ∀ a, Both q (Q a) (f1 a) (f0 a) Q' R) :
    Both q P (Prog.bind m1 f1) (Prog.bind m0 f0) Q' R := by
  intro s1 s0 ht hs hp
  obtain ⟨h1, h2, h3, h4⟩ := hm s1 s0 ht hs hp
  simp only [Prog.bind]
  generalize m1 s1 = r1 at h1 h2 h3
  generalize m0 s0 = r0 at h1 h2 h3 h4
  obtain ⟨r1, t1⟩ := r1
  obtain ⟨r0, t0⟩ := r0
  dsimp only at h1 h2 h3
  subst h1
  cases r1 with
  | ok a => exact hf a t1 t0 h2 h3 h4
  | error e => exact ⟨rfl, h2, h3, h4⟩

theorem try_ {m1 m0 : Prog Node α} {h1 h0 : PyErr → Prog Node α} (hm : Both q P m1 m0 Q R) (hh : ∀ e, Both q (R e) (h1 e) (h0 e) Q R') :
    Both q P (Prog.catch_ m1 h1) (Prog.catch_ m0 h0) Q R' := by
  intro s1 s0 ht hs hp
  obtain ⟨g1, g2, g3, g4⟩ := hm s1 s0 ht hs hp
  simp only [Prog.catch_]
  generalize m1 s1 = r1 at g1 g2 g3
  generalize m0 s0 = r0 at g1 g2 g3 g4
  obtain ⟨r1, t1⟩ := r1
  obtain ⟨r0, t0⟩ := r0
  dsimp only at g1 g2 g3
  subst g1
  cases r1 with
  | ok a => exact ⟨rfl, g2, g3, g4⟩
  | error e => exact hh e t1 t0 g2 g3 g4

theorem ite_ {c : Prop} [Decidable c] {m1 m1' m0 m0' : Prog Node α} (h : c → Both q P m1 m0 Q R) (h' : ¬ c → Both q P m1' m0' Q R) :
    Both q P (if c then m1 else m1') (if c then m0 else m0') Q R := by
  split
  · exact h ‹_›
  · exact h' ‹_›

theorem mono {Q₁ : α → Disk Node → Prop} {m1 m0 : Prog Node α} (h : Both q P m1 m0 Q₁ R) (hp : ∀ d, P' d → P d)
    (hq : ∀ a d, Q₁ a d → Q a d) (hr : ∀ e d, R e d → R' e d) : Both q P' m1 m0 Q R' := by
  intro s1 s0 ht hs hp'
  obtain ⟨g1, g2, g3, g4⟩ := h s1 s0 ht hs (hp _ hp')
  refine ⟨g1, g2, g3, ?_⟩
  generalize m0 s0 = r0 at g4 ⊢
  obtain ⟨r0, t0⟩ := r0
  cases r0 with
  | ok a => exact hq _ _ g4
  | error e => exact hr _ _ g4

theorem pre {m1 m0 : Prog Node α} (h : Both q P m1 m0 Q R) (hp : ∀ d, P' d → P d) : Both q P' m1 m0 Q R := h.mono hp (fun _ _ h => h) fun _ _ h => h

/-- A question with the same answer on both sides. -/
theorem look_ {A : Others} (hA : Elsewhere A q) {F : Nat → Option PyErr} {f : Disk Node → Except PyErr α} (hf : ∀ d1 d0, Same q d1 d0 → P d0 → f d1 = f d0)
    (hok : ∀ d a, P d → f d = .ok a → Q a d) (herr : ∀ e d, P d → R e d) : Both q P (turn A (Prog.look F f)) (turn (fun _ d => d) (Prog.look F f)) Q R := by
  rintro ⟨d1, k⟩ ⟨d0, k'⟩ ht hs hp
  dsimp only at ht hs hp
  subst ht
  have hs' := hA.same hs k
  simp only [turn, Prog.look, Prog.sys]
  cases F k with
  | some e => exact ⟨rfl, rfl, hs', herr e _ hp⟩
  | none =>
    dsimp only
    rw [hf _ _ hs' hp]
    cases h : f d0 with
    | ok a => exact ⟨rfl, rfl, hs', hok _ _ hp h⟩
    | error e => exact ⟨rfl, rfl, hs', herr e _ hp⟩

/-- The removal of something, at the same place on both sides. -/
theorem act_ {A : Others} (hA : Elsewhere A q) {F : Nat → Option PyErr} {f : Disk Node → Except PyErr (Disk Node)} {Q : Unit → Disk Node → Prop}
    (hf : ∀ d1 d0, Same q d1 d0 → P d0 → (∃ e, f d1 = .error e ∧ f d0 = .error e) ∨ ∃ c, f d1 = .ok (d1.erase c) ∧ f d0 = .ok (d0.erase c) ∧ Q () (d0.erase c))
    (herr : ∀ e d, P d → R e d) : Both q P (turn A (Prog.act F f)) (turn (fun _ d => d) (Prog.act F f)) Q R := by
  rintro ⟨d1, k⟩ ⟨d0, k'⟩ ht hs hp
  dsimp only at ht hs hp
  subst ht
  have hs' := hA.same hs k
  simp only [turn, Prog.act, Prog.sys]
  cases F k with
  | some e => exact ⟨rfl, rfl, hs', herr e _ hp⟩
  | none =>
    dsimp only
    rcases hf _ _ hs' hp with ⟨e, h1, h0⟩ | ⟨c, h1, h0, hq⟩
    · rw [h1, h0]; exact ⟨rfl, rfl, hs', herr e _ hp⟩
    · rw [h1, h0]; exact ⟨rfl, rfl, hs'.erase c, hq⟩

end Both

/-! ## Paths that lead the same way on both sides -/

theorem walk_congr {L : Limits} {t1 t0 : Tree} {b : Nat} (c s : Path) (h : ∀ e, e <+: s → t1 (c ++ e) = t0 (c ++ e))
    (hl : ∀ e, e <+: s → e ≠ [] → ∀ l, t0 (c ++ e) ≠ some (.link l)) (hn : Plain s) : walk L t1 b c s = walk L t0 b c s := by
  induction s generalizing c with
  | nil => rw [walk_nil, walk_nil]
  | cons n s ih =>
    obtain ⟨h1, h2⟩ := hn n List.mem_cons_self
    have e0 := h [] List.nil_prefix
    have e1 := h [n] ⟨s, rfl⟩
    have l1 := hl [n] ⟨s, rfl⟩ nofun
    rw [List.append_nil] at e0
    rw [walk, walk]
    rw [e0, e1]
    have := ih (c ++ [n]) (fun e he => by
      have := h (n :: e) ((List.cons_prefix_cons).2 ⟨rfl, he⟩)
      simpa using this) (fun e he hne l => by
      have := hl (n :: e) ((List.cons_prefix_cons).2 ⟨rfl, he⟩) nofun l
      simpa using this) fun m hm => hn m (List.mem_cons_of_mem _ hm)
    simp only [if_neg h1, if_neg h2]
    cases t0 c with
    | none => rfl
    | some x =>
      cases x with
      | dir b' =>
        cases b' with
        | false => rfl
        | true =>
          dsimp only
          split
          · rfl
          · cases hx : t0 (c ++ [n]) with
            | none => rfl
            | some y =>
              cases y with
              | link l => exact absurd hx (l1 l)
              | _ => exact this
      | _ => rfl

section
variable {E : Env} {q c : Path} {d1 d0 : Disk Node}

theorem walk_same (hs : Same q d1 d0) {e : Path} (he : e <+: c) (hc : q <+: c) (hl : NoLink d0 e) (hn : Plain e) (b : Nat) :
    walk E.L d1.at_ b (start E.cwd true) e = walk E.L d0.at_ b (start E.cwd true) e :=
  walk_congr _ _ (fun e' he' => by
    simp only [start, if_true, List.nil_append]
    exact hs.at_ e' (List.prefix_or_prefix_of_prefix (he'.trans he) hc)) (fun e' he' _ l => by
    simp only [start, if_true, List.nil_append]
    exact hl e' he' l) hn

theorem lloc_same (hs : Same q d1 d0) (hc : q <+: c) (hl : NoLink d0 c.dropLast) (hn : Plain c) : E.lloc d1 ⟨true, c⟩ = E.lloc d0 ⟨true, c⟩ := by
  unfold Env.lloc
  rcases List.eq_nil_or_concat c with rfl | ⟨cs, n, rfl⟩
  · rfl
  · rw [List.concat_eq_append] at hc hl hn ⊢
    obtain ⟨h1, h2⟩ := hn n (by simp)
    rw [List.dropLast_concat] at hl
    have hw := walk_same (E := E) hs (List.prefix_append cs [n]) hc hl (fun m hm => hn m (by simp [hm])) E.L.maxLinks
    simp only [List.getLast?_append, List.getLast?_singleton, Option.some_or, List.dropLast_concat, h1, h2, or_self, if_false, hw]
    cases hr : walk E.L d0.at_ E.L.maxLinks (start E.cwd true) cs with
    | error e => rfl
    | ok p =>
      have hp : p = cs := by
        have := Amid.walk_straight (start E.cwd true) cs p (fun e he hne l => by simpa [start] using hl e he l) (fun m hm => hn m (by simp [hm])) hr
        simpa [start] using this
      subst hp
      dsimp only
      rw [hs.at_ p (List.prefix_or_prefix_of_prefix (List.prefix_append p [n]) hc)]

theorem isSymlink_same (hs : Same q d1 d0) (hc : q <+: c) (hl : NoLink d0 c.dropLast) (hn : Plain c) :
    FS.isSymlink E.L d1.at_ E.cwd ⟨true, c⟩ = FS.isSymlink E.L d0.at_ E.cwd ⟨true, c⟩ := by
  have : lstat E.L d1.at_ E.cwd ⟨true, c⟩ = lstat E.L d0.at_ E.cwd ⟨true, c⟩ := by
    unfold lstat
    rcases List.eq_nil_or_concat c with rfl | ⟨cs, n, rfl⟩
    · simp only [List.getLast?_nil, node, start, if_true]
      rw [hs.at_ [] (.inr hc)]
    · rw [List.concat_eq_append] at hc hl hn ⊢
      obtain ⟨h1, h2⟩ := hn n (by simp)
      rw [List.dropLast_concat] at hl
      have hw := walk_same (E := E) hs (List.prefix_append cs [n]) hc hl (fun m hm => hn m (by simp [hm])) E.L.maxLinks
      simp only [List.getLast?_append, List.getLast?_singleton, Option.some_or, List.dropLast_concat, h1, h2, or_self, if_false, hw]
      cases hr : walk E.L d0.at_ E.L.maxLinks (start E.cwd true) cs with
      | error e => rfl
      | ok p =>
        have hp : p = cs := by
          have := Amid.walk_straight (start E.cwd true) cs p (fun e he hne l => by simpa [start] using hl e he l) (fun m hm => hn m (by simp [hm])) hr
          simpa [start] using this
        subst hp
        dsimp only
        rw [hs.at_ p (List.prefix_or_prefix_of_prefix (List.prefix_append p [n]) hc)]
        unfold node
        rw [hs.at_ (p ++ [n]) (.inr hc)]
  unfold FS.isSymlink
  rw [this]

theorem isDir_same (hs : Same q d1 d0) (hc : q <+: c) (hl : NoLink d0 c) (hn : Plain c) :
    FS.isDir E.L d1.at_ E.cwd ⟨true, c⟩ = FS.isDir E.L d0.at_ E.cwd ⟨true, c⟩ := by
  have : stat E.L d1.at_ E.cwd ⟨true, c⟩ = stat E.L d0.at_ E.cwd ⟨true, c⟩ := by
    unfold stat
    dsimp only
    rw [walk_same hs (List.prefix_refl c) hc hl hn]
    cases hr : walk E.L d0.at_ E.L.maxLinks (start E.cwd true) c with
    | error e => rfl
    | ok p =>
      have hp : p = c := by
        have := Amid.walk_straight (start E.cwd true) c p (fun e he hne l => by simpa [start] using hl e he l) hn hr
        simpa [start] using this
      subst hp
      dsimp only
      unfold node
      rw [hs.at_ p (.inr hc)]
  unfold FS.isDir
  rw [this]

end

/-! ## The removal -/

/-- What holds at each moment without the others: the disk is sound and there is no symlink on the way to `c`. -/
def K (c : Path) (d : Disk Node) : Prop := Sound d ∧ NoLink d c

theorem K.mono {c c' : Path} {d : Disk Node} (h : K c d) (hc : c' <+: c) : K c' d := ⟨h.1, fun e he => h.2 e (he.trans hc)⟩

theorem K.erase {c p : Path} {d : Disk Node} (h : K c d) (hleaf : ∀ n, d.at_ (p ++ [n]) = none) : K c (d.erase p) := by
  refine ⟨sound_erase h.1 hleaf, fun e he l => ?_⟩
  rw [Disk.at_erase]
  split
  · exact nofun
  · exact h.2 e he l

section
variable {E : Env} {A : Others} {q : Path}

theorem handle_both (ignore : Bool) (b : Option UserPath) (e : PyErr) {I : Disk Node → Prop} :
    Both q I (E.handleAmid A ignore none b e) (E.handleAmid (fun _ d => d) ignore none b e) (fun _ => I) (fun _ => I) := by
  unfold Env.handleAmid
  exact .ite_ (fun _ => .throw_ fun _ h => h) fun _ => .ite_ (fun _ => .pure_ fun _ h => h) fun _ => .throw_ fun _ h => h

theorem unlink_both (hA : Elsewhere A q) {c c' : Path} (hq : q <+: c) (hn : Plain c) (hc' : c.dropLast <+: c') :
    Both q (K c') (turn A (E.unlink ⟨true, c⟩)) (turn (fun _ d => d) (E.unlink ⟨true, c⟩)) (fun _ => K c') (fun _ => K c') := by
  refine .act_ hA (fun d1 d0 hs hk => ?_) fun _ _ h => h
  rw [lloc_same hs hq (hk.mono hc').2 hn]
  cases hl : E.lloc d0 ⟨true, c⟩ with
  | error e => exact .inl ⟨_, rfl, rfl⟩
  | ok p =>
    obtain rfl := lloc_straight (hk.mono hc').2 hn hl
    dsimp only
    unfold Disk.unlink
    rw [hs.at_ p (.inr hq)]
    cases hx : d0.at_ p with
    | none => exact .inl ⟨_, rfl, rfl⟩
    | some x =>
      dsimp only
      by_cases hd : Kinded.isDir x = true
      · rw [if_pos hd, if_pos hd]; exact .inl ⟨_, rfl, rfl⟩
      · rw [if_neg hd, if_neg hd]
        exact .inr ⟨p, rfl, rfl, hk.erase fun n => not_dir_leaf hx (by simpa using hd) hk.1.2 n⟩

theorem rmdir_both (hA : Elsewhere A q) {c c' : Path} (hq : q <+: c) (hn : Plain c) (hc' : c.dropLast <+: c') :
    Both q (K c') (turn A (E.rmdir ⟨true, c⟩)) (turn (fun _ d => d) (E.rmdir ⟨true, c⟩)) (fun _ => K c') (fun _ => K c') := by
  refine .act_ hA (fun d1 d0 hs hk => ?_) fun _ _ h => h
  split
  · exact .inl ⟨_, rfl, rfl⟩
  rw [lloc_same hs hq (hk.mono hc').2 hn]
  cases hl : E.lloc d0 ⟨true, c⟩ with
  | error e => exact .inl ⟨_, rfl, rfl⟩
  | ok p =>
    obtain rfl := lloc_straight (hk.mono hc').2 hn hl
    dsimp only
    rcases hs.rmdir hq with ⟨e, h1, h0⟩ | ⟨h1, h0⟩
    · exact .inl ⟨e, h1, h0⟩
    · exact .inr ⟨p, h1, h0, hk.erase fun n => empty_leaf (rmdir_ok h0).2.1 n⟩

theorem loop_both (hA : Elsewhere A q) (ignore : Bool) (rec1 rec0 : UserPath → Prog Node Unit) {c : Path} (hq : q <+: c) (hn : Plain c)
    (hrec : ∀ n, Plain (c ++ [n]) → Both q (K (c ++ [n])) (rec1 ⟨true, c ++ [n]⟩) (rec0 ⟨true, c ++ [n]⟩) (fun _ => K (c ++ [n])) (fun _ => K (c ++ [n])))
    (ks : List UserPath) (hk : ∀ k ∈ ks, ∃ n, k = ⟨true, c ++ [n]⟩ ∧ n ≠ ['.'] ∧ n ≠ ['.', '.']) :
    Both q (K c) (E.loopAmid A ignore none rec1 ⟨true, c⟩ ks) (E.loopAmid (fun _ d => d) ignore none rec0 ⟨true, c⟩ ks) (fun _ => K c) (fun _ => K c) := by
  induction ks with
  | nil =>
    rw [Env.loopAmid, Env.loopAmid]
    exact .try_ (rmdir_both hA hq hn (List.dropLast_prefix c)) fun e => handle_both ignore _ e
  | cons k ks ih =>
    obtain ⟨n, rfl, hnn⟩ := hk k (by simp)
    have hn' : Plain (c ++ [n]) := fun m hm => by
      rcases List.mem_append.1 hm with hm | hm
      · exact hn m hm
      · rw [List.mem_singleton.1 hm]; exact hnn
    have hq' : q <+: c ++ [n] := hq.trans (List.prefix_append _ _)
    have step : Both q (K c) (Prog.bind (turn A (E.isSymlink ⟨true, c ++ [n]⟩)) fun b => if b then turn A (E.unlink ⟨true, c ++ [n]⟩) else rec1 ⟨true, c ++ [n]⟩)
        (Prog.bind (turn (fun _ d => d) (E.isSymlink ⟨true, c ++ [n]⟩)) fun b => if b then turn (fun _ d => d) (E.unlink ⟨true, c ++ [n]⟩) else rec0 ⟨true, c ++ [n]⟩)
        (fun _ => K c) (fun _ => K c) := by
      refine .bind_ (Q := fun b d => K c d ∧ (b = false → K (c ++ [n]) d)) (.look_ hA (fun d1 d0 hs h => ?_) (fun d b h hb => ⟨h, ?_⟩) fun _ _ h => h) fun b => ?_
      · exact isSymlink_same hs hq' (by rw [List.dropLast_concat]; exact h.2) hn'
      · rintro rfl
        exact ⟨h.1, nolink_snoc (by rw [List.dropLast_concat]; exact h.2) (isSymlink_false h.1.2 hn' hb)⟩
      · refine .ite_ (fun _ => (unlink_both hA hq' hn' (by rw [List.dropLast_concat]; exact List.prefix_refl _)).pre fun d h => h.1) fun hb => ?_
        have hb : b = false := by simpa using hb
        exact (hrec n hn').mono (fun d h => h.2 hb) (fun _ d h => h.mono (List.prefix_append _ _)) fun _ d h => h.mono (List.prefix_append _ _)
    intro s1 s0 ht hs hp
    obtain ⟨g1, g2, g3, g4⟩ := step s1 s0 ht hs hp
    rw [AmidEx.cons_at, AmidEx.cons_at]
    generalize (Prog.bind (turn A (E.isSymlink ⟨true, c ++ [n]⟩)) fun b => if b then turn A (E.unlink ⟨true, c ++ [n]⟩) else rec1 ⟨true, c ++ [n]⟩) s1 = r1 at g1 g2 g3
    generalize (Prog.bind (turn (fun _ d => d) (E.isSymlink ⟨true, c ++ [n]⟩)) fun b =>
      if b then turn (fun _ d => d) (E.unlink ⟨true, c ++ [n]⟩) else rec0 ⟨true, c ++ [n]⟩) s0 = r0 at g1 g2 g3 g4
    obtain ⟨r1, t1⟩ := r1
    obtain ⟨r0, t0⟩ := r0
    dsimp only at g1 g2 g3
    subst g1
    cases r1 with
    | ok u => exact ih (fun k' hk' => hk k' (by simp [hk'])) t1 t0 g2 g3 g4
    | error e => exact handle_both ignore _ e t1 t0 g2 g3 g4

theorem rmtree_both (hA : Elsewhere A q) (danger ignore : Bool) (fuel : Nat) {c : Path} (hq : q <+: c) (hn : Plain c) :
    Both q (K c) (E.rmtreeAmid A danger ignore none fuel ⟨true, c⟩) (E.rmtreeAmid (fun _ d => d) danger ignore none fuel ⟨true, c⟩) (fun _ => K c) (fun _ => K c) := by
  induction fuel generalizing c with
  | zero => rw [Env.rmtreeAmid, Env.rmtreeAmid]; exact .throw_ fun _ h => h
  | succ fuel ih =>
    rw [Env.rmtreeAmid, Env.rmtreeAmid]
    have hd := List.dropLast_prefix c
    refine .ite_ (fun _ => .throw_ fun _ h => h) fun _ => ?_
    refine .bind_ (Q := fun _ => K c) ?_ fun b => ?_
    · refine .try_ (R := fun _ => K c) (.bind_ (Q := fun _ => K c) (.look_ hA (fun d1 d0 hs h => isDir_same hs hq h.2 hn) (fun _ _ h _ => h) fun _ _ h => h)
        fun b => .pure_ fun _ h => h) fun e => .bind_ (handle_both ignore none e) fun _ => .pure_ fun _ h => h
    · cases b with
      | none => exact .pure_ fun _ h => h
      | some b =>
        cases b with
        | false => exact .try_ (unlink_both hA hq hn hd) fun e => handle_both ignore _ e
        | true =>
          refine .bind_ (Q := fun o d => K c d ∧ ∀ ks, o = some ks → ∀ k ∈ ks, ∃ n, k = ⟨true, c ++ [n]⟩ ∧ n ≠ ['.'] ∧ n ≠ ['.', '.']) ?_ fun o => ?_
          · refine .try_ (R := fun _ => K c) (.bind_ (Q := fun _ => K c) (.look_ hA (fun d1 d0 hs h => isSymlink_same hs hq (h.mono hd).2 hn) (fun _ _ h _ => h) fun _ _ h => h) fun b => ?_)
              fun e => .bind_ (handle_both ignore none e) fun _ => .pure_ fun _ h => ⟨h, nofun⟩
            refine .ite_ (fun _ => .throw_ fun _ h => h) fun _ => ?_
            refine .bind_ (Q := fun ks d => K c d ∧ ∀ k ∈ ks, ∃ n, k = ⟨true, c ++ [n]⟩ ∧ n ≠ ['.'] ∧ n ≠ ['.', '.']) (.look_ hA (fun d1 d0 hs h => ?_) (fun d ks h hks => ⟨h, ?_⟩) fun _ _ h => h)
              fun ks => .pure_ fun d h => ⟨h.1, fun ks' he => by cases he; exact h.2⟩
            · dsimp only
              rw [walk_same hs (List.prefix_refl c) hq h.2 hn]
              cases hr : walk E.L d0.at_ E.L.maxLinks (start E.cwd true) c with
              | error e => rfl
              | ok p =>
                have hp : p = c := by
                  have := Amid.walk_straight (start E.cwd true) c p (fun e he hne l => by simpa [start] using h.2 e he l) hn hr
                  simpa [start] using this
                subst hp
                dsimp only
                rw [hs.at_ p (.inr hq), hs.names p hq]
            · split at hks
              · cases hks
              · split at hks
                · cases hks
                  intro k hk
                  obtain ⟨n, hnm, rfl⟩ := List.mem_map.1 hk
                  obtain ⟨y, hy⟩ := (Disk.mem_names _ _ n).1 hnm
                  exact ⟨n, rfl, h.1.1 _ (Disk.mem_of_at hy) n (by simp)⟩
                · cases hks
                · cases hks
          · cases o with
            | none => exact .pure_ fun _ h => h.1
            | some ks =>
              intro s1 s0 ht hs hp
              exact loop_both hA ignore _ _ hq hn (fun n hn' => ih (hq.trans (List.prefix_append c [n])) hn') ks (hp.2 ks rfl) s1 s0 ht hs hp.1

end

end Lockstep

/-- **C128**: if the others do nothing in the tree and on the way to it, and there is no handler, then everything goes as if they were not there: it
ends in the same way and leaves the same in the tree as `rmtree` alone, of which C44 to C46 speak, whichever calls fail. -/
theorem C128_elsewhere (E : Env) (A : Others) (danger ignore : Bool) (fuel : Nat) (q : Path) (hq : Plain q) (hA : Elsewhere A q) (s : Machine Node) (hs : Sound s.disk)
    (hl : NoLink s.disk q) :
    (E.rmtreeAmid A danger ignore none fuel ⟨true, q⟩ s).1 = (E.rmtree danger ignore none fuel ⟨true, q⟩ s).1 ∧
    ∀ e, e <+: q ∨ q <+: e →
      (E.rmtreeAmid A danger ignore none fuel ⟨true, q⟩ s).2.disk.at_ e = (E.rmtree danger ignore none fuel ⟨true, q⟩ s).2.disk.at_ e := by
  rw [← C128_alone]
  obtain ⟨h1, -, h3, -⟩ := Lockstep.rmtree_both (E := E) hA danger ignore fuel (List.prefix_refl q) hq s s rfl (Same.refl q s.disk) ⟨hs, hl⟩
  exact ⟨h1, fun e he => h3.at_ e he⟩

/-- **C128**: so if the others do nothing in the tree, no call fails and the path is permitted, then it returns and the whole tree is gone. -/
theorem C128_returns (L : Limits) (cwd : Path) (A : Others) (danger : Bool) (fuel : Nat) (q : Path) (hA : Elsewhere A q) (s : Machine Node) {x : Node}
    (hr : Ready L s.disk q) (hx : s.disk.at_ q = some x) (hl : ∀ l, x ≠ .link l) (hq : q ≠ []) (hp : Permitted danger cwd q)
    (hf : ∀ r y, q <+: r → s.disk.at_ r = some y → r.length < q.length + fuel) :
    ((Env.mk L cwd fun _ => none).rmtreeAmid A danger false none fuel ⟨true, q⟩ s).1 = .ok () ∧
    ∀ r, q <+: r → ((Env.mk L cwd fun _ => none).rmtreeAmid A danger false none fuel ⟨true, q⟩ s).2.disk.at_ r = none := by
  have hs : Sound s.disk := ⟨hr.proper, hr.rooted⟩
  obtain ⟨s', h1, h2⟩ := C46_returns L cwd danger fuel q s x hr hx hl hq hp hf
  obtain ⟨h3, h4⟩ := C128_elsewhere (Env.mk L cwd fun _ => none) A danger false fuel q (fun n hn => hs.1 _ (Disk.mem_of_at hx) n hn) hA s hs (fun e he l hle => by
    by_cases hec : e = q
    · subst hec; rw [hx] at hle; exact hl l (by simpa using hle)
    · obtain ⟨b, hb⟩ := rooted_dirs hs.2 hx he hec
      rw [hb] at hle; cases hle)
  rw [h1] at h3 h4
  exact ⟨h3, fun r hr' => by rw [h4 r (.inr hr'), h2 r, if_pos hr']⟩

/-- The removal of `/h/t` while another process makes a file elsewhere -/
example : (AmidEx.env.rmtreeAmid SweepEx.away true false none 4 ⟨true, [['h'], ['t']]⟩ ⟨SweepEx.disk, 0⟩).2.disk.at_ [['h'], ['t'], ['j']] = none := by
  refine (C128_returns ⟨10, 10⟩ [] SweepEx.away true 4 [['h'], ['t']] SweepEx.away_elsewhere ⟨SweepEx.disk, 0⟩ (x := .dir true)
    ⟨by unfold Proper; decide, SweepEx.disk_rooted, by unfold Distinct; decide, fun pre hpre hne => ?_, fun r x _ hx => ?_⟩ rfl (by simp) (by simp) (.inl rfl)
    fun r y _ hy => SweepEx.entries (fun r _ => r.length < 6) (by simp [SweepEx.disk]) r y hy).2 _ ⟨[['j']], rfl⟩
  · obtain ⟨b, hb⟩ := rooted_dirs SweepEx.disk_rooted (c := [['h'], ['t']]) (x := .dir true) rfl hpre hne
    have := SweepEx.entries (fun _ x => x ≠ .dir false) (by simp [SweepEx.disk]) pre _ hb
    cases b with
    | true => exact hb
    | false => exact absurd rfl this
  · refine SweepEx.entries (fun r x => (∀ b, x = .dir b → b = true) ∧ ∀ n ∈ r, FitsName ⟨10, 10⟩ n) ?_ r x hx
    simp [SweepEx.disk, FitsName, utf8, Char.utf8Size]

end Verif.FS
