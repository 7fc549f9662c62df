import Verif.Model.RmtreeRace
import Verif.Props.Rmtree
import Verif.Lemmas.Decide

/-!
# C128: removing a tree while other processes change it
-/

namespace Verif.FS
open Verif.Spec

namespace Amid

/-- Every name is one. -/
def Plain (c : Path) : Prop := ∀ n ∈ c, n ≠ ['.'] ∧ n ≠ ['.', '.']

/-- There is no symlink at the locations that lead to `c`, `c` included. -/
def NoLink (d : Disk Node) (c : Path) : Prop := ∀ e, e <+: c → ∀ l, d.at_ e ≠ some (.link l)

/-- The names are names, and everything is in a directory. -/
def Sound (d : Disk Node) : Prop := Proper d ∧ Rooted d

/-- The others leave the disk sound, and make no symlinks in the tree or on the way to it. -/
structure Calm (A : Others) (q : Path) : Prop where
  sound : ∀ k d, Sound d → Sound (A k d)
  links : ∀ k d e l, e <+: q ∨ q <+: e → (A k d).at_ e = some (.link l) → ∃ l', d.at_ e = some (.link l')

/-! ## Paths without symlinks on the way -/

theorem walk_straight {L : Limits} {t : Tree} {b : Nat} (c s q : Path) (hl : ∀ e, e <+: s → e ≠ [] → ∀ l, t (c ++ e) ≠ some (.link l)) (hn : Plain s)
    (h : walk L t b c s = .ok q) : q = c ++ s := by
  induction s generalizing c with
  | nil => rw [walk_nil] at h; cases h; simp
  | cons n s ih =>
    obtain ⟨h1, h2⟩ := hn n List.mem_cons_self
    rw [walk] at h
    split at h
    · cases h
    · cases h
    · rw [if_neg h1, if_neg h2] at h
      split at h
      · cases h
      · split at h
        · cases h
        · rename_i l hx
          exact absurd hx (hl [n] ⟨s, rfl⟩ nofun l)
        · have := ih (c ++ [n]) (fun e he hne l => by
            have := hl (n :: e) ((List.cons_prefix_cons).2 ⟨rfl, he⟩) nofun l
            simpa using this) (fun m hm => hn m (List.mem_cons_of_mem _ hm)) h
          simpa using this
    · cases h

theorem lloc_straight {E : Env} {d : Disk Node} {c q : Path} (hl : NoLink d c.dropLast) (hn : Plain c) (h : E.lloc d ⟨true, c⟩ = .ok q) : q = c := by
  unfold Env.lloc at h
  rcases List.eq_nil_or_concat c with hc | ⟨cs, n, hc⟩
  · subst hc; simp [start] at h; exact h
  · rw [List.concat_eq_append] at hc
    subst hc
    obtain ⟨h1, h2⟩ := hn n (by simp)
    simp only [List.getLast?_append, List.getLast?_singleton, Option.some_or, List.dropLast_concat, h1, h2, or_self, if_false] at h hl
    split at h
    · cases h
    · rename_i r hr
      have : r = cs := by
        have := walk_straight (start E.cwd true) cs r (fun e he hne l => by simpa [start] using hl e he l) (fun m hm => hn m (by simp [hm])) hr
        simpa [start] using this
      subst this
      split at h
      · cases h
      · cases h
      · split at h
        · cases h
        · cases h; rfl
      · cases h

theorem rooted_dirs {d : Disk Node} (hr : Rooted d) {c : Path} {x : Node} (h : d.at_ c = some x) {e : Path} (he : e <+: c) (hne : e ≠ c) :
    ∃ b, d.at_ e = some (.dir b) := by
  obtain ⟨s, rfl⟩ := he
  generalize hlen : s.length = k
  induction k generalizing s x with
  | zero => rw [List.length_eq_zero_iff.1 hlen] at hne; simp at hne
  | succ k ih =>
    rcases List.eq_nil_or_concat s with rfl | ⟨s, n, rfl⟩
    · cases hlen
    rw [List.concat_eq_append] at h hlen
    rw [← List.append_assoc] at h
    obtain ⟨b, hb⟩ := hr _ _ _ h
    by_cases hs : s = []
    · subst hs; exact ⟨b, by simpa using hb⟩
    · exact ih s hb (by simpa using hs) (by simpa using hlen)

theorem walk_dirs {L : Limits} {t : Tree} {b : Nat} (c s : Path) (hd : ∀ e, e <+: s → ∃ b, t (c ++ e) = some (.dir b)) (hn : Plain s) :
    walk L t b c s = .ok (c ++ s) ∨ walk L t b c s = .error .EACCES ∨ walk L t b c s = .error .ENAMETOOLONG := by
  induction s generalizing c with
  | nil => rw [walk_nil]; simp
  | cons n s ih =>
    obtain ⟨h1, h2⟩ := hn n List.mem_cons_self
    obtain ⟨b0, h0⟩ := hd [] List.nil_prefix
    obtain ⟨b1, h1'⟩ := hd [n] ⟨s, rfl⟩
    rw [List.append_nil] at h0
    rw [walk]
    cases b0 with
    | false => simp [h0]
    | true =>
      simp only [h0, if_neg h1, if_neg h2, h1']
      split
      · simp
      · have := ih (c ++ [n]) (fun e he => by
          have := hd (n :: e) ((List.cons_prefix_cons).2 ⟨rfl, he⟩)
          simpa using this) fun m hm => hn m (List.mem_cons_of_mem _ hm)
        simpa using this

/-- What is a symlink is not said to be none. -/
theorem isSymlink_false {E : Env} {d : Disk Node} {c : Path} (hr : Rooted d) (hn : Plain c) (h : FS.isSymlink E.L d.at_ E.cwd ⟨true, c⟩ = .ok false) (l : Target) :
    d.at_ c ≠ some (.link l) := by
  intro hc
  unfold FS.isSymlink lstat at h
  rcases List.eq_nil_or_concat c with hcs | ⟨cs, n, hcs⟩
  · subst hcs; simp [start, node, hc, test] at h
  · rw [List.concat_eq_append] at hcs
    subst hcs
    obtain ⟨h1, h2⟩ := hn n (by simp)
    simp only [List.getLast?_append, List.getLast?_singleton, Option.some_or, List.dropLast_concat, h1, h2, or_self, if_false] at h
    have hdirs : ∀ e, e <+: cs → ∃ b, d.at_ e = some (.dir b) := fun e he => rooted_dirs hr hc (he.trans (List.prefix_append _ _)) (fun h => by
      have := he.length_le; rw [h] at this; simp at this; omega)
    have hw := walk_dirs (L := E.L) (t := d.at_) (b := E.L.maxLinks) (start E.cwd true) cs (fun e he => by simpa [start] using hdirs e he) fun m hm => hn m (by simp [hm])
    rcases hw with hw | hw | hw
    · simp only [start, if_true, List.nil_append] at hw h
      obtain ⟨b, hb⟩ := hdirs cs (List.prefix_refl _)
      cases b with
      | false => simp [hw, hb, test, ignored] at h
      | true =>
        simp only [hw, hb] at h
        split at h
        · simp [test, ignored] at h
        · simp [node, hc, test] at h
    · simp [hw, test, ignored] at h
    · simp [hw, test, ignored] at h

/-! ## The invariant -/

/-- What holds at each moment: the disk is sound, there is no symlink on the way to `c`, and something about what is outside. -/
def J (T : Disk Node → Prop) (c : Path) (d : Disk Node) : Prop := Sound d ∧ T d ∧ NoLink d c

section
variable {E : Env} {A : Others} {q : Path} {T : Disk Node → Prop}

/-- It is about what is outside of the tree, and the others do not change it. -/
structure Outer (A : Others) (q : Path) (T : Disk Node → Prop) : Prop where
  others : ∀ k d, T d → T (A k d)
  erase : ∀ d c, q <+: c → T d → T (d.erase c)

theorem turn_hoare {α : Type} {m : Prog Node α} {P P' : Disk Node → Prop} {Q : α → Disk Node → Prop} {R : PyErr → Disk Node → Prop} (hA : ∀ k d, P d → P' (A k d))
    (h : Hoare P' m Q R) : Hoare P (turn A m) Q R := fun s hs => h _ (hA s.tick s.disk hs)

theorem J.others (hA : Calm A q) (hx : Outer A q T) {c : Path} (hc : q <+: c ∨ c <+: q) (k : Nat) (d : Disk Node) (h : J T c d) : J T c (A k d) :=
  ⟨hA.sound k d h.1, hx.others k d h.2.1, fun e he l hl => by
    have : e <+: q ∨ q <+: e := by
      rcases hc with hc | hc
      · exact (List.prefix_or_prefix_of_prefix he hc)
      · exact .inl (he.trans hc)
    obtain ⟨l', h'⟩ := hA.links k d e l this hl
    exact h.2.2 e he l' h'⟩

theorem J.mono {c c' : Path} {d : Disk Node} (h : J T c d) (hc : c' <+: c) : J T c' d := ⟨h.1, h.2.1, fun e he => h.2.2 e (he.trans hc)⟩

theorem sound_erase {d : Disk Node} (h : Sound d) {p : Path} (hleaf : ∀ n, d.at_ (p ++ [n]) = none) : Sound (d.erase p) := by
  refine ⟨fun e he => h.1 e (by simpa [Disk.erase] using (List.mem_filter.1 he).1), fun a n y hy => ?_⟩
  rw [Disk.at_erase] at hy ⊢
  split at hy
  · cases hy
  · split
    · rename_i ha; rw [ha, hleaf n] at hy; cases hy
    · exact h.2 a n y hy

theorem J.erase {c p : Path} {d : Disk Node} (h : J T c d) (hx : Outer A q T) (hp : q <+: p) (hleaf : ∀ n, d.at_ (p ++ [n]) = none) : J T c (d.erase p) := by
  refine ⟨sound_erase h.1 hleaf, hx.erase d p hp h.2.1, fun e he l => ?_⟩
  rw [Disk.at_erase]
  split
  · exact nofun
  · exact h.2.2 e he l

theorem prefix_or {p c : Path} (h : q <+: p) (hc : c <+: p) : q <+: c ∨ c <+: q := (List.prefix_or_prefix_of_prefix h hc)

theorem handle_amid (ignore : Bool) (h : Handler) (b : Option UserPath) (e : PyErr) {I : Disk Node → Prop} (hI : ∀ k d, I d → I (A k d)) :
    Hoare I (E.handleAmid A ignore h b e) (fun _ d => I d ∧ (ignore = true ∨ h = some (.ok ()))) (fun _ => I) := by
  unfold Env.handleAmid
  refine .ite_ (fun _ => .throw_ fun _ h => h) fun _ => .ite_ (fun hi => .pure_ fun _ h => ⟨h, .inl hi⟩) fun _ => ?_
  cases h with
  | none => exact .throw_ fun _ h => h
  | some r =>
    cases b with
    | none => exact .throw_ fun _ h => h
    | some p =>
      refine .bind_ (turn_hoare hI (isDir_keeps E p I)) fun _ s hs => ?_
      cases r with
      | ok u => exact ⟨hs, .inr rfl⟩
      | error e => exact hs

/-- What a removal promises when it returns -/
def Over (ignore : Bool) (h : Handler) (c : Path) (d : Disk Node) : Prop := d.at_ c = none ∨ ignore = true ∨ h = some (.ok ())

theorem unlink_amid (hA : Calm A q) (hx : Outer A q T) {c : Path} (hq : q <+: c) (hn : Plain c) :
    Hoare (J T c.dropLast) (turn A (E.unlink ⟨true, c⟩)) (fun _ d => J T c.dropLast d ∧ d.at_ c = none) (fun _ => J T c.dropLast) := by
  refine turn_hoare (P' := J T c.dropLast) (fun k d => J.others hA hx (prefix_or hq (List.dropLast_prefix c)) k d) ?_
  refine unlink_hoare E _ _ _ fun d p y hd hp hy hk => ?_
  obtain rfl := lloc_straight hd.2.2 hn hp
  exact ⟨hd.erase hx hq fun n => not_dir_leaf hy hk hd.1.2 n, by rw [Disk.at_erase, if_pos rfl]⟩

theorem rmdir_amid (hA : Calm A q) (hx : Outer A q T) {c : Path} (hq : q <+: c) (hn : Plain c) :
    Hoare (J T c.dropLast) (turn A (E.rmdir ⟨true, c⟩)) (fun _ d => J T c.dropLast d ∧ d.at_ c = none) (fun _ => J T c.dropLast) := by
  refine turn_hoare (P' := J T c.dropLast) (fun k d => J.others hA hx (prefix_or hq (List.dropLast_prefix c)) k d) ?_
  refine rmdir_hoare E _ _ _ fun d p hd hp hy => ?_
  obtain rfl := lloc_straight hd.2.2 hn hp
  exact ⟨hd.erase hx hq fun n => empty_leaf hy n, by rw [Disk.at_erase, if_pos rfl]⟩

theorem nolink_snoc {d : Disk Node} {c : Path} (h : NoLink d c.dropLast) (hc : ∀ l, d.at_ c ≠ some (.link l)) : NoLink d c := fun e he l => by
  by_cases hec : e = c
  · rw [hec]; exact hc l
  · refine h e ?_ l
    rcases List.eq_nil_or_concat c with rfl | ⟨cs, n, rfl⟩
    · rw [List.prefix_nil.1 he]; exact List.prefix_refl _
    · rw [List.concat_eq_append] at he hec ⊢
      rw [List.dropLast_concat]
      exact (List.prefix_concat_iff.1 he).resolve_left hec

theorem loop_amid (hA : Calm A q) (hx : Outer A q T) (ignore : Bool) (h : Handler) (rec : UserPath → Prog Node Unit) {c : Path} (hq : q <+: c) (hn : Plain c)
    (hrec : ∀ n, Plain (c ++ [n]) → Hoare (J T c) (rec ⟨true, c ++ [n]⟩) (fun _ => J T c) (fun _ => J T c))
    (ks : List UserPath) (hk : ∀ k ∈ ks, ∃ n, k = ⟨true, c ++ [n]⟩ ∧ n ≠ ['.'] ∧ n ≠ ['.', '.']) :
    Hoare (J T c) (E.loopAmid A ignore h rec ⟨true, c⟩ ks) (fun _ d => J T c.dropLast d ∧ Over ignore h c d) (fun _ => J T c.dropLast) := by
  have hJ : ∀ {c' : Path}, c' <+: c → ∀ k d, J T c' d → J T c' (A k d) := fun hc' k d => J.others hA hx (prefix_or hq hc') k d
  have hd := List.dropLast_prefix c
  cases ks with
  | nil =>
    rw [Env.loopAmid]
    refine Hoare.pre (P := J T c.dropLast) ?_ fun d h => h.mono hd
    refine .try_ ((rmdir_amid hA hx hq hn).mono (fun _ h => h) (fun _ d hd => ⟨hd.1, .inl hd.2⟩) (fun _ _ h => h)) ?_
    exact fun e => (handle_amid ignore h _ e (hJ hd)).mono (fun _ h => h) (fun _ d hd => ⟨hd.1, .inr hd.2⟩) (fun _ _ h => h)
  | cons k ks =>
    rw [Env.loopAmid]
    intro s hs
    obtain ⟨n, rfl, hnn⟩ := hk k (by simp)
    have hn' : Plain (c ++ [n]) := fun m hm => by
      rcases List.mem_append.1 hm with hm | hm
      · exact hn m hm
      · rw [List.mem_singleton.1 hm]; exact hnn
    have hq' : q <+: c ++ [n] := hq.trans (List.prefix_append _ _)
    have step : Hoare (J T c) (Prog.bind (turn A (E.isSymlink ⟨true, c ++ [n]⟩)) fun b =>
        if b then turn A (E.unlink ⟨true, c ++ [n]⟩) else rec ⟨true, c ++ [n]⟩) (fun _ => J T c) (fun _ => J T c) := by
      refine .bind_ (Q := fun _ => J T c) (turn_hoare (hJ (List.prefix_refl c)) ((isSymlink_keeps E _ _).mono (fun _ h => h) (fun _ d h => h.1) (fun _ _ h => h))) fun b => ?_
      refine .ite_ (fun _ => ?_) fun _ => ?_
      · have := unlink_amid (E := E) hA hx hq' hn'
        rw [List.dropLast_concat] at this
        exact this.mono (fun _ h => h) (fun _ d hd => hd.1) (fun _ _ h => h)
      · exact hrec n hn'
    have := step s hs
    dsimp only
    generalize (Prog.bind (turn A (E.isSymlink ⟨true, c ++ [n]⟩)) fun b =>
        if b then turn A (E.unlink ⟨true, c ++ [n]⟩) else rec ⟨true, c ++ [n]⟩) s = res at this ⊢
    obtain ⟨res, s'⟩ := res
    cases res with
    | ok u => exact loop_amid hA hx ignore h rec hq hn hrec ks (fun k' hk' => hk k' (by simp [hk'])) s' this
    | error e =>
      exact ((handle_amid ignore h _ e (hJ (List.prefix_refl c))).mono (Q := fun _ d => J T c.dropLast d ∧ Over ignore h c d)
        (R' := fun _ => J T c.dropLast) (fun _ h => h)
        (fun _ d hd' => ⟨hd'.1.mono hd, .inr hd'.2⟩) (fun _ _ h => h.mono hd)) s' this

theorem rmtree_amid (hA : Calm A q) (hx : Outer A q T) (danger ignore : Bool) (h : Handler) (fuel : Nat) {c : Path} (hq : q <+: c) (hn : Plain c) :
    Hoare (J T c.dropLast) (E.rmtreeAmid A danger ignore h fuel ⟨true, c⟩) (fun _ d => J T c.dropLast d ∧ Over ignore h c d) (fun _ => J T c.dropLast) := by
  have hJ : ∀ {c' : Path}, c' <+: c → ∀ k d, J T c' d → J T c' (A k d) := fun hc' k d => J.others hA hx (prefix_or hq hc') k d
  have hd := List.dropLast_prefix c
  induction fuel generalizing c with
  | zero => rw [Env.rmtreeAmid]; exact .throw_ fun _ h => h
  | succ fuel ih =>
    rw [Env.rmtreeAmid]
    refine .ite_ (fun _ => .throw_ fun _ h => h) fun _ => ?_
    refine .bind_ (Q := fun b d => J T c.dropLast d ∧ (b = none → ignore = true ∨ h = some (.ok ()))) ?_ ?_
    · refine .try_ (R := fun _ => J T c.dropLast) (.bind_ (turn_hoare (hJ hd) (isDir_keeps E _ _)) fun b => .pure_ fun d hd => ⟨hd, by simp⟩) ?_
      exact fun e => .bind_ (handle_amid ignore h none e (hJ hd)) fun _ => .pure_ fun d hd => ⟨hd.1, fun _ => hd.2⟩
    · intro b
      cases b with
      | none => exact .pure_ fun d hd => ⟨hd.1, .inr (hd.2 rfl)⟩
      | some b =>
        refine Hoare.pre (P := J T c.dropLast) ?_ fun d hd => hd.1
        cases b with
        | false =>
          refine .try_ ((unlink_amid hA hx hq hn).mono (fun _ h => h) (fun _ d hd => ⟨hd.1, .inl hd.2⟩) (fun _ _ h => h)) ?_
          exact fun e => (handle_amid ignore h _ e (hJ hd)).mono (fun _ h => h) (fun _ d hd => ⟨hd.1, .inr hd.2⟩) (fun _ _ h => h)
        | true =>
          refine .bind_ (Q := fun o d => J T c.dropLast d ∧ match o with
            | none => ignore = true ∨ h = some (.ok ())
            | some ks => J T c d ∧ ∀ k ∈ ks, ∃ n, k = ⟨true, c ++ [n]⟩ ∧ n ≠ ['.'] ∧ n ≠ ['.', '.']) ?_ ?_
          · refine .try_ (R := fun _ => J T c.dropLast) (.bind_ (Q := fun b d => J T c.dropLast d ∧ (b = false → J T c d)) ?_ fun b => ?_) ?_
            · refine turn_hoare (hJ hd) (.look_ (fun d b h hb => ⟨h, ?_⟩) (fun _ _ h => h))
              rintro rfl
              exact ⟨h.1, h.2.1, nolink_snoc h.2.2 (isSymlink_false h.1.2 hn hb)⟩
            · refine .ite_ (fun _ => .throw_ fun d hd => hd.1) fun hb => ?_
              have hb : b = false := by simpa using hb
              subst hb
              refine Hoare.pre (P := J T c) ?_ fun d hd => hd.2 rfl
              refine .bind_ (turn_hoare (hJ (List.prefix_refl c)) ((iterdir_keeps E _ _).mono (fun _ h => h) (fun _ _ h => h) (fun _ d h' => h'.mono hd))) fun ks => ?_
              refine .pure_ fun d hks => ⟨hks.1.mono hd, hks.1, ?_⟩
              obtain ⟨h1, p, h3, rfl⟩ := hks
              intro k hk
              obtain ⟨n, hnm, rfl⟩ := List.mem_map.1 hk
              refine ⟨n, rfl, ?_⟩
              obtain ⟨y, hy⟩ := (Disk.mem_names d p n).1 hnm
              exact h1.1.1 _ (Disk.mem_of_at hy) n (by simp)
            · exact fun e => .bind_ (handle_amid ignore h none e (hJ hd)) fun _ => .pure_ fun d hd => hd
          · intro o
            cases o with
            | none => exact .pure_ fun d hd => ⟨hd.1, .inr hd.2⟩
            | some ks =>
              intro s hs
              refine loop_amid hA hx ignore h _ hq hn (fun n hn' => ?_) ks hs.2.2 s hs.2.1
              have := ih (hq.trans (List.prefix_append c [n])) hn' (fun hc' k d => J.others hA hx (prefix_or (hq.trans (List.prefix_append c [n])) hc') k d) (List.dropLast_prefix _)
              rw [List.dropLast_concat] at this
              exact this.mono (fun _ h => h) (fun _ d hd => hd.1) (fun _ _ h => h)

end

end Amid
open Amid

/-! ## C128 -/

/-- **C128**: whatever other processes do meanwhile, if they make no symlinks in the tree or on the way to it, then what they leave alone outside of the tree is still
there, whichever way the removal ends. -/
theorem C128_outside (E : Env) (A : Others) (danger ignore : Bool) (h : Handler) (fuel : Nat) (q : Path) (hq : Plain q) (hA : Calm A q) (s : Machine Node)
    (hs : Sound s.disk) (hl : NoLink s.disk q.dropLast) (r : Path) (hr : ¬ q <+: r) (x : Option Node) (hx : s.disk.at_ r = x)
    (hk : ∀ k d, d.at_ r = x → (A k d).at_ r = x) : (E.rmtreeAmid A danger ignore h fuel ⟨true, q⟩ s).2.disk.at_ r = x := by
  have hT : Outer A q fun d => d.at_ r = x := ⟨hk, fun d c hc hd => by rw [Disk.at_erase, if_neg (fun (e : r = c) => hr (e ▸ hc))]; exact hd⟩
  have := Hoare.result (rmtree_amid (E := E) hA hT danger ignore h fuel (List.prefix_refl q) hq) (s := s) ⟨hs, hx, hl⟩
  cases hres : (E.rmtreeAmid A danger ignore h fuel ⟨true, q⟩ s).1 with
  | ok u => exact (this.1 u hres).1.2.1
  | error e => exact (this.2 e hres).2.1

/-- If it returns and was not told to carry on after an error, then there is nothing left of the tree: not what was there, and not what others put there meanwhile. -/
theorem C128_gone (E : Env) (A : Others) (danger : Bool) (h : Handler) (hh : h ≠ some (.ok ())) (fuel : Nat) (q : Path) (hq : Plain q) (hA : Calm A q) (s : Machine Node)
    (hs : Sound s.disk) (hl : NoLink s.disk q.dropLast) (hok : (E.rmtreeAmid A danger false h fuel ⟨true, q⟩ s).1 = .ok ()) (r : Path) (hr : q <+: r) :
    (E.rmtreeAmid A danger false h fuel ⟨true, q⟩ s).2.disk.at_ r = none := by
  have hT : Outer A q fun _ => True := ⟨fun _ _ _ => trivial, fun _ _ _ _ => trivial⟩
  have := (Hoare.result (rmtree_amid (E := E) hA hT danger false h fuel (List.prefix_refl q) hq) (s := s) ⟨hs, trivial, hl⟩).1 () hok
  have hn := (this.2.resolve_right (by simp [hh]))
  cases hx : (E.rmtreeAmid A danger false h fuel ⟨true, q⟩ s).2.disk.at_ r with
  | none => rfl
  | some x =>
    by_cases he : q = r
    · rw [← he, hn] at hx; cases hx
    · obtain ⟨b, hb⟩ := rooted_dirs this.1.1.2 hx hr he
      rw [hn] at hb; cases hb

theorem loopAmid_alone (E : Env) (danger ignore : Bool) (h : Handler) (fuel : Nat) (p : UserPath) (ks : List UserPath) :
    E.loopAmid (fun _ d => d) ignore h (E.rmtree danger ignore h fuel) p ks = E.loop danger ignore h fuel p ks := by
  induction ks with
  | nil => rw [Env.loopAmid, Env.loop]; rfl
  | cons k ks ih =>
    rw [Env.loopAmid, Env.loop, ih]
    rfl

theorem rmtreeAmid_alone (E : Env) (danger ignore : Bool) (h : Handler) (fuel : Nat) (p : UserPath) :
    E.rmtreeAmid (fun _ d => d) danger ignore h fuel p = E.rmtree danger ignore h fuel p := by
  induction fuel generalizing p with
  | zero => rw [Env.rmtreeAmid, Env.rmtree]
  | succ fuel ih =>
    rw [Env.rmtreeAmid, Env.rmtree]
    have : E.rmtreeAmid (fun _ d => d) danger ignore h fuel = E.rmtree danger ignore h fuel := funext ih
    simp only [this, loopAmid_alone]
    rfl

/-- Without other processes it is the function of C44 to C46. -/
theorem C128_alone (E : Env) (danger ignore : Bool) (h : Handler) (fuel : Nat) (p : UserPath) :
    E.rmtreeAmid (fun _ d => d) danger ignore h fuel p = E.rmtree danger ignore h fuel p := rmtreeAmid_alone E danger ignore h fuel p

namespace AmidEx

/-- `/h/t/k` with the file `x`, and `/v` with the file `x` -/
def disk : Disk Node := [([], .dir true), ([['h']], .dir true), ([['h'], ['t']], .dir true), ([['h'], ['t'], ['k']], .dir true),
  ([['h'], ['t'], ['k'], ['x']], .file []), ([['v']], .dir true), ([['v'], ['x']], .file [1])]

/-- Another process replaces the directory `/h/t/k` by a symlink to `/v` after it was seen not to be a symlink. -/
def swap : Others := fun n d => if n = 6 then ((d.erase [['h'], ['t'], ['k'], ['x']]).put [['h'], ['t'], ['k']] (.link ⟨true, [['v']]⟩)) else d

def env : Env := ⟨⟨10, 10⟩, [], fun _ => none⟩

/-! The steps of a run, to compute with -/

theorem rm_at (E : Env) (A : Others) (danger ignore : Bool) (h : Handler) (fuel : Nat) (p : UserPath) (s : Machine Node) :
    E.rmtreeAmid A danger ignore h (fuel + 1) p s = if E.refuses danger p then (.error .willNotRemovePathError, s) else
      Prog.bind (.catch_ (.bind (turn A (E.isDir p)) fun b => .pure (some b)) fun e =>
          .bind (E.handleAmid A ignore h none e) fun _ => .pure none) (fun
        | none => .pure ()
        | some false => .catch_ (turn A (E.unlink p)) (E.handleAmid A ignore h (some p))
        | some true =>
          .bind (.catch_ (.bind (turn A (E.isSymlink p)) fun b =>
              if b then .throw .osError else .bind (turn A (E.iterdir p)) fun ks => .pure (some ks)) fun e =>
              .bind (E.handleAmid A ignore h none e) fun _ => .pure none) fun
            | none => .pure ()
            | some ks => E.loopAmid A ignore h (E.rmtreeAmid A danger ignore h fuel) p ks) s := by
  rw [Env.rmtreeAmid]
  split <;> rfl

theorem nil_at (E : Env) (A : Others) (ignore : Bool) (h : Handler) (rec : UserPath → Prog Node Unit) (p : UserPath) (s : Machine Node) :
    E.loopAmid A ignore h rec p [] s = Prog.catch_ (turn A (E.rmdir p)) (E.handleAmid A ignore h (some p)) s := rfl

theorem cons_at (E : Env) (A : Others) (ignore : Bool) (h : Handler) (rec : UserPath → Prog Node Unit) (p k : UserPath) (ks : List UserPath) (s : Machine Node) :
    E.loopAmid A ignore h rec p (k :: ks) s =
      match (Prog.bind (turn A (E.isSymlink k)) fun b => if b then turn A (E.unlink k) else rec k) s with
      | (.ok _, s) => E.loopAmid A ignore h rec p ks s
      | (.error e, s) => E.handleAmid A ignore h (some k) e s := rfl

theorem turn_at {α : Type} (A : Others) (m : Prog Node α) (d : Disk Node) (n : Nat) : turn A m ⟨d, n⟩ = m ⟨A n d, n⟩ := rfl

theorem pure_at {α : Type} (a : α) (s : Machine Node) : Prog.pure a s = (.ok a, s) := rfl

theorem bind_at {α β : Type} (m : Prog Node α) (f : α → Prog Node β) (s : Machine Node) :
    Prog.bind m f s = match m s with | (.ok a, s) => f a s | (.error e, s) => (.error e, s) := by
  unfold Prog.bind; rcases m s with ⟨_ | _, _⟩ <;> rfl

theorem catch_at {α : Type} (m : Prog Node α) (f : PyErr → Prog Node α) (s : Machine Node) :
    Prog.catch_ m f s = match m s with | (.ok a, s) => (.ok a, s) | (.error e, s) => f e s := by
  unfold Prog.catch_; rcases m s with ⟨_ | _, _⟩ <;> rfl

theorem look_at {α : Type} (f : Disk Node → Except PyErr α) (d : Disk Node) (n : Nat) :
    Prog.look (fun _ => none) f ⟨d, n⟩ = match f d with | .ok a => (.ok a, ⟨d, n + 1⟩) | .error e => (.error e, ⟨d, n + 1⟩) := by
  unfold Prog.look Prog.sys; cases h : f d <;> simp [h]

theorem act_at (f : Disk Node → Except PyErr (Disk Node)) (d : Disk Node) (n : Nat) :
    Prog.act (fun _ => none) f ⟨d, n⟩ = match f d with | .ok d => (.ok (), ⟨d, n + 1⟩) | .error e => (.error e, ⟨d, n + 1⟩) := by
  unfold Prog.act Prog.sys; cases h : f d <;> simp [h]

end AmidEx

/-- What others do to the tree that is removed matters for what is outside: if a process that may only write in the tree replaces a directory of it by a symlink between
the check and the listing, then files outside of the tree that this process did not touch are removed. -/
theorem C128_counterexample :
    (∀ k d r, ¬ [['h'], ['t']] <+: r → (AmidEx.swap k d).at_ r = d.at_ r) ∧ AmidEx.disk.at_ [['v'], ['x']] = some (.file [1]) ∧
    (AmidEx.env.rmtreeAmid AmidEx.swap false false none 3 ⟨true, [['h'], ['t']]⟩ ⟨AmidEx.disk, 0⟩).2.disk.at_ [['v'], ['x']] = none := by
  refine ⟨fun k d r hr => ?_, rfl, ?_⟩
  · unfold AmidEx.swap
    split
    · rw [Disk.at_put, if_neg, Disk.at_erase, if_neg]
      · rintro rfl; exact hr ⟨_, rfl⟩
      · rintro rfl; exact hr ⟨_, rfl⟩
    · rfl
  · simp [AmidEx.rm_at, AmidEx.nil_at, AmidEx.cons_at, AmidEx.turn_at, AmidEx.bind_at, AmidEx.catch_at, AmidEx.pure_at, AmidEx.look_at, AmidEx.act_at, Env.handleAmid, Prog.throw, Kinded.isDir, Env.isDir, Env.isSymlink, Env.iterdir,
      Env.unlink, Env.rmdir, Env.lloc, Env.refuses, FS.isDir, FS.isSymlink, test, stat, lstat, walk, start, node, utf8, Char.utf8Size, ignored, Disk.at_, Disk.erase, Disk.put, Disk.names,
      Disk.unlink, Disk.rmdir, UserPath.child, List.filterMap, Errno.py, AmidEx.env, AmidEx.disk, AmidEx.swap]

/-- Another process that meanwhile removes a file of the tree and makes another -/
def AmidEx.busy : Others := fun n d =>
  if n = 3 ∧ d.at_ [['h'], ['t'], ['k'], ['x']] = some (.file []) then d.erase [['h'], ['t'], ['k'], ['x']]
  else if n = 4 ∧ d.at_ [['h'], ['t'], ['k']] = some (.dir true) ∧ d.at_ [['h'], ['t'], ['k'], ['y']] = none then d.put [['h'], ['t'], ['k'], ['y']] (.file [2])
  else d

theorem AmidEx.sound_put {d : Disk Node} (hs : Sound d) {a : Path} {n : Name} {b : Bool} {x : Node} (ha : d.at_ a = some (.dir b)) (hnew : d.at_ (a ++ [n]) = none)
    (hn : Plain (a ++ [n])) : Sound (d.put (a ++ [n]) x) := by
  refine ⟨fun e he => ?_, fun r m y hy => ?_⟩
  · rcases List.mem_cons.1 he with rfl | he
    · exact hn
    · exact hs.1 e (List.mem_filter.1 he).1
  · have hrn : ∀ b', d.at_ r = some (.dir b') → (d.put (a ++ [n]) x).at_ r = some (.dir b') := fun b' hb => by
      rw [Disk.at_put, if_neg]
      · exact hb
      · rintro rfl; rw [hnew] at hb; cases hb
    rw [Disk.at_put] at hy
    split at hy
    · rename_i he
      obtain ⟨rfl, -⟩ := List.append_inj' he rfl
      exact ⟨b, hrn b ha⟩
    · obtain ⟨b', hb⟩ := hs.2 r m y hy
      exact ⟨b', hrn b' hb⟩

/-- It is calm. -/
theorem AmidEx.busy_calm : Calm AmidEx.busy [['h'], ['t']] where
  sound k d hs := by
    unfold AmidEx.busy
    split
    · rename_i h; exact sound_erase hs fun n => not_dir_leaf h.2 rfl hs.2 n
    · split
      · rename_i h; exact AmidEx.sound_put (a := [['h'], ['t'], ['k']]) hs h.2.1 h.2.2 (by unfold Plain; decide)
      · exact hs
  links k d e l _ hl := by
    unfold AmidEx.busy at hl
    split at hl
    · rw [Disk.at_erase] at hl
      split at hl
      · cases hl
      · exact ⟨l, hl⟩
    · split at hl
      · rw [Disk.at_put] at hl
        split at hl
        · cases hl
        · exact ⟨l, hl⟩
      · exact ⟨l, hl⟩

theorem AmidEx.disk_sound : Sound AmidEx.disk := by
  refine ⟨by unfold Proper; decide, ?_⟩
  intro r n x hx
  have hm := Disk.mem_of_at hx
  simp only [AmidEx.disk, List.mem_cons, Prod.mk.injEq, List.not_mem_nil, or_false] at hm
  have key : ∀ c : Path, r ++ [n] = c → r = c.dropLast := by intro c hc; rw [← hc]; simp
  rcases hm with ⟨h, -⟩ | ⟨h, -⟩ | ⟨h, -⟩ | ⟨h, -⟩ | ⟨h, -⟩ | ⟨h, -⟩ | ⟨h, -⟩
  · simp at h
  all_goals (have := key _ h; subst this; exact ⟨true, by decide⟩)

theorem AmidEx.disk_nolink (c : Path) : NoLink AmidEx.disk c := fun e _ l hl => by
  have hm := Disk.mem_of_at hl
  simp [AmidEx.disk] at hm

/-- The removal returns although a file of the tree goes away and another appears meanwhile, and by C128 nothing is left. -/
example : (AmidEx.env.rmtreeAmid AmidEx.busy false false none 3 ⟨true, [['h'], ['t']]⟩ ⟨AmidEx.disk, 0⟩).2.disk.at_ [['h'], ['t'], ['k'], ['y']] = none := by
  refine C128_gone AmidEx.env AmidEx.busy false none nofun 3 [['h'], ['t']] (by unfold Plain; decide) AmidEx.busy_calm _ AmidEx.disk_sound (AmidEx.disk_nolink _) ?_ _ ⟨[['k'], ['y']], rfl⟩
  simp [AmidEx.rm_at, AmidEx.nil_at, AmidEx.cons_at, AmidEx.turn_at, AmidEx.bind_at, AmidEx.catch_at, AmidEx.pure_at, AmidEx.look_at, AmidEx.act_at, Env.handleAmid, Kinded.isDir,
    Env.isDir, Env.isSymlink, Env.iterdir, Env.unlink, Env.rmdir, Env.lloc, Env.refuses, FS.isDir, FS.isSymlink, test, stat, lstat, walk, start, node, utf8, Char.utf8Size, ignored,
    Disk.at_, Disk.erase, Disk.put, Disk.names, Disk.unlink, Disk.rmdir, UserPath.child, List.filterMap, Errno.py, AmidEx.env, AmidEx.disk, AmidEx.busy]

/-- The file outside is still there. -/
example : (AmidEx.env.rmtreeAmid AmidEx.busy false false none 3 ⟨true, [['h'], ['t']]⟩ ⟨AmidEx.disk, 0⟩).2.disk.at_ [['v'], ['x']] = some (.file [1]) := by
  refine C128_outside AmidEx.env AmidEx.busy false false none 3 [['h'], ['t']] (by unfold Plain; decide) AmidEx.busy_calm _ AmidEx.disk_sound (AmidEx.disk_nolink _) _ (by decide) _ rfl
    fun k d hd => ?_
  unfold AmidEx.busy
  split
  · rw [Disk.at_erase, if_neg (by decide)]; exact hd
  · split
    · rw [Disk.at_put, if_neg (by decide)]; exact hd
    · exact hd

end Verif.FS
