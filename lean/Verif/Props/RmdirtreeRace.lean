import Verif.Model.RmdirtreeRace
import Verif.Props.Rmdirtree
import Verif.Props.RmtreeRace

/-!
# C155: removing the empty directories of a tree while other processes change it
-/

namespace Verif.FS
open Verif.Spec Amid

namespace Sweeping

theorem rmdir_ok {d d' : Disk Node} {q : Path} (h : d.rmdir q = .ok d') : (∃ b, d.at_ q = some (.dir b)) ∧ d.names q = [] ∧ d' = d.erase q := by
  unfold Disk.rmdir at h
  split at h
  · cases h
  · rename_i x hx
    split at h
    · cases h
    · rename_i hk
      split at h
      · cases h
      · rename_i hn
        rw [not_or, Decidable.not_not] at hn
        cases h
        refine ⟨?_, hn.2, rfl⟩
        cases x <;> simp_all [Kinded.isDir]

section
variable {E : Env} {A : Others} {pathWalk : Bool}

/-- The only thing that is ever done to the disk is the removal of empty directories. -/
theorem visit_inv {I : Disk Node → Prop} (hA : ∀ k d, I d → I (A k d)) (hI : ∀ d q d', I d → d.rmdir q = .ok d' → I d') (fuel : Nat) :
    (∀ p deleted, Hoare I (E.visitAmid A pathWalk fuel p deleted) (fun _ => I) (fun _ => I)) ∧
    ∀ p ns deleted, Hoare I (E.visitAllAmid A pathWalk fuel p ns deleted) (fun _ => I) (fun _ => I) := by
  have all : ∀ fuel, (∀ p deleted, Hoare I (E.visitAmid A pathWalk fuel p deleted) (fun _ => I) (fun _ => I)) →
      ∀ p ns deleted, Hoare I (E.visitAllAmid A pathWalk fuel p ns deleted) (fun _ => I) (fun _ => I) := by
    intro fuel hv p ns
    induction ns with
    | nil => intro deleted; rw [Env.visitAllAmid]; exact .pure_ fun _ h => h
    | cons n ns ih => intro deleted; rw [Env.visitAllAmid]; exact .bind_ (hv _ _) fun _ => ih _
  induction fuel with
  | zero =>
    have : ∀ p deleted, Hoare I (E.visitAmid A pathWalk 0 p deleted) (fun _ => I) (fun _ => I) := fun p deleted => by
      rw [Env.visitAmid]; exact .throw_ fun _ h => h
    exact ⟨this, all 0 this⟩
  | succ fuel ih =>
    have : ∀ p deleted, Hoare I (E.visitAmid A pathWalk (fuel + 1) p deleted) (fun _ => I) (fun _ => I) := fun p deleted => by
      rw [Env.visitAmid]
      refine .bind_ (Q := fun _ => I) ?_ fun o => ?_
      · refine .try_ (R := fun _ => I) (.bind_ (Q := fun _ => I) ?_ fun _ => .pure_ fun _ h => h) fun _ => .pure_ fun _ h => h
        exact turn_hoare hA (.look_ (fun _ _ h _ => h) fun _ _ h => h)
      · cases o with
        | none => exact .pure_ fun _ h => h
        | some l =>
          refine .bind_ (ih.2 p l.walked deleted) fun del => ?_
          unfold Env.bodyAmid
          refine .ite_ (fun _ => .bind_ (Q := fun _ => I) (turn_hoare hA (.act_ (Q := fun _ => I) (fun d d' h hd => ?_) fun _ _ h => h)) fun _ => .pure_ fun _ h => h)
            fun _ => .pure_ fun _ h => h
          split at hd
          · cases hd
          · split at hd
            · cases hd
            · exact hI _ _ _ h hd
    exact ⟨this, all _ this⟩

theorem rmdirtree_inv {I : Disk Node → Prop} (hA : ∀ k d, I d → I (A k d)) (hI : ∀ d q d', I d → d.rmdir q = .ok d' → I d') (fuel : Nat) (p : UserPath)
    (s : Machine Node) (hs : I s.disk) : I (E.rmdirtreeAmid A pathWalk fuel p s).2.disk := by
  have : Hoare I (E.rmdirtreeAmid A pathWalk fuel p) (fun _ => I) (fun _ => I) := by
    unfold Env.rmdirtreeAmid
    refine .bind_ (Q := fun _ => I) (turn_hoare hA (.look_ (fun _ _ h _ => h) fun _ _ h => h)) fun b => ?_
    exact .ite_ (fun _ => .throw_ fun _ h => h) fun _ => .bind_ ((visit_inv hA hI fuel).1 p []) fun _ => .pure_ fun _ h => h
  have := this.result hs
  cases h : (E.rmdirtreeAmid A pathWalk fuel p s).1 with
  | ok u => exact this.1 u h
  | error e => exact this.2 e h

/-- The symlinks that are not there stay away. -/
theorem outer_nolinks {q : Path} {T : Disk Node → Prop} (hA : Calm A q) (hx : Outer A q T) (P : Path → Prop) (hP : ∀ c, P c → q <+: c) :
    Outer A q fun d => T d ∧ ∀ c, P c → NoLink d c where
  others k d h := ⟨hx.others k d h.1, fun c hc e he l hl => by
    obtain ⟨l', h'⟩ := hA.links k d e l (List.prefix_or_prefix_of_prefix he (hP c hc)) hl
    exact h.2 c hc e he l' h'⟩
  erase d c hc h := ⟨hx.erase d c hc h.1, fun c' hc' e he l => by
    rw [Disk.at_erase]
    split
    · exact nofun
    · exact h.2 c' hc' e he l⟩

theorem visit_outer {q : Path} (hA : Calm A q) (fuel : Nat) :
    (∀ {T : Disk Node → Prop}, Outer A q T → ∀ c deleted, q <+: c → Plain c →
      Hoare (J T c) (E.visitAmid A pathWalk fuel ⟨true, c⟩ deleted) (fun _ => J T c) (fun _ => J T c)) ∧
    ∀ {T : Disk Node → Prop}, Outer A q T → ∀ c ns deleted, q <+: c → Plain c → (∀ n ∈ ns, Plain (c ++ [n])) →
      Hoare (fun d => J T c d ∧ ∀ n ∈ ns, NoLink d (c ++ [n])) (E.visitAllAmid A pathWalk fuel ⟨true, c⟩ ns deleted) (fun _ => J T c) (fun _ => J T c) := by
  have all : ∀ fuel, (∀ {T : Disk Node → Prop}, Outer A q T → ∀ c deleted, q <+: c → Plain c →
      Hoare (J T c) (E.visitAmid A pathWalk fuel ⟨true, c⟩ deleted) (fun _ => J T c) (fun _ => J T c)) →
      ∀ {T : Disk Node → Prop}, Outer A q T → ∀ c ns deleted, q <+: c → Plain c → (∀ n ∈ ns, Plain (c ++ [n])) →
      Hoare (fun d => J T c d ∧ ∀ n ∈ ns, NoLink d (c ++ [n])) (E.visitAllAmid A pathWalk fuel ⟨true, c⟩ ns deleted) (fun _ => J T c) (fun _ => J T c) := by
    intro fuel hv T hx c ns deleted hq hn
    induction ns generalizing deleted with
    | nil => intro _; rw [Env.visitAllAmid]; exact .pure_ fun _ h => h.1
    | cons n ns ih =>
      intro hp
      rw [Env.visitAllAmid]
      have hx' := outer_nolinks hA hx (fun c' => c' = c ∨ ∃ m ∈ ns, c' = c ++ [m]) (by
        rintro c' (rfl | ⟨m, -, rfl⟩)
        · exact hq
        · exact hq.trans (List.prefix_append _ _))
      have h1 := hv hx' (c ++ [n]) deleted (hq.trans (List.prefix_append _ _)) (hp n (by simp))
      refine .bind_ (Q := fun _ d => J T c d ∧ ∀ m ∈ ns, NoLink d (c ++ [m])) (h1.mono ?_ ?_ ?_) fun del => ih del fun m hm => hp m (by simp [hm])
      · rintro d ⟨h, hl⟩
        refine ⟨h.1, ⟨h.2.1, ?_⟩, hl n (by simp)⟩
        rintro c' (rfl | ⟨m, hm, rfl⟩)
        · exact h.2.2
        · exact hl m (by simp [hm])
      · rintro _ d ⟨h, hT, -⟩
        exact ⟨⟨h, hT.1, hT.2 c (.inl rfl)⟩, fun m hm => hT.2 _ (.inr ⟨m, hm, rfl⟩)⟩
      · rintro _ d ⟨h, hT, -⟩
        exact ⟨h, hT.1, hT.2 c (.inl rfl)⟩
  induction fuel with
  | zero =>
    have : ∀ {T : Disk Node → Prop}, Outer A q T → ∀ c deleted, q <+: c → Plain c →
        Hoare (J T c) (E.visitAmid A pathWalk 0 ⟨true, c⟩ deleted) (fun _ => J T c) (fun _ => J T c) := by
      intro T hx c deleted hq hn
      rw [Env.visitAmid]
      exact .throw_ fun _ h => h
    exact ⟨this, all 0 this⟩
  | succ fuel ih =>
    have : ∀ {T : Disk Node → Prop}, Outer A q T → ∀ c deleted, q <+: c → Plain c →
        Hoare (J T c) (E.visitAmid A pathWalk (fuel + 1) ⟨true, c⟩ deleted) (fun _ => J T c) (fun _ => J T c) := by
      intro T hx c deleted hq hn
      have hJ : ∀ k d, J T c d → J T c (A k d) := fun k d => J.others hA hx (.inl hq) k d
      rw [Env.visitAmid]
      refine .bind_ (Q := fun o d => J T c d ∧ ∀ l, o = some l → ∀ n ∈ l.walked, Plain (c ++ [n]) ∧ NoLink d (c ++ [n])) ?_ fun o => ?_
      · refine .try_ (R := fun _ => J T c) (.bind_ (Q := fun l d => J T c d ∧ ∀ n ∈ l.walked, Plain (c ++ [n]) ∧ NoLink d (c ++ [n])) ?_
          fun l => .pure_ fun d h => ⟨h.1, fun l' hl => by cases hl; exact h.2⟩) fun _ => .pure_ fun _ h => ⟨h, fun _ h => by cases h⟩
        refine turn_hoare hJ (.look_ (fun d l h hl => ⟨h, ?_⟩) fun _ _ h => h)
        split at hl
        · cases hl
        · rename_i p hp
          have : p = c := by
            have := Amid.walk_straight (start E.cwd true) c p (fun e he hne l => by simpa [start] using h.2.2 e he l) hn hp
            simpa [start] using this
          subst this
          split at hl
          · cases hl
            intro n hnm
            obtain ⟨h1, h2⟩ := List.mem_filter.1 hnm
            have hdir : ∃ b, d.at_ (p ++ [n]) = some (.dir b) := by
              unfold Rmdirtree.real at h2
              split at h2
              · exact ⟨_, by assumption⟩
              · cases h2
            obtain ⟨b, hb⟩ := hdir
            refine ⟨fun m hm => ?_, nolink_snoc (by rw [List.dropLast_concat]; exact h.2.2) (by rw [hb]; exact nofun)⟩
            rcases List.mem_append.1 hm with hm | hm
            · exact hn m hm
            · rw [List.mem_singleton.1 hm]
              exact h.1.1 _ (Disk.mem_of_at hb) n (by simp)
          · cases hl
          · cases hl
      · cases o with
        | none => exact .pure_ fun _ h => h.1
        | some l =>
          intro s hs
          refine Hoare.bind_ (P := fun d => J T c d ∧ ∀ n ∈ l.walked, NoLink d (c ++ [n])) (Q := fun _ => J T c)
            (ih.2 hx c l.walked deleted hq hn fun n hnm => (hs.2 l rfl n hnm).1) (fun del => ?_) s ⟨hs.1, fun n hnm => (hs.2 l rfl n hnm).2⟩
          unfold Env.bodyAmid
          refine .ite_ (fun _ => .bind_ (Q := fun _ => J T c) (turn_hoare hJ (rmdir_hoare E _ _ _ fun d p hd hp hy => ?_)) fun _ => .pure_ fun _ h => h)
            fun _ => .pure_ fun _ h => h
          obtain rfl := lloc_straight (hd.mono (List.dropLast_prefix c)).2.2 hn hp
          exact hd.erase hx hq fun n => empty_leaf hy n
    exact ⟨this, all _ this⟩

end

end Sweeping
open Sweeping

/-! ## C155 -/

/-- **C155**: whatever other processes do meanwhile, wherever symlinks lead at each moment and whichever calls fail, what is not a directory and
is left alone by the others is still there, and so are the directories that it is in. -/
theorem C155_content (E : Env) (A : Others) (pathWalk : Bool) (fuel : Nat) (p : UserPath) (s : Machine Node) (hr : Rooted s.disk) (f : Path) (x : Node)
    (hx : s.disk.at_ f = some x) (hd : ∀ b, x ≠ .dir b)
    (hA : ∀ k d, (∀ e, e <+: f → d.at_ e = s.disk.at_ e) → ∀ e, e <+: f → (A k d).at_ e = s.disk.at_ e) :
    ∀ e, e <+: f → (E.rmdirtreeAmid A pathWalk fuel p s).2.disk.at_ e = s.disk.at_ e := by
  refine rmdirtree_inv (I := fun d => ∀ e, e <+: f → d.at_ e = s.disk.at_ e) hA (fun d q d' h hq e he => ?_) fuel p s fun _ _ => rfl
  obtain ⟨⟨b, hb⟩, hn, rfl⟩ := rmdir_ok hq
  rw [Disk.at_erase]
  split
  · rename_i heq
    subst heq
    exfalso
    by_cases hef : e = f
    · subst hef
      rw [h e he, hx] at hb
      exact hd b (by simpa using hb)
    · obtain ⟨t, rfl⟩ := he
      cases t with
      | nil => simp at hef
      | cons n t =>
        have h1 : e ++ [n] <+: e ++ n :: t := ⟨t, by simp⟩
        have h2 : ∃ y, s.disk.at_ (e ++ [n]) = some y := by
          by_cases ht : t = []
          · subst ht; exact ⟨x, hx⟩
          · obtain ⟨b, hb⟩ := rooted_dirs hr hx h1 (by simpa using fun h => ht h)
            exact ⟨_, hb⟩
        obtain ⟨y, hy⟩ := h2
        have := (Disk.mem_names d e n).2 ⟨y, by rw [h _ h1]; exact hy⟩
        rw [hn] at this
        cases this
  · exact h e he

/-- **C155**: if the others make no symlinks in the tree or on the way to it, then what they leave alone outside of the tree is as it was. -/
theorem C155_outside (E : Env) (A : Others) (pathWalk : Bool) (fuel : Nat) (q : Path) (hq : Plain q) (hA : Calm A q) (s : Machine Node)
    (hs : Sound s.disk) (hl : NoLink s.disk q.dropLast) (r : Path) (hr : ¬ q <+: r) (x : Option Node) (hx : s.disk.at_ r = x)
    (hk : ∀ k d, d.at_ r = x → (A k d).at_ r = x) : (E.rmdirtreeAmid A pathWalk fuel ⟨true, q⟩ s).2.disk.at_ r = x := by
  let T : Disk Node → Prop := fun d => d.at_ r = x
  have hT : Outer A q T := ⟨hk, fun d c hc hd => by
    show (d.erase c).at_ r = x
    rw [Disk.at_erase, if_neg fun h : r = c => hr (h ▸ hc)]
    exact hd⟩
  have hJ : ∀ k d, J T q.dropLast d → J T q.dropLast (A k d) := fun k d => J.others hA hT (.inr (List.dropLast_prefix q)) k d
  have main : Hoare (J T q.dropLast) (E.rmdirtreeAmid A pathWalk fuel ⟨true, q⟩) (fun _ => T) (fun _ => T) := by
    unfold Env.rmdirtreeAmid
    refine .bind_ (Q := fun b d => J T q.dropLast d ∧ (b = false → J T q d)) ?_ fun b => ?_
    · refine turn_hoare hJ (.look_ (fun d b h hb => ⟨h, ?_⟩) fun _ _ h => h.2.1)
      rintro rfl
      exact ⟨h.1, h.2.1, nolink_snoc h.2.2 (isSymlink_false h.1.2 hq hb)⟩
    · refine .ite_ (fun _ => .throw_ fun d h => h.1.2.1) fun hb => ?_
      have hb : b = false := by simpa using hb
      subst hb
      refine Hoare.pre (P := J T q) ?_ fun d h => h.2 rfl
      exact .bind_ (((visit_outer hA fuel).1 hT q [] (List.prefix_refl q) hq).mono (fun _ h => h) (fun _ _ h => h) fun _ _ h => h.2.1)
        fun _ => .pure_ fun _ h => h.2.1
  have := main.result (s := s) ⟨hs, hx, hl⟩
  cases h : (E.rmdirtreeAmid A pathWalk fuel ⟨true, q⟩ s).1 with
  | ok u => exact this.1 u h
  | error e => exact this.2 e h

namespace Sweeping

theorem names_erase (d : Disk Node) (c e : Path) : (d.erase c).names e = (d.names e).filter fun n => decide (e ++ [n] ≠ c) := by
  induction d with
  | nil => rfl
  | cons a d ih =>
    obtain ⟨r, x⟩ := a
    have h1 : ∀ d : Disk Node, Disk.names ((r, x) :: d) e = (match r.getLast? with
        | some n => if r.dropLast = e then [n] else []
        | none => []) ++ d.names e := by
      intro d
      show List.filterMap _ ((r, x) :: d) = _
      rw [List.filterMap_cons]
      dsimp only
      cases r.getLast? with
      | none => rfl
      | some n =>
        dsimp only
        split
        · rename_i h; split at h
          · cases h
          · rename_i h'; rw [if_neg h']; rfl
        · rename_i h; split at h
          · rename_i h'; cases h; rw [if_pos h']; rfl
          · cases h
    have h2 : Disk.erase c ((r, x) :: d) = if r ≠ c then (r, x) :: Disk.erase c d else Disk.erase c d := by
      show List.filter _ _ = _
      rw [List.filter_cons]
      by_cases h : r = c <;> simp [h, Disk.erase]
    rw [h2, h1, List.filter_append, ← ih]
    by_cases h : r = c
    · subst h
      rw [if_neg (by simp)]
      rcases List.eq_nil_or_concat r with rfl | ⟨rs, n, rfl⟩
      · rfl
      · rw [List.concat_eq_append]
        simp only [List.getLast?_append, List.getLast?_singleton, Option.some_or, List.dropLast_concat]
        split
        · rename_i h; subst h; simp
        · simp
    · rw [if_pos h, h1]
      rcases List.eq_nil_or_concat r with rfl | ⟨rs, n, rfl⟩
      · rfl
      · rw [List.concat_eq_append] at h ⊢
        simp only [List.getLast?_append, List.getLast?_singleton, Option.some_or, List.dropLast_concat]
        split
        · rename_i h'; subst h'; simp [h]
        · simp

/-- Two disks have the same in the tree and on the way to it. -/
structure Same (q : Path) (d d' : Disk Node) : Prop where
  at_ : ∀ e, e <+: q ∨ q <+: e → d.at_ e = d'.at_ e
  names : ∀ e, q <+: e → d.names e = d'.names e

theorem Same.refl (q : Path) (d : Disk Node) : Same q d d := ⟨fun _ _ => rfl, fun _ _ => rfl⟩

theorem Same.erase {q : Path} {d d' : Disk Node} (h : Same q d d') (c : Path) : Same q (d.erase c) (d'.erase c) where
  at_ e he := by rw [Disk.at_erase, Disk.at_erase, h.at_ e he]
  names e he := by rw [names_erase, names_erase, h.names e he]

/-- The same happens when a directory of the tree is removed. -/
theorem Same.rmdir {q c : Path} {d d' : Disk Node} (h : Same q d d') (hc : q <+: c) :
    (∃ e, d.rmdir c = .error e ∧ d'.rmdir c = .error e) ∨ (d.rmdir c = .ok (d.erase c) ∧ d'.rmdir c = .ok (d'.erase c)) := by
  unfold Disk.rmdir
  rw [h.at_ c (.inr hc), h.names c hc]
  cases d'.at_ c with
  | none => exact .inl ⟨_, rfl, rfl⟩
  | some x =>
    dsimp only
    by_cases h1 : Kinded.isDir x = true
    · by_cases h2 : c = [] ∨ d'.names c ≠ []
      · exact .inl ⟨.osError, by simp [h1, h2], by simp [h1, h2]⟩
      · exact .inr ⟨by simp only [h1, if_neg h2]; rfl, by simp only [h1, if_neg h2]; rfl⟩
    · exact .inl ⟨.notADirectoryError, by simp [h1], by simp [h1]⟩

/-- What the tree must be like for paths to lead where they say: everything is in a directory, the directories may be searched and the names
are not too long. -/
structure Open (L : Limits) (q : Path) (d : Disk Node) : Prop where
  rooted : Rooted d
  proper : Proper d
  search : ∀ e, e <+: q ∨ q <+: e → d.at_ e ≠ some (.dir false)
  short : ∀ e x, e <+: q ∨ q <+: e → d.at_ e = some x → ∀ n ∈ e, (utf8 n).length ≤ L.nameMax

theorem Open.erase {L : Limits} {q c : Path} {d : Disk Node} (h : Open L q d) (hleaf : ∀ n, d.at_ (c ++ [n]) = none) : Open L q (d.erase c) where
  rooted := (sound_erase ⟨h.proper, h.rooted⟩ hleaf).2
  proper := (sound_erase ⟨h.proper, h.rooted⟩ hleaf).1
  search e he := by rw [Disk.at_erase]; split; exact nofun; exact h.search e he
  short e x he hx := by
    rw [Disk.at_erase] at hx
    split at hx
    · cases hx
    · exact h.short e x he hx

theorem walk_open {L : Limits} {t : Tree} {b : Nat} (c s : Path) (hd : ∀ e, e <+: s → t (c ++ e) = some (.dir true)) (hn : Plain s)
    (hs : ∀ n ∈ s, (utf8 n).length ≤ L.nameMax) : walk L t b c s = .ok (c ++ s) := by
  induction s generalizing c with
  | nil => rw [walk_nil]; simp
  | cons n s ih =>
    obtain ⟨h1, h2⟩ := hn n List.mem_cons_self
    have h0 := hd [] List.nil_prefix
    have h1' := hd [n] ⟨s, rfl⟩
    rw [List.append_nil] at h0
    rw [walk]
    have hlen := hs n List.mem_cons_self
    simp only [h0, if_neg h1, if_neg h2, h1', if_neg (Nat.not_lt.2 hlen)]
    have := ih (c ++ [n]) (fun e he => by
      have := hd (n :: e) ((List.cons_prefix_cons).2 ⟨rfl, he⟩)
      simpa using this) (fun m hm => hn m (List.mem_cons_of_mem _ hm)) fun m hm => hs m (List.mem_cons_of_mem _ hm)
    simpa using this

/-- The directories that something is in, in an open tree. -/
theorem Open.dirs {L : Limits} {q c : Path} {d : Disk Node} (h : Open L q d) (hc : q <+: c) {x : Node} (hx : d.at_ c = some x) {e : Path} (he : e <+: c)
    (hne : e ≠ c) : d.at_ e = some (.dir true) := by
  obtain ⟨b, hb⟩ := rooted_dirs h.rooted hx he hne
  cases b with
  | true => exact hb
  | false => exact absurd hb (h.search e (List.prefix_or_prefix_of_prefix he hc))

theorem plain_of {L : Limits} {q c : Path} {d : Disk Node} (h : Open L q d) {x : Node} (hx : d.at_ c = some x) : Plain c :=
  fun n hn => h.proper _ (Disk.mem_of_at hx) n hn

/-- In an open tree, the path of a directory leads to it. -/
theorem walk_there {E : Env} {q c : Path} {d d' : Disk Node} (h : Open E.L q d) (hs : Same q d' d) (hc : q <+: c) {b : Bool} (hx : d.at_ c = some (.dir b)) :
    walk E.L d'.at_ E.L.maxLinks (start E.cwd true) c = .ok c := by
  have := walk_open (L := E.L) (t := d'.at_) (b := E.L.maxLinks) (start E.cwd true) c (fun e he => by
    simp only [start, if_true, List.nil_append]
    rw [hs.at_ e (List.prefix_or_prefix_of_prefix he hc)]
    by_cases hec : e = c
    · subst hec
      cases b with
      | true => exact hx
      | false => exact absurd hx (h.search e (.inr hc))
    · exact h.dirs hc hx he hec) (plain_of h hx) (h.short c _ (.inr hc) hx)
  simpa [start] using this

theorem lloc_there {E : Env} {q c : Path} {d d' : Disk Node} (h : Open E.L q d) (hs : Same q d' d) (hc : q <+: c) {x : Node} (hx : d.at_ c = some x) :
    E.lloc d' ⟨true, c⟩ = .ok c := by
  unfold Env.lloc
  rcases List.eq_nil_or_concat c with rfl | ⟨cs, n, rfl⟩
  · simp [start]
  · rw [List.concat_eq_append] at hc hx ⊢
    have hp := plain_of h hx
    have hsh := h.short _ _ (.inr hc) hx
    obtain ⟨h1, h2⟩ := hp n (by simp)
    have hd : ∀ e, e <+: cs → d'.at_ e = some (.dir true) := fun e he => by
      have he' : e <+: cs ++ [n] := he.trans (List.prefix_append _ _)
      rw [hs.at_ e (List.prefix_or_prefix_of_prefix he' hc)]
      exact h.dirs hc hx he' fun heq => by have := he.length_le; rw [heq] at this; simp at this; omega
    have := walk_open (L := E.L) (t := d'.at_) (b := E.L.maxLinks) (start E.cwd true) cs (fun e he => by simpa [start] using hd e he)
      (fun m hm => hp m (by simp [hm])) fun m hm => hsh m (by simp [hm])
    simp only [start, if_true, List.nil_append] at this
    simp only [List.getLast?_append, List.getLast?_singleton, Option.some_or, List.dropLast_concat, h1, h2, or_self, if_false, start, if_true, this,
      hd cs (List.prefix_refl _), if_neg (Nat.not_lt.2 (hsh n (by simp)))]

open Rmdirtree (Listing check) in
/-- What the loop makes of what is found in a directory does not depend on where the symlinks in it lead. -/
theorem found_agree (R R' : Rmdirtree.Env) {q c : Path} {D d d' : Disk Node} (hs : Same q d' d) (hc : q <+: c) :
    (R'.found d' c).walked = (R.found d c).walked ∧
    ∀ del', Rmdirtree.Shrunk D d del' →
      ((R'.found d' c).files.isEmpty && !(check del' c (R'.found d' c).subs []).1) = ((R.found d c).files.isEmpty && !(check del' c (R.found d c).subs []).1) ∧
      (((R.found d c).files.isEmpty && !(check del' c (R.found d c).subs []).1) = true →
        (check del' c (R'.found d' c).subs []).2 = (check del' c (R.found d c).subs []).2) := by
  have hn := hs.names c hc
  have ha : ∀ n, d'.at_ (c ++ [n]) = d.at_ (c ++ [n]) := fun n => hs.at_ _ (.inr (hc.trans (List.prefix_append _ _)))
  have hreal : ∀ n, Rmdirtree.real d' c n = Rmdirtree.real d c n := fun n => by unfold Rmdirtree.real; rw [ha n]
  refine ⟨?_, fun del' h' => ?_⟩
  · show (d'.names c).filter _ = (d.names c).filter _
    rw [hn]
    exact List.filter_congr fun n _ => hreal n
  by_cases hl : ∃ n ∈ d.names c, ∃ l, d.at_ (c ++ [n]) = some (.link l)
  · obtain ⟨n, hnm, l, hl⟩ := hl
    have hnd : c ++ [n] ∉ del' := by
      intro hm
      obtain ⟨b, hb⟩ := h'.2 _ hm
      rw [h'.1 _ _ hl] at hb
      cases hb
    have : ∀ (R : Rmdirtree.Env) (d1 : Disk Node), n ∈ d1.names c → d1.at_ (c ++ [n]) = some (.link l) →
        ((R.found d1 c).files.isEmpty && !(check del' c (R.found d1 c).subs []).1) = false := by
      intro R d1 hn1 hl1
      cases hx : R.linked d1 c n with
      | true =>
        have hs : n ∈ (R.found d1 c).subs := List.mem_filter.2 ⟨hn1, by simp [hx]⟩
        rw [Rmdirtree.check_stops hnd [] hs]
        simp
      | false =>
        have hr : Rmdirtree.real d1 c n = false := by simp [Rmdirtree.real, hl1]
        have hs : n ∈ (R.found d1 c).files := List.mem_filter.2 ⟨hn1, by simp [hx, hr]⟩
        cases hf : (R.found d1 c).files with
        | nil => rw [hf] at hs; simp at hs
        | cons a as => rfl
    rw [this R d hnm hl, this R' d' (by rw [hn]; exact hnm) (by rw [ha n]; exact hl)]
    exact ⟨rfl, nofun⟩
  · have hno : ∀ (R : Rmdirtree.Env) (d1 : Disk Node), (∀ n, d1.at_ (c ++ [n]) = d.at_ (c ++ [n])) → ∀ n ∈ d.names c, R.linked d1 c n = false := by
      intro R d1 h1 n hnm
      unfold Rmdirtree.Env.linked
      rw [h1 n]
      split
      · next l hx => exact absurd ⟨n, hnm, l, hx⟩ hl
      · rfl
    have hff : R'.found d' c = R.found d c := by
      unfold Rmdirtree.Env.found
      rw [hn]
      congr 1 <;> apply List.filter_congr <;> intro n hnm <;> simp only [hreal n, hno R d (fun _ => rfl) n hnm, hno R' d' ha n hnm]
    rw [hff]
    exact ⟨rfl, fun _ => rfl⟩

/-- The others do nothing in the tree and on the way to it. -/
structure Elsewhere (A : Others) (q : Path) : Prop where
  at_ : ∀ k d e, e <+: q ∨ q <+: e → (A k d).at_ e = d.at_ e
  names : ∀ k d e, q <+: e → (A k d).names e = d.names e

theorem Elsewhere.same {A : Others} {q : Path} (h : Elsewhere A q) {d d' : Disk Node} (hs : Same q d' d) (k : Nat) : Same q (A k d') d :=
  ⟨fun e he => (h.at_ k d' e he).trans (hs.at_ e he), fun e he => (h.names k d' e he).trans (hs.names e he)⟩

/-- Two programs that end alike: the first with others about, the second alone; `P` says what the second leaves alone. -/
def Alike (L : Limits) (q : Path) (D : Disk Node) (P : Path → Prop) (s0 : Machine Node) (r1 r0 : Except PyErr (List Path) × Machine Node) : Prop :=
  r1.1 = r0.1 ∧ r1.2.tick = r0.2.tick ∧ Same q r1.2.disk r0.2.disk ∧ Open L q r0.2.disk ∧ (∀ del, r0.1 = .ok del → Rmdirtree.Shrunk D r0.2.disk del) ∧
    (∀ e, P e → r0.2.disk.at_ e = s0.disk.at_ e) ∧ r0.2.disk.Sub s0.disk

theorem visit_alike {E : Env} {A : Others} {pathWalk : Bool} {q : Path} (hA : Elsewhere A q) (R : Rmdirtree.Env) (hF : R.F = E.F) {D : Disk Node} (fuel : Nat) :
    (∀ c del s1 s0, q <+: c → Plain c → NoLink s0.disk c → s1.tick = s0.tick → Same q s1.disk s0.disk → Open E.L q s0.disk → Rmdirtree.Shrunk D s0.disk del →
      Alike E.L q D (fun e => ¬ c <+: e) s0 (E.visitAmid A pathWalk fuel ⟨true, c⟩ del s1) (R.visit fuel c del s0)) ∧
    ∀ c ns del s1 s0, q <+: c → Plain c → (∀ n ∈ ns, Plain (c ++ [n]) ∧ NoLink s0.disk (c ++ [n])) → s1.tick = s0.tick → Same q s1.disk s0.disk → Open E.L q s0.disk →
      Rmdirtree.Shrunk D s0.disk del →
      Alike E.L q D (fun e => ∀ n, ¬ c ++ [n] <+: e) s0 (E.visitAllAmid A pathWalk fuel ⟨true, c⟩ ns del s1) (R.visitAll fuel c ns del s0) := by
  have all : ∀ fuel, (∀ c del s1 s0, q <+: c → Plain c → NoLink s0.disk c → s1.tick = s0.tick → Same q s1.disk s0.disk → Open E.L q s0.disk → Rmdirtree.Shrunk D s0.disk del →
      Alike E.L q D (fun e => ¬ c <+: e) s0 (E.visitAmid A pathWalk fuel ⟨true, c⟩ del s1) (R.visit fuel c del s0)) →
      ∀ c ns del s1 s0, q <+: c → Plain c → (∀ n ∈ ns, Plain (c ++ [n]) ∧ NoLink s0.disk (c ++ [n])) → s1.tick = s0.tick → Same q s1.disk s0.disk → Open E.L q s0.disk →
      Rmdirtree.Shrunk D s0.disk del →
      Alike E.L q D (fun e => ∀ n, ¬ c ++ [n] <+: e) s0 (E.visitAllAmid A pathWalk fuel ⟨true, c⟩ ns del s1) (R.visitAll fuel c ns del s0) := by
    intro fuel hv c ns
    induction ns with
    | nil =>
      intro del s1 s0 hc hp hns ht hs ho hd
      rw [Env.visitAllAmid, Rmdirtree.Env.visitAll]
      exact ⟨rfl, ht, hs, ho, fun del' h => by cases h; exact hd, fun _ _ => rfl, fun _ _ h => h⟩
    | cons n ns ih =>
      intro del s1 s0 hc hp hns ht hs ho hd
      rw [Env.visitAllAmid, Rmdirtree.Env.visitAll]
      obtain ⟨h1, h2, h3, h4, h5, h6, h7⟩ := hv (c ++ [n]) del s1 s0 (hc.trans (List.prefix_append _ _)) (hns n (by simp)).1 (hns n (by simp)).2 ht hs ho hd
      simp only [Prog.bind, UserPath.child]
      generalize E.visitAmid A pathWalk fuel ⟨true, c ++ [n]⟩ del s1 = r1 at h1 h2 h3
      generalize R.visit fuel (c ++ [n]) del s0 = r0 at h1 h2 h3 h4 h5 h6 h7
      obtain ⟨r1, t1⟩ := r1
      obtain ⟨r0, t0⟩ := r0
      dsimp only at h1 h2 h3 h4 h5 h6 h7
      subst h1
      cases r1 with
      | error e => exact ⟨rfl, h2, h3, h4, fun _ h => (by cases h), fun e he => h6 e (he n), h7⟩
      | ok del1 =>
        obtain ⟨g1, g2, g3, g4, g5, g6, g7⟩ := ih del1 t1 t0 hc hp (fun m hm => ⟨(hns m (by simp [hm])).1, fun e he l hl =>
          (hns m (by simp [hm])).2 e he l (h7 _ _ hl)⟩) h2 h3 h4 (h5 _ rfl)
        exact ⟨g1, g2, g3, g4, g5, fun e he => (g6 e he).trans (h6 e (he n)), fun e x hx => h7 _ _ (g7 _ _ hx)⟩
  induction fuel with
  | zero =>
    have : ∀ c del s1 s0, q <+: c → Plain c → NoLink s0.disk c → s1.tick = s0.tick → Same q s1.disk s0.disk → Open E.L q s0.disk → Rmdirtree.Shrunk D s0.disk del →
        Alike E.L q D (fun e => ¬ c <+: e) s0 (E.visitAmid A pathWalk 0 ⟨true, c⟩ del s1) (R.visit 0 c del s0) := by
      intro c del s1 s0 hc hp hl ht hs ho hd
      rw [Env.visitAmid, Rmdirtree.Env.visit]
      exact ⟨rfl, ht, hs, ho, fun _ h => (by cases h), fun _ _ => rfl, fun _ _ h => h⟩
    exact ⟨this, all 0 this⟩
  | succ fuel ih =>
    have : ∀ c del s1 s0, q <+: c → Plain c → NoLink s0.disk c → s1.tick = s0.tick → Same q s1.disk s0.disk → Open E.L q s0.disk → Rmdirtree.Shrunk D s0.disk del →
        Alike E.L q D (fun e => ¬ c <+: e) s0 (E.visitAmid A pathWalk (fuel + 1) ⟨true, c⟩ del s1) (R.visit (fuel + 1) c del s0) := by
      intro c del ⟨d1, k⟩ ⟨d0, k'⟩ hc hp hl ht hs ho hd
      dsimp only at hl ht hs ho hd
      subst ht
      have hs' := hA.same hs k
      rw [Env.visitAmid, Rmdirtree.Env.visit]
      simp only [Prog.bind, Prog.catch_, Env.scanAmid, Rmdirtree.Env.scan, turn, Prog.look, Prog.sys, Prog.pure, hF]
      cases hf : E.F k with
      | some e => exact ⟨rfl, rfl, hs', ho, fun del' h => by cases h; exact hd, fun _ _ => rfl, fun _ _ h => h⟩
      | none =>
        dsimp only
        by_cases hdir : ∃ b, d0.at_ c = some (.dir b)
        · obtain ⟨b, hb⟩ := hdir
          rw [walk_there ho hs' hc hb]
          have hb' : (A k d1).at_ c = some (.dir b) := by rw [hs'.at_ c (.inr hc)]; exact hb
          simp only [hb, hb']
          obtain ⟨hw, hcond⟩ := found_agree (D := D) R (E.lister pathWalk) hs' hc
          have hwalked : ∀ n ∈ (R.found d0 c).walked, Plain (c ++ [n]) ∧ NoLink d0 (c ++ [n]) := by
            intro n hnm
            obtain ⟨-, h2⟩ := List.mem_filter.1 hnm
            have hdir : ∃ b, d0.at_ (c ++ [n]) = some (.dir b) := by
              unfold Rmdirtree.real at h2
              split at h2
              · exact ⟨_, by assumption⟩
              · cases h2
            obtain ⟨b, hb⟩ := hdir
            exact ⟨plain_of ho hb, nolink_snoc (by rw [List.dropLast_concat]; exact hl) (by rw [hb]; exact nofun)⟩
          obtain ⟨h1, h2, h3, h4, h5, h6, h7⟩ := ih.2 c (R.found d0 c).walked del ⟨A k d1, k + 1⟩ ⟨d0, k + 1⟩ hc hp hwalked rfl hs' ho hd
          rw [← hw] at h1 h2 h3
          change Alike E.L q D (fun e => ¬ c <+: e) ⟨d0, k⟩
            (Prog.bind (E.visitAllAmid A pathWalk fuel ⟨true, c⟩ ((E.lister pathWalk).found (A k d1) c).walked del)
              (fun deleted => E.bodyAmid A ⟨true, c⟩ ((E.lister pathWalk).found (A k d1) c) deleted) ⟨A k d1, k + 1⟩)
            (Prog.bind (R.visitAll fuel c (R.found d0 c).walked del) (fun deleted => R.body c (R.found d0 c) deleted) ⟨d0, k + 1⟩)
          simp only [Prog.bind]
          generalize E.visitAllAmid A pathWalk fuel ⟨true, c⟩ ((E.lister pathWalk).found (A k d1) c).walked del ⟨A k d1, k + 1⟩ = r1 at h1 h2 h3
          rw [hw] at h1 h2 h3
          generalize R.visitAll fuel c (R.found d0 c).walked del ⟨d0, k + 1⟩ = r0 at h1 h2 h3 h4 h5 h6 h7
          obtain ⟨r1, ⟨e1, k1⟩⟩ := r1
          obtain ⟨r0, ⟨e0, k0⟩⟩ := r0
          dsimp only at h1 h2 h3 h4 h5 h6 h7
          subst h1 h2
          have hout : ∀ e, ¬ c <+: e → e0.at_ e = d0.at_ e := fun e he => h6 e fun n h => he ((List.prefix_append _ _).trans h)
          cases r1 with
          | error e => exact ⟨rfl, rfl, h3, h4, fun _ h => (by cases h), hout, h7⟩
          | ok del1 =>
            have hd1 := h5 _ rfl
            obtain ⟨hc1, hc2⟩ := hcond del1 ⟨hd.1, hd1.2⟩
            dsimp only
            unfold Env.bodyAmid Rmdirtree.Env.body
            dsimp only
            rw [hc1]
            cases hcd : ((R.found d0 c).files.isEmpty && !(Rmdirtree.check del1 c (R.found d0 c).subs []).1) with
            | false => exact ⟨rfl, rfl, h3, h4, fun del' h => by cases h; exact hd1, hout, h7⟩
            | true =>
              rw [hc2 hcd]
              simp only [if_true, Prog.bind, turn, Env.rmdir, Prog.act, Prog.sys, Prog.pure, hF]
              have h3' := hA.same h3 k1
              cases E.F k1 with
              | some e => exact ⟨rfl, rfl, h3', h4, fun _ h => (by cases h), hout, h7⟩
              | none =>
                have hb0 : e0.at_ c = some (.dir b) := by
                  rw [h6 c fun n h => by have := h.length_le; simp at this; omega]; exact hb
                have hlast : ¬ (c.getLast? = some ['.'] ∨ c.getLast? = some ['.', '.']) := by
                  rintro (h | h)
                  · exact (hp _ (List.mem_of_getLast? h)).1 rfl
                  · exact (hp _ (List.mem_of_getLast? h)).2 rfl
                simp only [if_neg hlast, lloc_there h4 h3' hc hb0]
                rcases h3'.rmdir hc with ⟨e, g1, g0⟩ | ⟨g1, g0⟩
                · rw [g1, g0]
                  exact ⟨rfl, rfl, h3', h4, fun _ h => (by cases h), hout, h7⟩
                · rw [g1, g0]
                  have hleaf := fun n => empty_leaf (rmdir_ok g0).2.1 n
                  refine ⟨rfl, rfl, h3'.erase c, h4.erase hleaf, fun del' h => ?_, fun e he => ?_, fun e x hx => h7 _ _ (Disk.Sub.erase _ _ _ _ hx)⟩
                  · cases h
                    refine ⟨fun e x hx => hd1.1 _ _ (Disk.Sub.erase _ _ _ _ hx), fun p hp' => ?_⟩
                    rcases List.mem_cons.1 (List.mem_filter.1 hp').1 with rfl | hp'
                    · exact ⟨b, hd.1 _ _ hb⟩
                    · exact hd1.2 p hp'
                  · show (e0.erase c).at_ e = _
                    rw [Disk.at_erase, if_neg fun h : e = c => he (h ▸ List.prefix_refl _)]
                    exact hout e he
        · have hpc : ∀ p, walk E.L (A k d1).at_ E.L.maxLinks (start E.cwd true) c = .ok p → (A k d1).at_ p = d0.at_ c := by
            intro p hwk
            have : p = c := by
              have := Amid.walk_straight (start E.cwd true) c p (fun e he hne l => by
                simp only [start, if_true, List.nil_append]
                rw [hs'.at_ e (List.prefix_or_prefix_of_prefix he hc)]
                exact hl e he l) hp hwk
              simpa [start] using this
            subst this
            exact hs'.at_ p (.inr hc)
          cases hwk : walk E.L (A k d1).at_ E.L.maxLinks (start E.cwd true) c with
          | error e =>
            cases hx : d0.at_ c with
            | none => exact ⟨rfl, rfl, hs', ho, fun del' h => by cases h; exact hd, fun _ _ => rfl, fun _ _ h => h⟩
            | some x =>
              cases x with
              | dir b => exact absurd ⟨b, hx⟩ hdir
              | _ => exact ⟨rfl, rfl, hs', ho, fun del' h => by cases h; exact hd, fun _ _ => rfl, fun _ _ h => h⟩
          | ok p =>
            have hp' := hpc p hwk
            dsimp only
            cases hx : d0.at_ c with
            | none =>
              rw [hx] at hp'
              simp only [hp']
              exact ⟨rfl, rfl, hs', ho, fun del' h => by cases h; exact hd, fun _ _ => rfl, fun _ _ h => h⟩
            | some x =>
              rw [hx] at hp'
              simp only [hp']
              cases x with
              | dir b => exact absurd ⟨b, hx⟩ hdir
              | _ => exact ⟨rfl, rfl, hs', ho, fun del' h => by cases h; exact hd, fun _ _ => rfl, fun _ _ h => h⟩
    exact ⟨this, all _ this⟩

/-- The node is a symlink. -/
def isLink : Node → Bool
  | .link _ => true
  | _ => false

theorem isSymlink_there {E : Env} {d : Disk Node} {c : Path} (hp : Plain c) (h : E.lloc d ⟨true, c⟩ = .ok c) {x : Node} (hx : d.at_ c = some x) :
    FS.isSymlink E.L d.at_ E.cwd ⟨true, c⟩ = .ok (isLink x) := by
  have hl : lstat E.L d.at_ E.cwd ⟨true, c⟩ = .ok x := by
    unfold Env.lloc at h
    unfold lstat
    rcases List.eq_nil_or_concat c with rfl | ⟨cs, n, rfl⟩
    · simp [start, node, hx]
    · rw [List.concat_eq_append] at hp h hx ⊢
      obtain ⟨h1, h2⟩ := hp n (by simp)
      simp only [List.getLast?_append, List.getLast?_singleton, Option.some_or, List.dropLast_concat, h1, h2, or_self, if_false] at h ⊢
      split at h
      · cases h
      · rename_i p hw
        rw [hw]
        dsimp only
        split at h
        · cases h
        · cases h
        · rename_i hd
          split at h
          · cases h
          · rename_i hlen
            cases List.append_cancel_right (Except.ok.inj h)
            simp only [hd, if_neg hlen, node, hx]
        · cases h
  unfold FS.isSymlink
  rw [hl]
  cases x <;> rfl

end Sweeping

/-- **C155**: if the others do nothing in the tree and on the way to it, then everything goes as if they were not there: it ends in the same way
and leaves the same in the tree as `rmdirtree` alone (`Rmdirtree.Env.rmdirtree`, of which C47 speaks), whichever calls fail. -/
theorem C155_elsewhere (E : Env) (A : Others) (pathWalk : Bool) (fuel : Nat) (q : Path) (hA : Elsewhere A q) (s : Machine Node) (ho : Open E.L q s.disk)
    {x : Node} (hx : s.disk.at_ q = some x) (R : Rmdirtree.Env) (hF : R.F = E.F) :
    (E.rmdirtreeAmid A pathWalk fuel ⟨true, q⟩ s).1 = (R.rmdirtree fuel q s).1 ∧
    ∀ e, e <+: q ∨ q <+: e → (E.rmdirtreeAmid A pathWalk fuel ⟨true, q⟩ s).2.disk.at_ e = (R.rmdirtree fuel q s).2.disk.at_ e := by
  obtain ⟨d, k⟩ := s
  dsimp only at ho hx
  have hs := hA.same (Same.refl q d) k
  have hp := plain_of ho hx
  unfold Env.rmdirtreeAmid Rmdirtree.Env.rmdirtree
  simp only [Prog.bind, turn, Env.isSymlink, Prog.look, Prog.sys, hF]
  cases hf : E.F k with
  | some e => exact ⟨rfl, fun e he => hs.at_ e he⟩
  | none =>
    dsimp only
    have hsl := isSymlink_there hp (lloc_there ho hs (List.prefix_refl q) hx) ((hs.at_ q (.inl (List.prefix_refl q))).trans hx)
    have nolink : (∀ l, x ≠ .link l) → NoLink d q := fun h => by
      intro e he l hl
      by_cases hec : e = q
      · subst hec; rw [hx] at hl; exact h l (by simpa using hl)
      · obtain ⟨b, hb⟩ := rooted_dirs ho.rooted hx he hec
        rw [hb] at hl; cases hl
    have go : (∀ l, x ≠ .link l) → _ := fun h => (visit_alike (pathWalk := pathWalk) hA R hF (D := d) fuel).1 q [] ⟨A k d, k + 1⟩ ⟨d, k + 1⟩ (List.prefix_refl q) hp (nolink h) rfl hs ho
      ⟨fun _ _ h => h, fun _ h => by cases h⟩
    simp only [hsl, hx]
    cases x with
    | link l => exact ⟨rfl, fun e he => hs.at_ e he⟩
    | _ =>
      obtain ⟨h1, -, h3, -⟩ := go (by simp)
      simp only [isLink, Bool.false_eq_true, ↓reduceIte, Prog.bind]
      generalize E.visitAmid A pathWalk fuel ⟨true, q⟩ [] ⟨A k d, k + 1⟩ = r1 at h1 h3
      generalize R.visit fuel q [] ⟨d, k + 1⟩ = r0 at h1 h3
      obtain ⟨r1, t1⟩ := r1
      obtain ⟨r0, t0⟩ := r0
      dsimp only at h1 h3
      subst h1
      cases r1 with
      | ok u => exact ⟨rfl, fun e he => h3.at_ e he⟩
      | error u => exact ⟨rfl, fun e he => h3.at_ e he⟩

/-- **C155**: so if the others do nothing in the tree and no call fails, it returns and has removed exactly the directories without content. -/
theorem C155_exactly_hollow (E : Env) (hF : ∀ n, E.F n = none) (A : Others) (pathWalk : Bool) (fuel : Nat) (q : Path) (hA : Elsewhere A q) (s : Machine Node)
    (ho : Open E.L q s.disk) (hdis : Distinct s.disk) {b : Bool} (hd : s.disk.at_ q = some (.dir b)) (hq : q ≠ []) (hf : Rmdirtree.Depth s.disk q fuel) :
    (E.rmdirtreeAmid A pathWalk fuel ⟨true, q⟩ s).1 = .ok () ∧
    ∀ r, q <+: r → (Hollow s.disk.at_ r → (E.rmdirtreeAmid A pathWalk fuel ⟨true, q⟩ s).2.disk.at_ r = none) ∧
      (¬ Hollow s.disk.at_ r → (E.rmdirtreeAmid A pathWalk fuel ⟨true, q⟩ s).2.disk.at_ r = s.disk.at_ r) := by
  obtain ⟨h1, h2⟩ := C155_elsewhere E A pathWalk fuel q hA s ho hd (E.lister pathWalk) rfl
  obtain ⟨s', h3, h4⟩ := Rmdirtree.C47_exactly_hollow (E.lister pathWalk) hF fuel q s b ho.rooted hdis hd hq hf
  rw [h3] at h1 h2
  refine ⟨h1, fun r hr => ?_⟩
  rw [h2 r (.inr hr)]
  exact ⟨fun h => (h4 r).1 ⟨hr, h⟩, fun h => (h4 r).2 fun h' => h h'.2⟩

namespace SweepEx

/-- `/h/t` with the empty directories `j` and `k`, and `/v` with the empty directory `e` and the file `x` -/
def disk : Disk Node := [([], .dir true), ([['h']], .dir true), ([['h'], ['t']], .dir true), ([['h'], ['t'], ['k']], .dir true), ([['h'], ['t'], ['j']], .dir true),
  ([['v']], .dir true), ([['v'], ['e']], .dir true), ([['h'], ['x']], .file [1])]

/-- Another process replaces the directory `/h/t/k` by a symlink to `/v` after it was seen to be a directory. -/
def swap : Others := fun n d => if n = 2 then (d.put [['h'], ['t'], ['k']] (.link ⟨true, [['v']]⟩)) else d

/-- Another process removes the empty directory `/h/t/k`, too. -/
def other : Others := fun n d => if n = 3 ∧ d.names [['h'], ['t'], ['k']] = [] then d.erase [['h'], ['t'], ['k']] else d

/-- Another process puts a file in the directory `/h/t/k` after it was seen to be empty. -/
def fill : Others := fun n d => if n = 3 then d.put [['h'], ['t'], ['k'], ['y']] (.file [2]) else d

/-- Another process works elsewhere. -/
def away : Others := fun n d => if n = 3 then d.put [['v'], ['y']] (.file [2]) else d

theorem vis_at (E : Env) (A : Others) (w : Bool) (fuel : Nat) (p : UserPath) (del : List Path) (s : Machine Node) :
    E.visitAmid A w (fuel + 1) p del s =
      Prog.bind (.catch_ (.bind (E.scanAmid A w p) fun l => .pure (some l)) fun _ => .pure none) (fun
        | none => .pure del
        | some l => .bind (E.visitAllAmid A w fuel p l.walked del) fun deleted => E.bodyAmid A p l deleted) s := by
  rw [Env.visitAmid]
  rfl

theorem nil_at (E : Env) (A : Others) (w : Bool) (fuel : Nat) (p : UserPath) (del : List Path) (s : Machine Node) :
    E.visitAllAmid A w fuel p [] del s = (.ok del, s) := by rw [Env.visitAllAmid]; rfl

theorem cons_at (E : Env) (A : Others) (w : Bool) (fuel : Nat) (p : UserPath) (n : Name) (ns : List Name) (del : List Path) (s : Machine Node) :
    E.visitAllAmid A w fuel p (n :: ns) del s =
      Prog.bind (E.visitAmid A w fuel (p.child n) del) (fun deleted => E.visitAllAmid A w fuel p ns deleted) s := by rw [Env.visitAllAmid]

theorem body_at (E : Env) (A : Others) (p : UserPath) (l : Rmdirtree.Listing) (del : List Path) (s : Machine Node) :
    E.bodyAmid A p l del s = if (l.files.isEmpty && !(Rmdirtree.check del p.comps l.subs []).1) = true then
      Prog.bind (turn A (E.rmdir p)) (fun _ => .pure ((p.comps :: del).filter fun c => decide (c ∉ (Rmdirtree.check del p.comps l.subs []).2))) s
      else (.ok del, s) := by
  unfold Env.bodyAmid
  split <;> rfl

end SweepEx
open SweepEx

/-- What others do to the tree matters for what is outside: if a process that writes only in the tree replaces a directory of it by a symlink
after the directory that it is in was scanned, then an empty directory outside of the tree is removed. -/
theorem C155_links_counterexample :
    (∀ k d r, ¬ [['h'], ['t']] <+: r → (swap k d).at_ r = d.at_ r) ∧ SweepEx.disk.at_ [['v'], ['e']] = some (.dir true) ∧
    (AmidEx.env.rmdirtreeAmid swap true 4 ⟨true, [['h'], ['t']]⟩ ⟨SweepEx.disk, 0⟩).2.disk.at_ [['v'], ['e']] = none := by
  refine ⟨fun k d r hr => ?_, rfl, ?_⟩
  · unfold swap
    split
    · rw [Disk.at_put, if_neg]
      rintro rfl; exact hr ⟨_, rfl⟩
    · rfl
  · simp [Env.rmdirtreeAmid, Env.scanAmid, vis_at, SweepEx.nil_at, SweepEx.cons_at, body_at, AmidEx.turn_at, AmidEx.bind_at, AmidEx.catch_at, AmidEx.pure_at, AmidEx.look_at,
      AmidEx.act_at, Kinded.isDir, Env.isSymlink, Env.rmdir, Env.lloc, FS.isSymlink, test, lstat, walk, start, node, utf8, Char.utf8Size, ignored, Disk.at_,
      Disk.erase, Disk.put, Disk.names, Disk.rmdir, UserPath.child, List.filterMap, Errno.py, AmidEx.env, SweepEx.disk, swap, Rmdirtree.real, Rmdirtree.Env.linked, Env.lister,
      Rmdirtree.check]

/-- If another process removes the same empty directory first, then the second raises, and leaves the other empty directories there. -/
theorem C155_gone_counterexample :
    (AmidEx.env.rmdirtreeAmid other true 4 ⟨true, [['h'], ['t']]⟩ ⟨SweepEx.disk, 0⟩).1 = .error .fileNotFoundError ∧
    (AmidEx.env.rmdirtreeAmid other true 4 ⟨true, [['h'], ['t']]⟩ ⟨SweepEx.disk, 0⟩).2.disk.at_ [['h'], ['t'], ['j']] = some (.dir true) := by
  constructor <;>
    simp [Env.rmdirtreeAmid, Env.scanAmid, vis_at, SweepEx.nil_at, SweepEx.cons_at, body_at, AmidEx.turn_at, AmidEx.bind_at, AmidEx.catch_at, AmidEx.pure_at, AmidEx.look_at,
      AmidEx.act_at, Kinded.isDir, Env.isSymlink, Env.rmdir, Env.lloc, FS.isSymlink, test, lstat, walk, start, node, utf8, Char.utf8Size, Disk.at_,
      Disk.erase, Disk.names, Disk.rmdir, UserPath.child, List.filterMap, AmidEx.env, SweepEx.disk, other, Rmdirtree.real, Rmdirtree.Env.linked, Env.lister,
      Rmdirtree.check]

/-- If another process puts a file in a directory that was seen to be empty, then it raises, too. -/
theorem C155_filled_counterexample :
    (AmidEx.env.rmdirtreeAmid fill true 4 ⟨true, [['h'], ['t']]⟩ ⟨SweepEx.disk, 0⟩).1 = .error .osError ∧
    (AmidEx.env.rmdirtreeAmid fill true 4 ⟨true, [['h'], ['t']]⟩ ⟨SweepEx.disk, 0⟩).2.disk.at_ [['h'], ['t'], ['j']] = some (.dir true) := by
  constructor <;>
    simp [Env.rmdirtreeAmid, Env.scanAmid, vis_at, SweepEx.nil_at, SweepEx.cons_at, body_at, AmidEx.turn_at, AmidEx.bind_at, AmidEx.catch_at, AmidEx.pure_at, AmidEx.look_at,
      AmidEx.act_at, Kinded.isDir, Env.isSymlink, Env.rmdir, Env.lloc, FS.isSymlink, test, lstat, walk, start, node, utf8, Char.utf8Size, Disk.at_,
      Disk.erase, Disk.put, Disk.names, Disk.rmdir, UserPath.child, List.filterMap, AmidEx.env, SweepEx.disk, fill, Rmdirtree.real, Rmdirtree.Env.linked, Env.lister,
      Rmdirtree.check]

/-! ## Cases that meet the hypotheses -/

theorem SweepEx.disk_rooted : Rooted SweepEx.disk := by
  intro r n x hx
  have hm := Disk.mem_of_at hx
  simp only [SweepEx.disk, List.mem_cons, Prod.mk.injEq, List.not_mem_nil, or_false] at hm
  have key : ∀ c : Path, r ++ [n] = c → r = c.dropLast := by intro c hc; rw [← hc]; simp
  rcases hm with ⟨h, -⟩ | ⟨h, -⟩ | ⟨h, -⟩ | ⟨h, -⟩ | ⟨h, -⟩ | ⟨h, -⟩ | ⟨h, -⟩ | ⟨h, -⟩
  · simp at h
  all_goals (have := key _ h; subst this; exact ⟨true, by decide⟩)

theorem SweepEx.entries (P : Path → Node → Prop) (h : ∀ e ∈ SweepEx.disk, P e.1 e.2) : ∀ r x, SweepEx.disk.at_ r = some x → P r x :=
  fun _ _ hx => h _ (Disk.mem_of_at hx)

/-- The file `/h/x` is still there, although the directory `/h/t/k` becomes a symlink meanwhile. -/
example : (AmidEx.env.rmdirtreeAmid swap true 4 ⟨true, [['h'], ['t']]⟩ ⟨SweepEx.disk, 0⟩).2.disk.at_ [['h'], ['x']] = some (.file [1]) := by
  refine C155_content AmidEx.env swap true 4 _ ⟨SweepEx.disk, 0⟩ SweepEx.disk_rooted [['h'], ['x']] (.file [1]) rfl (by simp) (fun k d h e he => ?_) _ (List.prefix_refl _)
  unfold swap
  split
  · rw [Disk.at_put, if_neg]
    · exact h e he
    · rintro rfl; revert he; decide
  · exact h e he

/-- The empty directory outside is still there if another process removes the same directory. -/
example : (AmidEx.env.rmdirtreeAmid other true 4 ⟨true, [['h'], ['t']]⟩ ⟨SweepEx.disk, 0⟩).2.disk.at_ [['v'], ['e']] = some (.dir true) := by
  have h : Calm other [['h'], ['t']] := ⟨fun k d hs => by
    unfold other
    split
    · next h => exact sound_erase hs fun n => empty_leaf h.2 n
    · exact hs, fun k d e l _ hl => by
    unfold other at hl
    split at hl
    · exact ⟨l, Disk.Sub.erase _ _ _ _ hl⟩
    · exact ⟨l, hl⟩⟩
  refine C155_outside AmidEx.env other true 4 [['h'], ['t']] (by unfold Plain; decide) h ⟨SweepEx.disk, 0⟩ ⟨by unfold Proper; decide, SweepEx.disk_rooted⟩
    (fun e _ l hl => by have := SweepEx.entries (fun _ x => x ≠ .link l) (by simp [SweepEx.disk]) e _ hl; exact this rfl) _ (by decide) _ rfl fun k d hd => ?_
  unfold other
  split
  · rw [Disk.at_erase, if_neg (by decide)]; exact hd
  · exact hd

theorem SweepEx.away_elsewhere : Elsewhere away [['h'], ['t']] :=
  ⟨fun k d e he => by
    unfold away
    split
    · rw [Disk.at_put, if_neg]
      rintro rfl; revert he; decide
    · rfl, fun k d e he => by
    unfold away
    split
    · show Disk.names ((_, _) :: Disk.erase _ d) e = _
      have h1 : [['v']] ≠ e := by rintro rfl; revert he; decide
      have h2 : Disk.names (([['v'], ['y']], Node.file [2]) :: Disk.erase [['v'], ['y']] d) e = Disk.names (Disk.erase [['v'], ['y']] d) e := by
        simp [Disk.names, h1]
      rw [h2, names_erase, List.filter_eq_self]
      intro n _
      simp only [ne_eq, decide_not, Bool.not_eq_eq_eq_not, Bool.not_true, decide_eq_false_iff_not]
      intro h
      have := congrArg List.dropLast h
      simp at this
      exact h1 this.symm
    · rfl⟩

/-- While another process works elsewhere the tree is removed. -/
example : (AmidEx.env.rmdirtreeAmid away true 4 ⟨true, [['h'], ['t']]⟩ ⟨SweepEx.disk, 0⟩).2.disk.at_ [['h'], ['t'], ['j']] = none := by
  have ho : Open AmidEx.env.L [['h'], ['t']] SweepEx.disk := ⟨SweepEx.disk_rooted, by unfold Proper; decide,
    fun e _ h => SweepEx.entries (fun _ x => x ≠ .dir false) (by simp [SweepEx.disk]) e _ h rfl,
    fun e x _ h => SweepEx.entries (fun e _ => ∀ n ∈ e, (utf8 n).length ≤ AmidEx.env.L.nameMax) (by
      simp [SweepEx.disk, utf8, Char.utf8Size, AmidEx.env]) e x h⟩
  have := C155_exactly_hollow AmidEx.env (fun _ => rfl) away true 4 [['h'], ['t']] SweepEx.away_elsewhere ⟨SweepEx.disk, 0⟩ ho (by unfold Distinct; decide) (b := true) rfl (by simp)
    (fun r x _ hx => SweepEx.entries (fun r _ => r.length < 6) (by simp [SweepEx.disk]) r x hx)
  refine (this.2 _ ⟨[['j']], rfl⟩).1 ⟨⟨true, rfl⟩, fun r x hr hx => ?_⟩
  exact SweepEx.entries (fun r x => [['h'], ['t'], ['j']] <+: r → ∃ b, x = .dir b) (by simp [SweepEx.disk]) r x hx hr

end Verif.FS
