import Verif.Model.GlobDirs
import Verif.Props.Listing
import Verif.Props.RmtreeRace
import Verif.Lemmas.Decide

/-!
# C129: the directories that a recursive glob passes through
-/

namespace Verif.FS.GlobDirs
open Verif.Spec Verif.FS.Amid
open Verif.FS.Rmdirtree (Depth)

/-- A directory at or below `q` -/
def DirBelow (d : Disk Node) (q r : Path) : Prop := q <+: r ∧ ∃ b, d.at_ r = some (.dir b)

/-- Each directory but the first comes after the one that it is in. -/
def ParentsFirst (q : Path) (l : List Path) : Prop := ∀ a r b, l = a ++ r :: b → r ≠ q → r.dropLast ∈ a

/-! ## What is yielded -/

theorem ParentsFirst.append {q : Path} {a b : List Path} (ha : ParentsFirst q (q :: a)) (hb : ∀ b1 r b2, b = b1 ++ r :: b2 → r.dropLast = q ∨ r.dropLast ∈ b1) :
    ParentsFirst q (q :: (a ++ b)) := by
  intro x r y h hr
  rw [← List.cons_append] at h
  rcases List.append_eq_append_iff.1 h with ⟨z, h1, h2⟩ | ⟨z, h1, h2⟩
  · rcases hb z r y h2 with h | h
    · rw [h, h1]; simp
    · rw [h1]; simp [h]
  · cases z with
    | nil =>
      simp only [List.append_nil] at h1
      simp only [List.nil_append] at h2
      rcases hb [] r y (by simpa using h2.symm) with h | h
      · rw [h, ← h1]; simp
      · cases h
    | cons c z =>
      simp only [List.cons_append, List.cons.injEq] at h2
      obtain ⟨rfl, -⟩ := h2
      exact ha x r z h1 hr

theorem isDirEntry_dir {H : Host} {q : Path} {n : Name} (h : H.isDirEntry q n = .ok true) (hl : H.isLinkEntry q n = false) : ∃ b, H.disk.at_ (q ++ [n]) = some (.dir b) := by
  unfold Host.isDirEntry at h
  unfold Host.isLinkEntry at hl
  split at h
  · rename_i b hb; exact ⟨b, hb⟩
  · rename_i l hb; rw [hb] at hl; cases hl
  · cases h

/-- What the loop yields -/
structure LoopGood (H : Host) (q : Path) (ns : List Name) (l : List Path) : Prop where
  below : ∀ r ∈ l, ∃ n ∈ ns, DirBelow H.disk (q ++ [n]) r
  nodup : l.Nodup
  parents : ∀ a r b, l = a ++ r :: b → r.dropLast = q ∨ r.dropLast ∈ a

structure Good (H : Host) (q : Path) (l : List Path) : Prop where
  below : ∀ r ∈ l, DirBelow H.disk q r
  nodup : l.Nodup
  parents : ParentsFirst q l

theorem loop_good {H : Host} {q : Path} {rec : Path → List Path × Option PyErr} (hrec : ∀ n b, H.disk.at_ (q ++ [n]) = some (.dir b) → Good H (q ++ [n]) (rec (q ++ [n])).1)
    (ns : List Name) (hns : ns.Nodup) : LoopGood H q ns (H.loop q rec ns).1 := by
  have hchild : ∀ n l, Good H (q ++ [n]) l → ∀ a r b, l = a ++ r :: b → r.dropLast = q ∨ r.dropLast ∈ a := by
    intro n l hg a r b h
    by_cases hr : r = q ++ [n]
    · left; rw [hr]; simp
    · exact .inr (hg.parents a r b h hr)
  induction ns with
  | nil => exact ⟨by simp [Host.loop], by simp [Host.loop], by intro a r b h; simp [Host.loop] at h⟩
  | cons n ns ih =>
    rw [List.nodup_cons] at hns
    have ih := ih hns.2
    rw [Host.loop]
    split
    · exact ⟨by simp, by simp, by intro a r b h; simp at h⟩
    · rename_i b hb
      by_cases hc : (b && !H.isLinkEntry q n) = true
      · rw [if_pos hc]
        simp only [Bool.and_eq_true, Bool.not_eq_true'] at hc
        obtain ⟨rfl, hl⟩ := hc
        obtain ⟨b, hd⟩ := isDirEntry_dir hb hl
        have hg := hrec n b hd
        split
        · rename_i l e he
          rw [he] at hg
          exact ⟨fun r hr => ⟨n, by simp, hg.below r hr⟩, hg.nodup, hchild n l hg⟩
        · rename_i l he
          rw [he] at hg
          refine ⟨fun r hr => ?_, ?_, fun a r b h => ?_⟩
          · rcases List.mem_append.1 hr with hr | hr
            · exact ⟨n, by simp, hg.below r hr⟩
            · obtain ⟨m, hm, h⟩ := ih.below r hr
              exact ⟨m, by simp [hm], h⟩
          · rw [List.nodup_append]
            refine ⟨hg.nodup, ih.nodup, ?_⟩
            rintro r hr s hs rfl
            obtain ⟨m, hm, h, -⟩ := ih.below r hs
            have h' := (hg.below r hr).1
            have := List.prefix_or_prefix_of_prefix h h'
            have heq : q ++ [m] = q ++ [n] := by
              rcases this with h | h
              · exact h.eq_of_length (by simp)
              · exact (h.eq_of_length (by simp)).symm
            have : m = n := by simpa using heq
            exact hns.1 (this ▸ hm)
          · rcases List.append_eq_append_iff.1 h with ⟨z, h1, h2⟩ | ⟨z, h1, h2⟩
            · rcases ih.parents z r b h2 with h | h
              · exact .inl h
              · right; rw [h1]; simp [h]
            · cases z with
              | nil =>
                simp only [List.nil_append] at h2
                rcases ih.parents [] r b (by simpa using h2.symm) with h | h
                · exact .inl h
                · cases h
              | cons c z =>
                simp only [List.cons_append, List.cons.injEq] at h2
                obtain ⟨rfl, -⟩ := h2
                exact hchild n l hg a r z h1
      · rw [if_neg hc]
        exact ⟨fun r hr => by obtain ⟨m, hm, h⟩ := ih.below r hr; exact ⟨m, by simp [hm], h⟩, ih.nodup, ih.parents⟩

theorem scan_names {H : Host} (hr : Rooted H.disk) {q : Path} (hn : Plain q) {b : Bool} (hq : H.disk.at_ q = some (.dir b)) {ns : List Name} (h : H.scan q = .ok ns) : ns = H.disk.names q := by
  unfold Host.scan at h
  split at h
  · cases h
  · rename_i r hw
    have : r = q := by
      have hd : ∀ e, e <+: q → ∃ b, H.disk.at_ e = some (.dir b) := fun e he => by
        by_cases heq : e = q
        · exact ⟨b, heq ▸ hq⟩
        · exact rooted_dirs hr hq he heq
      have := Amid.walk_straight [] q r (fun e he _ l hl => by
        obtain ⟨b, hb⟩ := hd e he
        rw [List.nil_append, hb] at hl
        cases hl) hn hw
      simpa using this
    subst this
    rw [hq] at h
    dsimp only at h
    split at h
    · cases h; rfl
    · cases h

theorem plain_child {d : Disk Node} (hp : Proper d) {q : Path} {n : Name} {x : Node} (h : d.at_ (q ++ [n]) = some x) : Plain (q ++ [n]) := hp _ (Disk.mem_of_at h)

theorem dirs_good {H : Host} (hs : Sound H.disk) (hdis : Distinct H.disk) (fuel : Nat) (q : Path) (hn : Plain q) {b : Bool} (hq : H.disk.at_ q = some (.dir b)) :
    Good H q (H.dirs fuel q).1 := by
  induction fuel generalizing q b with
  | zero => exact ⟨by simp [Host.dirs], by simp [Host.dirs], by intro a r b h; simp [Host.dirs] at h⟩
  | succ fuel ih =>
    rw [Host.dirs]
    split
    · refine ⟨?_, by simp, ?_⟩
      · intro r hr
        rw [List.mem_singleton.1 hr]
        exact ⟨List.prefix_refl _, b, hq⟩
      · intro a r b h hr
        cases a with
        | nil => simp only [List.nil_append, List.cons.injEq] at h; exact absurd h.1.symm hr
        | cons c a => simp at h
    · rename_i ns hsc
      have hns : ns.Nodup := by rw [scan_names hs.2 hn hq hsc]; exact hdis.names q
      have hl := loop_good (H := H) (q := q) (rec := H.dirs fuel) (fun n b hb => ih (q ++ [n]) (plain_child hs.1 hb) hb) ns hns
      refine ⟨fun r hr => ?_, ?_, ?_⟩
      · rcases List.mem_cons.1 hr with rfl | hr
        · exact ⟨List.prefix_refl _, b, hq⟩
        · obtain ⟨n, -, h1, h2⟩ := hl.below r hr
          exact ⟨(List.prefix_append _ _).trans h1, h2⟩
      · rw [List.nodup_cons]
        refine ⟨fun hm => ?_, hl.nodup⟩
        obtain ⟨n, -, h1, -⟩ := hl.below q hm
        have := h1.length_le
        rw [List.length_append, List.length_singleton] at this
        omega
      · have := ParentsFirst.append (q := q) (a := []) (b := (H.loop q (H.dirs fuel) ns).1) (by
          intro a r b h hr
          cases a with
          | nil => simp only [List.nil_append, List.cons.injEq] at h; exact absurd h.1.symm hr
          | cons c a => simp at h) hl.parents
        simpa using this

/-- **C129**: whatever may be read and searched, what is yielded for a directory is that directory and directories below it, reached without following symlinks,
each once, and each after the one that it is in. -/
theorem C129_yields (H : Host) (hs : Sound H.disk) (hdis : Distinct H.disk) (fuel : Nat) (q : Path) (hn : Plain q) (b : Bool) (hq : H.disk.at_ q = some (.dir b)) :
    (∀ r ∈ (H.dirs fuel q).1, DirBelow H.disk q r) ∧ (H.dirs fuel q).1.Nodup ∧ ParentsFirst q (H.dirs fuel q).1 :=
  have h := dirs_good hs hdis fuel q hn hq
  ⟨h.below, h.nodup, h.parents⟩

/-! ## When all are yielded -/

/-- Nothing is in the way: the directories can be read and searched, and no symlink leads through a directory that must not be searched, or to a name that is too long. -/
structure Open (H : Host) (q : Path) : Prop where
  reach : ∀ r, DirBelow H.disk q r → walk H.L H.disk.at_ H.L.maxLinks [] r = .ok r ∧ H.read r = true
  links : ∀ r l, q <+: r → H.disk.at_ r = some (.link l) →
    stat H.L H.disk.at_ [] ⟨true, r⟩ ≠ .error .EACCES ∧ stat H.L H.disk.at_ [] ⟨true, r⟩ ≠ .error .ENAMETOOLONG

theorem Open.child {H : Host} {q : Path} (h : Open H q) (n : Name) : Open H (q ++ [n]) :=
  ⟨fun r hr => h.reach r ⟨(List.prefix_append _ _).trans hr.1, hr.2⟩, fun r l hr => h.links r l ((List.prefix_append _ _).trans hr)⟩

theorem isDirEntry_open {H : Host} {q : Path} (h : Open H q) (n : Name) : ∃ b, H.isDirEntry q n = .ok b ∧ ((b && !H.isLinkEntry q n) = true ↔ ∃ b, H.disk.at_ (q ++ [n]) = some (.dir b)) := by
  unfold Host.isDirEntry Host.isLinkEntry
  cases hx : H.disk.at_ (q ++ [n]) with
  | none => exact ⟨false, rfl, by simp⟩
  | some x =>
    cases x with
    | dir b => exact ⟨true, rfl, by simp⟩
    | link l =>
      dsimp only
      obtain ⟨h1, h2⟩ := h.links _ l (List.prefix_append q [n]) hx
      have : ∃ b, isDir H.L H.disk.at_ [] ⟨true, q ++ [n]⟩ = .ok b := by
        unfold isDir test
        cases hst : stat H.L H.disk.at_ [] ⟨true, q ++ [n]⟩ with
        | ok y => exact ⟨_, rfl⟩
        | error e =>
          rw [hst] at h1 h2
          cases e with
          | EACCES => exact absurd rfl h1
          | ENAMETOOLONG => exact absurd rfl h2
          | _ => exact ⟨false, by simp [ignored]⟩
      obtain ⟨b, hb⟩ := this
      exact ⟨b, hb, by simp⟩
    | file c => exact ⟨false, rfl, by simp⟩
    | other => exact ⟨false, rfl, by simp⟩

theorem loop_all {H : Host} {q : Path} (ho : Open H q) {rec : Path → List Path × Option PyErr}
    (hrec : ∀ n b, H.disk.at_ (q ++ [n]) = some (.dir b) → (rec (q ++ [n])).2 = none ∧ ∀ r, DirBelow H.disk (q ++ [n]) r → r ∈ (rec (q ++ [n])).1) (ns : List Name) :
    (H.loop q rec ns).2 = none ∧ ∀ n ∈ ns, ∀ b, H.disk.at_ (q ++ [n]) = some (.dir b) → ∀ r, DirBelow H.disk (q ++ [n]) r → r ∈ (H.loop q rec ns).1 := by
  induction ns with
  | nil => exact ⟨rfl, by simp⟩
  | cons n ns ih =>
    rw [Host.loop]
    obtain ⟨b, hb, hiff⟩ := isDirEntry_open ho n
    rw [hb]
    dsimp only
    by_cases hc : (b && !H.isLinkEntry q n) = true
    · rw [if_pos hc]
      obtain ⟨b', hd⟩ := hiff.1 hc
      obtain ⟨h1, h2⟩ := hrec n b' hd
      rcases hre : rec (q ++ [n]) with ⟨l, o⟩
      rw [hre] at h1 h2
      dsimp only at h1
      subst h1
      refine ⟨ih.1, fun m hm b hm' r hr => ?_⟩
      rcases List.mem_cons.1 hm with rfl | hm
      · exact List.mem_append_left _ (h2 r hr)
      · exact List.mem_append_right _ (ih.2 m hm b hm' r hr)
    · rw [if_neg hc]
      refine ⟨ih.1, fun m hm b hm' r hr => ?_⟩
      rcases List.mem_cons.1 hm with rfl | hm
      · exact absurd (hiff.2 ⟨b, hm'⟩) hc
      · exact ih.2 m hm b hm' r hr

theorem dirs_all {H : Host} (hs : Sound H.disk) (fuel : Nat) (q : Path) (ho : Open H q) {b : Bool} (hq : H.disk.at_ q = some (.dir b)) (hf : Depth H.disk q fuel) :
    (H.dirs fuel q).2 = none ∧ ∀ r, DirBelow H.disk q r → r ∈ (H.dirs fuel q).1 := by
  induction fuel generalizing q b with
  | zero =>
    have := hf q _ (List.prefix_refl q) hq
    omega
  | succ fuel ih =>
    have hsc : H.scan q = .ok (H.disk.names q) := by
      obtain ⟨h1, h2⟩ := ho.reach q ⟨List.prefix_refl q, b, hq⟩
      simp [Host.scan, h1, hq, h2]
    rw [Host.dirs, hsc]
    dsimp only
    obtain ⟨h1, h2⟩ := loop_all ho (rec := H.dirs fuel) (fun n b hb => ih (q ++ [n]) (ho.child n) hb (by
      intro r x hr hx
      have := hf r x ((List.prefix_append _ _).trans hr) hx
      have hlen := hr.length_le
      simp at hlen ⊢
      omega)) (H.disk.names q)
    refine ⟨by rw [h1]; rfl, fun r hr => ?_⟩
    obtain ⟨s, rfl⟩ := hr.1
    cases s with
    | nil => simp
    | cons n s =>
      refine List.mem_cons_of_mem _ ?_
      obtain ⟨b', hb'⟩ := hr.2
      have hdir : ∃ b, H.disk.at_ (q ++ [n]) = some (.dir b) := by
        by_cases he : q ++ [n] = q ++ n :: s
        · exact ⟨b', he ▸ hb'⟩
        · exact rooted_dirs hs.2 hb' ⟨s, by simp⟩ he
      obtain ⟨b1, hb1⟩ := hdir
      exact h2 n ((Disk.mem_names ..).2 ⟨_, hb1⟩) b1 hb1 _ ⟨⟨s, by simp⟩, b', hb'⟩

/-- If nothing is in the way (dangling symlinks and symlinks that lead in a circle are not), then every directory is yielded, and no exception ends it. -/
theorem C129_all (H : Host) (hs : Sound H.disk) (fuel : Nat) (q : Path) (ho : Open H q) (b : Bool) (hq : H.disk.at_ q = some (.dir b))
    (hf : Depth H.disk q fuel) : (H.dirs fuel q).2 = none ∧ ∀ r, DirBelow H.disk q r → r ∈ (H.dirs fuel q).1 := dirs_all hs fuel q ho hq hf

/-! ## What ends it early -/

/-- There is too long a name: in the way of a symlink, or of a directory. -/
def LongName (H : Host) (q : Path) : Prop :=
  ∃ r, q <+: r ∧ ((∃ l, H.disk.at_ r = some (.link l) ∧ stat H.L H.disk.at_ [] ⟨true, r⟩ = .error .ENAMETOOLONG) ∨
    ((∃ b, H.disk.at_ r = some (.dir b)) ∧ walk H.L H.disk.at_ H.L.maxLinks [] r = .error .ENAMETOOLONG))

theorem LongName.child {H : Host} {q : Path} {n : Name} (h : LongName H (q ++ [n])) : LongName H q := by
  obtain ⟨r, h1, h2⟩ := h
  exact ⟨r, (List.prefix_append _ _).trans h1, h2⟩

theorem isDirEntry_error {H : Host} {q : Path} {n : Name} {e : PyErr} (h : H.isDirEntry q n = .error e) : e = .permissionError ∨ e = .osError ∧ LongName H q := by
  unfold Host.isDirEntry at h
  split at h
  · cases h
  · rename_i l hx
    unfold isDir test at h
    cases hst : stat H.L H.disk.at_ [] ⟨true, q ++ [n]⟩ with
    | ok y => rw [hst] at h; cases h
    | error e' =>
      rw [hst] at h
      cases e' with
      | EACCES => simp [ignored, Errno.py] at h; exact .inl h.symm
      | ENAMETOOLONG =>
        simp [ignored, Errno.py] at h
        exact .inr ⟨h.symm, q ++ [n], List.prefix_append _ _, .inl ⟨l, hx, hst⟩⟩
      | _ => simp [ignored] at h
  · cases h

theorem scan_error {H : Host} (hr : Rooted H.disk) {q : Path} (hn : Plain q) {b : Bool} (hq : H.disk.at_ q = some (.dir b)) {e : PyErr} (h : H.scan q = .error e) :
    e = .permissionError ∨ e = .osError ∧ LongName H q := by
  have hw := walk_dirs (L := H.L) (t := H.disk.at_) (b := H.L.maxLinks) [] q (fun e he => by
    by_cases heq : e = q
    · exact ⟨b, by rw [heq]; exact hq⟩
    · exact rooted_dirs hr hq he heq) hn
  unfold Host.scan at h
  rcases hw with hw | hw | hw
  · rw [hw] at h
    simp only [List.nil_append, hq] at h
    split at h
    · cases h
    · cases h; exact .inl rfl
  · rw [hw] at h; cases h; exact .inl rfl
  · rw [hw] at h; cases h; exact .inr ⟨rfl, q, List.prefix_refl q, .inr ⟨⟨b, hq⟩, hw⟩⟩

theorem loop_error {H : Host} {q : Path} {rec : Path → List Path × Option PyErr} (hrec : ∀ n b, H.disk.at_ (q ++ [n]) = some (.dir b) → ∀ e, (rec (q ++ [n])).2 = some e → e = .osError ∧ LongName H q)
    (ns : List Name) (e : PyErr) (h : (H.loop q rec ns).2 = some e) : e = .permissionError ∨ e = .osError ∧ LongName H q := by
  induction ns with
  | nil => simp [Host.loop] at h
  | cons n ns ih =>
    rw [Host.loop] at h
    cases hb : H.isDirEntry q n with
    | error e' =>
      rw [hb] at h
      cases h
      exact isDirEntry_error hb
    | ok b =>
      rw [hb] at h
      dsimp only at h
      split at h
      · rename_i hc
        simp only [Bool.and_eq_true, Bool.not_eq_true'] at hc
        obtain ⟨rfl, hl⟩ := hc
        obtain ⟨b, hd⟩ := isDirEntry_dir hb hl
        split at h
        · rename_i l e' he
          cases h
          exact .inr (hrec n b hd e (by rw [he]))
        · exact ih h
      · exact ih h

/-- The only exception that can end it is the `OSError` for too long a name. -/
theorem C129_error (H : Host) (hs : Sound H.disk) (fuel : Nat) (q : Path) (hn : Plain q) (b : Bool) (hq : H.disk.at_ q = some (.dir b)) (hf : Depth H.disk q fuel)
    (e : PyErr) (h : (H.dirs fuel q).2 = some e) : e = .osError ∧ LongName H q := by
  induction fuel generalizing q b e with
  | zero =>
    have := hf q _ (List.prefix_refl q) hq
    omega
  | succ fuel ih =>
    have hpass : ∀ o, pass o = some e → o = some e ∧ e ≠ .permissionError := by
      intro o ho
      unfold pass at ho
      split at ho
      · cases ho
      · rename_i hne; subst ho; exact ⟨rfl, fun he => hne (by rw [he])⟩
    rw [Host.dirs] at h
    cases hsc : H.scan q with
    | error e' =>
      rw [hsc] at h
      obtain ⟨h1, h2⟩ := hpass _ h
      cases h1
      exact (scan_error hs.2 hn hq hsc).resolve_left h2
    | ok ns =>
      rw [hsc] at h
      obtain ⟨h1, h2⟩ := hpass _ h
      refine (loop_error (fun n b hb e' he' => ?_) ns e h1).resolve_left h2
      obtain ⟨h3, h4⟩ := ih (q ++ [n]) (plain_child hs.1 hb) b hb (by
        intro r x hr hx
        have := hf r x ((List.prefix_append _ _).trans hr) hx
        have hlen := hr.length_le
        simp at hlen ⊢
        omega) e' he'
      exact ⟨h3, h4.child⟩

/-- A symlink that leads through a directory that must not be searched ends the listing of the directory that it is in, without an exception: the directories that
are listed after it are not yielded. -/
theorem C129_counterexample (H : Host) (fuel : Nat) (q : Path) (n : Name) (ns : List Name) (l : Target) (hsc : H.scan q = .ok (n :: ns))
    (hl : H.disk.at_ (q ++ [n]) = some (.link l)) (hst : stat H.L H.disk.at_ [] ⟨true, q ++ [n]⟩ = .error .EACCES) : H.dirs (fuel + 1) q = ([q], none) := by
  have : H.isDirEntry q n = .error .permissionError := by simp [Host.isDirEntry, hl, isDir, test, hst, ignored, Errno.py]
  simp [Host.dirs, hsc, Host.loop, this, pass]

/-! ## A sample -/

namespace Ex

/-- `/t` with the symlink `a` to `/s/x` (`/s` must not be searched), the directory `d`, and the symlink `o` to itself -/
def disk : Disk Node := [([], .dir true), ([['t']], .dir true), ([['t'], ['o']], .link ⟨true, [['t'], ['o']]⟩), ([['t'], ['d']], .dir true), ([['s']], .dir false)]

def bad : Disk Node := [([], .dir true), ([['t']], .dir true), ([['t'], ['a']], .link ⟨true, [['s'], ['x']]⟩), ([['t'], ['d']], .dir true), ([['s']], .dir false)]

def host (d : Disk Node) : Host := ⟨⟨255, 3⟩, d, fun _ => true⟩

theorem disk_sound : Sound disk := by
  refine ⟨by unfold Proper; decide, ?_⟩
  intro r n x hx
  have hm := Disk.mem_of_at hx
  simp only [disk, List.mem_cons, Prod.mk.injEq, List.not_mem_nil, or_false] at hm
  have key : ∀ c : Path, r ++ [n] = c → r = c.dropLast := by intro c hc; rw [← hc]; simp
  rcases hm with ⟨h, -⟩ | ⟨h, -⟩ | ⟨h, -⟩ | ⟨h, -⟩ | ⟨h, -⟩
  · simp at h
  all_goals (have := key _ h; subst this; exact ⟨true, by decide⟩)

/-- The symlink to itself is not in the way. -/
theorem disk_open : Open (host disk) [['t']] where
  reach r hr := by
    obtain ⟨h, b, hb⟩ := hr
    have hm := Disk.mem_of_at hb
    simp only [host, disk, List.mem_cons, Prod.mk.injEq, List.not_mem_nil, or_false, reduceCtorEq, and_false, or_false, false_or] at hm
    rcases hm with ⟨rfl, -⟩ | ⟨rfl, -⟩ | ⟨rfl, -⟩ | ⟨rfl, -⟩
    · simp at h
    · refine ⟨?_, rfl⟩; simp [host, disk, walk, Disk.at_, utf8, Char.utf8Size]
    · refine ⟨?_, rfl⟩; simp [host, disk, walk, Disk.at_, utf8, Char.utf8Size]
    · exact absurd h (by decide)
  links r l h hl := by
    have hm := Disk.mem_of_at hl
    simp only [host, disk, List.mem_cons, Prod.mk.injEq, List.not_mem_nil, or_false, reduceCtorEq, and_false, or_false, false_or] at hm
    obtain ⟨rfl, -⟩ := hm
    have : stat (host disk).L (host disk).disk.at_ [] ⟨true, [['t'], ['o']]⟩ = .error .ELOOP := by
      simp [host, disk, stat, walk, start, Disk.at_, utf8, Char.utf8Size]
    rw [this]
    simp

end Ex

example : (Ex.host Ex.disk).disk.at_ [['t']] = some (.dir true) ∧ Distinct (Ex.host Ex.disk).disk ∧ [['t'], ['d']] ∈ ((Ex.host Ex.disk).dirs 5 [['t']]).1 := by
  refine ⟨rfl, by unfold Distinct; decide, (C129_all _ Ex.disk_sound 5 _ Ex.disk_open true rfl ?_).2 _ ⟨⟨[['d']], rfl⟩, true, rfl⟩⟩
  intro r x _ hx
  have hm := Disk.mem_of_at hx
  simp only [Ex.host, Ex.disk, List.mem_cons, Prod.mk.injEq, List.not_mem_nil, or_false] at hm
  rcases hm with ⟨rfl, -⟩ | ⟨rfl, -⟩ | ⟨rfl, -⟩ | ⟨rfl, -⟩ | ⟨rfl, -⟩ <;> simp

/-- The directory `/t/d` is left out. -/
example : (Ex.host Ex.bad).dirs 5 [['t']] = ([[['t']]], none) ∧ DirBelow (Ex.host Ex.bad).disk [['t']] [['t'], ['d']] := by
  refine ⟨C129_counterexample _ 4 _ ['a'] [['d']] ⟨true, [['s'], ['x']]⟩ ?_ rfl ?_, ⟨[['d']], rfl⟩, true, rfl⟩
  · simp [Host.scan, Ex.host, Ex.bad, walk, Disk.at_, Disk.names, List.filterMap, utf8, Char.utf8Size]
  · simp [Ex.host, Ex.bad, stat, walk, start, Disk.at_, utf8, Char.utf8Size]

/-- A name that is too long, in a symlink -/
example : ((⟨⟨3, 3⟩, [([], .dir true), ([['t']], .dir true), ([['t'], ['a']], .link ⟨true, [['l', 'o', 'n', 'g']]⟩)], fun _ => true⟩ : Host).dirs 2 [['t']]).2 = some .osError := by
  simp [Host.dirs, Host.scan, Host.loop, Host.isDirEntry, isDir, test, stat, walk, start, Disk.at_, Disk.names, List.filterMap, utf8, Char.utf8Size, ignored, Errno.py, pass]

/-- What the loop yields is what is yielded for one of the entries. -/
theorem loop_mem {H : Host} {q : Path} {rec : Path → List Path × Option PyErr} {ns : List Name} {r : Path} (h : r ∈ (H.loop q rec ns).1) :
    ∃ n ∈ ns, (∃ b, H.disk.at_ (q ++ [n]) = some (.dir b)) ∧ r ∈ (rec (q ++ [n])).1 := by
  induction ns with
  | nil => simp [Host.loop] at h
  | cons n ns ih =>
    rw [Host.loop] at h
    cases hb : H.isDirEntry q n with
    | error e => rw [hb] at h; simp at h
    | ok b =>
      rw [hb] at h
      dsimp only at h
      split at h
      · rename_i hc
        simp only [Bool.and_eq_true, Bool.not_eq_true'] at hc
        obtain ⟨rfl, hl⟩ := hc
        have hd := isDirEntry_dir hb hl
        split at h
        · rename_i l e he
          exact ⟨n, by simp, hd, by rw [he]; exact h⟩
        · rename_i l he
          rcases List.mem_append.1 h with h | h
          · exact ⟨n, by simp, hd, by rw [he]; exact h⟩
          · obtain ⟨m, hm, h1, h2⟩ := ih h
            exact ⟨m, by simp [hm], h1, h2⟩
      · obtain ⟨m, hm, h1, h2⟩ := ih h
        exact ⟨m, by simp [hm], h1, h2⟩

theorem dirs_prefix {H : Host} (fuel : Nat) (q r : Path) (h : r ∈ (H.dirs fuel q).1) : q <+: r := by
  induction fuel generalizing q with
  | zero => simp [Host.dirs] at h
  | succ fuel ih =>
    rw [Host.dirs] at h
    split at h
    · rw [List.mem_singleton.1 h]
      exact List.prefix_refl _
    · rcases List.mem_cons.1 h with rfl | h
      · exact List.prefix_refl _
      · obtain ⟨n, -, -, hm⟩ := loop_mem h
        exact (List.prefix_append _ _).trans (ih _ hm)

/-- Directories that this process may not read, or not reach, are yielded but not entered: what is yielded was found by reading every directory on the way to it,
and those directories could be reached. -/
theorem C129_entered (H : Host) (hs : Sound H.disk) (fuel : Nat) (q : Path) (hn : Plain q) (b : Bool) (hq : H.disk.at_ q = some (.dir b)) (r : Path)
    (hr : r ∈ (H.dirs fuel q).1) (p : Path) (h1 : q <+: p) (h2 : p <+: r) (h3 : p ≠ r) :
    H.read p = true ∧ walk H.L H.disk.at_ H.L.maxLinks [] p = .ok p := by
  induction fuel generalizing q b with
  | zero => simp [Host.dirs] at hr
  | succ fuel ih =>
    rw [Host.dirs] at hr
    split at hr
    · rw [List.mem_singleton.1 hr] at h2 h3
      exact absurd (h2.eq_of_length (Nat.le_antisymm h2.length_le h1.length_le)) h3
    · rename_i ns hsc
      rcases List.mem_cons.1 hr with rfl | hr
      · exact absurd (h2.eq_of_length (Nat.le_antisymm h2.length_le h1.length_le)) h3
      · obtain ⟨n, -, ⟨b', hd⟩, hm⟩ := loop_mem hr
        by_cases hp : p = q
        · subst hp
          have hw := walk_dirs (L := H.L) (t := H.disk.at_) (b := H.L.maxLinks) [] p (fun e he => by
            by_cases heq : e = p
            · exact ⟨b, by rw [heq]; exact hq⟩
            · exact rooted_dirs hs.2 hq he heq) hn
          unfold Host.scan at hsc
          rcases hw with hw | hw | hw
          · rw [hw] at hsc
            simp only [List.nil_append, hq] at hsc
            split at hsc
            · exact ⟨‹_›, by simpa using hw⟩
            · cases hsc
          · rw [hw] at hsc; cases hsc
          · rw [hw] at hsc; cases hsc
        · refine ih (q ++ [n]) (plain_child hs.1 hd) b' hd hm ?_
          rcases List.prefix_or_prefix_of_prefix h2 (dirs_prefix fuel _ r hm) with h | h
          · have hlt : q.length < p.length := by
              rcases Nat.lt_or_ge q.length p.length with h' | h'
              · exact h'
              · exact absurd (h1.eq_of_length (Nat.le_antisymm h1.length_le h')).symm hp
            rw [h.eq_of_length (by have := h.length_le; simp at this ⊢; omega)]
            exact List.prefix_refl _
          · exact h

/-- A start that is not there, or that is not a directory, is yielded all the same, and then the exception of `scandir` ends it, but for a `PermissionError`. -/
theorem C129_start (H : Host) (fuel : Nat) (q : Path) :
    (walk H.L H.disk.at_ H.L.maxLinks [] q = .error .ENOENT → H.dirs (fuel + 1) q = ([q], some .fileNotFoundError)) ∧
    (walk H.L H.disk.at_ H.L.maxLinks [] q = .error .ENOTDIR → H.dirs (fuel + 1) q = ([q], some .notADirectoryError)) ∧
    (walk H.L H.disk.at_ H.L.maxLinks [] q = .error .EACCES → H.dirs (fuel + 1) q = ([q], none)) ∧
    ∀ r x, walk H.L H.disk.at_ H.L.maxLinks [] q = .ok r → H.disk.at_ r = some x → (∀ b, x ≠ .dir b) →
      H.dirs (fuel + 1) q = ([q], some .notADirectoryError) := by
  refine ⟨fun h => by simp [Host.dirs, Host.scan, h, pass, Errno.py], fun h => by simp [Host.dirs, Host.scan, h, pass, Errno.py],
    fun h => by simp [Host.dirs, Host.scan, h, pass, Errno.py], fun r x hw h hx => ?_⟩
  cases x with
  | dir b => exact absurd rfl (hx b)
  | _ => simp [Host.dirs, Host.scan, hw, h, pass]

/-- The missing `/t/x`, something below the file `/f`, something below `/s`, which must not be searched, and the symlink `/t/o` to `/f`. -/
example : let d : Disk Node := [([], .dir true), ([['t']], .dir true), ([['s']], .dir false), ([['f']], .file []), ([['t'], ['o']], .link ⟨true, [['f']]⟩)]
    walk ⟨255, 3⟩ d.at_ 3 [] [['t'], ['x']] = .error .ENOENT ∧ walk ⟨255, 3⟩ d.at_ 3 [] [['f'], ['x']] = .error .ENOTDIR ∧
    walk ⟨255, 3⟩ d.at_ 3 [] [['s'], ['x']] = .error .EACCES ∧ walk ⟨255, 3⟩ d.at_ 3 [] [['t'], ['o']] = .ok [['f']] := by
  simp [walk, start, Disk.at_, utf8, Char.utf8Size]

end Verif.FS.GlobDirs
