import Verif.Props.Zip
import Verif.Model.ZipRead

/-!
# C86, C87, C88: reading out of archives

`Obj.run (some content) n Obj.new es` is the state of an archived file with this content after any history of its readers.
-/

namespace Verif.Zip

open Verif.Symlink Verif.Zip.Spec

/-! ## The invariant -/

/-- What each reader has given so far, and which files are whose. -/
structure Sound (content : Bytes) (n : Nat) (o : Obj) : Prop where
  own : ∀ i fd pos, o.readers i = .reading fd pos → fd < o.opened ∧ (o.got i).flatten = content.take pos ∧ pos ≤ content.length
  apart : ∀ i j fd pos pos', o.readers i = .reading fd pos → o.readers j = .reading fd pos' → i = j
  fresh : ∀ i, o.readers i = .fresh → o.got i = []
  part : ∀ i, (o.got i).flatten <+: content
  sizes : ∀ i, ∀ b ∈ o.got i, b ≠ [] ∧ b.length ≤ n
  all : 0 < n → ∀ i, o.readers i = .ended → (o.got i).flatten = content
  last : ∀ fd, o.last = some fd → fd < o.opened
  none : o.last = none → o.opened = 0
  closed : ∀ fd ∈ o.closed, fd < o.opened
  failed : ∀ i e, o.readers i = .failed e → e = .valueError

theorem sound_new (content : Bytes) (n : Nat) : Sound content n Obj.new := by
  constructor <;> simp [Obj.new]

variable {content : Bytes} {n : Nat}

@[simp] theorem set_readers (o : Obj) (i j : Nat) (r : Reader) : (o.set i r).readers j = if j = i then r else o.readers j := rfl

/-- A reader is done, whichever way. -/
def Done : Reader → Prop
  | .fresh | .reading _ _ => False
  | _ => True

/-- A reader that leaves. -/
theorem sound_leave {o : Obj} (h : Sound content n o) (i : Nat) (fd0 pos0 : Nat) (hi : o.readers i = .reading fd0 pos0) (r : Reader)
    (hr : Done r) (hend : r = .ended → 0 < n → (o.got i).flatten = content) (hf : ∀ e, r = .failed e → e = .valueError) :
    Sound content n ((o.closeFile fd0).finish i r) := by
  have hfd0 := (h.own i fd0 pos0 hi).1
  have hl : ∃ fd, (o.closeFile fd0).last = some fd := by
    cases hl : o.last with
    | none => have := h.none hl; omega
    | some fd => exact ⟨fd, hl⟩
  obtain ⟨fd, hl⟩ := hl
  have hl' : o.last = some fd := hl
  have hne : ∀ fd pos, r ≠ .reading fd pos := by rintro fd pos rfl; exact hr
  have hnf : r ≠ .fresh := by rintro rfl; exact hr
  rw [Obj.finish, hl]
  dsimp only
  refine ⟨?_, ?_, ?_, h.part, h.sizes, ?_, h.last, h.none, ?_, ?_⟩
  · intro j fd pos hj
    rw [set_readers] at hj
    split at hj
    · exact absurd hj (hne _ _)
    · exact h.own j fd pos hj
  · intro j k fd pos pos' hj hk
    rw [set_readers] at hj hk
    split at hj
    · exact absurd hj (hne _ _)
    · split at hk
      · exact absurd hk (hne _ _)
      · exact h.apart j k fd pos pos' hj hk
  · intro j hj
    rw [set_readers] at hj
    split at hj
    · exact absurd hj hnf
    · exact h.fresh j hj
  · intro hn j hj
    rw [set_readers] at hj
    split at hj
    · next hji => subst hji; exact hend hj hn
    · exact h.all hn j hj
  · intro f hf
    rcases List.mem_cons.1 hf with rfl | hf
    · exact h.last _ hl'
    · rcases List.mem_cons.1 hf with rfl | hf
      · exact hfd0
      · exact h.closed f hf
  · intro j e hj
    rw [set_readers] at hj
    split at hj
    · exact hf e hj
    · exact h.failed j e hj

/-- A round of the loop. -/
theorem sound_round {o : Obj} (h : Sound content n o) (i fd pos : Nat) (hi : o.readers i = .reading fd pos) :
    Sound content n (o.round content n i fd pos) := by
  obtain ⟨h1, h2, h3⟩ := h.own i fd pos hi
  unfold Obj.round
  split
  · exact sound_leave h i fd pos hi _ trivial (by simp) (by simp)
  · dsimp only
    split
    · next hb =>
      refine sound_leave h i fd pos hi _ trivial (fun _ hn => ?_) (by simp)
      rw [h2]
      have : content.drop pos = [] := by
        cases hd : content.drop pos with
        | nil => rfl
        | cons a l =>
          rw [hd] at hb
          cases n with
          | zero => omega
          | succ n => simp at hb
      have := List.drop_eq_nil_iff.1 this
      exact List.take_of_length_le this
    · next hb =>
      have hgot : content.take (pos + ((content.drop pos).take n).length) = content.take pos ++ (content.drop pos).take n := by
        rw [List.take_add]
        congr 1
        rw [List.take_eq_take_iff]
        simp
      have hg : ∀ j, (((o.give i ((content.drop pos).take n)).set i (.reading fd (pos + ((content.drop pos).take n).length))).got j) =
          if j = i then o.got j ++ [(content.drop pos).take n] else o.got j := fun j => rfl
      have hpos : pos + ((content.drop pos).take n).length ≤ content.length := by simp; omega
      have hnew : ((o.got i) ++ [(content.drop pos).take n]).flatten = content.take (pos + ((content.drop pos).take n).length) := by
        rw [hgot, List.flatten_append, h2]; simp
      refine ⟨?_, ?_, ?_, ?_, ?_, ?_, h.last, h.none, h.closed, ?_⟩
      · intro j f p hj
        rw [set_readers] at hj
        rw [hg]
        split at hj
        · next hji =>
          cases hj
          rw [if_pos hji, hji]
          exact ⟨h1, hnew, hpos⟩
        · next hji => rw [if_neg hji]; exact h.own j f p hj
      · intro j k f p p' hj hk
        rw [set_readers] at hj hk
        split at hj
        · next hji =>
          cases hj
          split at hk
          · next hki => rw [hji, hki]
          · next hki => exact absurd (h.apart k i _ _ _ hk hi) hki
        · next hji =>
          split at hk
          · cases hk; exact absurd (h.apart j i _ _ _ hj hi) hji
          · exact h.apart j k f p p' hj hk
      · intro j hj
        rw [set_readers] at hj
        split at hj
        · cases hj
        · next hji => rw [hg, if_neg hji]; exact h.fresh j hj
      · intro j
        rw [hg]
        split
        · next hji => rw [hji, hnew]; exact List.take_prefix _ _
        · exact h.part j
      · intro j b hb
        rw [hg] at hb
        split at hb
        · rcases List.mem_append.1 hb with hb | hb
          · exact h.sizes j b hb
          · rw [List.mem_singleton] at hb
            subst hb
            exact ⟨by assumption, by simp; omega⟩
        · exact h.sizes j b hb
      · intro hn j hj
        rw [set_readers] at hj
        split at hj
        · cases hj
        · next hji => rw [hg, if_neg hji]; exact h.all hn j hj
      · intro j e hj
        rw [set_readers] at hj
        split at hj
        · cases hj
        · exact h.failed j e hj

/-- Opening the file for a reader. -/
theorem sound_open {o : Obj} (h : Sound content n o) (i : Nat) (hi : o.readers i = .fresh) :
    Sound content n (({ o with opened := o.opened + 1, last := some o.opened }).set i (.reading o.opened 0)) := by
  have hg := h.fresh i hi
  refine ⟨?_, ?_, ?_, h.part, h.sizes, ?_, ?_, ?_, ?_, ?_⟩
  · intro j f p hj
    rw [set_readers] at hj
    split at hj
    · next hji =>
      cases hj
      subst hji
      exact ⟨Nat.lt_succ_self _, by show (o.got j).flatten = _; simp [hg], Nat.zero_le _⟩
    · obtain ⟨h1, h2⟩ := h.own j f p hj
      exact ⟨Nat.lt_succ_of_lt h1, h2⟩
  · intro j k f p p' hj hk
    rw [set_readers] at hj hk
    split at hj
    · next hji =>
      cases hj
      split at hk
      · next hki => rw [hji, hki]
      · exact absurd (h.own k _ _ hk).1 (Nat.lt_irrefl _)
    · split at hk
      · cases hk
        exact absurd (h.own j _ _ hj).1 (Nat.lt_irrefl _)
      · exact h.apart j k f p p' hj hk
  · intro j hj
    rw [set_readers] at hj
    split at hj
    · cases hj
    · exact h.fresh j hj
  · intro hn j hj
    rw [set_readers] at hj
    split at hj
    · cases hj
    · exact h.all hn j hj
  · intro f hf
    cases hf
    exact Nat.lt_succ_self _
  · intro hf; cases hf
  · intro f hf
    exact Nat.lt_succ_of_lt (h.closed f hf)
  · intro j e hj
    rw [set_readers] at hj
    split at hj
    · cases hj
    · exact h.failed j e hj

theorem sound_step {o : Obj} (h : Sound content n o) (e : Event) : Sound content n (o.step (some content) n e) := by
  cases e with
  | next i =>
    unfold Obj.step
    dsimp only
    split
    · next hi => exact sound_round (sound_open h i hi) i _ _ (by simp)
    · next hi => exact sound_round h i _ _ hi
    · exact h
  | drop i =>
    unfold Obj.step
    dsimp only
    split
    · next hi =>
      refine ⟨?_, ?_, ?_, h.part, h.sizes, ?_, h.last, h.none, h.closed, ?_⟩
      · intro j f p hj
        rw [set_readers] at hj
        split at hj
        · cases hj
        · exact h.own j f p hj
      · intro j k f p p' hj hk
        rw [set_readers] at hj hk
        split at hj
        · cases hj
        · split at hk
          · cases hk
          · exact h.apart j k f p p' hj hk
      · intro j hj
        rw [set_readers] at hj
        split at hj
        · cases hj
        · exact h.fresh j hj
      · intro hn j hj
        rw [set_readers] at hj
        split at hj
        · cases hj
        · exact h.all hn j hj
      · intro j e hj
        rw [set_readers] at hj
        split at hj
        · cases hj
        · exact h.failed j e hj
    · next hi => exact sound_leave h i _ _ hi _ trivial (by simp) (by simp)
    · exact h

theorem sound_run (content : Bytes) (n : Nat) (es : List Event) : Sound content n (Obj.new.run (some content) n es) := by
  unfold Obj.run
  have : ∀ o, Sound content n o → Sound content n (es.foldl (Obj.step (some content) n) o) := by
    induction es with
    | nil => exact fun o h => h
    | cons e es ih => exact fun o h => ih _ (sound_step h e)
  exact this _ (sound_new _ _)

/-! ## C86 -/

/-- **C86**: whatever readers of an archived file there are, and in whatever order they are asked and thrown away, what a reader
has given is a beginning of the content, in pieces that are not empty and not larger than the chunk size; and a reader that came
to its end has given all of it. -/
theorem C86_content (content : Bytes) (n : Nat) (hn : 0 < n) (es : List Event) (i : Nat) :
    ((Obj.new.run (some content) n es).got i).flatten <+: content ∧
    (∀ b ∈ (Obj.new.run (some content) n es).got i, b ≠ [] ∧ b.length ≤ n) ∧
    ((Obj.new.run (some content) n es).readers i = .ended → ((Obj.new.run (some content) n es).got i).flatten = content) :=
  have h := sound_run content n es
  ⟨h.part i, h.sizes i, h.all hn i⟩

/-- Two readers in turn: both have given a part, and one of them all. -/
example : (Obj.new.run (some [1, 2, 3]) 2 [.next 0, .next 1, .next 1, .next 1]).readers 1 = .ended ∧
    (Obj.new.run (some [1, 2, 3]) 2 [.next 0, .next 1, .next 1, .next 1]).got 0 = [[1, 2]] := by decide

/-- **C86**: there is no content of directories and of what is not archived: the first value that is asked for is an exception that
is not even an `Exception`. -/
theorem C86_no_content (n : Nat) (es : List Event) (i : Nat) :
    (Obj.new.run none n es).got i = [] ∧
    ((Obj.new.run none n es).readers i = .fresh ∨ (Obj.new.run none n es).readers i = .dropped ∨
      (Obj.new.run none n es).readers i = .failed .baseException) ∧
    ((Obj.new.run none n es).readers i = .fresh → (Obj.new.run none n (es ++ [.next i])).readers i = .failed .baseException) := by
  have key : ∀ es : List Event, ∀ o : Obj, o.last = none → (∀ i, o.got i = [] ∧
      (o.readers i = .fresh ∨ o.readers i = .dropped ∨ o.readers i = .failed .baseException)) →
      (o.run none n es).last = none ∧ ∀ i, (o.run none n es).got i = [] ∧
      ((o.run none n es).readers i = .fresh ∨ (o.run none n es).readers i = .dropped ∨ (o.run none n es).readers i = .failed .baseException) := by
    intro es
    induction es with
    | nil => exact fun o h1 h2 => ⟨h1, h2⟩
    | cons e es ih =>
      intro o h1 h2
      have hs : ∀ j r, (r = .dropped ∨ r = .failed .baseException) → (o.set j r).last = none ∧ ∀ i, (o.set j r).got i = [] ∧
          ((o.set j r).readers i = .fresh ∨ (o.set j r).readers i = .dropped ∨ (o.set j r).readers i = .failed .baseException) := by
        refine fun j r hr => ⟨h1, fun i => ⟨(h2 i).1, ?_⟩⟩
        rw [set_readers]
        split
        · exact .inr hr
        · exact (h2 i).2
      have hstep : (o.step none n e).last = none ∧ ∀ i, (o.step none n e).got i = [] ∧
          ((o.step none n e).readers i = .fresh ∨ (o.step none n e).readers i = .dropped ∨ (o.step none n e).readers i = .failed .baseException) := by
        cases e with
        | next j =>
          unfold Obj.step
          dsimp only
          split
          · rw [Obj.finish, h1]; exact hs j _ (.inr rfl)
          · exact ⟨h1, h2⟩
          · exact ⟨h1, h2⟩
        | drop j =>
          unfold Obj.step
          dsimp only
          split
          · exact hs j _ (.inl rfl)
          · next fd pos hj => rcases (h2 j).2 with h | h | h <;> rw [h] at hj <;> cases hj
          · exact ⟨h1, h2⟩
      exact ih _ hstep.1 hstep.2
  obtain ⟨h1, h2⟩ := key es Obj.new rfl fun i => ⟨rfl, .inl rfl⟩
  refine ⟨(h2 i).1, (h2 i).2, fun hi => ?_⟩
  have : Obj.new.run none n (es ++ [.next i]) = (Obj.new.run none n es).step none n (.next i) := by
    simp [Obj.run, List.foldl_append]
  rw [this, Obj.step]
  rw [hi]
  simp [Obj.finish, h1]

/-! ## C87 -/

/-- Reader `j` stops reading at event `e`. -/
def Stops (content : Bytes) (n : Nat) (o : Obj) (e : Event) (j : Nat) : Prop :=
  (∃ fd pos, o.readers j = .reading fd pos) ∧ Done ((o.step (some content) n e).readers j)

theorem finish_closed (o : Obj) (i fd : Nat) (r : Reader) :
    ∀ f, f ∈ ((o.closeFile fd).finish i r).closed ↔ f = fd ∨ f ∈ o.closed ∨ o.last = some f := by
  intro f
  unfold Obj.finish
  have hl : (o.closeFile fd).last = o.last := rfl
  cases h : (o.closeFile fd).last with
  | none =>
    rw [hl] at h
    simp [Obj.closeFile, Obj.set, h]
  | some x =>
    rw [hl] at h
    simp only [Obj.closeFile, Obj.set, h, List.mem_cons, Option.some.injEq]
    constructor
    · rintro (h | h | h)
      · exact .inr (.inr h.symm)
      · exact .inl h
      · exact .inr (.inl h)
    · rintro (h | h | h)
      · exact .inr (.inl h)
      · exact .inr (.inr h)
      · exact .inl h.symm

theorem finish_readers (o : Obj) (i fd j : Nat) (r : Reader) (hij : j ≠ i) :
    ((o.closeFile fd).finish i r).readers j = o.readers j := by
  unfold Obj.finish
  split <;> rw [set_readers, if_neg hij] <;> rfl

theorem finish_done (o : Obj) (i fd : Nat) (r : Reader) (hr : Done r) : Done (((o.closeFile fd).finish i r).readers i) := by
  unfold Obj.finish
  split
  · simpa using hr
  · simp [Done]

theorem finish_self {o : Obj} (h : Sound content n o) {i fd pos : Nat} (hi : o.readers i = .reading fd pos) (r : Reader) :
    ((o.closeFile fd).finish i r).readers i = r := by
  unfold Obj.finish
  have hl : (o.closeFile fd).last = o.last := rfl
  cases hx : (o.closeFile fd).last with
  | none =>
    rw [hl] at hx
    have := h.none hx
    have := (h.own i fd pos hi).1
    omega
  | some x => simp

/-- One reader's events leave the others where they are. -/
theorem step_keep {o : Obj} {i : Nat} {e : Event} {j : Nat} (hj : j ≠ i) (he : e = .next j ∨ e = .drop j) :
    (o.step (some content) n e).readers i = o.readers i := by
  have round : ∀ (o : Obj) fd pos, (o.round content n j fd pos).readers i = o.readers i := by
    intro o fd pos
    unfold Obj.round
    split
    · exact finish_readers _ _ _ _ _ hj.symm
    · dsimp only
      split
      · exact finish_readers _ _ _ _ _ hj.symm
      · rw [set_readers, if_neg hj.symm]; rfl
  rcases he with rfl | rfl
  · unfold Obj.step
    dsimp only
    split
    · rw [round, set_readers, if_neg hj.symm]
    · exact round _ _ _
    · rfl
  · unfold Obj.step
    dsimp only
    split
    · rw [set_readers, if_neg hj.symm]
    · exact finish_readers _ _ _ _ _ hj.symm
    · rfl

/-- The event of one reader seen by another. -/
theorem step_other {o : Obj} (h : Sound content n o) {i fd pos : Nat} (hi : o.readers i = .reading fd pos) {e : Event} {j : Nat}
    (hj : j ≠ i) (he : e = .next j ∨ e = .drop j) :
    (o.step (some content) n e).readers i = .reading fd pos ∧
    (fd ∈ (o.step (some content) n e).closed → fd ∈ o.closed ∨ o.last = some fd ∧ Stops content n o e j) := by
  have leave : ∀ fd' pos' r, o.readers j = .reading fd' pos' → Done r → (o.step (some content) n e) = (o.closeFile fd').finish j r →
      (o.step (some content) n e).readers i = .reading fd pos ∧
      (fd ∈ (o.step (some content) n e).closed → fd ∈ o.closed ∨ o.last = some fd ∧ Stops content n o e j) := by
    intro fd' pos' r hjr hr hs
    rw [hs, finish_readers _ _ _ _ _ hj.symm, finish_closed]
    refine ⟨hi, ?_⟩
    rintro (h' | h' | h')
    · subst h'; exact absurd (h.apart _ _ _ _ _ hjr hi) hj
    · exact .inl h'
    · exact .inr ⟨h', ⟨_, _, hjr⟩, by rw [hs]; exact finish_done _ _ _ _ hr⟩
  rcases he with rfl | rfl
  · cases hjr : o.readers j with
    | reading fd' pos' =>
      have hs : o.step (some content) n (.next j) = o.round content n j fd' pos' := by
        unfold Obj.step; dsimp only; rw [hjr]
      unfold Obj.round at hs
      split at hs
      · exact leave _ _ _ hjr (by exact trivial) hs
      · dsimp only at hs
        split at hs
        · exact leave _ _ _ hjr (by exact trivial) hs
        · rw [hs]
          refine ⟨by rw [set_readers, if_neg hj.symm]; exact hi, fun h' => .inl h'⟩
    | fresh =>
      have hs : o.step (some content) n (.next j) =
          (({ o with opened := o.opened + 1, last := some o.opened }).set j (.reading o.opened 0)).round content n j o.opened 0 := by
        unfold Obj.step; dsimp only; rw [hjr]
      have hlt := (h.own i fd pos hi).1
      have fin : ∀ r, ((((({ o with opened := o.opened + 1, last := some o.opened } : Obj).set j (.reading o.opened 0)).closeFile o.opened).finish j r).readers i =
            .reading fd pos) ∧
          (fd ∈ (((({ o with opened := o.opened + 1, last := some o.opened } : Obj).set j (.reading o.opened 0)).closeFile o.opened).finish j r).closed →
            fd ∈ o.closed) := by
        intro r
        rw [finish_readers _ _ _ _ _ hj.symm, finish_closed, set_readers, if_neg hj.symm]
        refine ⟨hi, ?_⟩
        rintro (h' | h' | h')
        · omega
        · exact h'
        · cases h'; omega
      unfold Obj.round at hs
      split at hs
      · rw [hs]; exact ⟨(fin _).1, fun h' => .inl ((fin _).2 h')⟩
      · dsimp only at hs
        split at hs
        · rw [hs]; exact ⟨(fin _).1, fun h' => .inl ((fin _).2 h')⟩
        · rw [hs]
          refine ⟨by rw [set_readers, if_neg hj.symm]; show (Obj.set _ j _).readers i = _; rw [set_readers, if_neg hj.symm]; exact hi, fun h' => .inl h'⟩
    | ended => unfold Obj.step; dsimp only; rw [hjr]; exact ⟨hi, .inl⟩
    | dropped => unfold Obj.step; dsimp only; rw [hjr]; exact ⟨hi, .inl⟩
    | failed e => unfold Obj.step; dsimp only; rw [hjr]; exact ⟨hi, .inl⟩
  · cases hjr : o.readers j with
    | reading fd' pos' =>
      exact leave _ _ .dropped hjr trivial (by unfold Obj.step; dsimp only; rw [hjr])
    | fresh =>
      unfold Obj.step; dsimp only; rw [hjr]
      refine ⟨by rw [set_readers, if_neg hj.symm]; exact hi, .inl⟩
    | ended => unfold Obj.step; dsimp only; rw [hjr]; exact ⟨hi, .inl⟩
    | dropped => unfold Obj.step; dsimp only; rw [hjr]; exact ⟨hi, .inl⟩
    | failed e => unfold Obj.step; dsimp only; rw [hjr]; exact ⟨hi, .inl⟩

/-- An earlier moment at which another reader stopped while the file opened last was that of reader `i`. -/
def Disturbed (content : Bytes) (n : Nat) (es : List Event) (i : Nat) : Prop :=
  ∃ before e after fd pos j, es = before ++ e :: after ∧ (Obj.new.run (some content) n before).readers i = .reading fd pos ∧
    (Obj.new.run (some content) n before).last = some fd ∧ j ≠ i ∧ Stops content n (Obj.new.run (some content) n before) e j

theorem Disturbed.more {es : List Event} {i : Nat} (h : Disturbed content n es i) (e : Event) : Disturbed content n (es ++ [e]) i := by
  obtain ⟨b, e', a, fd, pos, j, rfl, h⟩ := h
  exact ⟨b, e', a ++ [e], fd, pos, j, by simp, h⟩

theorem run_snoc (content : Bytes) (n : Nat) (es : List Event) (e : Event) :
    Obj.new.run (some content) n (es ++ [e]) = (Obj.new.run (some content) n es).step (some content) n e := by
  simp [Obj.run, List.foldl_append]

/-- The file of a reader is closed, or the reader failed, only because it was disturbed. -/
theorem disturbed_of_closed (content : Bytes) (n i : Nat) : ∀ es : List Event,
    (∀ fd pos, (Obj.new.run (some content) n es).readers i = .reading fd pos → fd ∈ (Obj.new.run (some content) n es).closed →
        Disturbed content n es i) ∧
    (∀ x, (Obj.new.run (some content) n es).readers i = .failed x → Disturbed content n es i) := by
  intro es
  obtain ⟨rs, rfl⟩ : ∃ rs : List Event, es = rs.reverse := ⟨es.reverse, by simp⟩
  induction rs with
  | nil => simp [Obj.run, Obj.new]
  | cons e rs ih =>
    rw [List.reverse_cons]
    generalize rs.reverse = es at ih ⊢
    rw [run_snoc]
    have hs := sound_run content n es
    generalize ho : Obj.new.run (some content) n es = o at hs ih
    have hother : ∀ j, j ≠ i → (e = .next j ∨ e = .drop j) →
        (∀ fd pos, (o.step (some content) n e).readers i = .reading fd pos → fd ∈ (o.step (some content) n e).closed →
          Disturbed content n (es ++ [e]) i) ∧
        (∀ x, (o.step (some content) n e).readers i = .failed x → Disturbed content n (es ++ [e]) i) := by
      intro j hj he
      have hk := step_keep (content := content) (n := n) (o := o) hj he
      rw [hk]
      refine ⟨fun fd pos hi hc => ?_, fun x hi => (ih.2 x hi).more e⟩
      rcases (step_other hs hi hj he).2 hc with h | ⟨h1, h2⟩
      · exact (ih.1 fd pos hi h).more e
      · exact ⟨es, e, [], fd, pos, j, rfl, by rw [ho]; exact hi, by rw [ho]; exact h1, hj, by rw [ho]; exact h2⟩
    cases e with
    | next j =>
      by_cases hj : j = i
      · subst hj
        cases hjr : o.readers j with
        | reading fd pos =>
          have hstep : o.step (some content) n (.next j) = o.round content n j fd pos := by
            unfold Obj.step; dsimp only; rw [hjr]
          rw [hstep]
          by_cases hc : fd ∈ o.closed
          · have := (ih.1 fd pos hjr hc).more (.next j)
            exact ⟨fun _ _ _ _ => this, fun _ _ => this⟩
          · unfold Obj.round
            rw [if_neg hc]
            dsimp only
            split
            · rw [finish_self hs hjr]
              exact ⟨by simp, by simp⟩
            · rw [set_readers, if_pos rfl]
              refine ⟨fun fd' pos' he hc' => ?_, by simp⟩
              cases he
              exact absurd hc' hc
        | fresh =>
          have hstep : o.step (some content) n (.next j) =
              (({ o with opened := o.opened + 1, last := some o.opened }).set j (.reading o.opened 0)).round content n j o.opened 0 := by
            unfold Obj.step; dsimp only; rw [hjr]
          rw [hstep]
          have hc : o.opened ∉ (({ o with opened := o.opened + 1, last := some o.opened } : Obj).set j (.reading o.opened 0)).closed :=
            fun h => Nat.lt_irrefl _ (hs.closed _ h)
          unfold Obj.round
          rw [if_neg hc]
          dsimp only
          split
          · rw [finish_self (sound_open hs j hjr) (fd := o.opened) (pos := 0) (by simp)]
            exact ⟨by simp, by simp⟩
          · rw [set_readers, if_pos rfl]
            refine ⟨fun fd' pos' he hc' => ?_, by simp⟩
            cases he
            exact absurd hc' hc
        | ended => unfold Obj.step; dsimp only; rw [hjr]; dsimp only; rw [hjr]; exact ⟨by simp, by simp⟩
        | dropped => unfold Obj.step; dsimp only; rw [hjr]; dsimp only; rw [hjr]; exact ⟨by simp, by simp⟩
        | failed y =>
          have := (ih.2 y hjr).more (.next j)
          exact ⟨fun _ _ _ _ => this, fun _ _ => this⟩
      · exact hother j hj (.inl rfl)
    | drop j =>
      by_cases hj : j = i
      · subst hj
        cases hjr : o.readers j with
        | reading fd pos =>
          have hstep : o.step (some content) n (.drop j) = (o.closeFile fd).finish j .dropped := by
            unfold Obj.step; dsimp only; rw [hjr]
          rw [hstep, finish_self hs hjr]
          exact ⟨by simp, by simp⟩
        | fresh => unfold Obj.step; dsimp only; rw [hjr]; dsimp only; rw [set_readers, if_pos rfl]; exact ⟨by simp, by simp⟩
        | ended => unfold Obj.step; dsimp only; rw [hjr]; dsimp only; rw [hjr]; exact ⟨by simp, by simp⟩
        | dropped => unfold Obj.step; dsimp only; rw [hjr]; dsimp only; rw [hjr]; exact ⟨by simp, by simp⟩
        | failed y =>
          have := (ih.2 y hjr).more (.drop j)
          exact ⟨fun _ _ _ _ => this, fun _ _ => this⟩
      · exact hother j hj (.inr rfl)

/-- **C87** (partial): a reader of an archived file only ever fails if another reader of the same file came to its end, was thrown
away or failed while the file that this reader uses was the one opened last.  That it then does fail when it is asked
again is part of `C87_ends_iff`. -/
theorem C87_undisturbed_partial (content : Bytes) (n : Nat) (es : List Event) (i : Nat) (x : PyErr)
    (hf : (Obj.new.run (some content) n es).readers i = .failed x) : Disturbed content n es i :=
  (disturbed_of_closed content n i es).2 x hf

theorem run_append (content : Bytes) (n : Nat) (o : Obj) (es fs : List Event) :
    o.run (some content) n (es ++ fs) = (o.run (some content) n es).run (some content) n fs := by
  simp [Obj.run, List.foldl_append]

theorem run_ended (content : Bytes) (n i : Nat) : ∀ k (o : Obj), o.readers i = .ended →
    (o.run (some content) n (List.replicate k (.next i))).readers i = .ended := by
  intro k
  induction k with
  | zero => exact fun o h => h
  | succ k ih =>
    intro o h
    have : o.step (some content) n (.next i) = o := by unfold Obj.step; dsimp only; rw [h]
    show ((o.step (some content) n (.next i)).run (some content) n (List.replicate k (.next i))).readers i = .ended
    rw [this]; exact ih o h

theorem run_round (content : Bytes) (n i : Nat) : ∀ k (o : Obj) fd pos, Sound content n o → o.readers i = .reading fd pos → fd ∉ o.closed →
    (∀ o' pos', Sound content n o' → o'.readers i = .reading fd pos' → fd ∉ o'.closed → pos < pos' →
      (o'.run (some content) n (List.replicate k (.next i))).readers i = .ended) →
    ((o.round content n i fd pos).run (some content) n (List.replicate k (.next i))).readers i = .ended := by
  intro k o fd pos hs hr hc hcont
  have hs' := sound_round hs i fd pos hr
  unfold Obj.round at hs' ⊢
  rw [if_neg hc] at hs' ⊢
  dsimp only at hs' ⊢
  split
  · exact run_ended content n i k _ (finish_self hs hr _)
  · next hb =>
    rw [if_neg hb] at hs'
    refine hcont _ _ hs' (by rw [set_readers, if_pos rfl]) hc ?_
    have := List.length_pos_iff.2 hb
    omega

/-- A reader whose file is open comes to its end. -/
theorem run_reading (content : Bytes) (n i : Nat) : ∀ k (o : Obj) fd pos, Sound content n o → o.readers i = .reading fd pos → fd ∉ o.closed → content.length - pos < k →
    (o.run (some content) n (List.replicate k (.next i))).readers i = .ended := by
  intro k
  induction k with
  | zero => intro o fd pos _ _ _ h; omega
  | succ k ih =>
    intro o fd pos hs hr hc hlt
    have hstep : o.step (some content) n (.next i) = o.round content n i fd pos := by unfold Obj.step; dsimp only; rw [hr]
    show ((o.step (some content) n (.next i)).run (some content) n (List.replicate k (.next i))).readers i = .ended
    rw [hstep]
    by_cases hp : pos < content.length
    · exact run_round content n i k o fd pos hs hr hc fun o' pos' h1 h2 h3 h4 => ih o' fd pos' h1 h2 h3 (by omega)
    · refine run_round content n i k o fd pos hs hr hc fun o' pos' h1 h2 h3 h4 => ?_
      have := (h1.own i fd pos' h2).2.2
      omega

/-- **C87** (partial): a reader that is asked on and on without anything happening in between comes to its end. -/
theorem C87_alone_partial (content : Bytes) (n : Nat) (hn : 0 < n) (es : List Event) (i : Nat)
    (hi : (Obj.new.run (some content) n es).readers i = .fresh) (k : Nat) (hk : content.length < k) :
    (Obj.new.run (some content) n (es ++ List.replicate k (.next i))).readers i = .ended := by
  rw [run_append]
  have hs := sound_run content n es
  generalize Obj.new.run (some content) n es = o at hi hs
  cases k with
  | zero => omega
  | succ k =>
    have hstep : o.step (some content) n (.next i) =
        (({ o with opened := o.opened + 1, last := some o.opened }).set i (.reading o.opened 0)).round content n i o.opened 0 := by
      unfold Obj.step; dsimp only; rw [hi]
    show ((o.step (some content) n (.next i)).run (some content) n (List.replicate k (.next i))).readers i = .ended
    rw [hstep]
    exact run_round content n i k _ _ _ (sound_open hs i hi) (by simp) (fun h => Nat.lt_irrefl _ (hs.closed _ h))
      fun o' pos' h1 h2 h3 h4 => run_reading content n i k o' _ pos' h1 h2 h3 (by have := (h1.own i _ pos' h2).2.2; omega)

example : (Obj.new.run (some [1, 2, 3]) 2 []).readers 0 = .fresh ∧
    (Obj.new.run (some [1, 2, 3]) 2 (List.replicate 4 (.next 0))).got 0 = [[1, 2], [3]] := by decide

/-- C87 is false: of two readers of the same file the one that ends first takes the other's file with it. -/
theorem C87_two_readers_counterexample :
    (Obj.new.run (some [1, 2]) 1 [.next 0, .next 1, .next 0, .next 0, .next 1]).readers 0 = .ended ∧
    (Obj.new.run (some [1, 2]) 1 [.next 0, .next 1, .next 0, .next 0, .next 1]).readers 1 = .failed .valueError ∧
    (Obj.new.run (some [1, 2]) 1 [.next 0, .next 1, .next 0, .next 0, .next 1]).got 1 = [[1]] := by
  decide

/-! ## C88 -/

/-- Paths outside: from the root. -/
def absolute (p : List Str) : Pure := ⟨['/'], p.reverse⟩

/-- **C88**: below a path in an archive exactly the archived descendants are listed, and all of them lie below that path; what has
an absolute name in the archive is not among them. -/
theorem C88_below (d : Disk) (p : List Str) (l : List Pure) (h : zipRchildren d p = .ok (some l)) :
    ∃ names z rel, p = rel ++ z ∧ d z = .zip names ∧
      (∀ q, q ∈ l ↔ ∃ rest, rest ≠ [] ∧ InTree names ⟨[], rel.reverse ++ rest⟩ ∧ q = ⟨['/'], p.reverse ++ rest⟩) ∧
      ∀ q ∈ l, Above (absolute p) q := by
  unfold zipRchildren at h
  cases hz : zipPath d p with
  | error e => rw [hz] at h; cases h
  | ok o =>
    cases o with
    | none => rw [hz] at h; cases h
    | some z =>
      obtain ⟨⟨rel, hrel⟩, names, hd⟩ := zipPath_some hz
      rw [hz] at h
      dsimp only at h
      rw [hd] at h
      simp only [Except.ok.injEq, Option.some.injEq] at h
      have ht : p.take (p.length - z.length) = rel := by
        rw [← hrel]; simp
      rw [ht] at h
      have hmem : ∀ q, q ∈ l ↔ ∃ rest, rest ≠ [] ∧ InTree names ⟨[], rel.reverse ++ rest⟩ ∧ q = ⟨['/'], p.reverse ++ rest⟩ := by
        intro q
        rw [← h, List.mem_map]
        simp only [rchildren, List.mem_filter, mem_members, List.contains_iff_mem, mem_parents]
        constructor
        · rintro ⟨c, ⟨hc, hr, n, ns, hcs⟩, rfl⟩
          obtain ⟨cr, cc⟩ := c
          dsimp only at hr hcs
          subst hr
          subst hcs
          refine ⟨n :: ns, by simp, hc, ?_⟩
          rw [if_pos rfl, ← hrel]
          simp
        · rintro ⟨rest, hne, ht, rfl⟩
          obtain ⟨n, ns, rfl⟩ := List.exists_cons_of_ne_nil hne
          refine ⟨_, ⟨ht, rfl, n, ns, rfl⟩, ?_⟩
          rw [if_pos rfl, ← hrel]
          simp
      refine ⟨names, z, rel, hrel.symm, hd, hmem, fun q hq => ?_⟩
      obtain ⟨rest, hne, -, rfl⟩ := (hmem q).1 hq
      obtain ⟨n, ns, rfl⟩ := List.exists_cons_of_ne_nil hne
      exact ⟨rfl, n, ns, rfl⟩

/-- **C88**: what is read through a path in an archive is the content of the first entry with that name, and it is read exactly if
the path is neither a directory of the archive nor missing from it. -/
theorem C88_read (d : Disk) (content : List Str → Str → Bytes) (p : List Str) (b : Bytes) :
    zipRead d content p = .ok (some b) ↔
      ∃ names z rel before n after, zipPath d p = .ok (some z) ∧ p = rel ++ z ∧ d z = .zip names ∧ names = before ++ n :: after ∧
        parse n = ⟨[], rel.reverse⟩ ∧ (∀ m ∈ before, parse m ≠ ⟨[], rel.reverse⟩) ∧ n.getLast? ≠ some '/' ∧
        (∀ m ∈ names, ¬ Above ⟨[], rel.reverse⟩ (parse m)) ∧ b = content z n := by
  have hinfo : ∀ names (q : Pure) before n after, names = before ++ n :: after → parse n = q → (∀ m ∈ before, parse m ≠ q) →
      isDir names q = false → (obj names q).info = some n := by
    intro names q before n after hn hq hb hdir
    have h1 := (C65_file_iff names q).1 hdir
    have hx := obj_info names q h1.1
    rw [hx, hn, List.find?_append, List.find?_eq_none.2 (by intro m hm; simpa using hb m hm), Option.none_or, List.find?_cons]
    simp [hq]
  unfold zipRead
  constructor
  · intro h
    cases hz : zipPath d p with
    | error e => rw [hz] at h; cases h
    | ok o =>
      cases o with
      | none => rw [hz] at h; cases h
      | some z =>
        obtain ⟨⟨rel, hrel⟩, names, hd⟩ := zipPath_some hz
        rw [hz] at h
        dsimp only at h
        rw [hd] at h
        have ht : p.take (p.length - z.length) = rel := by rw [← hrel]; simp
        rw [ht] at h
        dsimp only at h
        unfold entryOf at h
        cases hdir : isDir names ⟨[], rel.reverse⟩ with
        | true => rw [hdir] at h; cases h
        | false =>
          rw [hdir] at h
          obtain ⟨h1, before, n, after, h2, h3, h4, h5⟩ := (C65_file_iff names _).1 hdir
          rw [hinfo names _ before n after h2 h3 h4 hdir] at h
          simp only [Bool.false_eq_true, if_false, Option.map_some, Except.ok.injEq, Option.some.injEq] at h
          exact ⟨names, z, rel, before, n, after, rfl, hrel.symm, hd, h2, h3, h4, h5, h1, h.symm⟩
  · rintro ⟨names, z, rel, before, n, after, hz, hrel, hd, h2, h3, h4, h5, h1, rfl⟩
    have ht : p.take (p.length - z.length) = rel := by rw [hrel]; simp
    have hdir := (C65_file_iff names _).2 ⟨h1, before, n, after, h2, h3, h4, h5⟩
    rw [hz]
    dsimp only
    rw [hd, ht]
    dsimp only
    rw [entryOf, hdir, hinfo names _ before n after h2 h3 h4 hdir]
    rfl

example : zipRchildren sampleDisk [lit "a", lit "x.zip"] = .ok (some [⟨['/'], [lit "x.zip", lit "a", lit "b"]⟩]) ∧
    zipRead sampleDisk (fun _ _ => [7]) [lit "b", lit "a", lit "x.zip"] = .ok (some [7]) ∧
    zipRead sampleDisk (fun _ _ => [7]) [lit "a", lit "x.zip"] = .error .isADirectoryError := by
  decide +kernel

/-- **C88**: a path in an archive that cannot be read is refused with an `IsADirectoryError`, whether it is a directory or missing. -/
theorem C88_refused (d : Disk) (content : List Str → Str → Bytes) (p z : List Str) (h : zipPath d p = .ok (some z)) :
    (∃ b, zipRead d content p = .ok (some b)) ∨ zipRead d content p = .error .isADirectoryError := by
  obtain ⟨-, names, hd⟩ := zipPath_some h
  unfold zipRead
  rw [h]
  dsimp only
  rw [hd]
  dsimp only
  split
  · exact .inl ⟨_, rfl⟩
  · exact .inr rfl

variable {content : Bytes} {n : Nat}

/-- Files stay closed. -/
theorem step_closed (o : Obj) (e : Event) {fd : Nat} (h : fd ∈ o.closed) : fd ∈ (o.step (some content) n e).closed := by
  have round : ∀ (o : Obj) i f pos, fd ∈ o.closed → fd ∈ (o.round content n i f pos).closed := by
    intro o i f pos h
    unfold Obj.round
    split
    · rw [finish_closed]; exact .inr (.inl h)
    · dsimp only
      split
      · rw [finish_closed]; exact .inr (.inl h)
      · exact h
  cases e with
  | next j =>
    unfold Obj.step
    dsimp only
    split
    · exact round _ _ _ _ h
    · exact round _ _ _ _ h
    · exact h
  | drop j =>
    unfold Obj.step
    dsimp only
    split
    · exact h
    · rw [finish_closed]; exact .inr (.inl h)
    · exact h

/-- A reader that stops closes the file that was opened last. -/
theorem stops_closes (o : Obj) {e : Event} {j fd : Nat} (h : Stops content n o e j) (hl : o.last = some fd) :
    (e = .next j ∨ e = .drop j) ∧ fd ∈ (o.step (some content) n e).closed := by
  obtain ⟨⟨f, pos, hj⟩, hd⟩ := h
  have hne : ∀ k, e = .next k ∨ e = .drop k → k = j := by
    intro k he
    by_cases hk : k = j
    · exact hk
    · rw [step_keep hk he, hj] at hd
      exact hd.elim
  cases e with
  | next k =>
    have := hne k (.inl rfl)
    subst this
    refine ⟨.inl rfl, ?_⟩
    have hs : o.step (some content) n (.next k) = o.round content n k f pos := by unfold Obj.step; dsimp only; rw [hj]
    rw [hs] at hd ⊢
    unfold Obj.round at hd ⊢
    split
    · rw [finish_closed]; exact .inr (.inr hl)
    · next hc =>
      rw [if_neg hc] at hd
      dsimp only at hd ⊢
      split
      · rw [finish_closed]; exact .inr (.inr hl)
      · next hb =>
        rw [if_neg hb, set_readers, if_pos rfl] at hd
        exact hd.elim
  | drop k =>
    have := hne k (.inr rfl)
    subst this
    refine ⟨.inr rfl, ?_⟩
    have hs : o.step (some content) n (.drop k) = (o.closeFile f).finish k .dropped := by unfold Obj.step; dsimp only; rw [hj]
    rw [hs, finish_closed]
    exact .inr (.inr hl)

/-- A reader that lost its file, or is over without having come to its end. -/
def Lost (o : Obj) (i : Nat) : Prop :=
  (∃ fd pos, o.readers i = .reading fd pos ∧ fd ∈ o.closed) ∨ o.readers i = .failed .valueError ∨ o.readers i = .dropped

theorem lost_step {o : Obj} (hs : Sound content n o) {i : Nat} (h : Lost o i) (e : Event) : Lost (o.step (some content) n e) i := by
  have other : ∀ j, j ≠ i → (e = .next j ∨ e = .drop j) → Lost (o.step (some content) n e) i := by
    intro j hj he
    unfold Lost
    rw [step_keep hj he]
    rcases h with ⟨fd, pos, h1, h2⟩ | h
    · exact .inl ⟨fd, pos, h1, step_closed o e h2⟩
    · exact .inr h
  cases e with
  | next j =>
    by_cases hj : j = i
    · subst hj
      rcases h with ⟨fd, pos, h1, h2⟩ | h | h
      · have : o.step (some content) n (.next j) = (o.closeFile fd).finish j (.failed .valueError) := by
          unfold Obj.step; dsimp only; rw [h1]; dsimp only; rw [Obj.round, if_pos h2]
        rw [this]
        exact .inr (.inl (finish_self hs h1 _))
      · have : o.step (some content) n (.next j) = o := by unfold Obj.step; dsimp only; rw [h]
        rw [this]; exact .inr (.inl h)
      · have : o.step (some content) n (.next j) = o := by unfold Obj.step; dsimp only; rw [h]
        rw [this]; exact .inr (.inr h)
    · exact other j hj (.inl rfl)
  | drop j =>
    by_cases hj : j = i
    · subst hj
      rcases h with ⟨fd, pos, h1, h2⟩ | h | h
      · have : o.step (some content) n (.drop j) = (o.closeFile fd).finish j .dropped := by
          unfold Obj.step; dsimp only; rw [h1]
        rw [this]
        exact .inr (.inr (finish_self hs h1 _))
      · have : o.step (some content) n (.drop j) = o := by unfold Obj.step; dsimp only; rw [h]
        rw [this]; exact .inr (.inl h)
      · have : o.step (some content) n (.drop j) = o := by unfold Obj.step; dsimp only; rw [h]
        rw [this]; exact .inr (.inr h)
    · exact other j hj (.inr rfl)

theorem lost_run (es fs : List Event) {i : Nat} (h : Lost (Obj.new.run (some content) n es) i) :
    Lost (Obj.new.run (some content) n (es ++ fs)) i := by
  induction fs generalizing es with
  | nil => simpa using h
  | cons f fs ih =>
    have := ih (es ++ [f]) (by rw [run_snoc]; exact lost_step (sound_run content n es) h f)
    simpa using this

theorem lost_of_disturbed {es : List Event} {i : Nat} (h : Disturbed content n es i) : Lost (Obj.new.run (some content) n es) i := by
  obtain ⟨before, e, after, fd, pos, j, rfl, h1, h2, h3, h4⟩ := h
  obtain ⟨he, hc⟩ := stops_closes _ h4 h2
  have : Lost (Obj.new.run (some content) n (before ++ [e])) i := by
    rw [run_snoc]
    exact .inl ⟨fd, pos, by rw [step_keep h3 he]; exact h1, hc⟩
  simpa using lost_run (before ++ [e]) after this

/-- **C87**, the law: a reader that nobody has thrown away and that has not come to its end does come to its end when it is asked on and
on, if and only if it was not disturbed; a reader that was disturbed fails with a `ValueError` the next time it is asked. -/
theorem C87_ends_iff (content : Bytes) (n : Nat) (hn : 0 < n) (es : List Event) (i : Nat)
    (hi : (Obj.new.run (some content) n es).readers i = .fresh ∨ ∃ fd pos, (Obj.new.run (some content) n es).readers i = .reading fd pos)
    (k : Nat) (hk : content.length < k) :
    ((Obj.new.run (some content) n (es ++ List.replicate k (.next i))).readers i = .ended ↔ ¬ Disturbed content n es i) ∧
    (Disturbed content n es i → (Obj.new.run (some content) n (es ++ [.next i])).readers i = .failed .valueError) := by
  have hs := sound_run content n es
  refine ⟨⟨fun h hd => ?_, fun hd => ?_⟩, fun hd => ?_⟩
  · rcases lost_run es (List.replicate k (.next i)) (lost_of_disturbed hd) with ⟨fd, pos, h1, -⟩ | h1 | h1 <;> rw [h] at h1 <;> cases h1
  · rcases hi with hi | ⟨fd, pos, hi⟩
    · exact C87_alone_partial content n hn es i hi k hk
    · rw [run_append]
      refine run_reading content n i k _ fd pos hs hi (fun hc => hd ((disturbed_of_closed content n i es).1 fd pos hi hc)) ?_
      omega
  · rw [run_snoc]
    rcases lost_of_disturbed hd with ⟨fd, pos, h1, h2⟩ | h1 | h1
    · have : (Obj.new.run (some content) n es).step (some content) n (.next i) =
          ((Obj.new.run (some content) n es).closeFile fd).finish i (.failed .valueError) := by
        unfold Obj.step; dsimp only; rw [h1]; dsimp only; rw [Obj.round, if_pos h2]
      rw [this]
      exact finish_self hs h1 _
    · rcases hi with hi | ⟨fd, pos, hi⟩ <;> rw [hi] at h1 <;> cases h1
    · rcases hi with hi | ⟨fd, pos, hi⟩ <;> rw [hi] at h1 <;> cases h1

/-- A reader that was disturbed, in the middle of the content. -/
example : Disturbed [1, 2] 1 [.next 0, .next 1, .drop 0] 1 ∧
    (Obj.new.run (some [1, 2]) 1 [.next 0, .next 1, .drop 0]).readers 1 = .reading 1 1 := by
  refine ⟨⟨[.next 0, .next 1], .drop 0, [], 1, 1, 0, rfl, by decide, by decide, by decide, ⟨0, 1, by decide⟩, ?_⟩, by decide⟩
  show Done (((Obj.new.run (some [1, 2]) 1 [.next 0, .next 1]).step (some [1, 2]) 1 (.drop 0)).readers 0)
  rw [show ((Obj.new.run (some [1, 2]) 1 [.next 0, .next 1]).step (some [1, 2]) 1 (.drop 0)).readers 0 = .dropped by decide]
  trivial

end Verif.Zip
