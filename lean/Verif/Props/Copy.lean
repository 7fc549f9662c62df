import Verif.Model.Copy
import Verif.Lemmas.FS
import Verif.Lemmas.Rmtree
import Verif.Lemmas.Decide

/-!
# C10: Copying
-/

namespace Verif.FS
open Verif.Spec

/-! ## Opening for writing -/

/-- A tree with a file at one place. -/
def withFileAt (t : Tree) (q : Path) (b : Bytes) : Tree := fun r => if r = q then some (.file b) else t r

/-- Nothing or a file is there. -/
def Writable (t : Tree) (q : Path) : Prop := t q = none ∨ ∃ b, t q = some (.file b)

theorem walkNew_put {L : Limits} {t : Tree} {x : Bytes} {q : Path} (hq : Writable t q) (b : Nat) (cur : Path) (rest : List Name)
    (h : walkNew L t b cur rest = .ok q) : walk L (withFileAt t q x) b cur rest = .ok q := by
  have hdir : ∀ {c : Path}, t c = some (.dir true) → withFileAt t q x c = some (.dir true) := by
    intro c hc
    unfold withFileAt
    rw [if_neg]
    · exact hc
    · rintro rfl
      rcases hq with hq | ⟨y, hq⟩ <;> rw [hc] at hq <;> simp at hq
  fun_induction walkNew L t b cur rest with
  | case1 b cur =>
    simp only [Except.ok.injEq] at h
    rw [walk_nil, h]
  | case2 => simp at h
  | case3 => simp at h
  | case4 b cur rest hc ih => rw [walk_dot (hdir hc)]; exact ih h
  | case5 b cur rest hc _ ih => rw [walk_up (hdir hc)]; exact ih h
  | case6 => simp at h
  | case7 b cur n hc h1 h2 h3 hx =>
    simp only [Except.ok.injEq] at h
    rw [walk_down (x := .file x) (hdir hc) ⟨h1, h2, Nat.not_lt.1 h3⟩ (by simp [withFileAt, h]) (by simp), walk_nil, h]
  | case8 => simp at h
  | case9 => simp at h
  | case10 cur n rest hc h1 h2 h3 l hx b ih =>
    rw [walk_follow (hdir hc) ⟨h1, h2, Nat.not_lt.1 h3⟩ (l := l)]
    · exact ih h
    · unfold withFileAt
      rw [if_neg, hx]
      rintro rfl
      rcases hq with hq | ⟨y, hq⟩ <;> rw [hx] at hq <;> simp at hq
  | case11 b cur n rest hc h1 h2 h3 x' hl hx ih =>
    by_cases he : cur ++ [n] = q
    · rw [walk_down (x := .file x) (hdir hc) ⟨h1, h2, Nat.not_lt.1 h3⟩ (by simp [withFileAt, he]) (by simp)]
      exact ih h
    · rw [walk_down (x := x') (hdir hc) ⟨h1, h2, Nat.not_lt.1 h3⟩ (by simp [withFileAt, he, hx]) (fun l => by rintro rfl; exact hl l rfl)]
      exact ih h
  | case12 => simp at h

theorem walkNew_some {L : Limits} {t : Tree} {q : Path} (hq : t q ≠ none) (b : Nat) (cur : Path) (rest : List Name)
    (h : walkNew L t b cur rest = .ok q) : walk L t b cur rest = .ok q := by
  fun_induction walkNew L t b cur rest with
  | case1 b cur => rw [walk_nil]; exact h
  | case2 => simp at h
  | case3 => simp at h
  | case4 b cur rest hc ih => rw [walk_dot hc]; exact ih h
  | case5 b cur rest hc _ ih => rw [walk_up hc]; exact ih h
  | case6 => simp at h
  | case7 b cur n hc h1 h2 h3 hx =>
    simp only [Except.ok.injEq] at h
    exact absurd (h ▸ hx) hq
  | case8 => simp at h
  | case9 => simp at h
  | case10 cur n rest hc h1 h2 h3 l hx b ih =>
    rw [walk_follow hc ⟨h1, h2, Nat.not_lt.1 h3⟩ hx]
    exact ih h
  | case11 b cur n rest hc h1 h2 h3 x' hl hx ih =>
    rw [walk_down hc ⟨h1, h2, Nat.not_lt.1 h3⟩ hx (fun l => by rintro rfl; exact hl l rfl)]
    exact ih h
  | case12 => simp at h

/-- What `lstat` sees, `exists()` or `is_symlink()` see. -/
theorem seen {L : Limits} {t : Tree} {cwd : Path} {p : UserPath} {x : Node} (h : lstat L t cwd p = .ok x) :
    pathExists L t cwd p = .ok true ∨ isSymlink L t cwd p = .ok true := by
  by_cases hl : ∃ l, x = .link l
  · obtain ⟨l, rfl⟩ := hl
    right
    rw [isSymlink, h]
    rfl
  · left
    rw [pathExists, test_true_iff]
    refine ⟨x, ?_, rfl⟩
    have hnode : ∀ q, node t q = .ok x → t q = some x := by
      intro q hq
      unfold node at hq
      split at hq <;> simp at hq
      rename_i h; rw [h, hq]
    unfold lstat at h
    split at h
    · rename_i hc
      unfold stat
      rw [List.getLast?_eq_none_iff.1 hc, walk_nil]
      exact h
    · rename_i n hn
      split at h
      · exact h
      · rename_i hdot
        rw [not_or] at hdot
        have hsplit : p.comps = p.comps.dropLast ++ [n] := by
          obtain ⟨ys, hys⟩ := List.getLast?_eq_some_iff.1 hn
          rw [hys, List.dropLast_concat]
        split at h
        · simp at h
        · rename_i m hw
          obtain ⟨k, hk, hle⟩ := (walk_ok_iff ..).1 hw
          split at h
          · simp at h
          · simp at h
          · rename_i hm
            split at h
            · simp at h
            · rename_i hlen
              have hx := hnode _ h
              unfold stat
              rw [hsplit, walk_append hk hle, walk_down hm ⟨hdot.1, hdot.2, Nat.not_lt.1 hlen⟩ hx (fun l he => hl ⟨l, he⟩), walk_nil]
              exact h
          · simp at h

/-! ## The loop -/

/-- The disk differs from `d0` at most at `q`. -/
def Beside (q : Path) (d0 d : Disk Node) : Prop := ∀ r, r ≠ q → d.at_ r = d0.at_ r

theorem Beside.put {q : Path} {d0 d : Disk Node} (h : Beside q d0 d) (x : Node) : Beside q d0 (d.put q x) := by
  intro r hr
  rw [Disk.at_put, if_neg hr, h r hr]

/-- A call fails. -/
def Fails (E : Env) : Prop := ∃ n e, E.F n = some e

theorem write_hoare (E : Env) {q : Path} {d0 : Disk Node} {b c : Bytes} :
    Hoare (fun d => Beside q d0 d ∧ d.at_ q = some (.file b)) (E.write q c)
      (fun _ d => Beside q d0 d ∧ d.at_ q = some (.file (b ++ c))) (fun _ d => Beside q d0 d ∧ Fails E) := by
  refine .act_err ?_ ?_
  · rintro d d' ⟨h1, h2⟩ h
    simp only [h2, Except.ok.injEq] at h
    subst h
    exact ⟨h1.put _, by rw [Disk.at_put, if_pos rfl]⟩
  · rintro e d ⟨h1, h2⟩ (⟨n, hn⟩ | h)
    · exact ⟨h1, n, e, hn⟩
    · simp [h2] at h

/-- Copying from another place. -/
theorem pump_hoare (E : Env) {n : Nat} (hn : 0 < n) {src dst : Path} (hne : src ≠ dst) {d0 : Disk Node} {b : Bytes}
    (hsrc : d0.at_ src = some (.file b)) : ∀ (fuel pos : Nat), pos ≤ b.length →
    Hoare (fun d => Beside dst d0 d ∧ d.at_ dst = some (.file (b.take pos))) (E.pump n src dst fuel pos)
      (fun _ d => Beside dst d0 d ∧ d.at_ dst = some (.file b)) (fun _ d => Beside dst d0 d ∧ (Fails E ∨ fuel ≤ b.length - pos))
  | 0, _, _ => .throw_ fun _ h => ⟨h.1, .inr (Nat.zero_le _)⟩
  | fuel + 1, pos, hpos => by
    unfold Env.pump
    refine .bind_ (Q := fun c d => c = (b.drop pos).take n ∧ Beside dst d0 d ∧ d.at_ dst = some (.file (b.take pos))) (.look_err ?_ ?_)
      fun c => .of_pre fun hc => ?_
    · rintro d a ⟨h1, h2⟩ h
      rw [h1 _ hne, hsrc] at h
      simp only [Except.ok.injEq] at h
      exact ⟨h.symm, h1, h2⟩
    · rintro e d ⟨h1, h2⟩ (⟨n, hn⟩ | h)
      · exact ⟨h1, .inl ⟨n, e, hn⟩⟩
      · rw [h1 _ hne, hsrc] at h; simp at h
    refine .ite_ (fun h => .pure_ ?_) (fun h => ?_)
    · rintro d ⟨h1, h2⟩
      refine ⟨h1, ?_⟩
      have : b.length ≤ pos := by
        rw [h] at hc
        have := congrArg List.length hc
        simp only [List.length_nil, List.length_take, List.length_drop] at this
        omega
      rw [h2, List.take_of_length_le this]
    · refine .bind_ (Q := fun _ d => Beside dst d0 d ∧ d.at_ dst = some (.file (b.take pos ++ c)))
        ((write_hoare E).mono (fun _ h => h) (fun _ _ h => h) (fun _ _ h => ⟨h.1, .inl h.2⟩)) fun _ => ?_
      have hpos' : 0 < c.length := List.length_pos_iff.2 h
      have hlen : pos + c.length ≤ b.length := by
        rw [hc, List.length_take, List.length_drop]
        omega
      have htake : b.take pos ++ c = b.take (pos + c.length) := by
        rw [List.take_add, hc, List.length_take, List.take_eq_take_min]
        simp
      rw [htake]
      exact (pump_hoare E hn hne hsrc fuel _ hlen).mono (fun _ h => h) (fun _ _ h => h) (fun _ _ h => ⟨h.1, h.2.imp_right fun h => by omega⟩)

/-- Copying onto itself: the reader is at the end of what was written. -/
theorem pump_self (E : Env) {n : Nat} {q : Path} {d0 : Disk Node} {c : Bytes} : ∀ (fuel : Nat),
    Hoare (fun d => Beside q d0 d ∧ d.at_ q = some (.file c)) (E.pump n q q fuel c.length)
      (fun _ d => Beside q d0 d ∧ d.at_ q = some (.file c)) (fun _ d => Beside q d0 d ∧ (Fails E ∨ fuel = 0))
  | 0 => .throw_ fun _ h => ⟨h.1, .inr rfl⟩
  | fuel + 1 => by
    unfold Env.pump
    refine .bind_ (Q := fun x d => x = [] ∧ Beside q d0 d ∧ d.at_ q = some (.file c)) (.look_err ?_ ?_) fun x => .of_pre fun hx => ?_
    · rintro d a ⟨h1, h2⟩ h
      rw [h2] at h
      simp only [List.drop_length, List.take_nil, Except.ok.injEq] at h
      exact ⟨h.symm, h1, h2⟩
    · rintro e d ⟨h1, h2⟩ (⟨n, hn⟩ | h)
      · exact ⟨h1, .inl ⟨n, e, hn⟩⟩
      · rw [h2] at h; simp at h
    · rw [if_pos hx]
      exact .pure_ fun _ h => h

/-! ## The runs -/

theorem sys_err {ν α : Type} {F : Nat → Option PyErr} {P : Disk ν → Prop} {Q : α → Disk ν → Prop} {R : PyErr → Disk ν → Prop}
    {f : Disk ν → Except PyErr (α × Disk ν)} (hok : ∀ d a d', P d → f d = .ok (a, d') → Q a d')
    (herr : ∀ e d, P d → (∃ n, F n = some e) ∨ f d = .error e → R e d) :
    Hoare P (Prog.sys F f) Q R := by
  intro s hs
  simp only [Prog.sys]
  cases hf : F s.tick with
  | some e => exact herr e _ hs (.inl ⟨_, hf⟩)
  | none =>
    simp only
    cases h : f s.disk with
    | ok a => exact hok _ _ _ hs h
    | error e => exact herr e _ hs (.inr h)

/-- Where the target is opened. -/
def Env.opens (E : Env) (d : Disk Node) (p : UserPath) (q : Path) : Prop :=
  walkNew E.L d.at_ E.L.maxLinks (start E.cwd p.absolute) p.comps = .ok q ∧ Writable d.at_ q

theorem openWrite_hoare (E : Env) {p : UserPath} {d0 : Disk Node} :
    Hoare (fun d => d = d0) (E.openWrite p) (fun q d => E.opens d0 p q ∧ Beside q d0 d ∧ d.at_ q = some (.file []))
      (fun _ d => d = d0 ∧ (Fails E ∨ ∀ q, ¬ E.opens d0 p q)) := by
  refine sys_err ?_ ?_
  · rintro d a d' rfl h
    split at h
    · simp at h
    · rename_i q hq
      split at h
      · rename_i hx
        simp only [Except.ok.injEq, Prod.mk.injEq] at h
        obtain ⟨rfl, rfl⟩ := h
        exact ⟨⟨hq, .inl hx⟩, Beside.put (fun _ _ => rfl) _, by rw [Disk.at_put, if_pos rfl]⟩
      · rename_i b hx
        simp only [Except.ok.injEq, Prod.mk.injEq] at h
        obtain ⟨rfl, rfl⟩ := h
        exact ⟨⟨hq, .inr ⟨b, hx⟩⟩, Beside.put (fun _ _ => rfl) _, by rw [Disk.at_put, if_pos rfl]⟩
      · simp at h
      · simp at h
  · rintro e d rfl (⟨n, hn⟩ | h)
    · exact ⟨rfl, .inl ⟨n, e, hn⟩⟩
    · refine ⟨rfl, .inr ?_⟩
      rintro q ⟨h1, h2 | ⟨b, h2⟩⟩
      · simp [h1, h2] at h
      · simp [h1, h2] at h

/-- Where the source is and what is in it. -/
def Env.reads (E : Env) (d : Disk Node) (p : UserPath) (q : Path) (b : Bytes) : Prop :=
  walk E.L d.at_ E.L.maxLinks (start E.cwd p.absolute) p.comps = .ok q ∧ d.at_ q = some (.file b)

theorem openRead_hoare (E : Env) {p : UserPath} {d0 : Disk Node} :
    Hoare (fun d => d = d0) (E.openRead p) (fun q d => (∃ b, E.reads d0 p q b) ∧ d = d0)
      (fun _ d => d = d0 ∧ (Fails E ∨ ∀ q b, ¬ E.reads d0 p q b)) := by
  refine .look_err ?_ ?_
  · rintro d a rfl h
    split at h
    · simp at h
    · rename_i q hq
      split at h
      · rename_i b hx
        simp only [Except.ok.injEq] at h
        subst h
        exact ⟨⟨b, hq, hx⟩, rfl⟩
      · simp at h
      · simp at h
      · simp at h
  · rintro e d rfl (⟨n, hn⟩ | h)
    · exact ⟨rfl, .inl ⟨n, e, hn⟩⟩
    · refine ⟨rfl, .inr ?_⟩
      rintro q b ⟨h1, h2⟩
      simp [h1, h2] at h

/-- The guard as a question about the disk. -/
def Env.allows (E : Env) (d : Disk Node) (target : UserPath) (force : Bool) : Prop :=
  (pathExists E.L d.at_ E.cwd target = .ok true ∧ force = true) ∨
  pathExists E.L d.at_ E.cwd target = .ok false ∧
    (FS.isSymlink E.L d.at_ E.cwd target = .ok false ∨ FS.isSymlink E.L d.at_ E.cwd target = .ok true ∧ force = true)

theorem mayCopy_hoare (E : Env) {target : UserPath} {force : Bool} {d0 : Disk Node} :
    Hoare (fun d => d = d0) (E.mayCopy target force) (fun b d => (b = true ↔ E.allows d0 target force) ∧ d = d0)
      (fun _ d => d = d0 ∧ (Fails E ∨ ¬ E.allows d0 target force)) := by
  unfold Env.mayCopy
  refine .bind_ (Q := fun ex d => pathExists E.L d0.at_ E.cwd target = .ok ex ∧ d = d0) (.look_err ?_ ?_) fun ex => .of_pre fun hex => ?_
  · rintro d a rfl h
    exact ⟨h, rfl⟩
  · rintro e d rfl (⟨n, hn⟩ | h)
    · exact ⟨rfl, .inl ⟨n, e, hn⟩⟩
    · exact ⟨rfl, .inr (by simp [Env.allows, h])⟩
  refine .ite_ (fun he => .pure_ fun d h => ⟨?_, h⟩) fun he => ?_
  · subst he
    simp [Env.allows, hex]
  simp only [Bool.not_eq_true] at he
  subst he
  refine .bind_ (Q := fun b d => isSymlink E.L d0.at_ E.cwd target = .ok b ∧ d = d0) (.look_err ?_ ?_) fun b => .of_pre fun hb => ?_
  · rintro d a rfl h
    exact ⟨h, rfl⟩
  · rintro e d rfl (⟨n, hn⟩ | h)
    · exact ⟨rfl, .inl ⟨n, e, hn⟩⟩
    · exact ⟨rfl, .inr (by simp [Env.allows, hex, h])⟩
  refine .pure_ fun d h => ⟨?_, h⟩
  cases b <;> simp [Env.allows, hex, hb]

/-- How a run may end: `cut` is what is copied when the source and the target are the same file. -/
def Ended (E : Env) (src target : UserPath) (force : Bool) (cut : Bytes → Bytes) (d0 d : Disk Node) : Prop :=
  ∃ from_ to b, E.reads d0 src from_ b ∧ E.opens d0 target to ∧ (force = false → d0.at_ to = none) ∧ Beside to d0 d ∧
    d.at_ to = some (.file (if from_ = to then cut b else b))

/-- How a run may fail. -/
def Spoiled (E : Env) (target : UserPath) (force : Bool) (d0 d : Disk Node) : Prop :=
  d = d0 ∨ ∃ to, E.opens d0 target to ∧ (force = false → d0.at_ to = none) ∧ Beside to d0 d

/-- Nothing is in the way of a copy. -/
structure CopyReady (E : Env) (fuel : Nat) (src target : UserPath) (force : Bool) (d : Disk Node) : Prop where
  calls : ∀ n, E.F n = none
  guard : E.allows d target force
  source : ∃ q b, E.reads d src q b ∧ b ≠ [] ∧ b.length < fuel
  target : ∃ q, E.opens d target q

theorem CopyReady.fails {E : Env} {fuel : Nat} {src target : UserPath} {force : Bool} {d : Disk Node} (h : CopyReady E fuel src target force d) :
    ¬ Fails E := by
  rintro ⟨n, e, hn⟩
  rw [h.calls] at hn
  simp at hn

theorem reads_unique {E : Env} {d : Disk Node} {p : UserPath} {q q' : Path} {b b' : Bytes} (h : E.reads d p q b) (h' : E.reads d p q' b') :
    q' = q ∧ b' = b := by
  obtain ⟨h1, h2⟩ := h
  obtain ⟨h3, h4⟩ := h'
  rw [h1, Except.ok.injEq] at h3
  subst h3
  rw [h2, Option.some.injEq, Node.file.injEq] at h4
  exact ⟨rfl, h4.symm⟩

theorem free_of_guard (E : Env) {target : UserPath} {d0 : Disk Node} {to : Path} (ho : E.opens d0 target to)
    (h : pathExists E.L d0.at_ E.cwd target = .ok false) : d0.at_ to = none := by
  refine Classical.byContradiction fun hc => ?_
  have hw := walkNew_some hc _ _ _ ho.1
  unfold pathExists stat at h
  rw [hw] at h
  obtain ⟨x, hx⟩ := Option.ne_none_iff_exists'.1 hc
  simp [node, hx, test] at h

theorem allows_free (E : Env) {target : UserPath} {force : Bool} {d0 : Disk Node} (h : E.allows d0 target force) {to : Path}
    (ho : E.opens d0 target to) : force = false → d0.at_ to = none := by
  rintro rfl
  rcases h with ⟨-, h⟩ | ⟨h, -⟩
  · simp at h
  · exact free_of_guard E ho h

theorem copyLocal_hoare (E : Env) {n : Nat} (hn : 0 < n) (fuel : Nat) (src target : UserPath) (force : Bool) (d0 : Disk Node) :
    Hoare (fun d => d = d0) (E.copyLocal n fuel src target force)
      (fun _ d => Ended E src target force (·.take n) d0 d)
      (fun _ d => Spoiled E target force d0 d ∧ ¬ CopyReady E fuel src target force d0) := by
  unfold Env.copyLocal
  refine .bind_ ((mayCopy_hoare E).mono (fun _ h => h) (fun _ _ h => h) ?_) fun may => .of_pre fun hmay => ?_
  · rintro _ d ⟨h, h'⟩
    exact ⟨.inl h, fun hr => h'.elim hr.fails fun h => h hr.guard⟩
  refine .ite_ (fun hm => ?_) (fun hm => .throw_ fun _ h => ⟨.inl h, fun hr => hm (hmay.2 hr.guard)⟩)
  refine .bind_ ((openRead_hoare E).mono (fun _ h => h) (fun _ _ h => h) ?_) fun from_ => .of_pre ?_
  · rintro _ d ⟨h, h'⟩
    refine ⟨.inl h, fun hr => h'.elim hr.fails fun h => ?_⟩
    obtain ⟨q, b, hq, -⟩ := hr.source
    exact h q b hq
  rintro ⟨b, hsrc⟩
  refine .bind_ (Q := fun c d => c = b.take n ∧ d = d0) (.look_err ?_ ?_) fun c => .of_pre fun hc => ?_
  · rintro d a rfl h
    rw [hsrc.2] at h
    simp only [List.drop_zero, Except.ok.injEq] at h
    exact ⟨h.symm, rfl⟩
  · rintro e d rfl (⟨n, hn⟩ | h)
    · exact ⟨.inl rfl, fun hr => hr.fails ⟨n, e, hn⟩⟩
    · rw [hsrc.2] at h; simp at h
  refine .ite_ (fun he => .throw_ fun _ h => ⟨.inl h, fun hr => ?_⟩) fun hne => ?_
  · obtain ⟨q, b', hq, hb, -⟩ := hr.source
    obtain ⟨-, rfl⟩ := reads_unique hsrc hq
    rw [he] at hc
    have := congrArg List.length hc
    have := List.length_pos_iff.2 hb
    simp only [List.length_nil, List.length_take] at *
    omega
  refine .bind_ ((openWrite_hoare E).mono (fun _ h => h) (fun _ _ h => h) ?_) fun to => .of_pre fun hto => ?_
  · rintro _ d ⟨h, h'⟩
    refine ⟨.inl h, fun hr => h'.elim hr.fails fun h => ?_⟩
    obtain ⟨q, hq⟩ := hr.target
    exact h q hq
  have hfree := allows_free E (hmay.1 hm) hto
  refine .mono (R := fun _ d => Beside to d0 d ∧ ¬ CopyReady E fuel src target force d0) (Q₁ := fun _ d => Ended E src target force (·.take n) d0 d) ?_
    (fun _ h => h) (fun _ _ h => h) (fun _ _ h => ⟨.inr ⟨to, hto, hfree, h.1⟩, h.2⟩)
  refine .bind_ (Q := fun _ d => Beside to d0 d ∧ d.at_ to = some (.file c)) ?_ fun _ => ?_
  · exact (write_hoare E (b := [])).mono (fun _ h => h) (fun _ _ h => h) (fun _ _ h => ⟨h.1, fun hr => hr.fails h.2⟩)
  · by_cases he : from_ = to
    · subst he
      refine (pump_self E fuel).mono (fun _ h => h) (fun _ d h => ⟨from_, from_, b, hsrc, hto, hfree, h.1, ?_⟩)
        (fun _ _ h => ⟨h.1, fun hr => h.2.elim hr.fails ?_⟩)
      · rw [if_pos rfl, h.2, hc]
      · obtain ⟨q, b', hq, -, hb⟩ := hr.source
        omega
    · have hlen : c.length ≤ b.length := by rw [hc, List.length_take]; omega
      refine (pump_hoare E hn he hsrc.2 fuel c.length hlen).mono (fun d h => ⟨h.1, ?_⟩) (fun _ d h => ⟨from_, to, b, hsrc, hto, hfree, h.1, ?_⟩)
        (fun _ _ h => ⟨h.1, fun hr => h.2.elim hr.fails ?_⟩)
      · rw [h.2, hc, List.length_take, ← List.take_eq_take_min]
      · rw [if_neg he, h.2]
      · obtain ⟨q, b', hq, -, hb⟩ := hr.source
        obtain ⟨-, rfl⟩ := reads_unique hsrc hq
        omega

/-- A run of `shutil.copyfile`. -/
theorem copyFile_hoare (E : Env) {n : Nat} (hn : 0 < n) (fuel : Nat) (src target : UserPath) {force : Bool} {d0 : Disk Node}
    (hfree : ∀ to, E.opens d0 target to → force = false → d0.at_ to = none) :
    Hoare (fun d => d = d0) (E.copyFile n fuel src target)
      (fun _ d => Ended E src target force id d0 d)
      (fun _ d => Spoiled E target force d0 d ∧ ¬ ((∀ n, E.F n = none) ∧ (∃ q b, E.reads d0 src q b ∧ b.length < fuel) ∧
        (∃ q, E.opens d0 target q) ∧ E.same d0 src target = false)) := by
  have hfail : ∀ {P : Prop}, Fails E → ¬ ((∀ n, E.F n = none) ∧ P) := by
    rintro P ⟨n, e, hn⟩ ⟨h, -⟩
    simp [h] at hn
  unfold Env.copyFile
  refine .bind_ (Q := fun b d => b = E.same d0 src target ∧ d = d0) (.look_err ?_ ?_) fun b => .of_pre fun hb => ?_
  · rintro d a rfl h
    simp only [Except.ok.injEq] at h
    exact ⟨h.symm, rfl⟩
  · rintro e d rfl (⟨n, hn⟩ | h)
    · exact ⟨.inl rfl, hfail ⟨n, e, hn⟩⟩
    · simp at h
  refine .ite_ (fun hs => .throw_ fun _ h => ⟨.inl h, fun hr => ?_⟩) fun hs => ?_
  · rw [hb, hr.2.2.2] at hs; simp at hs
  rw [hb, Bool.not_eq_true] at hs
  refine .bind_ ((openRead_hoare E).mono (fun _ h => h) (fun _ _ h => h) ?_) fun from_ => .of_pre ?_
  · rintro _ d ⟨h, h'⟩
    refine ⟨.inl h, fun hr => h'.elim (fun h => hfail h hr) fun h => ?_⟩
    obtain ⟨q, b, hq, -⟩ := hr.2.1
    exact h q b hq
  rintro ⟨b, hsrc⟩
  refine .bind_ ((openWrite_hoare E).mono (fun _ h => h) (fun _ _ h => h) ?_) fun to => .of_pre fun hto => ?_
  · rintro _ d ⟨h, h'⟩
    refine ⟨.inl h, fun hr => h'.elim (fun h => hfail h hr) fun h => ?_⟩
    obtain ⟨q, hq⟩ := hr.2.2.1
    exact h q hq
  have he : from_ ≠ to := by
    rintro rfl
    have := walkNew_some (by simp [hsrc.2]) _ _ _ hto.1
    simp [Env.same, hsrc.1, this, hsrc.2] at hs
  refine (pump_hoare E hn he hsrc.2 fuel 0 (Nat.zero_le _)).mono (fun d h => ⟨h.1, by simpa using h.2⟩)
    (fun _ d h => ⟨from_, to, b, hsrc, hto, hfree _ hto, h.1, ?_⟩)
    (fun _ _ h => ⟨.inr ⟨to, hto, hfree _ hto, h.1⟩, fun hr => h.2.elim (fun h => hfail h hr) ?_⟩)
  · rw [if_neg he, h.2]
  · obtain ⟨q, b', hq, hb⟩ := hr.2.1
    obtain ⟨-, rfl⟩ := reads_unique hsrc hq
    omega

/-- A run of `AugmentedPath.copy_to` to something that is not a directory. -/
theorem copyTo_hoare (E : Env) {n : Nat} (hn : 0 < n) (fuel : Nat) (src target : UserPath) (force : Bool) (d0 : Disk Node)
    (hdir : force = true → isDir E.L d0.at_ E.cwd target = .ok false) :
    Hoare (fun d => d = d0) (E.copyTo n fuel src target force)
      (fun _ d => Ended E src target force id d0 d)
      (fun _ d => Spoiled E target force d0 d ∧ ¬ (CopyReady E fuel src target force d0 ∧ E.same d0 src target = false)) := by
  unfold Env.copyTo
  refine .bind_ ((mayCopy_hoare E).mono (fun _ h => h) (fun _ _ h => h) ?_) fun may => .of_pre fun hmay => ?_
  · rintro _ d ⟨h, h'⟩
    exact ⟨.inl h, fun hr => h'.elim hr.1.fails fun h => h hr.1.guard⟩
  refine .ite_ (fun hm => ?_) (fun hm => .throw_ fun _ h => ⟨.inl h, fun hr => hm (hmay.2 hr.1.guard)⟩)
  have hg := hmay.1 hm
  have hdir' : isDir E.L d0.at_ E.cwd target = .ok false := by
    cases force with
    | true => exact hdir rfl
    | false =>
      rcases hg with ⟨-, h⟩ | ⟨h, -⟩
      · simp at h
      · unfold pathExists at h
        unfold isDir
        cases hs : stat E.L d0.at_ E.cwd target with
        | ok x => simp [hs, test] at h
        | error e => simp [hs, test] at h ⊢; exact h
  unfold Env.copy2
  refine .bind_ (Q := fun b d => b = false ∧ d = d0) (.look_err ?_ ?_) fun b => .of_pre fun hb => ?_
  · rintro d a rfl h
    rw [hdir'] at h
    simp only [Except.ok.injEq] at h
    exact ⟨h.symm, rfl⟩
  · rintro e d rfl (⟨n, hn⟩ | h)
    · exact ⟨.inl rfl, fun hr => hr.1.fails ⟨n, e, hn⟩⟩
    · rw [hdir'] at h; simp at h
  subst hb
  refine (copyFile_hoare E hn fuel src target fun to ho => allows_free E hg ho).mono (fun _ h => h) (fun _ _ h => h)
    (fun _ _ h => ⟨h.1, fun hr => h.2 ⟨hr.1.calls, ?_, hr.1.target, hr.2⟩⟩)
  obtain ⟨q, b, hq, -, hl⟩ := hr.1.source
  exact ⟨q, b, hq, hl⟩

/-! ## Opening and the specification -/

theorem walkNew_of_leads {L : Limits} {t : Tree} {k : Nat} {cur : Path} {comps : List Name} {q : Path} (h : Leads L t k cur comps q) :
    ∀ (b : Nat) (rest : List Name), walkNew L t (k + b) cur (comps ++ rest) = walkNew L t b q rest := by
  induction h with
  | here => intro b rest; simp
  | dot hd _ ih => intro b rest; rw [List.cons_append, walkNew]; simp [hd, ih]
  | up hd _ ih => intro b rest; rw [List.cons_append, walkNew]; simp [hd, ih]
  | @down k cur n _ _ x hd hf hx hl _ ih =>
    intro b rest
    obtain ⟨h1, h2, h3⟩ := hf
    rw [List.cons_append, walkNew]
    cases x <;> simp_all [Nat.not_lt.2 h3]
  | @follow k cur n _ _ l hd hf hx _ ih =>
    intro b rest
    obtain ⟨h1, h2, h3⟩ := hf
    rw [List.cons_append, Nat.add_right_comm, walkNew]
    simp only [hd, hx, h1, h2, if_false, Nat.not_lt.2 h3]
    rw [← List.append_assoc]
    exact ih b rest

/-! ## The claims -/

/-- The path leads to the location, and a file with this content is there. -/
def HoldsAt (E : Env) (d : Disk Node) (p : UserPath) (q : Path) (b : Bytes) : Prop :=
  (∃ k, k ≤ E.L.maxLinks ∧ Leads E.L d.at_ k (start E.cwd p.absolute) p.comps q) ∧ d.at_ q = some (.file b)

theorem reads_iff {E : Env} {d : Disk Node} {p : UserPath} {q : Path} {b : Bytes} : E.reads d p q b ↔ HoldsAt E d p q b := by
  unfold Env.reads HoldsAt
  rw [walk_ok_iff]

/-- The path ends in a name that is free, in a directory that can be searched. -/
def FreeAt (E : Env) (d : Disk Node) (p : UserPath) (q : Path) : Prop :=
  ∃ parent n m k, p.comps = parent ++ [n] ∧ FitsName E.L n ∧ k ≤ E.L.maxLinks ∧ Leads E.L d.at_ k (start E.cwd p.absolute) parent m ∧
    d.at_ m = some (.dir true) ∧ q = m ++ [n] ∧ d.at_ q = none

theorem FreeAt.opens {E : Env} {d : Disk Node} {p : UserPath} {q : Path} (h : FreeAt E d p q) : E.opens d p q := by
  obtain ⟨parent, n, m, k, hp, ⟨h1, h2, h3⟩, hk, hw, hm, rfl, hq⟩ := h
  refine ⟨?_, .inl hq⟩
  obtain ⟨j, hj⟩ := Nat.exists_eq_add_of_le hk
  rw [hp, hj, walkNew_of_leads hw, walkNew]
  simp [hm, h1, h2, Nat.not_lt.2 h3, hq]

theorem FreeAt.stat {E : Env} {d : Disk Node} {p : UserPath} {q : Path} (h : FreeAt E d p q) :
    walk E.L d.at_ E.L.maxLinks (start E.cwd p.absolute) p.comps = .error .ENOENT := by
  obtain ⟨parent, n, m, k, hp, ⟨h1, h2, h3⟩, hk, hw, hm, rfl, hq⟩ := h
  rw [hp, walk_append hk hw, walk]
  simp [hm, h1, h2, Nat.not_lt.2 h3, hq]

theorem FreeAt.allows {E : Env} {d : Disk Node} {p : UserPath} {q : Path} (h : FreeAt E d p q) (force : Bool) : E.allows d p force := by
  refine .inr ⟨?_, .inl ?_⟩
  · unfold pathExists FS.stat
    rw [h.stat]
    rfl
  · obtain ⟨parent, n, m, k, hp, ⟨h1, h2, h3⟩, hk, hw, hm, rfl, hq⟩ := h
    unfold isSymlink lstat
    rw [hp, List.getLast?_concat, List.dropLast_concat]
    have := (walk_ok_iff ..).2 ⟨k, hk, hw⟩
    simp [h1, h2, this, hm, Nat.not_lt.2 h3, node, hq, test, ignored]

theorem opens_holds {E : Env} {d0 d : Disk Node} {p : UserPath} {q : Path} {b : Bytes} (ho : E.opens d0 p q) (hb : Beside q d0 d)
    (hq : d.at_ q = some (.file b)) : HoldsAt E d p q b := by
  have : d.at_ = withFileAt d0.at_ q b := by
    funext r
    unfold withFileAt
    split
    · rename_i h; rw [h, hq]
    · rename_i h; exact hb r h
  refine ⟨?_, hq⟩
  rw [← walk_ok_iff, this]
  exact walkNew_put ho.2 _ _ _ ho.1

theorem holds_opens {E : Env} {d : Disk Node} {p : UserPath} {q : Path} {b : Bytes} (h : HoldsAt E d p q b) : E.opens d p q := by
  obtain ⟨⟨k, hk, hw⟩, hq⟩ := h
  refine ⟨?_, .inr ⟨b, hq⟩⟩
  obtain ⟨j, hj⟩ := Nat.exists_eq_add_of_le hk
  have := walkNew_of_leads hw j []
  rw [List.append_nil] at this
  rw [hj, this, walkNew]

theorem opens_unique {E : Env} {d : Disk Node} {p : UserPath} {q q' : Path} (h : E.opens d p q) (h' : E.opens d p q') : q' = q := by
  have := h.1.symm.trans h'.1
  simp only [Except.ok.injEq] at this
  exact this.symm

theorem not_allowed (E : Env) {d : Disk Node} {target : UserPath} {x : Node} (h : lstat E.L d.at_ E.cwd target = .ok x) :
    ¬ E.allows d target false := by
  rintro (⟨-, h'⟩ | ⟨h1, h2⟩)
  · simp at h'
  · rcases seen h with h3 | h3
    · rw [h3] at h1; simp at h1
    · simp [h3] at h2

theorem Hoare.raises {ν α : Type} {m : Prog ν α} {s : Machine ν} (h : Hoare (fun d => d = s.disk) m (fun _ _ => False) (fun _ d => d = s.disk)) :
    (m s).2.disk = s.disk ∧ ∃ e, (m s).1 = .error e := by
  have := h s rfl
  generalize m s = r at this ⊢
  obtain ⟨r, s'⟩ := r
  cases r with
  | ok a => exact this.elim
  | error e => exact ⟨this, e, rfl⟩

/-- **C10**: without force, when anything is at the target, also a broken symlink, `copy_to` of a local path raises and
nothing has changed, whatever call fails. -/
theorem C10_no_clobber (E : Env) {n fuel : Nat} {src target : UserPath} {x : Node} {s : Machine Node}
    (h : lstat E.L s.disk.at_ E.cwd target = .ok x) :
    (E.copyLocal n fuel src target false s).2.disk = s.disk ∧ ∃ e, (E.copyLocal n fuel src target false s).1 = .error e := by
  have hh : Hoare (fun d => d = s.disk) (E.copyLocal n fuel src target false) (fun _ _ => False) (fun _ d => d = s.disk) := by
    unfold Env.copyLocal
    refine .bind_ ((mayCopy_hoare E).mono (fun _ h => h) (fun _ _ h => h) fun _ _ h => h.1) fun may => .of_pre fun hmay => ?_
    refine .ite_ (fun hm => ?_) (fun _ => .throw_ fun _ h => h)
    exact absurd (hmay.1 hm) (not_allowed E h)
  exact hh.raises


/-- **C10**: the same for `copy_to` of any other path. -/
theorem C10_no_clobber_shutil (E : Env) {n fuel : Nat} {src target : UserPath} {x : Node} {s : Machine Node}
    (h : lstat E.L s.disk.at_ E.cwd target = .ok x) :
    (E.copyTo n fuel src target false s).2.disk = s.disk ∧ ∃ e, (E.copyTo n fuel src target false s).1 = .error e := by
  have hh : Hoare (fun d => d = s.disk) (E.copyTo n fuel src target false) (fun _ _ => False) (fun _ d => d = s.disk) := by
    unfold Env.copyTo
    refine .bind_ ((mayCopy_hoare E).mono (fun _ h => h) (fun _ _ h => h) fun _ _ h => h.1) fun may => .of_pre fun hmay => ?_
    refine .ite_ (fun hm => ?_) (fun _ => .throw_ fun _ h => h)
    exact absurd (hmay.1 hm) (not_allowed E h)
  exact hh.raises

/-- **C10**: and for `copy_outto` of both, when the name is taken in the target directory. -/
theorem C10_no_clobber_outto (E : Env) {n fuel : Nat} {src target : UserPath} {x : Node} {s : Machine Node}
    (h : lstat E.L s.disk.at_ E.cwd (target.child (src.comps.getLast?.getD [])) = .ok x) :
    (∃ e, (E.copyOutto (fun t => E.copyLocal n fuel src t false) src target s).1 = .error e) ∧
    (E.copyOutto (fun t => E.copyLocal n fuel src t false) src target s).2.disk = s.disk ∧
    (∃ e, (E.copyOutto (fun t => E.copyTo n fuel src t false) src target s).1 = .error e) ∧
    (E.copyOutto (fun t => E.copyTo n fuel src t false) src target s).2.disk = s.disk := by
  have key : ∀ copy : UserPath → Prog Node Unit,
      (∀ s', s'.disk = s.disk → ((copy (target.child (src.comps.getLast?.getD []))) s').2.disk = s'.disk ∧
        ∃ e, ((copy (target.child (src.comps.getLast?.getD []))) s').1 = .error e) →
      ((E.copyOutto copy src target) s).2.disk = s.disk ∧ ∃ e, ((E.copyOutto copy src target) s).1 = .error e := by
    intro copy hc
    refine Hoare.raises ?_
    unfold Env.copyOutto
    refine .bind_ (Q := fun _ d => d = s.disk) (.look_ (fun _ _ h _ => h) (fun _ _ h => h)) fun b => .ite_ (fun _ => ?_) (fun _ => .throw_ fun _ h => h)
    refine .bind_ (Q := fun _ _ => False) ?_ fun _ => .pure_ fun _ h => h
    intro s' hs'
    have := hc s' hs'
    generalize (copy _) s' = r at this ⊢
    obtain ⟨h1, e, h2⟩ := this
    obtain ⟨r, s''⟩ := r
    dsimp only at h1 h2
    subst h2
    exact h1.trans hs'
  obtain ⟨h1, h2⟩ := key (fun t => E.copyLocal n fuel src t false) fun s' hs' => C10_no_clobber E (hs' ▸ h)
  obtain ⟨h3, h4⟩ := key (fun t => E.copyTo n fuel src t false) fun s' hs' => C10_no_clobber_shutil E (hs' ▸ h)
  exact ⟨h2, h1, h4, h3⟩

theorem Hoare.ended {ν α : Type} {m : Prog ν α} {s s' : Machine ν} {a : α} {P : Disk ν → Prop} {Q : α → Disk ν → Prop} {R : PyErr → Disk ν → Prop}
    (h : Hoare P m Q R) (hp : P s.disk) (hr : m s = (.ok a, s')) : Q a s'.disk := by
  have := h s hp
  rw [hr] at this
  exact this

/-- **C10**: when `copy_to` returns without force, for either kind of path, the source led to a file, nothing was at the
target, the target now leads to a file with exactly the same bytes, and nothing else changed. -/
theorem C10_copied (E : Env) {n fuel : Nat} (hn : 0 < n) {src target : UserPath} {s s' : Machine Node}
    (h : E.copyLocal n fuel src target false s = (.ok (), s') ∨ E.copyTo n fuel src target false s = (.ok (), s')) :
    ∃ from_ q b, HoldsAt E s.disk src from_ b ∧ s.disk.at_ q = none ∧ HoldsAt E s'.disk target q b ∧
      ∀ r, r ≠ q → s'.disk.at_ r = s.disk.at_ r := by
  have fin : ∀ cut, Ended E src target false cut s.disk s'.disk → ∃ from_ q b, HoldsAt E s.disk src from_ b ∧ s.disk.at_ q = none ∧
      HoldsAt E s'.disk target q b ∧ ∀ r, r ≠ q → s'.disk.at_ r = s.disk.at_ r := by
    rintro cut ⟨from_, to, b, h1, h2, h3, h4, h5⟩
    refine ⟨from_, to, b, reads_iff.1 h1, h3 rfl, opens_holds h2 h4 ?_, h4⟩
    rw [h5, if_neg]
    rintro rfl
    have := h3 rfl
    rw [h1.2] at this
    simp at this
  rcases h with h | h
  · exact fin _ ((copyLocal_hoare E hn fuel src target false s.disk).ended rfl h)
  · exact fin _ ((copyTo_hoare E hn fuel src target false s.disk (by simp)).ended rfl h)

/-- **C10**: when `copy_outto` returns, it returns the path with the name of the source in the target directory, and that path
now leads to a file with exactly the bytes of the source; nothing was there and nothing else changed. -/
theorem C10_copied_outto (E : Env) {n fuel : Nat} (hn : 0 < n) {src target p : UserPath} {s s' : Machine Node}
    (h : E.copyOutto (fun t => E.copyLocal n fuel src t false) src target s = (.ok p, s') ∨
      E.copyOutto (fun t => E.copyTo n fuel src t false) src target s = (.ok p, s')) :
    p = target.child (src.comps.getLast?.getD []) ∧
    ∃ from_ q b, HoldsAt E s.disk src from_ b ∧ s.disk.at_ q = none ∧ HoldsAt E s'.disk p q b ∧
      ∀ r, r ≠ q → s'.disk.at_ r = s.disk.at_ r := by
  have key : ∀ copy : UserPath → Prog Node Unit, E.copyOutto copy src target s = (.ok p, s') →
      p = target.child (src.comps.getLast?.getD []) ∧ ∃ s1, s1.disk = s.disk ∧ copy p s1 = (.ok (), s') := by
    intro copy hc
    have hl : ∀ b s1, E.isDir target s = (b, s1) → s1.disk = s.disk := by
      intro b s1 hb
      simp only [Env.isDir, Prog.look, Prog.sys] at hb
      split at hb
      · cases hb; rfl
      · split at hb
        · next x hx =>
          split at hx
          · cases hx; cases hb; rfl
          · cases hx
        · cases hb; rfl
    unfold Env.copyOutto at hc
    simp only [Prog.bind] at hc
    rcases hb : E.isDir target s with ⟨b, s1⟩
    rw [hb] at hc
    cases b with
    | error e => simp at hc
    | ok b =>
      cases b with
      | false => simp [Prog.throw] at hc
      | true =>
        dsimp only at hc
        rw [if_pos rfl] at hc
        rcases hcp : copy (target.child (src.comps.getLast?.getD [])) s1 with ⟨r, s2⟩
        simp only [Prog.bind, hcp] at hc
        cases r with
        | error e => simp at hc
        | ok u =>
          simp only [Prog.pure, Prod.mk.injEq, Except.ok.injEq] at hc
          obtain ⟨rfl, rfl⟩ := hc
          exact ⟨rfl, s1, hl _ _ hb, hcp⟩
  rcases h with h | h
  · obtain ⟨h1, s1, h2, h3⟩ := key _ h
    have := C10_copied E hn (.inl h3)
    rw [h2] at this
    exact ⟨h1, this⟩
  · obtain ⟨h1, s1, h2, h3⟩ := key _ h
    have := C10_copied E hn (.inr h3)
    rw [h2] at this
    exact ⟨h1, this⟩

/-- **C10**: without force, however the run ends and whatever call fails, everything that was there is still there. -/
theorem C10_existing (E : Env) {n fuel : Nat} (hn : 0 < n) {src target : UserPath} {s : Machine Node} {r : Path} {x : Node}
    (hx : s.disk.at_ r = some x) :
    (E.copyLocal n fuel src target false s).2.disk.at_ r = some x ∧ (E.copyTo n fuel src target false s).2.disk.at_ r = some x := by
  have fin : ∀ (m : Prog Node Unit) cut (W : Prop), Hoare (fun d => d = s.disk) m (fun _ d => Ended E src target false cut s.disk d)
      (fun _ d => Spoiled E target false s.disk d ∧ W) → (m s).2.disk.at_ r = some x := by
    intro m cut W hh
    have hb : ∀ {to : Path} {d}, (false = false → s.disk.at_ to = none) → Beside to s.disk d → d.at_ r = some x := by
      intro to d h1 h2
      rw [h2 r, hx]
      rintro rfl
      rw [h1 rfl] at hx
      simp at hx
    have := hh s rfl
    generalize m s = o at this ⊢
    obtain ⟨o, s'⟩ := o
    cases o with
    | ok a =>
      obtain ⟨from_, to, b, h1, h2, h3, h4, h5⟩ := this
      exact hb h3 h4
    | error e =>
      obtain ⟨he | ⟨to, h1, h2, h3⟩, -⟩ := this
      · exact (congrArg (·.at_ r) he).trans hx
      · exact hb h2 h3
  exact ⟨fin _ _ _ (copyLocal_hoare E hn fuel src target false s.disk), fin _ _ _ (copyTo_hoare E hn fuel src target false s.disk (by simp))⟩

/-- **C10** (partial: a copy of a file onto itself keeps only the first chunk): with force too, when `copy_to` of a local path
returns, the target leads to a file with the bytes of the source, and nothing else changed; if the target was a symlink
it is one still. -/
theorem C10_forced_partial (E : Env) {n fuel : Nat} (hn : 0 < n) {src target : UserPath} {force : Bool} {s s' : Machine Node}
    (h : E.copyLocal n fuel src target force s = (.ok (), s')) :
    ∃ from_ q b, HoldsAt E s.disk src from_ b ∧ HoldsAt E s'.disk target q (if from_ = q then b.take n else b) ∧
      (s.disk.at_ q = none ∨ ∃ b', s.disk.at_ q = some (.file b')) ∧ ∀ r, r ≠ q → s'.disk.at_ r = s.disk.at_ r := by
  obtain ⟨from_, to, b, h1, h2, h3, h4, h5⟩ := (copyLocal_hoare E hn fuel src target force s.disk).ended rfl h
  exact ⟨from_, to, b, reads_iff.1 h1, opens_holds h2 h4 h5, h2.2, h4⟩

/-- **C10** (partial: not if the target is a directory): the same for `copy_to` of any other path, for a file onto itself too
(it does not return). -/
theorem C10_forced_shutil_partial (E : Env) {n fuel : Nat} (hn : 0 < n) {src target : UserPath} {force : Bool} {s s' : Machine Node}
    (hdir : isDir E.L s.disk.at_ E.cwd target = .ok false) (h : E.copyTo n fuel src target force s = (.ok (), s')) :
    ∃ from_ q b, HoldsAt E s.disk src from_ b ∧ HoldsAt E s'.disk target q b ∧
      (s.disk.at_ q = none ∨ ∃ b', s.disk.at_ q = some (.file b')) ∧ ∀ r, r ≠ q → s'.disk.at_ r = s.disk.at_ r := by
  obtain ⟨from_, to, b, h1, h2, h3, h4, h5⟩ := (copyTo_hoare E hn fuel src target force s.disk fun _ => hdir).ended rfl h
  refine ⟨from_, to, b, reads_iff.1 h1, opens_holds h2 h4 ?_, h2.2, h4⟩
  rw [h5]
  simp

/-- **C10**: a copy of a nonempty file to a free name returns, when no call fails. -/
theorem C10_returns (E : Env) {n fuel : Nat} (hn : 0 < n) {src target : UserPath} {from_ q : Path} {b : Bytes} {s : Machine Node} (force : Bool)
    (hF : ∀ n, E.F n = none) (hsrc : HoldsAt E s.disk src from_ b) (hb : b ≠ []) (hfuel : b.length < fuel)
    (hq : FreeAt E s.disk target q) :
    (∃ s', E.copyLocal n fuel src target force s = (.ok (), s')) ∧ ∃ s', E.copyTo n fuel src target force s = (.ok (), s') := by
  have hready : CopyReady E fuel src target force s.disk := ⟨hF, hq.allows _, ⟨from_, b, reads_iff.2 hsrc, hb, hfuel⟩, q, hq.opens⟩
  have fin : ∀ {m : Prog Node Unit} {Q : Unit → Disk Node → Prop} {R : PyErr → Disk Node → Prop}, Hoare (fun d => d = s.disk) m Q R →
      (∀ e d, ¬ R e d) → ∃ s', m s = (.ok (), s') := by
    intro m Q R h hR
    have := h s rfl
    generalize m s = o at this ⊢
    obtain ⟨o, s'⟩ := o
    cases o with
    | ok a => exact ⟨s', rfl⟩
    | error e => exact absurd this (hR _ _)
  refine ⟨fin (copyLocal_hoare E hn fuel src target force s.disk) fun _ _ h => h.2 hready,
    fin (copyTo_hoare E hn fuel src target force s.disk fun _ => ?_) fun _ _ h => h.2 ⟨hready, ?_⟩⟩
  · unfold isDir FS.stat
    rw [hq.stat]
    rfl
  · unfold Env.same
    rw [hq.stat]
    split <;> simp_all

/-- **C10** fails for an empty file: `copy_to` of a local path always raises and nothing is made (`StopIteration`, when nothing else
is wrong). -/
theorem C10_empty_counterexample (E : Env) {n fuel : Nat} {src target : UserPath} {from_ : Path} {force : Bool} {s : Machine Node}
    (hsrc : HoldsAt E s.disk src from_ []) :
    (E.copyLocal n fuel src target force s).2.disk = s.disk ∧ ∃ e, (E.copyLocal n fuel src target force s).1 = .error e := by
  refine Hoare.raises ?_
  unfold Env.copyLocal
  refine .bind_ (Q := fun _ d => d = s.disk) ((mayCopy_hoare E).mono (fun _ h => h) (fun _ _ h => h.2) (fun _ _ h => h.1)) fun may => ?_
  refine .ite_ (fun _ => ?_) (fun _ => .throw_ fun _ h => h)
  refine .bind_ ((openRead_hoare E).mono (fun _ h => h) (fun _ _ h => h) fun _ _ h => h.1) fun q => .of_pre ?_
  rintro ⟨b, hb⟩
  obtain ⟨rfl, rfl⟩ := reads_unique (reads_iff.2 hsrc) hb
  refine .bind_ (Q := fun c d => c = [] ∧ d = s.disk) (.look_ ?_ fun _ _ h => h) fun c => .of_pre fun hc => ?_
  · rintro d a rfl h
    rw [hb.2] at h
    simpa [eq_comm] using h
  rw [if_pos hc]
  exact .throw_ fun _ h => h

/-- **C10** fails for a copy of a file onto itself with force: everything after the first chunk is lost, and `copy_to` returns. -/
theorem C10_self_counterexample (E : Env) {n fuel : Nat} (hn : 0 < n) {p : UserPath} {q : Path} {b : Bytes} {s : Machine Node}
    (hF : ∀ n, E.F n = none) (hp : HoldsAt E s.disk p q b) (hb : b ≠ []) (hfuel : b.length < fuel) :
    ∃ s', E.copyLocal n fuel p p true s = (.ok (), s') ∧ HoldsAt E s'.disk p q (b.take n) := by
  have hready : CopyReady E fuel p p true s.disk := by
    refine ⟨hF, .inl ⟨?_, rfl⟩, ⟨q, b, reads_iff.2 hp, hb, hfuel⟩, q, holds_opens hp⟩
    have := (reads_iff.2 hp).1
    simp [pathExists, FS.stat, this, node, hp.2, test]
  have := copyLocal_hoare E hn fuel p p true s.disk s rfl
  generalize E.copyLocal n fuel p p true s = o at this ⊢
  obtain ⟨o, s'⟩ := o
  cases o with
  | error e => exact absurd hready this.2
  | ok a =>
    obtain ⟨from_, to, b', h1, h2, h3, h4, h5⟩ := this
    obtain ⟨rfl, rfl⟩ := reads_unique (reads_iff.2 hp) h1
    obtain rfl := opens_unique (holds_opens hp) h2
    rw [if_pos rfl] at h5
    exact ⟨s', rfl, opens_holds h2 h4 h5⟩

/-- **C10** fails for `copy_to` of other paths with force onto a directory: the file is made inside, and the target remains a
directory. -/
theorem C10_directory_counterexample (E : Env) {n fuel : Nat} (hn : 0 < n) {src target : UserPath} {from_ q to : Path} {b : Bytes}
    {s : Machine Node} (hF : ∀ n, E.F n = none) (hsrc : HoldsAt E s.disk src from_ b) (hfuel : b.length < fuel) (hlinks : ∃ k, k ≤ E.L.maxLinks ∧
      Leads E.L s.disk.at_ k (start E.cwd target.absolute) target.comps q) (hdir : s.disk.at_ q = some (.dir true))
    (hto : FreeAt E s.disk (target.child (src.comps.getLast?.getD [])) to) :
    ∃ s', E.copyTo n fuel src target true s = (.ok (), s') ∧ s'.disk.at_ q = some (.dir true) ∧
      HoldsAt E s'.disk (target.child (src.comps.getLast?.getD [])) to b := by
  have hstat : FS.stat E.L s.disk.at_ E.cwd target = .ok (.dir true) := (stat_ok_iff ..).2 ⟨hlinks.choose, q, hlinks.choose_spec.1, hlinks.choose_spec.2, hdir⟩
  have hg : E.allows s.disk target true := .inl ⟨by simp [pathExists, hstat, test], rfl⟩
  have hd : isDir E.L s.disk.at_ E.cwd target = .ok true := by simp [isDir, hstat, test]
  have nofail : ¬ Fails E := by
    rintro ⟨n, e, h⟩
    simp [hF] at h
  have hh : Hoare (fun d => d = s.disk) (E.copyTo n fuel src target true)
      (fun _ d => Ended E src (target.child (src.comps.getLast?.getD [])) false id s.disk d) (fun _ _ => False) := by
    unfold Env.copyTo
    refine .bind_ ((mayCopy_hoare E).mono (fun _ h => h) (fun _ _ h => h) fun _ _ h => h.2.elim nofail fun h => h hg) fun may => .of_pre fun hmay => ?_
    rw [if_pos (hmay.2 hg)]
    unfold Env.copy2
    refine .bind_ (Q := fun b d => b = true ∧ d = s.disk) (.look_err ?_ ?_) fun b => .of_pre fun hb => ?_
    · rintro d a rfl h
      rw [hd] at h
      simp only [Except.ok.injEq] at h
      exact ⟨h.symm, rfl⟩
    · rintro e d rfl (⟨n, hn⟩ | h)
      · exact nofail ⟨n, e, hn⟩
      · rw [hd] at h; simp at h
    rw [if_pos hb]
    refine (copyFile_hoare E hn fuel src _ fun t ht _ => ?_).mono (fun _ h => h) (fun _ _ h => h)
      (fun _ _ h => h.2 ⟨hF, ⟨_, _, reads_iff.2 hsrc, hfuel⟩, ⟨_, hto.opens⟩, ?_⟩)
    · obtain rfl := opens_unique hto.opens ht
      obtain ⟨_, _, _, _, _, _, _, _, _, _, hq⟩ := hto
      exact hq
    · unfold Env.same
      rw [hto.stat]
      split <;> simp_all
  have := hh s rfl
  generalize E.copyTo n fuel src target true s = o at this ⊢
  obtain ⟨o, s'⟩ := o
  cases o with
  | error e => exact this.elim
  | ok a =>
    obtain ⟨f', to', b', h1, h2, h3, h4, h5⟩ := this
    obtain ⟨rfl, rfl⟩ := reads_unique (reads_iff.2 hsrc) h1
    obtain rfl := opens_unique hto.opens h2
    refine ⟨s', rfl, ?_, opens_holds h2 h4 ?_⟩
    · rw [h4, hdir]
      rintro rfl
      rw [h3 rfl] at hdir
      simp at hdir
    · rw [h5]
      simp

/-! ## A case -/

/-- A file `a`, a directory `d`, a broken symlink `l`. -/
def copyDisk : Disk Node :=
  [([], .dir true), ([['a']], .file [1, 2, 3]), ([['d']], .dir true), ([['l']], .link ⟨false, [['x']]⟩), ([['e']], .file [])]

/-- Nothing fails, the names are short. -/
def copyEnv : Env := ⟨⟨255, 40⟩, [], fun _ => none⟩

instance (n : Name) : Decidable (FitsName copyEnv.L n) := by unfold FitsName; infer_instance

theorem copy_here {n : Char} (x : Node) (hx : copyDisk.at_ [[n]] = some x) (hf : FitsName copyEnv.L [n]) (hl : ∀ l, x ≠ .link l) :
    Leads copyEnv.L copyDisk.at_ 0 [] [[n]] [[n]] :=
  .down (by decide) hf hx hl (.here _)

-- C10_copied, C10_forced_partial, C10_returns: `a` can be copied to `b`
example : HoldsAt copyEnv copyDisk ⟨false, [['a']]⟩ [['a']] [1, 2, 3] ∧ FreeAt copyEnv copyDisk ⟨false, [['b']]⟩ [['b']] :=
  ⟨⟨⟨0, Nat.zero_le _, copy_here (.file [1, 2, 3]) (by decide) (by decide) (by simp)⟩, by decide⟩,
    ⟨[], ['b'], [], 0, rfl, by decide, Nat.zero_le _, .here _, by decide, rfl, by decide⟩⟩

example : ∃ s', copyEnv.copyLocal 2 9 ⟨false, [['a']]⟩ ⟨false, [['b']]⟩ false ⟨copyDisk, 0⟩ = (.ok (), s') ∧
    s'.disk.at_ [['b']] = some (.file [1, 2, 3]) := by
  have hs : HoldsAt copyEnv copyDisk ⟨false, [['a']]⟩ [['a']] [1, 2, 3] :=
    ⟨⟨0, Nat.zero_le _, copy_here (.file [1, 2, 3]) (by decide) (by decide) (by simp)⟩, by decide⟩
  have hf : FreeAt copyEnv copyDisk ⟨false, [['b']]⟩ [['b']] :=
    ⟨[], ['b'], [], 0, rfl, by decide, Nat.zero_le _, .here _, by decide, rfl, by decide⟩
  obtain ⟨⟨s', h⟩, -⟩ := C10_returns copyEnv (n := 2) (fuel := 9) (by decide) (s := ⟨copyDisk, 0⟩) false (fun _ => rfl) hs (by simp) (by decide) hf
  obtain ⟨from_, to, b, h1, h2, h3, h4, h5⟩ := (copyLocal_hoare copyEnv (n := 2) (by decide) 9 _ _ false copyDisk).ended rfl h
  obtain ⟨rfl, rfl⟩ := reads_unique (reads_iff.2 hs) h1
  obtain rfl := opens_unique hf.opens h2
  exact ⟨s', h, by simpa using h5⟩

-- C10_no_clobber: a file, a broken symlink, a directory
example : ∀ n ∈ ['a', 'l', 'd'], ∃ x, lstat copyEnv.L copyDisk.at_ copyEnv.cwd ⟨false, [[n]]⟩ = .ok x := by
  have h0 : copyDisk.at_ [] = some (.dir true) := by decide
  have key : ∀ n x, FitsName copyEnv.L [n] → copyDisk.at_ [[n]] = some x → lstat copyEnv.L copyDisk.at_ copyEnv.cwd ⟨false, [[n]]⟩ = .ok x := by
    rintro n x ⟨h1, h2, h3⟩ hx
    simp only [lstat, List.getLast?_singleton, List.dropLast_singleton, walk_nil]
    rw [if_neg (by simp [h1, h2])]
    simp [start, copyEnv, h0, node, hx] at h3 ⊢
    exact h3
  intro n hn
  simp only [List.mem_cons, List.not_mem_nil, or_false] at hn
  rcases hn with rfl | rfl | rfl
  · exact ⟨_, key _ (.file [1, 2, 3]) (by decide) (by decide)⟩
  · exact ⟨_, key _ (.link ⟨false, [['x']]⟩) (by decide) (by decide)⟩
  · exact ⟨_, key _ (.dir true) (by decide) (by decide)⟩

-- C10_empty_counterexample
example : HoldsAt copyEnv copyDisk ⟨false, [['e']]⟩ [['e']] [] :=
  ⟨⟨0, Nat.zero_le _, copy_here (.file []) (by decide) (by decide) (by simp)⟩, by decide⟩

-- C10_directory_counterexample
example : FreeAt copyEnv copyDisk ((⟨false, [['d']]⟩ : UserPath).child ['a']) [['d'], ['a']] :=
  ⟨[['d']], ['a'], [['d']], 0, rfl, by decide, Nat.zero_le _, copy_here (.dir true) (by decide) (by decide) (by simp), by decide, rfl, by decide⟩

/-- **C10**: with force a file is replaced by another one, when no call fails: both kinds of `copy_to` return, and the target then has
the bytes of the source. -/
theorem C10_replaces (E : Env) {n fuel : Nat} (hn : 0 < n) {src target : UserPath} {from_ q : Path} {b b' : Bytes} {s : Machine Node}
    (hF : ∀ n, E.F n = none) (hsrc : HoldsAt E s.disk src from_ b) (hb : b ≠ []) (hfuel : b.length < fuel)
    (htgt : HoldsAt E s.disk target q b') (hne : from_ ≠ q) :
    (∃ s', E.copyLocal n fuel src target true s = (.ok (), s') ∧ HoldsAt E s'.disk target q b) ∧
    ∃ s', E.copyTo n fuel src target true s = (.ok (), s') ∧ HoldsAt E s'.disk target q b := by
  have hw := (reads_iff.2 htgt).1
  have hstat : FS.stat E.L s.disk.at_ E.cwd target = .ok (.file b') := by simp [FS.stat, hw, node, htgt.2]
  have hready : CopyReady E fuel src target true s.disk :=
    ⟨hF, .inl ⟨by simp [pathExists, hstat, test], rfl⟩, ⟨from_, b, reads_iff.2 hsrc, hb, hfuel⟩, q, holds_opens htgt⟩
  have fin : ∀ {m : Prog Node Unit} {cut : Bytes → Bytes} {R : PyErr → Disk Node → Prop},
      Hoare (fun d => d = s.disk) m (fun _ d => Ended E src target true cut s.disk d) R →
      (∀ e d, ¬ R e d) → ∃ s', m s = (.ok (), s') ∧ HoldsAt E s'.disk target q b := by
    intro m cut R h hR
    have := h s rfl
    generalize m s = o at this ⊢
    obtain ⟨o, s'⟩ := o
    cases o with
    | ok a =>
      obtain ⟨f', to, b'', h1, h2, -, h4, h5⟩ := this
      obtain ⟨rfl, rfl⟩ := reads_unique (reads_iff.2 hsrc) h1
      obtain rfl := opens_unique (holds_opens htgt) h2
      rw [if_neg hne] at h5
      exact ⟨s', rfl, opens_holds h2 h4 h5⟩
    | error e => exact absurd this (hR _ _)
  refine ⟨fin (copyLocal_hoare E hn fuel src target true s.disk) fun e d h => h.2 hready,
    fin (copyTo_hoare E hn fuel src target true s.disk fun _ => by simp [isDir, hstat, test]) fun e d h => h.2 ⟨hready, ?_⟩⟩
  unfold Env.same
  rw [(reads_iff.2 hsrc).1, hw]
  simp [hne]

/-- **C10**: with force, `copy_to` of a local path onto a directory raises and nothing has changed: `IsADirectoryError`, when no call
fails and there is something to copy. -/
theorem C10_onto_directory (E : Env) {n fuel : Nat} (hn : 0 < n) {src target : UserPath} {from_ q : Path} {b : Bytes} {x : Bool} {s : Machine Node}
    (hF : ∀ n, E.F n = none) (hsrc : HoldsAt E s.disk src from_ b) (hb : b ≠ [])
    (hlinks : ∃ k, k ≤ E.L.maxLinks ∧ Leads E.L s.disk.at_ k (start E.cwd target.absolute) target.comps q) (hdir : s.disk.at_ q = some (.dir x)) :
    (E.copyLocal n fuel src target true s).1 = .error .isADirectoryError ∧ (E.copyLocal n fuel src target true s).2.disk = s.disk := by
  obtain ⟨k, hk, hw⟩ := hlinks
  have hstat : FS.stat E.L s.disk.at_ E.cwd target = .ok (.dir x) := (stat_ok_iff ..).2 ⟨k, q, hk, hw, hdir⟩
  have hnew : walkNew E.L s.disk.at_ E.L.maxLinks (start E.cwd target.absolute) target.comps = .ok q := by
    obtain ⟨j, hj⟩ := Nat.exists_eq_add_of_le hk
    have := walkNew_of_leads hw j []
    rw [List.append_nil] at this
    rw [hj, this, walkNew]
  obtain ⟨hr1, hr2⟩ := reads_iff.2 hsrc
  have hc : b.take n ≠ [] := by
    cases b with
    | nil => exact absurd rfl hb
    | cons y b => cases n with
      | zero => omega
      | succ n => simp
  have hex : pathExists E.L s.disk.at_ E.cwd target = .ok true := by simp [pathExists, hstat, test]
  simp [Env.copyLocal, Env.mayCopy, Env.openRead, Env.read, Env.openWrite, Prog.bind, Prog.look, Prog.sys, Prog.pure, hF, hex, hr1, hr2, hc, hnew, hdir]

/-- **C10**: without force, a target that leads to something is refused with a `PathExistsError`, and so is a symlink that leads to
nothing, or round in circles. -/
theorem C10_refused (E : Env) {n fuel : Nat} {src target : UserPath} {s : Machine Node} (hF : ∀ n, E.F n = none)
    (h : (∃ k q x, k ≤ E.L.maxLinks ∧ Leads E.L s.disk.at_ k (start E.cwd target.absolute) target.comps q ∧ s.disk.at_ q = some x) ∨
      (∃ l, lstat E.L s.disk.at_ E.cwd target = .ok (.link l)) ∧ (FS.stat E.L s.disk.at_ E.cwd target = .error .ENOENT ∨ FS.stat E.L s.disk.at_ E.cwd target = .error .ELOOP)) :
    (E.copyLocal n fuel src target false s).1 = .error .pathExistsError ∧ (E.copyTo n fuel src target false s).1 = .error .pathExistsError := by
  rcases h with ⟨k, q, x, hk, hw, hx⟩ | ⟨⟨l, hl⟩, hs⟩
  · have hstat : FS.stat E.L s.disk.at_ E.cwd target = .ok x := (stat_ok_iff ..).2 ⟨k, q, hk, hw, hx⟩
    have hex : pathExists E.L s.disk.at_ E.cwd target = .ok true := by simp [pathExists, hstat, test]
    simp [Env.copyLocal, Env.copyTo, Env.mayCopy, Prog.bind, Prog.look, Prog.sys, Prog.pure, Prog.throw, hF, hex]
  · have hex : pathExists E.L s.disk.at_ E.cwd target = .ok false := by
      rcases hs with hs | hs <;> simp [pathExists, hs, test, ignored]
    have hli : isSymlink E.L s.disk.at_ E.cwd target = .ok true := by rw [isSymlink, hl]; rfl
    simp [Env.copyLocal, Env.copyTo, Env.mayCopy, Env.isSymlink, Prog.bind, Prog.look, Prog.sys, Prog.pure, Prog.throw, hF, hex, hli]

-- C10_replaces, C10_refused: `e` is replaced by `a`
example : HoldsAt copyEnv copyDisk ⟨false, [['a']]⟩ [['a']] [1, 2, 3] ∧ HoldsAt copyEnv copyDisk ⟨false, [['e']]⟩ [['e']] [] :=
  ⟨⟨⟨0, Nat.zero_le _, copy_here (.file [1, 2, 3]) (by decide) (by decide) (by simp)⟩, by decide⟩,
   ⟨⟨0, Nat.zero_le _, copy_here (.file []) (by decide) (by decide) (by simp)⟩, by decide⟩⟩

-- C10_onto_directory
example : Leads copyEnv.L copyDisk.at_ 0 [] [['d']] [['d']] ∧ copyDisk.at_ [['d']] = some (.dir true) :=
  ⟨copy_here (.dir true) (by decide) (by decide) (by simp), by decide⟩

/-- **C10**: with force, `copy_to` of a path that has no data of its own onto a path of the same file raises (`SameFileError` is an `OSError`)
and nothing has changed. -/
theorem C10_onto_itself (E : Env) {n fuel : Nat} {src target : UserPath} {q : Path} {b : Bytes} {s : Machine Node}
    (hF : ∀ n, E.F n = none) (hsrc : HoldsAt E s.disk src q b) (htgt : HoldsAt E s.disk target q b) :
    (E.copyTo n fuel src target true s).1 = .error .osError ∧ (E.copyTo n fuel src target true s).2.disk = s.disk := by
  obtain ⟨hr1, hr2⟩ := reads_iff.2 hsrc
  obtain ⟨ht1, ht2⟩ := reads_iff.2 htgt
  obtain ⟨⟨k, hk, hw⟩, hat⟩ := htgt
  have hstat : FS.stat E.L s.disk.at_ E.cwd target = .ok (.file b) := (stat_ok_iff ..).2 ⟨k, q, hk, hw, hat⟩
  have hex : pathExists E.L s.disk.at_ E.cwd target = .ok true := by simp [pathExists, hstat, test]
  have hd : FS.isDir E.L s.disk.at_ E.cwd target = .ok false := by simp [FS.isDir, hstat, test]
  have hsame : E.same s.disk src target = true := by simp [Env.same, hr1, ht1, hat]
  simp [Env.copyTo, Env.mayCopy, Env.copy2, Env.isDir, Env.copyFile, Prog.bind, Prog.look, Prog.sys, Prog.pure, Prog.throw, hF, hex, hd, hsame]

/-- **C10**: a directory is not copied: with and without force `copy_to` to a free name raises `IsADirectoryError` and nothing has
changed; for something other than a file or a directory it is an `OSError`. -/
theorem C10_from_directory (E : Env) {n fuel : Nat} {src target : UserPath} {from_ q : Path} {node : Node} {s : Machine Node} {force : Bool}
    (hF : ∀ n, E.F n = none) (hlinks : ∃ k, k ≤ E.L.maxLinks ∧ Leads E.L s.disk.at_ k (start E.cwd src.absolute) src.comps from_)
    (hnode : s.disk.at_ from_ = some node) (hno : ∀ b, node ≠ .file b)
    (hnew : FreeAt E s.disk target q) :
    (E.copyLocal n fuel src target force s).1 = .error (if ∃ x, node = .dir x then .isADirectoryError else .osError) ∧
    (E.copyLocal n fuel src target force s).2.disk = s.disk := by
  obtain ⟨k, hk, hw⟩ := hlinks
  have hwalk : walk E.L s.disk.at_ E.L.maxLinks (start E.cwd src.absolute) src.comps = .ok from_ := (walk_ok_iff ..).2 ⟨k, hk, hw⟩
  have hal := hnew.allows false
  have hex : pathExists E.L s.disk.at_ E.cwd target = .ok false ∧ isSymlink E.L s.disk.at_ E.cwd target = .ok false := by
    rcases hal with ⟨-, h⟩ | ⟨h1, h2⟩
    · simp at h
    · exact ⟨h1, by simpa using h2⟩
  cases node with
  | file b => exact absurd rfl (hno b)
  | dir x =>
    simp [Env.copyLocal, Env.mayCopy, Env.isSymlink, Env.openRead, Prog.bind, Prog.look, Prog.sys, Prog.pure, hF, hex.1, hex.2, hwalk, hnode]
  | _ =>
    simp [Env.copyLocal, Env.mayCopy, Env.isSymlink, Env.openRead, Prog.bind, Prog.look, Prog.sys, Prog.pure, hF, hex.1, hex.2, hwalk, hnode]

-- C10_from_directory: `d` to a name that nothing has
example : Leads copyEnv.L copyDisk.at_ 0 [] [['d']] [['d']] ∧ copyDisk.at_ [['d']] = some (.dir true) ∧
    FreeAt copyEnv copyDisk ⟨false, [['b']]⟩ [['b']] :=
  ⟨copy_here (.dir true) (by decide) (by decide) (by simp), by decide,
    ⟨[], ['b'], [], 0, rfl, by decide, Nat.zero_le _, .here _, by decide, rfl, by decide⟩⟩

/-- **C10**: `copy_outto` to what is not a directory raises `NotADirectoryError` and changes nothing, whatever it would have copied. -/
theorem C10_outto_refused (E : Env) (copy : UserPath → Prog Node Unit) (src target : UserPath) (s : Machine Node) (hF : E.F s.tick = none)
    (h : isDir E.L s.disk.at_ E.cwd target = .ok false) :
    (E.copyOutto copy src target s).1 = .error .notADirectoryError ∧ (E.copyOutto copy src target s).2.disk = s.disk := by
  simp [Env.copyOutto, Prog.bind, Env.isDir, Prog.look, Prog.sys, hF, h, Prog.throw]

/-- The hypotheses are met by a target that is a file. -/
example : copyEnv.F 0 = none ∧ isDir copyEnv.L copyDisk.at_ copyEnv.cwd ⟨false, [['a']]⟩ = .ok false := by
  refine ⟨rfl, ?_⟩
  have : FS.stat copyEnv.L copyDisk.at_ copyEnv.cwd ⟨false, [['a']]⟩ = .ok (.file [1, 2, 3]) :=
    (stat_ok_iff ..).2 ⟨0, [['a']], Nat.zero_le _, copy_here (.file [1, 2, 3]) (by decide) (by decide) (by simp), by decide⟩
  simp [isDir, this, test]

end Verif.FS
