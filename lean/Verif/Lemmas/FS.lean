import Verif.Spec.FS

namespace Verif.FS
open Verif.Spec

theorem walk_nil (L : Limits) (t : Tree) (b : Nat) (cur : Path) : walk L t b cur [] = .ok cur := by
  rw [walk]

theorem walk_dot {L : Limits} {t : Tree} {b : Nat} {cur : Path} {rest : List Name}
    (h : t cur = some (.dir true)) : walk L t b cur (['.'] :: rest) = walk L t b cur rest := by
  rw [walk]; simp [h]

theorem walk_up {L : Limits} {t : Tree} {b : Nat} {cur : Path} {rest : List Name}
    (h : t cur = some (.dir true)) :
    walk L t b cur (['.', '.'] :: rest) = walk L t b cur.dropLast rest := by
  rw [walk]; simp [h]

theorem walk_down {L : Limits} {t : Tree} {b : Nat} {cur : Path} {n : Name} {rest : List Name} {x : Node}
    (h : t cur = some (.dir true)) (hn : FitsName L n) (hx : t (cur ++ [n]) = some x)
    (hl : ∀ l, x ≠ .link l) : walk L t b cur (n :: rest) = walk L t b (cur ++ [n]) rest := by
  obtain ⟨h1, h2, h3⟩ := hn
  rw [walk]
  simp only [h, h1, h2, if_false, Nat.not_lt.2 h3, hx]

theorem walk_follow {L : Limits} {t : Tree} {b : Nat} {cur : Path} {n : Name} {rest : List Name} {l : Target}
    (h : t cur = some (.dir true)) (hn : FitsName L n) (hx : t (cur ++ [n]) = some (.link l)) :
    walk L t (b + 1) cur (n :: rest) =
      walk L t b (start cur l.absolute) (l.comps ++ rest) := by
  obtain ⟨h1, h2, h3⟩ := hn
  rw [walk]
  simp only [h, h1, h2, if_false, Nat.not_lt.2 h3, hx]

theorem walk_loop {L : Limits} {t : Tree} {cur : Path} {n : Name} {rest : List Name} {l : Target}
    (h : t cur = some (.dir true)) (hn : FitsName L n) (hx : t (cur ++ [n]) = some (.link l)) :
    walk L t 0 cur (n :: rest) = .error .ELOOP := by
  obtain ⟨h1, h2, h3⟩ := hn
  rw [walk]
  simp only [h, h1, h2, if_false, Nat.not_lt.2 h3, hx]

/-- The walk finds what the path leads to. -/
theorem walk_of_leads {L : Limits} {t : Tree} {k : Nat} {cur : Path} {rest : List Name} {q : Path}
    (h : Leads L t k cur rest q) : ∀ b, walk L t (k + b) cur rest = .ok q := by
  induction h with
  | here => intro b; exact walk_nil ..
  | dot h _ ih => intro b; rw [walk_dot h]; exact ih b
  | up h _ ih => intro b; rw [walk_up h]; exact ih b
  | down h hn hx hl _ ih => intro b; rw [walk_down h hn hx hl]; exact ih b
  | follow h hn hx _ ih =>
    intro b
    rw [Nat.add_right_comm, walk_follow h hn hx]; exact ih b

/-- The error code for a denial. -/
def denialErrno : Denial → Errno
  | .search => .EACCES
  | .long => .ENAMETOOLONG

theorem walk_of_denied {L : Limits} {t : Tree} {w : Denial} {k : Nat} {cur : Path} {rest : List Name}
    (h : Denied L t w k cur rest) : ∀ b, walk L t (k + b) cur rest = .error (denialErrno w) := by
  induction h with
  | search h => intro b; rw [walk]; simp [h, denialErrno]
  | long h h1 h2 h3 => intro b; rw [walk]; simp [h, h1, h2, h3, denialErrno]
  | dot h _ ih => intro b; rw [walk_dot h]; exact ih b
  | up h _ ih => intro b; rw [walk_up h]; exact ih b
  | down h hn hx hl _ ih => intro b; rw [walk_down h hn hx hl]; exact ih b
  | follow h hn hx _ ih =>
    intro b
    rw [Nat.add_right_comm, walk_follow h hn hx]; exact ih b

/-- Whatever the walk answers is justified. -/
theorem walk_cases (L : Limits) (t : Tree) (b : Nat) (cur : Path) (rest : List Name) :
    match walk L t b cur rest with
    | .ok q => ∃ k, k ≤ b ∧ Leads L t k cur rest q
    | .error .EACCES => ∃ k, k ≤ b ∧ Denied L t .search k cur rest
    | .error .ENAMETOOLONG => ∃ k, k ≤ b ∧ Denied L t .long k cur rest
    | .error _ => True := by
  fun_induction walk L t b cur rest with
  | case1 b cur => exact ⟨0, Nat.zero_le _, .here cur⟩
  | case2 => trivial
  | case3 b cur n rest h => exact ⟨0, Nat.zero_le _, .search h⟩
  | case4 b cur rest h ih =>
    revert ih
    cases walk L t b cur rest with
    | ok q => rintro ⟨k, h1, h2⟩; exact ⟨k, h1, .dot h h2⟩
    | error e => cases e <;> first | exact fun _ => trivial | (rintro ⟨k, h1, h2⟩; exact ⟨k, h1, .dot h h2⟩)
  | case5 b cur rest h _ ih =>
    revert ih
    cases walk L t b cur.dropLast rest with
    | ok q => rintro ⟨k, h1, h2⟩; exact ⟨k, h1, .up h h2⟩
    | error e => cases e <;> first | exact fun _ => trivial | (rintro ⟨k, h1, h2⟩; exact ⟨k, h1, .up h h2⟩)
  | case6 b cur n rest h h1 h2 h3 => exact ⟨0, Nat.zero_le _, .long h h1 h2 h3⟩
  | case7 => trivial
  | case8 => trivial
  | case9 cur n rest h h1 h2 h3 l hx b ih =>
    have hn : FitsName L n := ⟨h1, h2, Nat.not_lt.1 h3⟩
    revert ih
    cases walk L t b (start cur l.absolute) (l.comps ++ rest) with
    | ok q => rintro ⟨k, g1, g2⟩; exact ⟨k + 1, Nat.succ_le_succ g1, .follow h hn hx g2⟩
    | error e => cases e <;> first | exact fun _ => trivial | (rintro ⟨k, g1, g2⟩; exact ⟨k + 1, Nat.succ_le_succ g1, .follow h hn hx g2⟩)
  | case10 b cur n rest h h1 h2 h3 x hl hx ih =>
    have hn : FitsName L n := ⟨h1, h2, Nat.not_lt.1 h3⟩
    revert ih
    cases walk L t b (cur ++ [n]) rest with
    | ok q => rintro ⟨k, g1, g2⟩; exact ⟨k, g1, .down h hn hx hl g2⟩
    | error e => cases e <;> first | exact fun _ => trivial | (rintro ⟨k, g1, g2⟩; exact ⟨k, g1, .down h hn hx hl g2⟩)
  | case11 => trivial

theorem walk_ok_iff (L : Limits) (t : Tree) (b : Nat) (cur : Path) (rest : List Name) (q : Path) :
    walk L t b cur rest = .ok q ↔ ∃ k, k ≤ b ∧ Leads L t k cur rest q := by
  constructor
  · intro h
    have := walk_cases L t b cur rest
    rw [h] at this
    exact this
  · rintro ⟨k, hk, h⟩
    have := walk_of_leads h (b - k)
    rwa [Nat.add_sub_cancel' hk] at this

theorem walk_denied_iff (L : Limits) (t : Tree) (b : Nat) (cur : Path) (rest : List Name) (w : Denial) :
    walk L t b cur rest = .error (denialErrno w) ↔ ∃ k, k ≤ b ∧ Denied L t w k cur rest := by
  constructor
  · intro h
    have := walk_cases L t b cur rest
    cases w <;> rw [h] at this <;> exact this
  · rintro ⟨k, hk, h⟩
    have := walk_of_denied h (b - k)
    rwa [Nat.add_sub_cancel' hk] at this

theorem stat_ok_iff (L : Limits) (t : Tree) (cwd : Path) (p : UserPath) (x : Node) :
    stat L t cwd p = .ok x ↔ LeadsTo L t cwd p x := by
  unfold stat LeadsTo
  constructor
  · intro h
    split at h
    · rename_i q hq
      obtain ⟨k, h1, h2⟩ := (walk_ok_iff ..).1 hq
      refine ⟨k, q, h1, h2, ?_⟩
      unfold node at h
      split at h <;> simp_all
    · cases h
  · rintro ⟨k, q, h1, h2, h3⟩
    rw [(walk_ok_iff ..).2 ⟨k, h1, h2⟩]
    simp [node, h3]

theorem stat_refused_iff (w : Denial) (L : Limits) (t : Tree) (cwd : Path) (p : UserPath) :
    stat L t cwd p = .error (denialErrno w) ↔ RefusedFor w L t cwd p := by
  unfold RefusedFor
  rw [← walk_denied_iff]
  unfold stat node
  cases hw : walk L t L.maxLinks (start cwd p.absolute) p.comps with
  | ok q => cases hq : t q <;> cases w <;> simp [denialErrno, hq]
  | error e => simp

theorem stat_denied_iff (L : Limits) (t : Tree) (cwd : Path) (p : UserPath) :
    (∃ e, stat L t cwd p = .error e ∧ ignored e = false) ↔ Refused L t cwd p := by
  unfold Refused
  simp only [← stat_refused_iff]
  constructor
  · rintro ⟨e, h1, h2⟩
    cases e <;> simp [ignored] at h2
    · exact ⟨.search, h1⟩
    · exact ⟨.long, h1⟩
  · rintro ⟨w, h⟩
    exact ⟨_, h, by cases w <;> rfl⟩

theorem lstat_link_iff (L : Limits) (t : Tree) (cwd : Path) (p : UserPath) (l : Target) :
    (∀ n, p.comps.getLast? = some n → n ≠ ['.'] ∧ n ≠ ['.', '.']) → p.comps ≠ [] →
    (lstat L t cwd p = .ok (.link l) ↔ NamesLink L t cwd p l) := by
  intro hlast hne
  obtain ⟨parent, n, hpn⟩ : ∃ parent n, p.comps = parent ++ [n] :=
    ⟨p.comps.dropLast, p.comps.getLast hne, (List.dropLast_concat_getLast hne).symm⟩
  have hn := hlast n (by simp [hpn])
  unfold lstat
  simp only [hpn, List.getLast?_concat, hn.1, hn.2, or_self, if_false, List.dropLast_concat]
  constructor
  · intro h
    split at h
    · cases h
    · rename_i d hd
      obtain ⟨k, h1, h2⟩ := (walk_ok_iff ..).1 hd
      split at h
      · cases h
      · cases h
      · rename_i hdir
        split at h
        · cases h
        · rename_i hlen
          unfold node at h
          split at h
          · rename_i x hx
            cases h
            exact ⟨parent, n, d, k, hpn, ⟨hn.1, hn.2, Nat.not_lt.1 hlen⟩, h1, h2, hdir, hx⟩
          · cases h
      · cases h
  · rintro ⟨parent', n', d, k, he, hf, h1, h2, h3, h4⟩
    rw [hpn] at he
    obtain ⟨e1, e2⟩ := List.append_inj' he rfl
    subst e1
    cases e2
    rw [(walk_ok_iff ..).2 ⟨k, h1, h2⟩]
    simp [h3, Nat.not_lt.2 hf.2.2, node, h4]

theorem test_true_iff {r : Except Errno Node} {kind : Node → Bool} :
    test r kind = .ok true ↔ ∃ x, r = .ok x ∧ kind x = true := by
  cases r with
  | ok x => simp [test]
  | error e => simp [test]; split <;> simp

theorem test_error_iff (r : Except Errno Node) (kind : Node → Bool) :
    (∃ x, test r kind = .error x) ↔ ∃ e, r = .error e ∧ ignored e = false := by
  cases r with
  | ok x => simp [test]
  | error e => cases h : ignored e <;> simp [test, h]

theorem test_denied_iff (r : Except Errno Node) (kind : Node → Bool) :
    (test r kind = .error .permissionError ↔ r = .error (denialErrno .search)) ∧
    (test r kind = .error .osError ↔ r = .error (denialErrno .long)) := by
  cases r with
  | ok x => simp [test]
  | error e => cases e <;> simp [test, ignored, denialErrno, Errno.py]

theorem test_false_iff {r : Except Errno Node} {kind : Node → Bool}
    (h : ¬∃ e, r = .error e ∧ ignored e = false) :
    test r kind = .ok false ↔ ¬test r kind = .ok true := by
  cases r with
  | ok x => simp [test]
  | error e =>
    have : ignored e = true := by
      cases hi : ignored e
      · exact absurd ⟨e, rfl, hi⟩ h
      · rfl
    simp [test, this]

theorem walk_append {L : Limits} {t : Tree} {k b : Nat} {cur : Path} {parent rest : List Name} {d : Path}
    (hk : k ≤ b) (h : Leads L t k cur parent d) :
    walk L t b cur (parent ++ rest) = walk L t (b - k) d rest := by
  induction h generalizing b with
  | here => simp
  | dot h _ ih => rw [List.cons_append, walk_dot h]; exact ih hk
  | up h _ ih => rw [List.cons_append, walk_up h]; exact ih hk
  | down h hn hx hl _ ih => rw [List.cons_append, walk_down h hn hx hl]; exact ih hk
  | @follow k cur n rest' q l h hn hx _ ih =>
    cases b with
    | zero => omega
    | succ b =>
      rw [List.cons_append, walk_follow h hn hx, ← List.append_assoc, ih (Nat.le_of_succ_le_succ hk)]
      congr 1
      omega

/-- A link that starts with its own name can be followed until the budget is used up. -/
theorem walk_self_link {L : Limits} {t : Tree} {d : Path} {n : Name} {rest : List Name}
    (hdir : t d = some (.dir true)) (hf : FitsName L n)
    (hlink : t (d ++ [n]) = some (.link ⟨false, n :: rest⟩)) {b : Nat} {rest' : List Name} :
    walk L t b d (n :: rest') = .error .ELOOP := by
  induction b generalizing rest' with
  | zero => exact walk_loop hdir hf hlink
  | succ b ih =>
    rw [walk_follow hdir hf hlink]
    exact ih

end Verif.FS
