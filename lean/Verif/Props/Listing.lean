import Verif.Model.Listing
import Verif.Model.Str
import Verif.Lemmas.Rmdirtree

/-!
# C53: Listing a project
-/

namespace Verif.FS.Listing
open Verif.Spec Rmdirtree

theorem names_nil_of_not_dir {d : Disk Node} {q : Path} (hr : Rooted d) (h : ∀ b, d.at_ q ≠ some (.dir b)) :
    d.names q = [] := by
  cases hn : d.names q with
  | nil => rfl
  | cons n _ =>
    obtain ⟨x, hx⟩ := (Disk.mem_names d q n).1 (by rw [hn]; simp)
    obtain ⟨b, hb⟩ := hr q n x hx
    exact absurd hb (h b)

theorem ancestor_dir {d : Disk Node} (hr : Rooted d) (q : Path) (n : Name) (t : List Name) (ht : t ≠ [])
    (h : ∃ x, d.at_ (q ++ n :: t) = some x) : ∃ b, d.at_ (q ++ [n]) = some (.dir b) := by
  have : ∀ tr : List Name, tr ≠ [] → (∃ x, d.at_ (q ++ [n] ++ tr.reverse) = some x) →
      ∃ b, d.at_ (q ++ [n]) = some (.dir b) := by
    intro tr
    induction tr with
    | nil => intro h; exact absurd rfl h
    | cons m tr ih =>
      rintro - ⟨x, hx⟩
      rw [List.reverse_cons, ← List.append_assoc] at hx
      have := hr _ m x hx
      cases tr with
      | nil => simpa using this
      | cons m' tr => exact ih (by simp) ⟨_, this.choose_spec⟩
  exact this t.reverse (by simpa using ht) (by simpa using h)

theorem rglob_mem {d : Disk Node} (hr : Rooted d) (fuel : Nat) (q : Path) (hf : Depth d q fuel) (s : List Name) :
    s ∈ rglob d fuel q ↔ s ≠ [] ∧ ∃ x, d.at_ (q ++ s) = some x := by
  induction fuel generalizing q s with
  | zero =>
    simp only [rglob, List.not_mem_nil, false_iff, not_and, not_exists]
    intro _ x hx
    have := hf _ x (List.prefix_append _ _) hx
    simp at this; omega
  | succ fuel ih =>
    have hf' : ∀ n, Depth d (q ++ [n]) fuel := fun n r x hpre hx => by
      have := hf r x ((List.prefix_append _ _).trans hpre) hx
      simp; omega
    simp only [rglob, List.mem_append, List.mem_map, List.mem_flatMap, List.mem_filter, Disk.mem_names]
    constructor
    · rintro (⟨n, hn, rfl⟩ | ⟨n, ⟨hn, -⟩, t, ht, rfl⟩)
      · exact ⟨by simp, hn⟩
      · have := ((ih (q ++ [n]) (hf' n) t).1 ht).2
        exact ⟨by simp, by simpa using this⟩
    · rintro ⟨hne, hx⟩
      cases s with
      | nil => exact absurd rfl hne
      | cons n t =>
        by_cases ht : t = []
        · subst ht
          exact .inl ⟨n, hx, rfl⟩
        · have hd := ancestor_dir hr q n t ht hx
          refine .inr ⟨n, ⟨⟨_, hd.choose_spec⟩, (real_iff d q n).2 hd⟩, t, ?_, rfl⟩
          rw [ih (q ++ [n]) (hf' n) t]
          exact ⟨ht, by simpa using hx⟩

theorem nodup_flatMap_heads {f : Name → List (List Name)} {ns : List Name} (hns : ns.Nodup)
    (hf : ∀ n ∈ ns, (f n).Nodup ∧ ∀ s ∈ f n, s.head? = some n) : (ns.flatMap f).Nodup := by
  induction ns with
  | nil => simp
  | cons n ns ih =>
    rw [List.nodup_cons] at hns
    rw [List.flatMap_cons, List.nodup_append]
    refine ⟨(hf n (by simp)).1, ih hns.2 fun m hm => hf m (by simp [hm]), ?_⟩
    rintro s hs t ht rfl
    obtain ⟨m, hm, hs'⟩ := List.mem_flatMap.1 ht
    have h1 := (hf n (by simp)).2 s hs
    have h2 := (hf m (by simp [hm])).2 s hs'
    rw [h1] at h2
    simp only [Option.some.injEq] at h2
    exact hns.1 (h2 ▸ hm)

theorem nodup_map_cons {l : List (List Name)} (h : l.Nodup) (n : Name) : (l.map fun s => n :: s).Nodup := by
  unfold List.Nodup at *
  rw [List.pairwise_map]
  exact h.imp fun hne he => hne (by simpa using he)

theorem rglob_ne_nil {d : Disk Node} {fuel : Nat} {q : Path} {s : List Name} (h : s ∈ rglob d fuel q) : s ≠ [] := by
  cases fuel with
  | zero => simp [rglob] at h
  | succ fuel =>
    simp only [rglob, List.mem_append, List.mem_map, List.mem_flatMap] at h
    rcases h with ⟨n, -, rfl⟩ | ⟨n, -, t, -, rfl⟩ <;> simp

theorem rglob_nodup {d : Disk Node} (hdis : Distinct d) (fuel : Nat) (q : Path) : (rglob d fuel q).Nodup := by
  induction fuel generalizing q with
  | zero => simp [rglob]
  | succ fuel ih =>
    rw [rglob, List.nodup_append]
    refine ⟨?_, ?_, ?_⟩
    · have := hdis.names q
      unfold List.Nodup at *
      rw [List.pairwise_map]
      exact this.imp fun hne he => hne (by simpa using he)
    · refine nodup_flatMap_heads ((hdis.names q).filter _) fun n _ => ⟨nodup_map_cons (ih _) n, ?_⟩
      intro s hs
      obtain ⟨t, -, rfl⟩ := List.mem_map.1 hs
      rfl
    · rintro s hs t ht rfl
      obtain ⟨n, -, rfl⟩ := List.mem_map.1 hs
      obtain ⟨m, -, ht⟩ := List.mem_flatMap.1 ht
      obtain ⟨t, ht, he⟩ := List.mem_map.1 ht
      simp only [List.cons.injEq] at he
      exact rglob_ne_nil ht he.2

theorem depth_spec (d : Disk Node) (q : Path) : Depth d q (depth d) := by
  intro r x _ hx
  have hm := Disk.mem_of_at hx
  have : ∀ l : Disk Node, (r, x) ∈ l → r.length ≤ (l.map fun e => e.1.length).foldr max 0 := by
    intro l
    induction l with
    | nil => simp
    | cons e l ih =>
      intro h
      rw [List.map_cons, List.foldr_cons]
      rcases List.mem_cons.1 h with rfl | h
      · exact Nat.le_max_left _ _
      · exact Nat.le_trans (ih h) (Nat.le_max_right _ _)
  have := this d hm
  unfold depth
  omega

/-- C53: the children of a directory are all that is in it; those of the anchor, all but what is ignored. -/
theorem C53_children (d : Disk Node) (q : Path) (n : Name) :
    (n ∈ children d false q ↔ ∃ x, d.at_ (q ++ [n]) = some x) ∧
    (n ∈ children d true q ↔ (∃ x, d.at_ (q ++ [n]) = some x) ∧ stem n ∉ cacheIgnore) := by
  constructor
  · simp [children, Disk.mem_names]
  · simp [children, Disk.mem_names]

/-- C53: in a directory that is not the anchor, `rchildren` yields every descendant, and each once. -/
theorem C53_elsewhere (d : Disk Node) (target : Path → Option Path) (hr : Rooted d) (hdis : Distinct d) (q : Path) :
    (rchildren d target false q).Nodup ∧
    ∀ s, s ∈ rchildren d target false q ↔ s ≠ [] ∧ ∃ x, d.at_ (q ++ s) = some x :=
  ⟨rglob_nodup hdis _ _, rglob_mem hr _ _ (depth_spec d q)⟩

/-- C53: what exactly `rchildren` yields at the anchor, each once: the descendants below entries whose stem is
not on the list, and, with the name of the symlink in front, what is in a directory that an entry links to. -/
theorem C53_anchor_exact (d : Disk Node) (target : Path → Option Path) (hr : Rooted d) (hdis : Distinct d) (q : Path) :
    (rchildren d target true q).Nodup ∧
    ∀ s, s ∈ rchildren d target true q ↔ ∃ n t, s = n :: t ∧ stem n ∉ cacheIgnore ∧
      ((∃ x, d.at_ (q ++ s) = some x) ∨
        (t ≠ [] ∧ ∃ l m, d.at_ (q ++ [n]) = some (.link l) ∧ target (q ++ [n]) = some m ∧ ∃ x, d.at_ (m ++ t) = some x)) := by
  simp only [rchildren, children, if_true]
  constructor
  · refine nodup_flatMap_heads ((hdis.names q).filter _) fun n _ => ⟨?_, ?_⟩
    · split
      · rw [List.nodup_cons]
        refine ⟨fun hc => ?_, nodup_map_cons (rglob_nodup hdis _ _) n⟩
        obtain ⟨t, ht, he⟩ := List.mem_map.1 hc
        simp only [List.cons.injEq, true_and] at he
        exact rglob_ne_nil ht he
      · simp
    · intro s hs
      rcases List.mem_cons.1 hs with rfl | hs
      · rfl
      · split at hs
        · obtain ⟨t, -, rfl⟩ := List.mem_map.1 hs
          rfl
        · simp at hs
  · intro s
    simp only [List.mem_flatMap, List.mem_filter, Disk.mem_names, List.mem_cons, Bool.not_eq_true', List.contains_eq_mem,
      decide_eq_false_iff_not]
    constructor
    · rintro ⟨n, ⟨hn, hs⟩, rfl | hin⟩
      · exact ⟨n, [], rfl, hs, .inl hn⟩
      · split at hin
        · rename_i m hm
          obtain ⟨t, ht, rfl⟩ := List.mem_map.1 hin
          obtain ⟨h1, x, hx⟩ := (rglob_mem hr _ _ (depth_spec d m) t).1 ht
          refine ⟨n, t, rfl, hs, ?_⟩
          unfold dirOf at hm
          split at hm
          · simp only [Option.some.injEq] at hm
            subst hm
            exact .inl ⟨x, by simpa using hx⟩
          · rename_i l hl
            exact .inr ⟨h1, l, m, hl, hm, x, hx⟩
          · simp at hm
        · simp at hin
    · rintro ⟨n, t, rfl, hs, ⟨x, hx⟩ | ⟨ht, l, m, hl, hm, x, hx⟩⟩
      · by_cases ht : t = []
        · subst ht
          exact ⟨n, ⟨⟨x, hx⟩, hs⟩, .inl rfl⟩
        · obtain ⟨b, hb⟩ := ancestor_dir hr q n t ht ⟨x, hx⟩
          refine ⟨n, ⟨⟨_, hb⟩, hs⟩, .inr ?_⟩
          have : dirOf d target q n = some (q ++ [n]) := by simp [dirOf, hb]
          rw [this]
          exact List.mem_map.2 ⟨t, (rglob_mem hr _ _ (depth_spec d _) t).2 ⟨ht, x, by simpa using hx⟩, rfl⟩
      · refine ⟨n, ⟨⟨_, hl⟩, hs⟩, .inr ?_⟩
        have : dirOf d target q n = some m := by simp [dirOf, hl, hm]
        rw [this]
        exact List.mem_map.2 ⟨t, (rglob_mem hr _ _ (depth_spec d _) t).2 ⟨ht, x, hx⟩, rfl⟩

/-- C53 (part): at an anchor none of whose entries is a symlink to a directory or has a name of the kind
`.git.txt`, `rchildren` yields every descendant that is not at or below a bookkeeping entry, each once.  (Full
claim: without these two assumptions, see the counterexamples.) -/
theorem C53_anchor_partial (d : Disk Node) (target : Path → Option Path) (hr : Rooted d) (hdis : Distinct d) (q : Path)
    (hstem : ∀ n x, d.at_ (q ++ [n]) = some x → stem n ∈ cacheIgnore → n ∈ cacheIgnore)
    (hlink : ∀ n l, d.at_ (q ++ [n]) = some (.link l) → target (q ++ [n]) = none) :
    (rchildren d target true q).Nodup ∧
    ∀ s, s ∈ rchildren d target true q ↔ ∃ n t, s = n :: t ∧ n ∉ cacheIgnore ∧ ∃ x, d.at_ (q ++ s) = some x := by
  obtain ⟨h1, h2⟩ := C53_anchor_exact d target hr hdis q
  refine ⟨h1, fun s => ?_⟩
  rw [h2]
  have hst : ∀ n, n ∈ cacheIgnore → stem n ∈ cacheIgnore := by
    intro n hn
    simp only [cacheIgnore, List.mem_cons, List.not_mem_nil, or_false] at hn
    rcases hn with rfl | rfl | rfl <;> decide
  constructor
  · rintro ⟨n, t, rfl, hs, ⟨x, hx⟩ | ⟨-, l, m, hl, hm, -⟩⟩
    · exact ⟨n, t, rfl, fun h => hs (hst n h), x, hx⟩
    · rw [hlink n l hl] at hm; simp at hm
  · rintro ⟨n, t, rfl, hs, x, hx⟩
    refine ⟨n, t, rfl, fun h => hs ?_, .inl ⟨x, hx⟩⟩
    by_cases ht : t = []
    · subst ht; exact hstem n x hx h
    · obtain ⟨b, hb⟩ := ancestor_dir hr q n t ht ⟨x, hx⟩
      exact hstem n _ hb h

/-- C53 is false for names whose stem is on the list: `.git.txt` is hidden, with everything below it,
although `skip_cache` does not count it as ignored. -/
theorem C53_stem_counterexample (d : Disk Node) (target : Path → Option Path) (q : Path) (t : List Name) :
    ['.', 'g', 'i', 't', '.', 't', 'x', 't'] :: t ∉ rchildren d target true q ∧
    skipCache (['.', 'g', 'i', 't', '.', 't', 'x', 't'] :: t) = .ok false := by
  constructor
  · simp only [rchildren, children, if_true, List.mem_flatMap, List.mem_filter, not_exists, not_and]
    rintro n ⟨-, hs⟩ hin
    have hn : n = ['.', 'g', 'i', 't', '.', 't', 'x', 't'] := by
      rcases List.mem_cons.1 hin with h | h
      · simp only [List.cons.injEq] at h; exact h.1.symm
      · split at h
        · obtain ⟨t', -, h⟩ := List.mem_map.1 h
          simp only [List.cons.injEq] at h; exact h.1
        · simp at h
    rw [hn] at hs
    revert hs
    decide
  · simp [skipCache, cacheIgnore]

/-- C53 is false for a symlink to a directory among the entries of the anchor: what is in that directory is
listed as if it were below the symlink. -/
theorem C53_symlink_counterexample (d : Disk Node) (target : Path → Option Path) (hr : Rooted d) (hdis : Distinct d)
    (q : Path) (n f : Name) (l : Target) (m : Path) (x : Node) (hn : stem n ∉ cacheIgnore)
    (hl : d.at_ (q ++ [n]) = some (.link l)) (hm : target (q ++ [n]) = some m) (hx : d.at_ (m ++ [f]) = some x) :
    [n, f] ∈ rchildren d target true q ∧ d.at_ (q ++ [n, f]) = none := by
  constructor
  · rw [(C53_anchor_exact d target hr hdis q).2]
    exact ⟨n, [f], rfl, hn, .inr ⟨by simp, l, m, hl, hm, x, hx⟩⟩
  · cases hc : d.at_ (q ++ [n, f]) with
    | none => rfl
    | some y =>
      obtain ⟨b, hb⟩ := hr (q ++ [n]) f y (by simpa using hc)
      rw [hl] at hb; simp at hb

/-! ## A concrete case -/

/-- A project with a file, a directory, `.git`, `.git.txt` and a symlink to a directory outside. -/
def sample : Disk Node :=
  [([], .dir true), ([['p']], .dir true), ([['p'], ['f']], .file [1]), ([['p'], ['k']], .dir true),
   ([['p'], ['k'], ['g']], .file []), ([['p'], ['.', 'g', 'i', 't']], .dir true),
   ([['p'], ['.', 'g', 'i', 't'], ['h']], .file []), ([['p'], ['.', 'g', 'i', 't', '.', 't', 'x', 't']], .file []),
   ([['p'], ['l']], .link ⟨true, [['o']]⟩), ([['o']], .dir true), ([['o'], ['z']], .file [])]

def sampleTarget (p : Path) : Option Path := if p = [['p'], ['l']] then some [['o']] else none

example : Rooted sample ∧ Distinct sample ∧
    sample.at_ ([['p']] ++ [['l']]) = some (.link ⟨true, [['o']]⟩) ∧ sampleTarget ([['p']] ++ [['l']]) = some [['o']] ∧
    sample.at_ ([['o']] ++ [['z']]) = some (.file []) := by
  refine ⟨?_, by unfold Distinct; decide, by decide, by decide, by decide⟩
  have : ∀ e ∈ sample, e.1 ≠ [] → sample.at_ e.1.dropLast = some (.dir true) := by decide
  intro r n x hx
  exact ⟨true, by simpa using this _ (Disk.mem_of_at hx) (by simp)⟩

example : rchildren sample sampleTarget true [['p']] = [[['f']], [['k']], [['k'], ['g']], [['l']], [['l'], ['z']]] := by
  decide

/-- The directory `/o`, taken as an anchor, meets the hypotheses of `C53_anchor_partial`. -/
example : (∀ n x, sample.at_ ([['o']] ++ [n]) = some x → stem n ∈ cacheIgnore → n ∈ cacheIgnore) ∧
    ∀ n l, sample.at_ ([['o']] ++ [n]) = some (.link l) → sampleTarget ([['o']] ++ [n]) = none := by
  have h1 : ∀ e ∈ sample, e.1.dropLast = [['o']] → stem (e.1.getLastD []) ∈ cacheIgnore →
      e.1.getLastD [] ∈ cacheIgnore := by decide
  constructor
  · intro n x hx
    simpa using h1 _ (Disk.mem_of_at hx) (by simp)
  · intro n l _
    simp [sampleTarget]


theorem rfindDot_none : ∀ {n : Name}, rfindDot n = none ↔ '.' ∉ n
  | [] => by simp [rfindDot]
  | c :: n => by
    have ih := rfindDot_none (n := n)
    unfold rfindDot
    cases h : rfindDot n with
    | some i => simp only [reduceCtorEq, false_iff, Classical.not_not]; rw [h] at ih; simp at ih; simp [ih]
    | none =>
      rw [h] at ih
      by_cases hc : c = '.'
      · simp [hc]
      · simp [hc, ih.1 rfl]; exact fun e => hc e.symm

theorem rfindDot_append {a s : Name} (hs : '.' ∉ s) : rfindDot (a ++ '.' :: s) = some a.length := by
  induction a with
  | nil => simp [rfindDot, rfindDot_none.2 hs]
  | cons c a ih => simp [rfindDot, ih]

/-- C53: the stem of a name is what is before the last full stop, if there is something before it and something after it. -/
theorem C53_stem (a s : Name) (ha : a ≠ []) (hs : s ≠ []) (h : '.' ∉ s) : stem (a ++ '.' :: s) = a := by
  have h1 := List.length_pos_iff.2 ha
  have h2 := List.length_pos_iff.2 hs
  simp only [stem, rfindDot_append h]
  rw [if_pos ⟨h1, by simp; omega⟩]
  simp

/-- C53: otherwise it is the whole name. -/
theorem C53_stem_whole (n : Name) (h : ∀ a s, a ≠ [] → s ≠ [] → '.' ∉ s → n ≠ a ++ '.' :: s) : stem n = n := by
  by_cases hd : '.' ∈ n
  · obtain ⟨a, s, rfl, hs⟩ : ∃ a s, n = a ++ '.' :: s ∧ '.' ∉ s := by
      obtain ⟨s, t, hst, he⟩ := List.append_of_mem (List.mem_reverse.2 hd) |> fun ⟨s, t, h⟩ => (⟨s, t, h, trivial⟩ : ∃ s t, n.reverse = s ++ '.' :: t ∧ True)
      clear hst he
      induction n with
      | nil => simp at hd
      | cons c n ih =>
        by_cases hn : '.' ∈ n
        · obtain ⟨a, s, rfl, h'⟩ : ∃ a s, n = a ++ '.' :: s ∧ '.' ∉ s := by
            refine ih (fun a s h1 h2 h3 he => h (c :: a) s (by simp) h2 h3 (by simp [he])) hn
          exact ⟨c :: a, s, rfl, h'⟩
        · rcases List.mem_cons.1 hd with rfl | hd
          · exact ⟨[], n, rfl, hn⟩
          · exact absurd hd hn
    simp only [stem, rfindDot_append hs]
    by_cases ha : a = []
    · simp [ha]
    · by_cases hs' : s = []
      · simp [hs']
      · exact absurd rfl (h a s ha hs' hs)
  · simp [stem, rfindDot_none.2 hd]

example : stem ['.', 'g', 'i', 't'] = ['.', 'g', 'i', 't'] ∧ stem ['a', '.', 'g'] = ['a'] ∧ stem ['a', '.'] = ['a', '.'] := by decide

/-- C53: the bookkeeping names, at which `children` looks at the anchor, are `.operations`, `.sparse` and `.git`, and no others. -/
theorem C53_bookkeeping_names (n : Name) :
    n ∈ cacheIgnore ↔ n = lit ".operations" ∨ n = lit ".sparse" ∨ n = lit ".git" := by
  have h1 : lit ".operations" = ['.', 'o', 'p', 'e', 'r', 'a', 't', 'i', 'o', 'n', 's'] := by decide
  have h2 : lit ".sparse" = ['.', 's', 'p', 'a', 'r', 's', 'e'] := by decide
  have h3 : lit ".git" = ['.', 'g', 'i', 't'] := by decide
  rw [h1, h2, h3]
  simp [cacheIgnore]

/-- **C53**: `skip_cache` is about the first component below the anchor only; the anchor itself has none and raises `IndexError`. -/
theorem C53_skip_cache (rel : List Name) :
    (skipCache rel = .error .indexError ↔ rel = []) ∧
    (skipCache rel = .ok true ↔ ∃ n t, rel = n :: t ∧ n ∈ [lit ".operations", lit ".sparse", lit ".git"]) := by
  cases rel <;> simp [skipCache, cacheIgnore, lit]

end Verif.FS.Listing
