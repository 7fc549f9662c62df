import Verif.Model.AdsHelper
import Verif.Lemmas.Str
import Verif.Lemmas.Decide

/-!
# C133: streams pretend to be attributes
-/

namespace Verif.AdsHelper

/-! ## What is claimed -/

/-- An operation that both helpers have. -/
inductive Op where
  | set (ns key : Str) (value : Bytes)
  | get (ns key : Str)
  | del (ns key : Str)
  | all (ns : Str)
  deriving DecidableEq

/-- What comes of it. -/
inductive Res where
  | done
  | value (b : Bytes)
  | dict (d : List (Str × Bytes))
  | raised (e : PyErr)
  deriving DecidableEq

/-- The helper for windows. -/
def Env.step (E : Env) (p : WPath) (v : Vol) : Op → Res × Vol
  | .set ns k b => match E.setxattr v p ns (.text k) b none with
    | (.ok (), v) => (.done, v)
    | (.error e, v) => (.raised e, v)
  | .get ns k => match E.getxattr v p ns (.text k) with
    | .ok b => (.value b, v)
    | .error e => (.raised e, v)
  | .del ns k => match E.delxattr v p ns (.text k) false with
    | (.ok (), v) => (.done, v)
    | (.error e, v) => (.raised e, v)
  | .all ns => match E.xattrs v p ns with
    | .ok d => (.dict d, v)
    | .error e => (.raised e, v)

def Env.run (E : Env) (p : WPath) : Vol → List Op → List Res × Vol
  | v, [] => ([], v)
  | v, o :: os => let r := E.step p v o; let r' := E.run p r.2 os; (r.1 :: r'.1, r'.2)

/-- The helper for posix, on a file with these attributes. -/
def posix (s : Attrs.Store) : Op → Res × Attrs.Store
  | .set ns k b => (.done, Attrs.setxattr s ns k b)
  | .get ns k => match Attrs.getxattr s ns k with
    | .ok b => (.value b, s)
    | .error e => (.raised e, s)
  | .del ns k => match Attrs.delxattr s ns k false with
    | .ok s => (.done, s)
    | .error e => (.raised e, s)
  | .all ns => (.dict (Attrs.xattrs s ns), s)

def posixRun : Attrs.Store → List Op → List Res × Attrs.Store
  | s, [] => ([], s)
  | s, o :: os => let r := posix s o; let r' := posixRun r.2 os; (r.1 :: r'.1, r'.2)

/-- A text that may be the name of a file or stream. -/
def Legal (n : Str) : Prop := n ≠ [] ∧ ':' ∉ n ∧ '/' ∉ n ∧ '\\' ∉ n

/-- A path that the helper can name the streams of: it has a last part, which is not a single letter alone. -/
def Nameable (E : Env) (p : WPath) : Prop :=
  p.comps ≠ [] ∧ (∀ c ∈ p.comps, Legal c) ∧ (∀ c ∈ E.cwd, Legal c) ∧ (p.absolute = true ∨ ∀ c, p.comps ≠ [[c]])

/-- Names that the file system can have and tells apart. -/
def Apart (E : Env) (G : Str → Prop) : Prop := (∀ n, G n → Legal n) ∧ ∀ n m, G n → G m → E.fold n = E.fold m → n = m

/-- The operation is about these names, and the names that begin with the namespace are in it. -/
def About (G : Str → Prop) : Op → Prop
  | .set ns k _ | .get ns k | .del ns k => G (ns ++ '.' :: k)
  | .all ns => ∀ n, G n → ns <+: n → ∃ k, k ≠ [] ∧ n = ns ++ '.' :: k

/-! ## The names -/

theorem replaceC_plain {n : Str} (h : '\\' ∉ n) : replaceC '\\' '/' n = n := replaceC_eq_self h

theorem segments_plain {f n : Str} (hf : Legal f) (hn : Legal n) : segments (f ++ ':' :: n) = [f ++ ':' :: n] := by
  have h1 : '\\' ∉ f ++ ':' :: n := by
    simp only [List.mem_append, List.mem_cons]
    rintro (h | h | h)
    · exact hf.2.2.2 h
    · exact absurd h (by decide)
    · exact hn.2.2.2 h
  have h2 : '/' ∉ f ++ ':' :: n := by
    simp only [List.mem_append, List.mem_cons]
    rintro (h | h | h)
    · exact hf.2.2.1 h
    · exact absurd h (by decide)
    · exact hn.2.2.1 h
  unfold segments
  rw [replaceC_plain h1, splitC_of_not_mem h2]
  have : (f ++ ':' :: n) ≠ [] ∧ (f ++ ':' :: n) ≠ ['.'] := by
    refine ⟨by simp, fun h => ?_⟩
    have : ':' ∈ ['.'] := h ▸ (by simp)
    exact absurd this (by decide)
  simp [this]

theorem nameable_split {E : Env} {p : WPath} (hp : Nameable E p) : ∃ up last, p.comps = up ++ [last] := by
  obtain ⟨h, _⟩ := hp
  exact ⟨p.comps.dropLast, p.comps.getLast h, (List.dropLast_concat_getLast h).symm⟩

/-- The path of a stream is what windows takes for this stream of the file. -/
theorem stream_locate {E : Env} {p : WPath} {n : Str} (hp : Nameable E p) (hn : Legal n) :
    ∃ q, stream p n = .ok q ∧ E.locate (E.full q) = .ok (E.full p, n) ∧ ∃ last, q.comps.getLast? = some (last ++ ':' :: n) ∧ ':' ∉ last := by
  obtain ⟨up, last, hc⟩ := nameable_split hp
  obtain ⟨_, hl, hcwd, hone⟩ := hp
  have hlast : Legal last := hl last (by rw [hc]; simp)
  have hup : ∀ c ∈ up, Legal c := fun c h => hl c (by rw [hc]; simp [h])
  refine ⟨⟨p.absolute, up ++ [last ++ ':' :: n]⟩, ?_, ?_, last, by simp, hlast.2.1⟩
  · unfold stream
    rw [hc, List.reverse_append]
    simp only [List.reverse_cons, List.reverse_nil, List.nil_append, List.cons_append, List.reverse_reverse]
    rw [if_neg, segments_plain hlast hn]
    rintro h
    simp only [Bool.and_eq_true, Bool.not_eq_true', List.isEmpty_iff, List.reverse_eq_nil_iff, beq_iff_eq] at h
    obtain ⟨⟨h1, h2⟩, h3⟩ := h
    rcases hone with h | h
    · rw [h] at h1; simp at h1
    · obtain ⟨c, rfl⟩ := List.length_eq_one_iff.1 h3
      exact h c (by rw [hc, h2]; rfl)
  · have key : ∀ pre : List Str, (∀ c ∈ pre, Legal c) → E.locate (pre ++ [last ++ ':' :: n]) = .ok (pre ++ [last], n) := by
      intro pre hpre
      unfold Env.locate
      rw [List.reverse_append]
      simp only [List.reverse_cons, List.reverse_nil, List.nil_append, List.cons_append]
      rw [if_neg, splitC_append_sep hlast.2.1, splitC_of_not_mem hn.2.1]
      · dsimp only
        rw [if_neg (fun h => h.elim hlast.1 hn.1), List.reverse_reverse]
      · simp only [List.any_reverse, List.any_eq_true, List.contains_iff_mem, not_exists, not_and]
        exact fun c hc h => (hpre c hc).2.1 h
    unfold Env.full
    dsimp only
    cases p.absolute with
    | true => simp only [if_true]; rw [key _ hup, hc]
    | false =>
      simp only [Bool.false_eq_true, if_false]
      rw [← List.append_assoc, key, hc, ← List.append_assoc]
      intro c h
      rcases List.mem_append.1 h with h | h
      · exact hcwd c h
      · exact hup c h

theorem within_tail {n : Str} (h : ':' ∉ n) : within (lit "::$DATA") (n ++ lit ":$DATA") = false := by
  induction n with
  | nil => decide
  | cons c n ih =>
    simp only [List.mem_cons, not_or] at h
    rw [List.cons_append, within, ih h.2, Bool.or_false]
    have : (lit "::$DATA") = ':' :: lit ":$DATA" := by decide
    rw [this, List.isPrefixOf]
    simp [h.1]

theorem rsplitType_tail (n : Str) : rsplitType (n ++ lit ":$DATA") = some (n, lit "DATA") := by
  induction n with
  | nil => decide
  | cons c n ih =>
    rw [List.cons_append, rsplitType.eq_def]
    dsimp only
    rw [ih]

/-- **C133**: the name that is found in what the system says of a stream is its name. -/
theorem C133_cleaned {n : Str} (h : Legal n) : cleaned (Ads.entry n) = .ok (some n) := by
  obtain ⟨hne, hc, -, -⟩ := h
  cases n with
  | nil => exact absurd rfl hne
  | cons a n =>
    have ha : a ≠ ':' := fun h => hc (h ▸ List.mem_cons_self)
    have hw : within (lit "::$DATA") (Ads.entry (a :: n)) = false := by
      unfold Ads.entry
      rw [List.cons_append, within, within_tail hc, Bool.or_false]
      have : (lit "::$DATA") = ':' :: ':' :: lit "$DATA" := by decide
      rw [this]
      simp [List.isPrefixOf, Ne.symm ha]
    have hs : stripColons (Ads.entry (a :: n)) = (a :: n) ++ lit ":$DATA" := by
      unfold stripColons Ads.entry
      have h1 : List.dropWhile (fun x => decide (x = ':')) (':' :: (a :: n) ++ lit ":$DATA") = (a :: n) ++ lit ":$DATA" := by
        simp [List.dropWhile, ha]
      rw [h1]
      have h2 : ((a :: n) ++ lit ":$DATA").reverse = 'A' :: (lit "TAD$:" ++ (a :: n).reverse) := by
        rw [List.reverse_append]; rfl
      rw [h2, List.dropWhile_cons_of_neg (by decide), ← h2, List.reverse_reverse]
    unfold cleaned
    rw [hw, hs, rsplitType_tail]
    rfl

/-- And the stream without a name, which is the content, is left out. -/
theorem C133_content_left_out : cleaned (Ads.entry []) = .ok none := by decide

/-! ## The streams are the attributes -/

section
variable {E : Env} {G : Str → Prop} (hG : Apart E G)

include hG

theorem find_eq {n : Str} (hn : G n) : ∀ {s : Attrs.Store}, (∀ x ∈ s, G x.1) → E.find s n = Attrs.lookup n s
  | [], _ => rfl
  | (m, b) :: s, h => by
    rw [Env.find, Attrs.lookup]
    have hm : G m := h _ List.mem_cons_self
    by_cases e : m = n
    · rw [if_pos (by rw [e]), if_pos e]
    · rw [if_neg (fun h' => e (hG.2 _ _ hm hn h')), if_neg e]
      exact find_eq hn fun x hx => h x (List.mem_cons_of_mem _ hx)

theorem write_eq {n : Str} {b : Bytes} (hn : G n) : ∀ {s : Attrs.Store}, (∀ x ∈ s, G x.1) → E.write s n b = Attrs.insert n b s
  | [], _ => rfl
  | (m, c) :: s, h => by
    rw [Env.write, Attrs.insert]
    have hm : G m := h _ List.mem_cons_self
    by_cases e : m = n
    · rw [if_pos (by rw [e]), if_pos e]
    · rw [if_neg (fun h' => e (hG.2 _ _ hm hn h')), if_neg e]
      rw [write_eq hn fun x hx => h x (List.mem_cons_of_mem _ hx)]

theorem drop_eq {n : Str} (hn : G n) : ∀ {s : Attrs.Store}, (∀ x ∈ s, G x.1) → E.drop s n = Attrs.erase n s
  | [], _ => rfl
  | (m, c) :: s, h => by
    rw [Env.drop, Attrs.erase]
    have hm : G m := h _ List.mem_cons_self
    by_cases e : m = n
    · rw [if_pos (by rw [e]), if_pos e]
    · rw [if_neg (fun h' => e (hG.2 _ _ hm hn h')), if_neg e]
      rw [drop_eq hn fun x hx => h x (List.mem_cons_of_mem _ hx)]

end

theorem insert_mem {n : Str} {b : Bytes} {P : Str → Prop} (hn : P n) : ∀ {s : Attrs.Store}, (∀ x ∈ s, P x.1) → ∀ x ∈ Attrs.insert n b s, P x.1
  | [], _ => by simp [Attrs.insert, hn]
  | (m, c) :: s, h => by
    rw [Attrs.insert]
    have hm : P m := h _ List.mem_cons_self
    have hs : ∀ x ∈ s, P x.1 := fun x hx => h x (List.mem_cons_of_mem _ hx)
    split
    · intro x hx
      rcases List.mem_cons.1 hx with rfl | hx
      · exact hm
      · exact hs x hx
    · intro x hx
      rcases List.mem_cons.1 hx with rfl | hx
      · exact hm
      · exact insert_mem hn hs x hx

theorem insert_names {n : Str} {b : Bytes} : ∀ {s : Attrs.Store}, (Attrs.insert n b s).map Prod.fst = if n ∈ s.map Prod.fst then s.map Prod.fst else s.map Prod.fst ++ [n]
  | [] => by simp [Attrs.insert]
  | (m, c) :: s => by
    rw [Attrs.insert]
    by_cases e : m = n
    · rw [if_pos e]
      simp [e]
    · rw [if_neg e, List.map_cons, insert_names, List.map_cons]
      have : n ∈ m :: s.map Prod.fst ↔ n ∈ s.map Prod.fst := by simp [Ne.symm e]
      by_cases h : n ∈ s.map Prod.fst
      · rw [if_pos h, if_pos (this.2 h)]
      · rw [if_neg h, if_neg (fun h' => h (this.1 h'))]
        rfl

theorem insert_nodup {n : Str} {b : Bytes} {s : Attrs.Store} (h : (s.map Prod.fst).Nodup) : ((Attrs.insert n b s).map Prod.fst).Nodup := by
  rw [insert_names]
  split
  · exact h
  · rename_i hn
    rw [List.nodup_append]
    refine ⟨h, by simp, fun a ha b hb => ?_⟩
    rw [List.mem_singleton] at hb
    rintro rfl
    exact hn (hb ▸ ha)

theorem erase_sub {n : Str} : ∀ {s : Attrs.Store}, (Attrs.erase n s).Sublist s
  | [] => by simp [Attrs.erase]
  | (m, c) :: s => by
    rw [Attrs.erase]
    split
    · exact List.sublist_cons_self _ _
    · exact List.Sublist.cons_cons _ erase_sub

theorem insert_new {n : Str} {b : Bytes} : ∀ {s : Attrs.Store}, n ∉ s.map Prod.fst → Attrs.insert n b s = s ++ [(n, b)]
  | [], _ => rfl
  | (m, c) :: s, h => by
    simp only [List.map_cons, List.mem_cons, not_or] at h
    rw [Attrs.insert, if_neg (Ne.symm h.1), insert_new h.2]
    rfl

/-- A dictionary made of pairs with different keys is these pairs. -/
theorem dict_pairs : ∀ {l d : Attrs.Store}, ((d ++ l).map Prod.fst).Nodup → l.foldl (fun d kv => Attrs.insert kv.1 kv.2 d) d = d ++ l
  | [], d, _ => by simp
  | (k, b) :: l, d, h => by
    have hk : k ∉ d.map Prod.fst := by
      rw [List.map_append, List.nodup_append] at h
      exact fun hk => h.2.2 k hk k (by simp) rfl
    rw [List.foldl_cons, insert_new hk, dict_pairs (by simpa using h)]
    simp

theorem lookup_mem {n : Str} {b : Bytes} : ∀ {s : Attrs.Store}, (s.map Prod.fst).Nodup → (n, b) ∈ s → Attrs.lookup n s = some b
  | (m, c) :: s, h, hm => by
    rw [List.map_cons, List.nodup_cons] at h
    rw [Attrs.lookup]
    rcases List.mem_cons.1 hm with e | hm
    · injection e with e1 e2
      rw [if_pos e1.symm, e2]
    · rw [if_neg, lookup_mem h.2 hm]
      rintro rfl
      exact h.1 (List.mem_map.2 ⟨_, hm, rfl⟩)

/-- What `_xattrs` collects are the streams. -/
theorem collect_eq {E : Env} {G : Str → Prop} (hG : Apart E G) {p : WPath} (hp : Nameable E p) {v : Vol} {nd : Node}
    (hv : v (E.full p) = some nd) (hs : ∀ x ∈ nd.streams, G x.1) (hnd : (nd.streams.map Prod.fst).Nodup) :
    ∀ (l : Attrs.Store) (out : Attrs.Store), (∀ x ∈ l, x ∈ nd.streams) → ((out ++ l).map Prod.fst).Nodup →
      E.collect v p (l.map fun s => Ads.entry s.1) out = .ok (out ++ l)
  | [], out, _, _ => by simp [Env.collect]
  | (n, b) :: l, out, hl, h => by
    have hmem : (n, b) ∈ nd.streams := hl _ List.mem_cons_self
    have hn : G n := hs _ hmem
    obtain ⟨q, h1, h2, last, h3, h4⟩ := stream_locate hp (hG.1 n hn)
    have hk : n ∉ out.map Prod.fst := by
      rw [List.map_append, List.nodup_append] at h
      exact fun hk => h.2.2 n hk n (by simp) rfl
    have hr : E.openR v (E.full q) = .ok b := by
      unfold Env.openR
      rw [h2]
      dsimp only
      rw [hv, Option.bind_some, find_eq hG hn hs, lookup_mem hnd hmem]
    rw [List.map_cons, Env.collect, C133_cleaned (hG.1 n hn)]
    dsimp only
    rw [h1]
    dsimp only
    rw [h3]
    dsimp only
    rw [splitC_append_sep h4, splitC_of_not_mem (hG.1 n hn).2.1]
    dsimp only
    rw [hr]
    dsimp only
    rw [show joinC ':' [n] = n by simp [joinC], insert_new hk,
      collect_eq hG hp hv hs hnd l (out ++ [(n, b)]) (fun x hx => hl x (List.mem_cons_of_mem _ hx)) (by simpa using h)]
    simp

/-- The path, resolved. -/
theorem Nameable.resolved {E : Env} {p : WPath} (hp : Nameable E p) : Nameable E ⟨true, E.cwd ++ p.comps⟩ := by
  obtain ⟨h1, h2, h3, _⟩ := hp
  refine ⟨fun h => h1 (List.append_eq_nil_iff.1 h).2, fun c hc => ?_, h3, .inl rfl⟩
  rcases List.mem_append.1 hc with hc | hc
  · exact h3 c hc
  · exact h2 c hc

/-- The file has these attributes. -/
def Has (E : Env) (G : Str → Prop) (p : WPath) (v : Vol) (s : Attrs.Store) : Prop :=
  (∃ d, v (E.full p) = some ⟨d, s⟩) ∧ (∀ x ∈ s, G x.1) ∧ (s.map Prod.fst).Nodup

theorem allxattrs_eq {E : Env} {G : Str → Prop} (hG : Apart E G) {p : WPath} (hp : Nameable E p) {v : Vol} {s : Attrs.Store}
    (h : Has E G p v s) : E.allxattrs v p = .ok s := by
  obtain ⟨⟨d, hv⟩, hs, hnd⟩ := h
  have key : ∀ p', Nameable E p' → E.full p' = E.full p → p'.comps = E.full p → (match v p'.comps with
      | none => .ok []
      | some n => E.collect v p' (Ads.entries (!n.dir) n.streams) []) = Except.ok s := by
    intro p' hp' hf hc
    rw [hc, hv]
    have := collect_eq hG hp' (v := v) (hf ▸ hv) hs hnd s [] (fun _ h => h) (by simpa using hnd)
    cases d with
    | true => simpa [Ads.entries] using this
    | false =>
      dsimp only [Ads.entries, Bool.not_false]
      rw [if_pos (by rfl), List.singleton_append, Env.collect, C133_content_left_out]
      simpa using this
  unfold Env.allxattrs
  cases ha : p.absolute with
  | true => simp only [if_true]; exact key p hp rfl (by simp [Env.full, ha])
  | false =>
    simp only [Bool.false_eq_true, if_false]
    exact key _ hp.resolved (by simp [Env.full, ha]) (by simp [Env.full, ha])

theorem xattrs_keys {s : Attrs.Store} {ns : Str} (h : ∀ x ∈ s, ns <+: x.1 → ∃ k, k ≠ [] ∧ x.1 = ns ++ '.' :: k) :
    Attrs.xattrsADS s ns = Attrs.xattrs s ns := by
  unfold Attrs.xattrsADS Attrs.xattrs
  have congr : ∀ {α β : Type} (f g : α → Option β) (l : List α), (∀ x ∈ l, f x = g x) → l.filterMap f = l.filterMap g := by
    intro α β f g l
    induction l with
    | nil => intro _; rfl
    | cons a l ih =>
      intro h
      rw [List.filterMap_cons, List.filterMap_cons, h a List.mem_cons_self, ih fun x hx => h x (List.mem_cons_of_mem _ hx)]
  refine congr _ _ _ fun x hx => ?_
  obtain ⟨n, b⟩ := x
  dsimp only
  by_cases hp : ns <+: n
  · obtain ⟨k, hk, rfl⟩ := h _ hx hp
    rw [if_pos (by simp), if_pos]
    refine ⟨by simp, ?_⟩
    have := List.length_pos_iff.2 hk
    simp
    omega
  · rw [if_neg (by rw [List.isPrefixOf_iff_prefix]; exact hp), if_neg]
    rintro ⟨h', -⟩
    rw [List.isPrefixOf_iff_prefix] at h'
    exact hp ((List.prefix_append _ _).trans h')

theorem xattrs_nodup {ns : Str} : ∀ {s : Attrs.Store}, (s.map Prod.fst).Nodup → ((Attrs.xattrs s ns).map Prod.fst).Nodup
  | [], _ => by simp [Attrs.xattrs]
  | (n, b) :: s, h => by
    rw [List.map_cons, List.nodup_cons] at h
    have ih := xattrs_nodup (ns := ns) h.2
    unfold Attrs.xattrs at ih ⊢
    rw [List.filterMap_cons]
    dsimp only
    by_cases hc : (ns ++ ['.']).isPrefixOf n = true ∧ ns.length + 1 < n.length
    · rw [if_pos hc]
      dsimp only
      rw [List.map_cons, List.nodup_cons]
      refine ⟨fun hm => ?_, ih⟩
      obtain ⟨⟨k, c⟩, hm, hk⟩ := List.mem_map.1 hm
      obtain ⟨⟨m, c'⟩, hm, he⟩ := List.mem_filterMap.1 hm
      dsimp only at he hk
      split at he
      · rename_i hc'
        injection he with he
        injection he with he1 he2
        rw [List.isPrefixOf_iff_prefix] at hc hc'
        obtain ⟨a, ha⟩ := hc.1
        obtain ⟨a', ha'⟩ := hc'.1
        have e1 : n.drop (ns.length + 1) = a := by rw [← ha, List.drop_left' (by simp)]
        have e2 : m.drop (ns.length + 1) = a' := by rw [← ha', List.drop_left' (by simp)]
        have : m = n := by rw [← ha, ← ha', ← e1, ← e2, he1, hk]
        exact h.1 (this ▸ List.mem_map.2 ⟨_, hm, rfl⟩)
      · simp at he
    · rw [if_neg hc]
      exact ih

/-- One operation gives the same and leaves the same. -/
theorem step_agrees {E : Env} {G : Str → Prop} (hG : Apart E G) {p : WPath} (hp : Nameable E p) {v : Vol} {s : Attrs.Store}
    (h : Has E G p v s) (o : Op) (ho : About G o) :
    (E.step p v o).1 = (posix s o).1 ∧ Has E G p (E.step p v o).2 (posix s o).2 ∧ ∀ r, r ≠ E.full p → (E.step p v o).2 r = v r := by
  obtain ⟨⟨d, hv⟩, hs, hnd⟩ := h
  cases o with
  | set ns k b =>
    have hn : G (ns ++ '.' :: k) := ho
    obtain ⟨q, h1, h2, -⟩ := stream_locate hp (hG.1 _ hn)
    have : E.step p v (.set ns k b) = (.done, v.put (E.full p) ⟨d, Attrs.insert (ns ++ '.' :: k) b s⟩) := by
      simp only [Env.step, Env.setxattr, keyConvention, h1, Env.openW, h2, hv, write_eq hG hn hs]
    rw [this]
    exact ⟨rfl, ⟨⟨d, by simp [Vol.put, posix, Attrs.setxattr, Attrs.full]⟩, insert_mem hn hs, insert_nodup hnd⟩, fun r hr => by simp [Vol.put, hr]⟩
  | get ns k =>
    have hn : G (ns ++ '.' :: k) := ho
    obtain ⟨q, h1, h2, -⟩ := stream_locate hp (hG.1 _ hn)
    have : E.step p v (.get ns k) = ((posix s (.get ns k)).1, v) := by
      simp only [Env.step, Env.getxattr, keyConvention, h1, Env.openR, h2, hv, Option.bind_some, find_eq hG hn hs, posix, Attrs.getxattr, Attrs.full]
      cases Attrs.lookup (ns ++ '.' :: k) s <;> rfl
    rw [this]
    refine ⟨rfl, ?_, fun _ _ => rfl⟩
    have : (posix s (.get ns k)).2 = s := by unfold posix; dsimp only; split <;> rfl
    rw [this]
    exact ⟨⟨d, hv⟩, hs, hnd⟩
  | del ns k =>
    have hn : G (ns ++ '.' :: k) := ho
    obtain ⟨q, h1, h2, -⟩ := stream_locate hp (hG.1 _ hn)
    cases hl : Attrs.lookup (ns ++ '.' :: k) s with
    | none =>
      have : E.step p v (.del ns k) = (.done, v) := by
        simp only [Env.step, Env.delxattr, keyConvention, h1, Env.unlink, h2, hv, find_eq hG hn hs, hl, if_true, Bool.false_eq_true, if_false]
      have h' : posix s (.del ns k) = (.done, s) := by simp [posix, Attrs.delxattr, Attrs.full, hl]
      rw [this, h']
      exact ⟨rfl, ⟨⟨d, hv⟩, hs, hnd⟩, fun _ _ => rfl⟩
    | some b =>
      have : E.step p v (.del ns k) = (.done, v.put (E.full p) ⟨d, Attrs.erase (ns ++ '.' :: k) s⟩) := by
        simp only [Env.step, Env.delxattr, keyConvention, h1, Env.unlink, h2, hv, find_eq hG hn hs, hl, drop_eq hG hn hs]
      have h' : posix s (.del ns k) = (.done, Attrs.erase (ns ++ '.' :: k) s) := by simp [posix, Attrs.delxattr, Attrs.full, hl]
      rw [this, h']
      exact ⟨rfl, ⟨⟨d, by simp [Vol.put]⟩, fun x hx => hs x (erase_sub.subset hx), hnd.sublist (erase_sub.map _)⟩, fun r hr => by simp [Vol.put, hr]⟩
  | all ns =>
    have : E.step p v (.all ns) = (.dict (Attrs.xattrs s ns), v) := by
      simp only [Env.step, Env.xattrs, allxattrs_eq hG hp ⟨⟨d, hv⟩, hs, hnd⟩]
      rw [xattrs_keys fun x hx hpre => ho _ (hs x hx) hpre, dict_pairs (by simpa using xattrs_nodup hnd)]
      simp
    rw [this]
    exact ⟨rfl, ⟨⟨d, hv⟩, hs, hnd⟩, fun _ _ => rfl⟩

/-- **C133** (partial): on a file that is there, with a path whose streams can be named and with names that the file system tells
apart, every history of setting, reading, deleting and listing gives what it gives for the attributes of a file on posix, and
leaves the same; nothing else is changed.  What is missing from the full claim: a file that is not there
(`C133_missing`), a single letter and `Path('.')` (`C133_unnameable`), keys that are bytes
(`C133_bytes`), deleting what must be there (`C133_fail`), names that differ in case
(`C133_case_counterexample`), and writes that fail (`C133_torn_counterexample`). -/
theorem C133_agrees_partial (E : Env) {G : Str → Prop} (hG : Apart E G) {p : WPath} (hp : Nameable E p) (ops : List Op) :
    ∀ {v : Vol} {s : Attrs.Store}, Has E G p v s → (∀ o ∈ ops, About G o) →
      (E.run p v ops).1 = (posixRun s ops).1 ∧ Has E G p (E.run p v ops).2 (posixRun s ops).2 ∧
      ∀ r, r ≠ E.full p → (E.run p v ops).2 r = v r := by
  induction ops with
  | nil => exact fun h _ => ⟨rfl, h, fun _ _ => rfl⟩
  | cons o ops ih =>
    intro v s h ha
    obtain ⟨h1, h2, h3⟩ := step_agrees hG hp h o (ha o List.mem_cons_self)
    obtain ⟨i1, i2, i3⟩ := ih h2 fun o' ho' => ha o' (List.mem_cons_of_mem _ ho')
    refine ⟨?_, i2, fun r hr => (i3 r hr).trans (h3 r hr)⟩
    simp only [Env.run, posixRun]
    rw [h1, i1]

/-! ## Where they differ -/

/-- **C133**: no attribute of `Path('.')`, or of a path that is a single letter, can be set, read or deleted, although they can be
listed. -/
theorem C133_unnameable (E : Env) (v : Vol) {p : WPath} (hp : p.comps = [] ∨ p.absolute = false ∧ ∃ c, p.comps = [[c]]) (ns k : Str) (b : Bytes) (fail : Bool) :
    E.setxattr v p ns (.text k) b none = (.error .valueError, v) ∧ E.getxattr v p ns (.text k) = .error .valueError ∧
    E.delxattr v p ns (.text k) fail = (.error .valueError, v) := by
  have h : ∀ n, stream p n = .error .valueError := by
    intro n
    unfold stream
    rcases hp with h | ⟨h, c, h'⟩
    · rw [h]; rfl
    · rw [h, h']; rfl
  simp [Env.setxattr, Env.getxattr, Env.delxattr, keyConvention, h]

/-- **C133**: where nothing is, setting an attribute makes a file, with nothing in it but the attribute; reading says that there is
no such attribute, deleting does nothing, and there are no attributes.  On posix all of them say that there is no file. -/
theorem C133_missing (E : Env) {v : Vol} {p : WPath} (hp : Nameable E p) (h : v (E.full p) = none) {ss : List (Str × Bytes)}
    (hd : v (E.full p).dropLast = some ⟨true, ss⟩) {ns k : Str} (hn : Legal (ns ++ '.' :: k)) (b : Bytes) :
    E.step p v (.set ns k b) = (.done, v.put (E.full p) ⟨false, [(ns ++ '.' :: k, b)]⟩) ∧
    E.step p v (.get ns k) = (.raised .noStreamError, v) ∧ E.step p v (.del ns k) = (.done, v) ∧ E.step p v (.all ns) = (.dict [], v) := by
  obtain ⟨q, h1, h2, -⟩ := stream_locate hp hn
  refine ⟨?_, ?_, ?_, ?_⟩
  · simp only [Env.step, Env.setxattr, keyConvention, h1, Env.openW, h2, h, hd]
  · simp only [Env.step, Env.getxattr, keyConvention, h1, Env.openR, h2, h, Option.bind_none, if_true]
  · simp only [Env.step, Env.delxattr, keyConvention, h1, Env.unlink, h2, h, if_true, Bool.false_eq_true, if_false]
  · have : E.allxattrs v p = .ok [] := by
      unfold Env.allxattrs Env.full at *
      cases ha : p.absolute with
      | true => rw [ha] at h; simp only [if_true] at h ⊢; rw [h]
      | false => rw [ha] at h; simp only [Bool.false_eq_true, if_false] at h ⊢; rw [h]
    simp [Env.step, Env.xattrs, this, Attrs.xattrsADS]

/-- **C133**: what is set with a key that is bytes can neither be read nor deleted with this key, not even when the key is one of
those that `xattrs` lists, which are all bytes. -/
theorem C133_bytes (E : Env) (v : Vol) (p : WPath) (ns k : Str) (b : Bytes) (fail : Bool) (fault : Option (PyErr × Nat)) :
    E.setxattr v p ns (.raw k) b fault = E.setxattr v p ns (.text k) b fault ∧ E.getxattr v p ns (.raw k) = .error .typeError ∧
    E.delxattr v p ns (.raw k) fail = (.error .typeError, v) := ⟨rfl, rfl, rfl⟩

/-- **C133**: deleting an attribute that must be there but is not is another exception than on posix. -/
theorem C133_fail (E : Env) {G : Str → Prop} (hG : Apart E G) {p : WPath} (hp : Nameable E p) {v : Vol} {s : Attrs.Store}
    (h : Has E G p v s) {ns k : Str} (hn : G (ns ++ '.' :: k)) (hl : ns ++ '.' :: k ∉ s.map Prod.fst) :
    E.delxattr v p ns (.text k) true = (.error .noStreamError, v) ∧ Attrs.delxattr s ns k true = .error .osError := by
  obtain ⟨⟨d, hv⟩, hs, hnd⟩ := h
  obtain ⟨q, h1, h2, -⟩ := stream_locate hp (hG.1 _ hn)
  have hl : Attrs.lookup (ns ++ '.' :: k) s = none := by
    clear hs hnd hv
    induction s with
    | nil => rfl
    | cons x s ih =>
      obtain ⟨m, c⟩ := x
      simp only [List.map_cons, List.mem_cons, not_or] at hl
      rw [Attrs.lookup, if_neg (Ne.symm hl.1), ih hl.2]
  refine ⟨?_, by simp [Attrs.delxattr, Attrs.full, hl]⟩
  simp only [Env.delxattr, keyConvention, h1, Env.unlink, h2, hv, find_eq hG hn hs, hl, if_true]

/-- **C133**: `_streamname` never answers for the path of a stream. -/
theorem C133_streamname {p : WPath} {up : List Str} {last : Str} (hp : p.comps = up ++ [last]) (h : ':' ∈ last) :
    streamname p = .error .typeError := by
  unfold streamname
  rw [hp, List.reverse_append]
  simp [h]

/-- A drive that ignores case, with a file `f` in the current directory `d`. -/
def upper : Env := ⟨[['d']], fun s => s.map Char.toUpper⟩

def some_ (ss : List (Str × Bytes)) : Vol := fun q =>
  if q = [] ∨ q = [['d']] then some ⟨true, []⟩ else if q = [['d'], lit "f.x"] then some ⟨false, ss⟩ else none

def file : WPath := ⟨false, [lit "f.x"]⟩

/-- Two keys that differ in case are one attribute. -/
theorem C133_case_counterexample :
    (upper.run file (some_ []) [.set (lit "user") ['a'] [1], .set (lit "user") ['A'] [2], .get (lit "user") ['a'], .all (lit "user")]).1 =
      [.done, .done, .value [2], .dict [(['a'], [2])]] ∧
    (posixRun [] [.set (lit "user") ['a'] [1], .set (lit "user") ['A'] [2], .get (lit "user") ['a'], .all (lit "user")]).1 =
      [.done, .done, .value [1], .dict [(['a'], [1]), (['A'], [2])]] := by
  refine ⟨by decide +kernel, by decide +kernel⟩

/-- Keys that are not names of files are other attributes than they should be, or none. -/
theorem C133_alias_counterexample :
    (upper.run file (some_ []) [.set (lit "user") ['a'] [1], .set (lit "user") (lit "a/") [2], .set (lit "user") (lit "a:$DATA") [3], .get (lit "user") ['a'],
      .set (lit "user") (lit "a/b") [4]]).1 = [.done, .done, .done, .value [3], .raised .osError] := by decide +kernel

/-- A write that fails destroys the value that was there. -/
theorem C133_torn_counterexample :
    let r := upper.setxattr (some_ [(lit "user.a", [1, 2, 3])]) file (lit "user") (.text ['a']) [7, 8, 9] (some (.osError, 1))
    r.1 = .error .osError ∧ upper.getxattr r.2 file (lit "user") (.text ['a']) = .ok [7] := by
  refine ⟨by decide +kernel, by decide +kernel⟩

/-- The hypotheses hold for the file with two attributes and names that are in one case. -/
example : Nameable upper file ∧ Apart upper (fun n => n = lit "user.a" ∨ n = lit "user.b" ∨ n = lit "Zone") ∧
    Has upper (fun n => n = lit "user.a" ∨ n = lit "user.b" ∨ n = lit "Zone") file (some_ [(lit "user.a", [1]), (lit "Zone", [2])])
      [(lit "user.a", [1]), (lit "Zone", [2])] ∧
    About (fun n => n = lit "user.a" ∨ n = lit "user.b" ∨ n = lit "Zone") (.all (lit "user")) ∧
    (upper.run file (some_ [(lit "user.a", [1]), (lit "Zone", [2])]) [.set (lit "user") ['b'] [3], .all (lit "user"), .del (lit "user") ['a'], .all (lit "user")]).1 =
      [.done, .dict [(['a'], [1]), (['b'], [3])], .done, .dict [(['b'], [3])]] := by
  refine ⟨⟨by decide, ?_, ?_, .inr ?_⟩, ⟨?_, ?_⟩, ⟨⟨false, by decide +kernel⟩, ?_, by decide⟩, ?_, by decide +kernel⟩
  · intro c hc
    rw [show file.comps = [lit "f.x"] from rfl, List.mem_singleton] at hc
    subst hc
    unfold Legal
    decide
  · intro c hc
    rw [show upper.cwd = [['d']] from rfl, List.mem_singleton] at hc
    subst hc
    unfold Legal
    decide
  · intro c h
    have : (lit "f.x").length = 1 := by
      rw [show file.comps = [lit "f.x"] from rfl] at h
      injection h with h
      rw [h]; rfl
    exact absurd this (by decide)
  · rintro n (rfl | rfl | rfl) <;> (unfold Legal; decide)
  · rintro n m (rfl | rfl | rfl) (rfl | rfl | rfl) h <;> first | rfl | exact absurd h (by decide +kernel)
  · intro x hx
    simp only [List.mem_cons, List.not_mem_nil, or_false] at hx
    rcases hx with rfl | rfl
    · exact .inl rfl
    · exact .inr (.inr rfl)
  · rintro n (rfl | rfl | rfl) h
    · exact ⟨['a'], by simp, by decide⟩
    · exact ⟨['b'], by simp, by decide⟩
    · exact absurd h (by decide)

theorem splitC_join (t u : Str) : splitC '/' (t ++ '/' :: u) = splitC '/' t ++ splitC '/' u := by
  induction t with
  | nil => simp [splitC]
  | cons c t ih =>
    have hne : splitC '/' t ≠ [] := by
      cases t with
      | nil => simp [splitC]
      | cons a t => rw [splitC]; split; · simp
                    · split <;> simp
    rw [List.cons_append, splitC, ih, splitC]
    by_cases h : c = '/'
    · simp [h]
    · simp only [h, if_false]
      cases hs : splitC '/' t with
      | nil => exact absurd hs hne
      | cons w ws => simp

/-- **C133**: a key with `/.` or a separator at its end is the same attribute as the key without, for every path. -/
theorem C133_alias (p : WPath) (name : Str) :
    stream p (name ++ lit "/.") = stream p name ∧ stream p (name ++ ['/']) = stream p name ∧ stream p (name ++ ['\\']) = stream p name := by
  have hseg : ∀ (t u : Str) (c : Char), (c = '/' ∨ c = '\\') → segments (t ++ c :: u) = segments t ++ segments u := by
    intro t u c hc
    unfold segments
    have : replaceC '\\' '/' (t ++ c :: u) = replaceC '\\' '/' t ++ '/' :: replaceC '\\' '/' u := by
      rcases hc with rfl | rfl <;> simp [replaceC]
    rw [this, splitC_join, List.filter_append]
  have key : ∀ (c : Char) (u : Str), (c = '/' ∨ c = '\\') → segments u = [] → stream p (name ++ c :: u) = stream p name := by
    intro c u hc hu
    unfold stream
    cases p.comps.reverse with
    | nil => rfl
    | cons last up =>
      have : last ++ ':' :: (name ++ c :: u) = (last ++ ':' :: name) ++ c :: u := by simp
      dsimp only
      rw [this, hseg _ _ _ hc, hu, List.append_nil]
  exact ⟨key '/' ['.'] (.inl rfl) (by decide), key '/' [] (.inl rfl) (by decide), key '\\' [] (.inr rfl) (by decide)⟩

/-- **C133**: a path that windows does not take for a stream, as with a colon in the key, raises what opening it raises, also from
`delxattr` that is not to fail. -/
theorem C133_refused (E : Env) (v : Vol) (p : WPath) (ns k : Str) (b : Bytes) (fail : Bool) {q : WPath} {e : PyErr}
    (hs : stream p (ns ++ '.' :: k) = .ok q) (hq : E.locate (E.full q) = .error e) :
    e = .osError ∧ E.getxattr v p ns (.text k) = .error .osError ∧ E.delxattr v p ns (.text k) fail = (.error .osError, v) ∧
    E.setxattr v p ns (.text k) b none = (.error .osError, v) := by
  have he : e = .osError := by
    unfold Env.locate at hq
    repeat' split at hq
    all_goals first | (cases hq; rfl) | cases hq
  subst he
  simp [Env.getxattr, Env.delxattr, Env.setxattr, keyConvention, hs, Env.openR, Env.openW, Env.unlink, hq]

/-- **C133**: in a directory that is not there nothing is made. -/
theorem C133_no_directory (E : Env) {v : Vol} {p : WPath} (hp : Nameable E p) (h : v (E.full p) = none)
    (hd : ∀ ss, v (E.full p).dropLast ≠ some ⟨true, ss⟩) {ns k : Str} (hn : Legal (ns ++ '.' :: k)) (b : Bytes) :
    E.step p v (.set ns k b) = (.raised .fileNotFoundError, v) := by
  obtain ⟨q, h1, h2, -⟩ := stream_locate hp hn
  have : ∀ x : Option Node, x = v (E.full p).dropLast → (match x with
      | some ⟨true, _⟩ => Except.ok (v.put (E.full p) ⟨false, [(ns ++ '.' :: k, b)]⟩)
      | _ => .error .fileNotFoundError) = (.error .fileNotFoundError : Except PyErr Vol) := by
    intro x hx
    rcases x with _ | ⟨_ | _, ss⟩
    · rfl
    · rfl
    · exact absurd hx.symm (hd ss)
  have h3 : E.openW v (E.full q) b = .error .fileNotFoundError := by
    unfold Env.openW
    rw [h2]
    dsimp only
    rw [h]
    dsimp only
    exact this _ rfl
  simp only [Env.step, Env.setxattr, keyConvention, h1, h3]

theorem rsplitType_some {t a b : Str} (h : rsplitType t = some (a, b)) : t = a ++ lit ":$" ++ b := by
  induction t generalizing a b with
  | nil => simp [rsplitType] at h
  | cons c cs ih =>
    rw [rsplitType.eq_def] at h
    dsimp only at h
    cases hr : rsplitType cs with
    | some ab =>
      rw [hr] at h
      obtain ⟨a', b'⟩ := ab
      simp only [Option.some.injEq, Prod.mk.injEq] at h
      obtain ⟨rfl, rfl⟩ := h
      rw [ih hr]; simp
    | none =>
      rw [hr] at h
      dsimp only at h
      split at h
      · simp only [Option.some.injEq, Prod.mk.injEq] at h
        obtain ⟨rfl, rfl⟩ := h
        rfl
      · cases h

theorem within_some {a t : Str} (h : within a t = true) : ∃ x y, t = x ++ a ++ y := by
  induction t with
  | nil =>
    rw [within] at h
    have := List.isPrefixOf_iff_prefix.1 h
    obtain ⟨y, hy⟩ := this
    exact ⟨[], y, hy.symm⟩
  | cons c t ih =>
    rw [within, Bool.or_eq_true] at h
    rcases h with h | h
    · obtain ⟨y, hy⟩ := List.isPrefixOf_iff_prefix.1 h
      exact ⟨[], y, hy.symm⟩
    · obtain ⟨x, y, rfl⟩ := ih h
      exact ⟨c :: x, y, rfl⟩

/-- **C133**: an answer of the system that has no type of stream in it ends the listing with an exception. -/
theorem C133_untyped (t : Str) (h : ¬ ∃ a b, t = a ++ lit ":$" ++ b) : cleaned t = .error .valueError := by
  unfold cleaned
  have hw : within (lit "::$DATA") t = false := by
    cases hw : within (lit "::$DATA") t with
    | false => rfl
    | true =>
      obtain ⟨x, y, rfl⟩ := within_some hw
      exact absurd ⟨x ++ [':'], lit "DATA" ++ y, by simp [lit]⟩ h
  rw [hw]
  cases hr : rsplitType (stripColons t) with
  | none => rfl
  | some ab =>
    exfalso
    have h1 := rsplitType_some hr
    have h2 : ∃ x y, t = x ++ stripColons t ++ y := by
      unfold stripColons
      refine ⟨t.takeWhile (· = ':'), ((t.dropWhile (· = ':')).reverse.takeWhile (· = ':')).reverse, ?_⟩
      rw [List.append_assoc, ← List.reverse_append, List.takeWhile_append_dropWhile, List.reverse_reverse,
        List.takeWhile_append_dropWhile]
    obtain ⟨x, y, h2⟩ := h2
    rw [h1] at h2
    exact h ⟨x ++ ab.1, ab.2 ++ y, by rw [h2]; simp⟩

example : cleaned (lit ":a:") = .error .valueError := C133_untyped _ (by
  rintro ⟨a, b, h⟩
  have : '$' ∈ lit ":a:" := by rw [h]; simp [lit]
  revert this; decide)

/-- **C133**: `_streamname` has nothing to unpack for `Path('.')`, and says nothing for a file. -/
theorem C133_streamname_file (p : WPath) : (p.comps = [] → streamname p = .error .valueError) ∧
    ∀ up last, p.comps = up ++ [last] → ':' ∉ last → streamname p = .ok none := by
  constructor
  · intro h; simp [streamname, h]
  · intro up last h hc; simp [streamname, h, hc]

/-- The hypotheses of `C133_refused` are met by a key with a colon. -/
example : ∃ q, stream ⟨true, [lit "d", lit "f"]⟩ (lit "u.a:b") = .ok q ∧ (⟨[], id⟩ : Env).locate ((⟨[], id⟩ : Env).full q) = .error .osError :=
  ⟨⟨true, [lit "d", lit "f:u.a:b"]⟩, by decide +kernel, by decide +kernel⟩

/-- The path of a stream with a type is what windows takes for this stream of the file if the type is that of data, and for nothing otherwise. -/
theorem stream_typed {E : Env} {p : WPath} {n t : Str} (hp : Nameable E p) (hn : Legal n) (ht : Legal t) :
    ∃ q, stream p (n ++ ':' :: t) = .ok q ∧
      E.locate (E.full q) = if E.fold t = E.fold (lit "$DATA") then .ok (E.full p, n) else .error .osError := by
  obtain ⟨up, last, hc⟩ := nameable_split hp
  obtain ⟨_, hl, hcwd, hone⟩ := hp
  have hlast : Legal last := hl last (by rw [hc]; simp)
  have hup : ∀ c ∈ up, Legal c := fun c h => hl c (by rw [hc]; simp [h])
  have hseg : segments (last ++ ':' :: (n ++ ':' :: t)) = [last ++ ':' :: (n ++ ':' :: t)] := by
    have h1 : ∀ x, x ≠ ':' → x ∉ last → x ∉ n → x ∉ t → x ∉ last ++ ':' :: (n ++ ':' :: t) := by
      intro x hx a b c
      simp only [List.mem_append, List.mem_cons]
      rintro (h | h | h | h | h)
      · exact a h
      · exact hx h
      · exact b h
      · exact hx h
      · exact c h
    unfold segments
    rw [replaceC_plain (h1 '\\' (by decide) hlast.2.2.2 hn.2.2.2 ht.2.2.2),
      splitC_of_not_mem (h1 '/' (by decide) hlast.2.2.1 hn.2.2.1 ht.2.2.1)]
    have : (last ++ ':' :: (n ++ ':' :: t)) ≠ [] ∧ (last ++ ':' :: (n ++ ':' :: t)) ≠ ['.'] := by
      refine ⟨by simp, fun h => ?_⟩
      have : ':' ∈ ['.'] := h ▸ (by simp)
      exact absurd this (by decide)
    simp [this]
  refine ⟨⟨p.absolute, up ++ [last ++ ':' :: (n ++ ':' :: t)]⟩, ?_, ?_⟩
  · unfold stream
    rw [hc, List.reverse_append]
    simp only [List.reverse_cons, List.reverse_nil, List.nil_append, List.cons_append, List.reverse_reverse]
    rw [if_neg, hseg]
    rintro h
    simp only [Bool.and_eq_true, Bool.not_eq_true', List.isEmpty_iff, List.reverse_eq_nil_iff, beq_iff_eq] at h
    obtain ⟨⟨h1, h2⟩, h3⟩ := h
    rcases hone with h | h
    · rw [h] at h1; simp at h1
    · obtain ⟨c, rfl⟩ := List.length_eq_one_iff.1 h3
      exact h c (by rw [hc, h2]; rfl)
  · have key : ∀ pre : List Str, (∀ c ∈ pre, Legal c) → E.locate (pre ++ [last ++ ':' :: (n ++ ':' :: t)]) =
        if E.fold t = E.fold (lit "$DATA") then .ok (pre ++ [last], n) else .error .osError := by
      intro pre hpre
      unfold Env.locate
      rw [List.reverse_append]
      simp only [List.reverse_cons, List.reverse_nil, List.nil_append, List.cons_append]
      rw [if_neg, splitC_append_sep hlast.2.1, splitC_append_sep hn.2.1, splitC_of_not_mem ht.2.1]
      · dsimp only
        rw [List.reverse_reverse]
        by_cases e : E.fold t = E.fold (lit "$DATA")
        · rw [if_neg (fun h => h.elim hlast.1 fun h => h.elim hn.1 fun h => h e), if_pos e]
        · rw [if_pos (Or.inr (Or.inr e)), if_neg e]
      · simp only [List.any_reverse, List.any_eq_true, List.contains_iff_mem, not_exists, not_and]
        exact fun c hc h => (hpre c hc).2.1 h
    unfold Env.full
    dsimp only
    cases p.absolute with
    | true => simp only [if_true]; rw [key _ hup, hc]
    | false =>
      simp only [Bool.false_eq_true, if_false]
      rw [← List.append_assoc, key, hc, ← List.append_assoc]
      intro c h
      rcases List.mem_append.1 h with h | h
      · exact hcwd c h
      · exact hup c h

/-- **C133**: a key with `:$DATA` at its end, in any case, is the same attribute as the key without. -/
theorem C133_type_alias (E : Env) {p : WPath} (hp : Nameable E p) (v : Vol) {ns k t : Str} (hn : Legal (ns ++ '.' :: k)) (ht : Legal t)
    (he : E.fold t = E.fold (lit "$DATA")) (b : Bytes) :
    E.step p v (.set ns (k ++ ':' :: t) b) = E.step p v (.set ns k b) ∧ E.step p v (.get ns (k ++ ':' :: t)) = E.step p v (.get ns k) ∧
    E.step p v (.del ns (k ++ ':' :: t)) = E.step p v (.del ns k) := by
  obtain ⟨q, h1, h2, -⟩ := stream_locate hp hn
  obtain ⟨q', h1', h2'⟩ := stream_typed hp hn ht
  rw [if_pos he] at h2'
  have : ns ++ '.' :: (k ++ ':' :: t) = (ns ++ '.' :: k) ++ ':' :: t := by simp
  simp only [Env.step, Env.setxattr, Env.getxattr, Env.delxattr, keyConvention, this, h1, h1', Env.openW, Env.openR, Env.unlink, h2, h2']
  simp

/-- **C133**: a key with another colon in it is refused. -/
theorem C133_other_type (E : Env) {p : WPath} (hp : Nameable E p) (v : Vol) {ns k t : Str} (hn : Legal (ns ++ '.' :: k)) (ht : Legal t)
    (he : E.fold t ≠ E.fold (lit "$DATA")) (b : Bytes) :
    E.step p v (.set ns (k ++ ':' :: t) b) = (.raised .osError, v) ∧ E.step p v (.get ns (k ++ ':' :: t)) = (.raised .osError, v) ∧
    E.step p v (.del ns (k ++ ':' :: t)) = (.raised .osError, v) := by
  obtain ⟨q', h1', h2'⟩ := stream_typed hp hn ht
  rw [if_neg he] at h2'
  have : ns ++ '.' :: (k ++ ':' :: t) = (ns ++ '.' :: k) ++ ':' :: t := by simp
  rw [← this] at h1'
  obtain ⟨-, h3, h4, h5⟩ := C133_refused E v p ns (k ++ ':' :: t) b false h1' h2'
  simp [Env.step, h3, h4, h5]

/-- The hypotheses are met by `a:$data` and `a:b`. -/
example : Legal (lit "user" ++ '.' :: ['a']) ∧ Legal (lit "$data") ∧ Legal ['b'] ∧ upper.fold (lit "$data") = upper.fold (lit "$DATA") ∧
    upper.fold ['b'] ≠ upper.fold (lit "$DATA") := by
  refine ⟨by unfold Legal; decide, by unfold Legal; decide, by unfold Legal; decide, by decide +kernel, by decide +kernel⟩

end Verif.AdsHelper
