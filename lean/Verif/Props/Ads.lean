import Verif.Model.Ads
import Verif.Lemmas.Str
import Verif.Lemmas.Decide

/-!
# C101: The streams of a file on windows
-/

namespace Verif.Ads

/-! ## Specification -/

/-- A name that a stream can have and that says nothing about where it is. -/
def Plain (n : Str) : Prop := n ≠ [] ∧ ':' ∉ n ∧ '/' ∉ n ∧ '\\' ∉ n

instance (n : Str) : Decidable (Plain n) := by unfold Plain; infer_instance

/-- The name that an operation is about. -/
def Op.name : Op → Str
  | .addString n _ => n
  | .addFile n _ => n
  | .delete n => n

/-- What an operation answers and does if a file simply has contents for names: what is there is not replaced, only what is there
can be deleted. -/
def want (m : Str → Option Bytes) : Op → Bool × (Str → Option Bytes)
  | .addString n b => match m n with
    | some _ => (false, m)
    | none => (true, fun k => if k = n then some b else m k)
  | .addFile _ none => (false, m)
  | .addFile n (some b) => match m n with
    | some _ => (false, m)
    | none => (true, fun k => if k = n then some b else m k)
  | .delete n => match m n with
    | none => (false, m)
    | some _ => (true, fun k => if k = n then none else m k)

def wantAll (m : Str → Option Bytes) : List Op → List Bool × (Str → Option Bytes)
  | [] => ([], m)
  | o :: os => ((want m o).1 :: (wantAll (want m o).2 os).1, (wantAll (want m o).2 os).2)

/-- The names of the streams on disk. -/
def St.names (s : St) : List Str := s.disk.map Prod.fst

/-- No two of the names differ only in a way that the file system ignores. -/
def Told (E : Env) (ns : List Str) : Prop := ∀ a ∈ ns, ∀ b ∈ ns, E.fold a = E.fold b → a = b

/-! ## The list that is made at first -/

theorem second_entry {n : Str} (h : ':' ∉ n) : second (entry n) = .ok n := by
  have h1 : splitC ':' (entry n) = [] :: n :: [lit "$DATA"] := by
    have : entry n = joinC ':' [[], n, lit "$DATA"] := by simp [entry, joinC, lit]
    rw [this, splitC_joinC (by simp)]
    intro w hw
    simp only [List.mem_cons, List.not_mem_nil, or_false] at hw
    rcases hw with rfl | rfl | rfl
    · simp
    · exact h
    · decide
  simp [second, h1]

theorem more_entries {ns : List Str} (h : ∀ n ∈ ns, ':' ∉ n) : more (ns.map entry) = .ok ns := by
  induction ns with
  | nil => rfl
  | cons n ns ih =>
    simp only [List.map_cons, more, second_entry (h n (by simp)), ih fun m hm => h m (by simp [hm])]

/-- C101: a new object has exactly the names of the streams of the file or directory, in their order. -/
theorem C101_init (isFile : Bool) (disk : List (Str × Bytes)) (h : ∀ s ∈ disk, Plain s.1) :
    initStreams (entries isFile disk) = .ok (disk.map Prod.fst) := by
  have hm : more (disk.map fun s => entry s.1) = .ok (disk.map Prod.fst) := by
    have := more_entries (ns := disk.map Prod.fst) (by
      intro n hn
      obtain ⟨s, hs, rfl⟩ := List.mem_map.1 hn
      exact (h s hs).2.1)
    rwa [List.map_map] at this
  cases isFile with
  | true => simp [entries, initStreams, second_entry, hm]
  | false =>
    cases disk with
    | nil => rfl
    | cons s ss =>
      have h1 := h s (by simp)
      simp only [List.map_cons, more, second_entry h1.2.1] at hm
      simp only [entries, Bool.false_eq_true, if_false, List.nil_append, List.map_cons, initStreams, second_entry h1.2.1]
      cases hr : more (ss.map fun s => entry s.1) with
      | error e => rw [hr] at hm; simp at hm
      | ok ns =>
        rw [hr] at hm
        simp only [Except.ok.injEq] at hm ⊢
        rw [if_neg h1.1]
        exact hm

example : initStreams (entries true [(lit "a", []), (lit "b", [1])]) = .ok [lit "a", lit "b"] := by decide +kernel

/-! ## Lookup -/

theorem basename_plain {n : Str} (h : Plain n) : basename n = n := by
  have h1 : noDrive n = n := by
    unfold noDrive
    split
    · exact absurd (List.mem_cons_of_mem _ (List.mem_cons_self)) h.2.1
    · rfl
  unfold basename
  rw [h1]
  have : n.reverse.takeWhile (fun c => decide (c ≠ '/' ∧ c ≠ '\\')) = n.reverse := by
    have := List.takeWhile_append_of_pos (p := fun c => decide (c ≠ '/' ∧ c ≠ '\\')) (l₁ := n.reverse) (l₂ := []) ?_
    · simpa using this
    intro c hc
    have hc := List.mem_reverse.1 hc
    simp only [decide_eq_true_eq]
    exact ⟨fun e => h.2.2.1 (e ▸ hc), fun e => h.2.2.2 (e ▸ hc)⟩
  rw [this, List.reverse_reverse]

/-- The content of a stream, as a map. -/
def St.map (s : St) (n : Str) : Option Bytes := (s.disk.find? fun x => x.1 = n).map Prod.snd

theorem find_eq {E : Env} {disk : List (Str × Bytes)} {n : Str} (h : ∀ a ∈ disk.map Prod.fst, E.fold a = E.fold n → a = n) :
    E.find disk n = disk.find? fun x => x.1 = n := by
  unfold Env.find
  induction disk with
  | nil => rfl
  | cons x xs ih =>
    have ih := ih fun a ha => h a (by simp [ha])
    have hx := h x.1 (by simp)
    by_cases he : x.1 = n
    · simp [he]
    · have : E.fold x.1 ≠ E.fold n := fun hf => he (hx hf)
      simp [he, this, ih]

theorem find_isSome {disk : List (Str × Bytes)} {n : Str} : (disk.find? fun x => x.1 = n).isSome = true ↔ n ∈ disk.map Prod.fst := by
  simp [List.find?_isSome]

theorem find_none {disk : List (Str × Bytes)} {n : Str} : (disk.find? fun x => x.1 = n) = none ↔ n ∉ disk.map Prod.fst := by
  rw [← find_isSome]
  cases disk.find? fun x => x.1 = n <;> simp

theorem open_new {E : Env} {disk : List (Str × Bytes)} {n : Str} {b : Bytes} (h : ∀ a ∈ disk.map Prod.fst, E.fold a = E.fold n → a = n)
    (hn : n ∉ disk.map Prod.fst) : E.open_ disk n b = disk ++ [(n, b)] := by
  unfold Env.open_
  rw [find_eq h, if_neg]
  rw [find_isSome]
  exact hn

theorem eraseP_eq {E : Env} {disk : List (Str × Bytes)} {n : Str} (h : ∀ a ∈ disk.map Prod.fst, E.fold a = E.fold n → a = n) :
    (disk.eraseP fun x => E.fold x.1 = E.fold n) = disk.eraseP fun x => x.1 = n := by
  induction disk with
  | nil => rfl
  | cons x xs ih =>
    have ih := ih fun a ha => h a (by simp [ha])
    have hx := h x.1 (by simp)
    by_cases he : x.1 = n
    · simp [List.eraseP_cons, he]
    · have : E.fold x.1 ≠ E.fold n := fun hf => he (hx hf)
      simp [List.eraseP_cons, he, this, ih]

theorem names_eraseP {disk : List (Str × Bytes)} {n : Str} :
    (disk.eraseP fun x => x.1 = n).map Prod.fst = (disk.map Prod.fst).erase n := by
  induction disk with
  | nil => rfl
  | cons x xs ih =>
    by_cases he : x.1 = n
    · simp [List.eraseP_cons, he]
    · simp [List.eraseP_cons, List.erase_cons, he, ih]

theorem map_append {disk : List (Str × Bytes)} {n : Str} {b : Bytes} (hn : n ∉ disk.map Prod.fst) (k : Str) :
    ((disk ++ [(n, b)]).find? fun x => x.1 = k).map Prod.snd =
      if k = n then some b else (disk.find? fun x => x.1 = k).map Prod.snd := by
  rw [List.find?_append]
  by_cases hk : k = n
  · subst hk
    rw [find_none.2 hn]
    simp
  · rw [if_neg hk]
    have : ([(n, b)].find? fun x => x.1 = k) = none := by
      rw [List.find?_eq_none]
      intro x hx
      simp only [List.mem_singleton] at hx
      subst hx
      simpa using fun h : n = k => hk h.symm
    rw [this, Option.or_none]

theorem map_eraseP {disk : List (Str × Bytes)} {n : Str} (hnd : (disk.map Prod.fst).Nodup) (k : Str) :
    ((disk.eraseP fun x => x.1 = n).find? fun x => x.1 = k).map Prod.snd =
      if k = n then none else (disk.find? fun x => x.1 = k).map Prod.snd := by
  induction disk with
  | nil => simp
  | cons x xs ih =>
    rw [List.map_cons, List.nodup_cons] at hnd
    have ih := ih hnd.2
    by_cases he : x.1 = n
    · simp only [List.eraseP_cons, he, decide_true, cond_true]
      by_cases hk : k = n
      · subst hk
        rw [if_pos rfl]
        rw [find_none.2 (he ▸ hnd.1)]; rfl
      · rw [if_neg hk, List.find?_cons_of_neg]
        simp only [decide_eq_true_eq]
        exact fun h => hk (h.symm.trans he)
    · simp only [List.eraseP_cons, he, decide_false, cond_false]
      by_cases hxk : x.1 = k
      · have hkn : k ≠ n := fun h => he (hxk.trans h)
        simp [hxk, hkn]
      · rw [List.find?_cons_of_neg (by simpa using hxk), ih, List.find?_cons_of_neg (by simpa using hxk)]

/-! ## Histories without failures -/

theorem map_none_iff {s : St} {n : Str} : s.map n = none ↔ n ∉ s.names := by
  unfold St.map St.names
  rw [Option.map_eq_none_iff, find_none]

/-- What holds between operations: the list is the one of the streams on disk, each of which is there once. -/
structure Good (E : Env) (ns : List Str) (s : St) : Prop where
  listed : s.streams = s.names
  nodup : s.names.Nodup
  told : ∀ a ∈ s.names, a ∈ ns

theorem addString_good {E : Env} {ns : List Str} {s : St} {n : Str} {b : Bytes} (hF : ∀ t, E.F t = none) (hb : ∀ t, E.blind t = false)
    (ht : Told E ns) (hn : n ∈ ns) (hp : Plain n) (h : Good E ns s) :
    (E.addString n b s).1 = .ok (want s.map (.addString n b)).1 ∧ (E.addString n b s).2.map = (want s.map (.addString n b)).2 ∧
    Good E ns (E.addString n b s).2 := by
  have hfold : ∀ a ∈ s.disk.map Prod.fst, E.fold a = E.fold n → a = n := fun a ha => ht a (h.told a ha) n hn
  have hrun : E.addString n b s = if n ∈ s.names then (.ok false, { s with tick := s.tick + 1 })
      else (.ok true, { disk := s.disk ++ [(n, b)], streams := s.streams ++ [n], tick := s.tick + 3 }) := by
    unfold Env.addString
    rw [basename_plain hp]
    dsimp only
    rw [find_eq hfold]
    by_cases hm : n ∈ s.names
    · rw [if_pos hm, if_pos (by simp only [hb, Bool.not_false, Bool.and_true]; exact find_isSome.2 hm)]
    · have hneg : ¬ ((s.disk.find? fun x => x.1 = n).isSome && !E.blind s.tick) = true := by
        simp only [hb, Bool.not_false, Bool.and_true]
        exact fun hc => hm (find_isSome.1 hc)
      rw [if_neg hm, if_neg hneg]
      simp only [hF, open_new hfold hm]
  rw [hrun]
  by_cases hm : n ∈ s.names
  · have hsome : ∃ c, s.map n = some c := by
      cases hc : s.map n with
      | none => exact absurd hm (map_none_iff.1 hc)
      | some c => exact ⟨c, rfl⟩
    obtain ⟨c, hc⟩ := hsome
    rw [if_pos hm]
    refine ⟨by simp [want, hc], by simp only [want, hc]; rfl, ⟨h.listed, h.nodup, h.told⟩⟩
  · rw [if_neg hm]
    have hc := map_none_iff.2 hm
    refine ⟨by simp [want, hc], ?_, ?_, ?_, ?_⟩
    · funext k
      simp only [want, hc]
      exact map_append hm k
    · simp [h.listed, St.names]
    · simp only [St.names, List.map_append, List.map_cons, List.map_nil]
      rw [List.nodup_append]
      refine ⟨h.nodup, by simp, ?_⟩
      intro a ha b hb
      simp at hb
      subst hb
      exact fun e => hm (e ▸ ha)
    · intro a ha
      simp only [St.names, List.map_append, List.map_cons, List.map_nil, List.mem_append, List.mem_singleton] at ha
      rcases ha with ha | rfl
      · exact h.told a ha
      · exact hn

theorem step_good {E : Env} {ns : List Str} {s : St} (o : Op) (hF : ∀ t, E.F t = none) (hb : ∀ t, E.blind t = false)
    (ht : Told E ns) (hn : o.name ∈ ns) (hp : Plain o.name) (h : Good E ns s) :
    (E.step s o).1 = .ok (want s.map o).1 ∧ (E.step s o).2.map = (want s.map o).2 ∧ Good E ns (E.step s o).2 := by
  cases o with
  | addString n b => exact addString_good hF hb ht hn hp h
  | addFile n src =>
    cases src with
    | none => exact ⟨rfl, rfl, h.1, h.2, h.3⟩
    | some b =>
      have := addString_good (s := { s with tick := s.tick + 2 }) (b := b) hF hb ht hn hp ⟨h.1, h.2, h.3⟩
      simp only [Env.step, Env.addFile, hF]
      exact this
  | delete n =>
    have hfold : ∀ a ∈ s.disk.map Prod.fst, E.fold a = E.fold n → a = n := fun a ha => ht a (h.told a ha) n hn
    have hrun : E.delete n s = if n ∈ s.names then
          (.ok true, { disk := s.disk.eraseP fun x => x.1 = n, streams := s.streams.erase n, tick := s.tick + 1 })
        else (.ok false, { s with tick := s.tick + 1 }) := by
      unfold Env.delete
      simp only [hF, find_eq hfold, eraseP_eq hfold, h.listed]
      by_cases hm : n ∈ s.names
      · rw [if_pos (find_isSome.2 hm)]
        simp only [if_pos hm]
      · rw [if_neg (fun hc => hm (find_isSome.1 hc)), if_neg hm]
    simp only [Env.step, hrun]
    by_cases hm : n ∈ s.names
    · have hsome : ∃ c, s.map n = some c := by
        cases hc : s.map n with
        | none => exact absurd hm (map_none_iff.1 hc)
        | some c => exact ⟨c, rfl⟩
      obtain ⟨c, hc⟩ := hsome
      rw [if_pos hm]
      refine ⟨by simp [want, hc], ?_, ?_, ?_, ?_⟩
      · funext k
        simp only [want, hc]
        exact map_eraseP h.nodup k
      · simp only [St.names, names_eraseP, h.listed]
      · simp only [St.names, names_eraseP]
        exact h.nodup.erase n
      · intro a ha
        simp only [St.names, names_eraseP] at ha
        exact h.told a (List.mem_of_mem_erase ha)
    · rw [if_neg hm]
      have hc := map_none_iff.2 hm
      exact ⟨by simp [want, hc], by simp only [want, hc]; rfl, h.1, h.2, h.3⟩

theorem run_good {E : Env} {ns : List Str} (ops : List Op) (hF : ∀ t, E.F t = none) (hb : ∀ t, E.blind t = false)
    (ht : Told E ns) (hn : ∀ o ∈ ops, o.name ∈ ns) (hp : ∀ o ∈ ops, Plain o.name) {s : St} (h : Good E ns s) :
    (E.run s ops).1 = (wantAll s.map ops).1.map .ok ∧ (E.run s ops).2.map = (wantAll s.map ops).2 ∧ Good E ns (E.run s ops).2 := by
  induction ops generalizing s with
  | nil => exact ⟨rfl, rfl, h⟩
  | cons o os ih =>
    obtain ⟨h1, h2, h3⟩ := step_good o hF hb ht (hn o (by simp)) (hp o (by simp)) h
    obtain ⟨h4, h5, h6⟩ := ih (fun o ho => hn o (by simp [ho])) (fun o ho => hp o (by simp [ho])) h3
    simp only [Env.run, wantAll]
    rw [h2] at h4 h5
    exact ⟨by rw [h1, h4]; rfl, h5, h6⟩

/-- C101 (partial: no call fails, the names are plain and no two names differ only in case): after any history the object gives the
answers and the file has the contents that one expects of a map, the list of names is the one of the streams on disk, and
each content can be read. -/
theorem C101_history_partial (E : Env) (disk : List (Str × Bytes)) (ops : List Op) (t : Nat) (hF : ∀ t, E.F t = none) (hb : ∀ t, E.blind t = false)
    (ht : Told E (disk.map Prod.fst ++ ops.map Op.name)) (hd : (disk.map Prod.fst).Nodup) (hp : ∀ o ∈ ops, Plain o.name) :
    (E.run ⟨disk, disk.map Prod.fst, t⟩ ops).1 = (wantAll (St.map ⟨disk, [], t⟩) ops).1.map .ok ∧
    (E.run ⟨disk, disk.map Prod.fst, t⟩ ops).2.map = (wantAll (St.map ⟨disk, [], t⟩) ops).2 ∧
    (E.run ⟨disk, disk.map Prod.fst, t⟩ ops).2.streams = (E.run ⟨disk, disk.map Prod.fst, t⟩ ops).2.names := by
  obtain ⟨h1, h2, h3⟩ := run_good (s := ⟨disk, disk.map Prod.fst, t⟩) ops hF hb ht
    (fun o ho => List.mem_append_right _ (List.mem_map_of_mem ho)) hp ⟨rfl, hd, fun a ha => List.mem_append_left _ ha⟩
  exact ⟨h1, h2, h3.listed⟩

/-! ## Histories in which calls fail -/

/-- What holds also if calls fail: the names listed are names of streams on disk, each once, in the same order. -/
structure Safe (ns : List Str) (s : St) : Prop where
  listed : s.streams.Sublist s.names
  nodup : s.names.Nodup
  told : ∀ a ∈ s.names, a ∈ ns

/-- What an operation with a name `n` and an answer does to a state. -/
structure Did (n : Str) (r : Except PyErr Bool) (s s' : St) : Prop where
  others : ∀ k, k ≠ n → s'.map k = s.map k
  new : ∀ k ∈ s'.names, k ∈ s'.streams ∨ (k ∈ s.names ∧ k ∉ s.streams) ∨ k = n ∧ ∃ e, r = .error e

theorem Did.same {n : Str} {r : Except PyErr Bool} {s : St} {t : Nat} : Did n r s { s with tick := t } :=
  ⟨fun _ _ => rfl, fun k hk => by
    by_cases h : k ∈ s.streams
    · exact .inl h
    · exact .inr (.inl ⟨hk, h⟩)⟩

theorem names_append {disk : List (Str × Bytes)} {n : Str} {b : Bytes} : (disk ++ [(n, b)]).map Prod.fst = disk.map Prod.fst ++ [n] := by
  simp

theorem nodup_concat {l : List Str} {n : Str} (h : l.Nodup) (hn : n ∉ l) : (l ++ [n]).Nodup := by
  rw [List.nodup_append]
  refine ⟨h, by simp, ?_⟩
  intro a ha b hb
  simp at hb
  subst hb
  exact fun e => hn (e ▸ ha)

theorem addString_safe {E : Env} {ns : List Str} {s : St} {n : Str} {b : Bytes} (hb : ∀ t, E.blind t = false)
    (ht : Told E ns) (hn : n ∈ ns) (hp : Plain n) (h : Safe ns s) :
    Safe ns (E.addString n b s).2 ∧ Did n (E.addString n b s).1 s (E.addString n b s).2 := by
  have hfold : ∀ a ∈ s.disk.map Prod.fst, E.fold a = E.fold n → a = n := fun a ha => ht a (h.told a ha) n hn
  have htold : ∀ a ∈ s.names ++ [n], a ∈ ns := by
    intro a ha
    rcases List.mem_append.1 ha with ha | ha
    · exact h.told a ha
    · simp at ha; exact ha ▸ hn
  have hsub : (s.streams ++ [n]).Sublist (s.names ++ [n]) := h.listed.append_right [n]
  have hsub' : s.streams.Sublist (s.names ++ [n]) := h.listed.trans (List.sublist_append_left _ _)
  unfold Env.addString
  rw [basename_plain hp]
  dsimp only
  rw [find_eq hfold]
  by_cases hm : n ∈ s.names
  · rw [if_pos (by simp only [hb, Bool.not_false, Bool.and_true]; exact find_isSome.2 hm)]
    exact ⟨⟨h.1, h.2, h.3⟩, .same⟩
  · have hneg : ¬ ((s.disk.find? fun x => x.1 = n).isSome && !E.blind s.tick) = true := by
      simp only [hb, Bool.not_false, Bool.and_true]
      exact fun hc => hm (find_isSome.1 hc)
    rw [if_neg hneg, open_new hfold hm, open_new hfold hm]
    have hmap : ∀ (c : Bytes) k, k ≠ n → ((s.disk ++ [(n, c)]).find? fun x => x.1 = k).map Prod.snd = s.map k := by
      intro c k hk
      rw [map_append hm, if_neg hk]; rfl
    have hnames : ∀ (c : Bytes), (s.disk ++ [(n, c)]).map Prod.fst = s.names ++ [n] := fun c => names_append
    have hnd := nodup_concat h.nodup hm
    have hold : ∀ (str : List Str), (∀ k ∈ s.streams, k ∈ str) → ∀ k ∈ s.names, k ∈ str ∨ (k ∈ s.names ∧ k ∉ s.streams) := by
      intro str hstr k hk
      by_cases hc : k ∈ s.streams
      · exact .inl (hstr k hc)
      · exact .inr ⟨hk, hc⟩
    split
    · exact ⟨⟨h.1, h.2, h.3⟩, .same⟩
    · split
      · rename_i e _
        refine ⟨⟨?_, ?_, ?_⟩, ?_, ?_⟩
        · rw [St.names, hnames]; exact hsub'
        · rw [St.names, hnames]; exact hnd
        · rw [St.names, hnames]; exact htold
        · exact fun k hk => hmap _ k hk
        · intro k hk
          rw [St.names, hnames] at hk
          rcases List.mem_append.1 hk with hk | hk
          · exact (hold s.streams (fun _ h => h) k hk).imp id .inl
          · simp at hk; exact .inr (.inr ⟨hk, e, rfl⟩)
      · refine ⟨⟨?_, ?_, ?_⟩, ?_, ?_⟩
        · rw [St.names, hnames]; exact hsub
        · rw [St.names, hnames]; exact hnd
        · rw [St.names, hnames]; exact htold
        · exact fun k hk => hmap _ k hk
        · intro k hk
          rw [St.names, hnames] at hk
          rcases List.mem_append.1 hk with hk | hk
          · exact (hold (s.streams ++ [n]) (fun _ h => List.mem_append_left _ h) k hk).imp id .inl
          · simp at hk; exact .inl (by simp [hk])

theorem step_safe {E : Env} {ns : List Str} {s : St} (o : Op) (hb : ∀ t, E.blind t = false)
    (ht : Told E ns) (hn : o.name ∈ ns) (hp : Plain o.name) (h : Safe ns s) :
    Safe ns (E.step s o).2 ∧ Did o.name (E.step s o).1 s (E.step s o).2 := by
  cases o with
  | addString n b => exact addString_safe hb ht hn hp h
  | addFile n src =>
    cases src with
    | none => exact ⟨⟨h.1, h.2, h.3⟩, .same⟩
    | some b =>
      simp only [Env.step, Env.addFile]
      split
      · exact ⟨⟨h.1, h.2, h.3⟩, .same⟩
      · have := addString_safe (s := { s with tick := s.tick + 2 }) (b := b) hb ht hn hp ⟨h.1, h.2, h.3⟩
        exact ⟨this.1, this.2.1, this.2.2⟩
  | delete n =>
    have hfold : ∀ a ∈ s.disk.map Prod.fst, E.fold a = E.fold n → a = n := fun a ha => ht a (h.told a ha) n hn
    have hmap : ∀ k, k ≠ n → ((s.disk.eraseP fun x => x.1 = n).find? fun x => x.1 = k).map Prod.snd = s.map k := by
      intro k hk
      rw [map_eraseP h.nodup, if_neg hk]; rfl
    simp only [Env.step, Env.delete, find_eq hfold, eraseP_eq hfold]
    split
    · exact ⟨⟨h.1, h.2, h.3⟩, .same⟩
    · split
      · split
        · refine ⟨⟨?_, ?_, ?_⟩, hmap, ?_⟩
          · simp only [St.names, names_eraseP]
            exact h.listed.erase n
          · simp only [St.names, names_eraseP]
            exact h.nodup.erase n
          · intro a ha
            simp only [St.names, names_eraseP] at ha
            exact h.told a (List.mem_of_mem_erase ha)
          · intro k hk
            simp only [St.names, names_eraseP] at hk
            have hkn : k ≠ n := fun e => by
              subst e
              exact (List.Nodup.not_mem_erase h.nodup) hk
            have hk' := List.mem_of_mem_erase hk
            by_cases hc : k ∈ s.streams
            · exact .inl ((List.mem_erase_of_ne hkn).2 hc)
            · exact .inr (.inl ⟨hk', hc⟩)
        · rename_i hns
          refine ⟨⟨?_, ?_, ?_⟩, hmap, ?_⟩
          · simp only [St.names, names_eraseP]
            have := h.listed.erase n
            rwa [List.erase_of_not_mem hns] at this
          · simp only [St.names, names_eraseP]
            exact h.nodup.erase n
          · intro a ha
            simp only [St.names, names_eraseP] at ha
            exact h.told a (List.mem_of_mem_erase ha)
          · intro k hk
            simp only [St.names, names_eraseP] at hk
            have hk' := List.mem_of_mem_erase hk
            by_cases hc : k ∈ s.streams
            · exact .inl hc
            · exact .inr (.inl ⟨hk', hc⟩)
      · exact ⟨⟨h.1, h.2, h.3⟩, .same⟩

theorem run_length (E : Env) (ops : List Op) (s : St) : (E.run s ops).1.length = ops.length := by
  induction ops generalizing s with
  | nil => rfl
  | cons o os ih => simp [Env.run, ih]

/-- C101 (partial: plain names, no two of which differ only in case, and `exists` is answered): whichever calls fail, every name listed is the
name of a stream on disk; a stream on disk that is not listed was not listed before or adding it raised an exception; and
the streams with other names are as before. -/
theorem C101_failures_partial (E : Env) (s : St) (ops : List Op) (hb : ∀ t, E.blind t = false)
    (ht : Told E (s.names ++ ops.map Op.name)) (hd : s.names.Nodup) (hl : s.streams.Sublist s.names) (hp : ∀ o ∈ ops, Plain o.name) :
    (∀ n ∈ (E.run s ops).2.streams, n ∈ (E.run s ops).2.names) ∧ (E.run s ops).2.streams.Nodup ∧
    (∀ n ∈ (E.run s ops).2.names, n ∈ (E.run s ops).2.streams ∨ (n ∈ s.names ∧ n ∉ s.streams) ∨
      ∃ (i : Nat) (o : Op) (e : PyErr), ops[i]? = some o ∧ o.name = n ∧ (E.run s ops).1[i]? = some (Except.error e)) ∧
    ∀ n, (∀ o ∈ ops, o.name ≠ n) → (E.run s ops).2.map n = s.map n := by
  have main : ∀ (ns : List Str) (ops : List Op) (s : St), Told E ns → (∀ o ∈ ops, o.name ∈ ns) → (∀ o ∈ ops, Plain o.name) → Safe ns s →
      Safe ns (E.run s ops).2 ∧
      (∀ n ∈ (E.run s ops).2.names, n ∈ (E.run s ops).2.streams ∨ (n ∈ s.names ∧ n ∉ s.streams) ∨
        ∃ (i : Nat) (o : Op) (e : PyErr), ops[i]? = some o ∧ o.name = n ∧ (E.run s ops).1[i]? = some (Except.error e)) ∧
      ∀ n, (∀ o ∈ ops, o.name ≠ n) → (E.run s ops).2.map n = s.map n := by
    intro ns ops
    induction ops with
    | nil =>
      intro s _ _ _ h
      refine ⟨h, fun n hn => ?_, fun n _ => rfl⟩
      by_cases hc : n ∈ s.streams
      · exact .inl hc
      · exact .inr (.inl ⟨hn, hc⟩)
    | cons o os ih =>
      intro s ht hn hp h
      obtain ⟨h1, h2⟩ := step_safe o hb ht (hn o (by simp)) (hp o (by simp)) h
      obtain ⟨h3, h4, h5⟩ := ih (E.step s o).2 ht (fun o ho => hn o (by simp [ho])) (fun o ho => hp o (by simp [ho])) h1
      refine ⟨h3, ?_, ?_⟩
      · intro n hn
        rcases h4 n hn with h4 | ⟨h4, h4'⟩ | ⟨i, o', e, h6, h7, h8⟩
        · exact .inl h4
        · rcases h2.new n h4 with h | h | ⟨rfl, e, he⟩
          · exact absurd h h4'
          · exact .inr (.inl h)
          · exact .inr (.inr ⟨0, o, e, rfl, rfl, by simp [Env.run, he]⟩)
        · exact .inr (.inr ⟨i + 1, o', e, by simpa using h6, h7, by simpa [Env.run] using h8⟩)
      · intro n hn
        show (E.run (E.step s o).2 os).2.map n = _
        rw [h5 n fun o ho => hn o (by simp [ho]), h2.others n fun e => hn o (by simp) e.symm]
  obtain ⟨h1, h2, h3⟩ := main (s.names ++ ops.map Op.name) ops s ht
    (fun o ho => List.mem_append_right _ (List.mem_map_of_mem ho)) hp ⟨hl, hd, fun a ha => List.mem_append_left _ ha⟩
  exact ⟨fun n hn => h1.listed.subset hn, h1.nodup.sublist h1.listed, h2, h3⟩

/-- C101: an added stream is read back as it was given. -/
theorem C101_read (E : Env) (s : St) (n : Str) (hF : E.F s.tick = none)
    (ht : ∀ a ∈ s.names, E.fold a = E.fold n → a = n) :
    E.content n s = match s.map n with
      | some b => .ok b
      | none => .error .fileNotFoundError := by
  unfold Env.content St.map
  rw [hF, find_eq ht]
  cases s.disk.find? fun x => x.1 = n <;> rfl

/-- C101: when deleting raises nothing, exactly one answer is right: yes means that the stream was there and is gone, and no is right unless the
stream was there and not in the list, in which case it is gone all the same. -/
theorem C101_delete_iff (E : Env) (s : St) (n : Str) (hd : s.names.Nodup) (hF : E.F s.tick = none) (ht : ∀ a ∈ s.names, E.fold a = E.fold n → a = n) :
    ((E.delete n s).1 = .ok true ↔ n ∈ s.names ∧ n ∈ s.streams) ∧ n ∉ (E.delete n s).2.names ∧
    ((E.delete n s).1 = .ok (decide (n ∈ s.names)) ↔ n ∉ s.names ∨ n ∈ s.streams) := by
  unfold Env.delete
  simp only [hF, find_eq ht, eraseP_eq ht]
  by_cases hm : n ∈ s.names
  · rw [if_pos (find_isSome.2 hm)]
    by_cases hs : n ∈ s.streams
    · simp only [if_pos hs]
      refine ⟨by simp [hm, hs], ?_, by simp [hm, hs]⟩
      simp only [St.names, names_eraseP]
      exact List.Nodup.not_mem_erase hd
    · simp only [if_neg hs]
      refine ⟨by simp [hs], ?_, by simp [hm, hs]⟩
      simp only [St.names, names_eraseP]
      exact List.Nodup.not_mem_erase hd
  · rw [if_neg (fun hc => hm (find_isSome.1 hc))]
    exact ⟨by simp [hm], hm, by simp [hm]⟩

/-! ## Where the claim fails -/

/-- No call fails, and case is ignored for two letters. -/
def sampleEnv : Env := ⟨fun _ => none, fun _ => false, fun _ => 0, fun n => n.map fun c => if c = 'A' then 'a' else c⟩

/-- A file given with its directory is listed under a name that no stream has; deleting it by that name says no. -/
theorem C101_directory_counterexample :
    (sampleEnv.run ⟨[], [], 0⟩ [.addFile (lit "d/x") (some [1]), .delete (lit "d/x")]).1 = [.ok true, .ok false] ∧
    (sampleEnv.run ⟨[], [], 0⟩ [.addFile (lit "d/x") (some [1]), .delete (lit "d/x")]).2.names = [lit "x"] ∧
    (sampleEnv.run ⟨[], [], 0⟩ [.addFile (lit "d/x") (some [1]), .delete (lit "d/x")]).2.streams = [lit "d/x"] := by
  decide +kernel

/-- A name that differs in case deletes the stream, says no, and leaves the name in the list. -/
theorem C101_case_counterexample :
    (sampleEnv.run ⟨[], [], 0⟩ [.addString (lit "A") [1], .delete (lit "a")]).1 = [.ok true, .ok false] ∧
    (sampleEnv.run ⟨[], [], 0⟩ [.addString (lit "A") [1], .delete (lit "a")]).2.names = [] ∧
    (sampleEnv.run ⟨[], [], 0⟩ [.addString (lit "A") [1], .delete (lit "a")]).2.streams = [lit "A"] := by
  decide +kernel

/-- If the question whether the stream exists fails, the stream is replaced and listed twice. -/
theorem C101_blind_counterexample :
    ({ sampleEnv with blind := fun _ => true }.run ⟨[(lit "x", [1])], [lit "x"], 0⟩ [.addString (lit "x") [2]]).1 = [.ok true] ∧
    ({ sampleEnv with blind := fun _ => true }.run ⟨[(lit "x", [1])], [lit "x"], 0⟩ [.addString (lit "x") [2]]).2.disk = [(lit "x", [2])] ∧
    ({ sampleEnv with blind := fun _ => true }.run ⟨[(lit "x", [1])], [lit "x"], 0⟩ [.addString (lit "x") [2]]).2.streams =
      [lit "x", lit "x"] := by
  decide +kernel

/-- A history that meets the hypotheses, with both answers. -/
example : Told sampleEnv ([lit "x"] ++ [Op.addString (lit "b") [2], .delete (lit "x"), .addString (lit "b") [3]].map Op.name) ∧
    (∀ o ∈ [Op.addString (lit "b") [2], .delete (lit "x"), .addString (lit "b") [3]], Plain o.name) ∧
    (sampleEnv.run ⟨[(lit "x", [1])], [lit "x"], 0⟩ [.addString (lit "b") [2], .delete (lit "x"), .addString (lit "b") [3]]).1 =
      [.ok true, .ok true, .ok false] := by
  refine ⟨?_, by decide, by decide +kernel⟩
  unfold Told
  decide +kernel

end Verif.Ads
