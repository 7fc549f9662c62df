import Verif.Model.MakeChild
import Verif.Model.SshPath
import Verif.Props.SshPath

/-!
# C157: the path of a child of a cache from python 3.12 on
-/

namespace Verif.MakeChild

/-- `pathlib`'s `a / b` for paths with drives: what `os.path.join` of windows says.  `lower` is `str.lower`.  Without drives it is the one of posix. -/
def slash (lower : Str → Str) (a b : Parsed) : Parsed :=
  if b.root ≠ [] then ⟨if b.drv ≠ [] then b.drv else a.drv, b.root, b.tail⟩
  else if b.drv = [] then ⟨a.drv, a.root, a.tail ++ b.tail⟩
  else if lower b.drv = lower a.drv then ⟨b.drv, a.root, a.tail ++ b.tail⟩
  else b

/-- `pathlib`'s `base.joinpath(*args)` -/
def Flavour.joinpath (F : Flavour) (lower : Str → Str) (base : Parsed) (args : List Str) : Parsed :=
  args.foldl (fun p s => slash lower p (F.parse s)) base

/-- **C157**: exactly when the copy of `join_parsed_parts` joins like `pathlib`: the other path may have a root without a drive only if the cache has no
drive, and a drive without a root only if it is the one of the cache, letter by letter, and nothing follows. -/
theorem C157_join_iff (lower : Str → Str) (a b : Parsed) (sep : Char) (hr : b.root ≠ [] → sep ∈ b.root) (ht : ∀ w ∈ b.tail, sep ∉ w) :
    joinParsed a b = .ok (slash lower a b) ↔
      (b.root ≠ [] → b.drv = [] → a.drv = []) ∧ (b.root = [] → b.drv ≠ [] → b.drv = a.drv ∧ b.tail = []) := by
  obtain ⟨ad, ar, at_⟩ := a
  obtain ⟨bd, br, bt⟩ := b
  dsimp only at hr ht ⊢
  unfold joinParsed slash
  dsimp only
  by_cases h1 : br = []
  · subst h1
    by_cases h2 : bd = []
    · simp [h2]
    · by_cases h3 : bd = ad
      · subst h3
        simp only [h2, ne_eq, not_true_eq_false, not_false_eq_true, if_true, if_false, Except.ok.injEq, Parsed.mk.injEq, true_and, forall_const,
          List.append_cancel_left_eq, List.drop_one, false_imp_iff]
        cases bt with
        | nil => simp
        | cons w t =>
          refine ⟨fun h => ?_, fun h => by simp at h⟩
          have := congrArg List.length h
          simp at this
      · simp [h2, h3]
  · by_cases h2 : bd = []
    · subst h2
      by_cases h3 : ad = []
      · simp [h1, h3]
      · simp only [ne_eq, h1, not_false_eq_true, if_true, h3, not_true_eq_false, and_self, Except.ok.injEq, Parsed.mk.injEq, true_and, if_false,
          forall_const, false_imp_iff, and_true]
        refine ⟨fun h => ?_, fun h => h.elim⟩
        exact ht (ad ++ br) (by rw [← h]; exact List.mem_cons_self ..) (List.mem_append_right _ (hr h1))
    · simp [h1, h2]

/-- A path of posix, without a drive. -/
def ofPure (p : Symlink.Pure) : Parsed := ⟨[], p.root, p.comps⟩

theorem parse_posix (s : Str) : posix.parse s = ofPure (Symlink.parse s) := by
  have e : ∀ r : Str, splitC '/' ('/' :: r) = [] :: splitC '/' r := fun r => by simp [splitC]
  match s with
  | [] => simp [Flavour.parse, posix, ofPure, Symlink.parse]
  | a :: s =>
    by_cases ha : a = '/'
    · subst ha
      match s with
      | [] => simp [Flavour.parse, posix, ofPure, Symlink.parse, e]
      | b :: s =>
        by_cases hb : b = '/'
        · subst hb
          match s with
          | [] => simp [Flavour.parse, posix, ofPure, Symlink.parse, e]
          | c :: s =>
            by_cases hc : c = '/'
            · subst hc; simp [Flavour.parse, posix, ofPure, Symlink.parse, e]
            · simp [Flavour.parse, posix, ofPure, Symlink.parse, e, hc]
        · simp [Flavour.parse, posix, ofPure, Symlink.parse, e, hb]
    · simp [Flavour.parse, posix, ofPure, Symlink.parse, ha]

theorem joinParsed_posix (a b : Symlink.Pure) : joinParsed (ofPure a) (ofPure b) = .ok (ofPure (a.join b)) := by
  unfold joinParsed Symlink.Pure.join ofPure
  by_cases h : b.root = [] <;> simp [h]

theorem slash_posix (lower : Str → Str) (a b : Symlink.Pure) : slash lower (ofPure a) (ofPure b) = ofPure (a.join b) := by
  unfold slash Symlink.Pure.join ofPure
  by_cases h : b.root = [] <;> simp [h]

theorem format_posix (args : List Str) : posix.format args = .ok (joinC '/' args) := by
  cases args with
  | nil => rfl
  | cons first rest =>
    have : (posix.split first).1 = [] := by dsimp only [posix]; split <;> rfl
    rw [Flavour.format, this]; rfl

theorem makeChild_posix (base : Symlink.Pure) {args : List Str} (h : args ≠ []) :
    posix.makeChild (ofPure base) args = .ok (ofPure (base.join (Symlink.parse (joinC '/' args)))) := by
  match args with
  | [] => exact absurd rfl h
  | [s] => simp [Flavour.makeChild, parse_posix, joinParsed_posix, joinC]
  | s :: t :: rest => simp [Flavour.makeChild, format_posix, parse_posix, joinParsed_posix]

theorem child_posix (base : Symlink.Pure) {args : List Str} (h : args ≠ []) :
    posix.child (ofPure base) args = .ok (ofPure (base.join (Symlink.parse (joinC '/' args)))) := by
  rw [Flavour.child, makeChild_posix base h]

theorem splitC_mid (t u : Str) : splitC '/' (t ++ '/' :: u) = splitC '/' t ++ splitC '/' u := by
  induction t with
  | nil => simp [splitC]
  | cons c t ih =>
    by_cases h : c = '/'
    · simp [splitC, h, ih]
    · simp only [List.cons_append, splitC, if_neg h, ih]
      obtain ⟨w, ws, hw⟩ := List.exists_cons_of_ne_nil (splitC_ne_nil '/' t)
      simp [hw]

theorem comps_mid (t u : Str) : (Symlink.parse (t ++ '/' :: u)).comps = (Symlink.parse t).comps ++ (Symlink.parse u).comps := by
  simp [Symlink.parse, splitC_mid]

theorem root_rel {s : Str} (h : s.head? ≠ some '/') : (Symlink.parse s).root = [] := by
  match s with
  | [] => rfl
  | a :: s => have : a ≠ '/' := by simpa using h
              simp [Symlink.parse, this]

/-- There is something besides slashes in the text. -/
def Solid (s : Str) : Prop := ∃ c ∈ s, c ≠ '/'

theorem root_solid {s : Str} (h : Solid s) (u : Str) : (Symlink.parse (s ++ u)).root = (Symlink.parse s).root := by
  obtain ⟨x, hx, hne⟩ := h
  match s with
  | [] => cases hx
  | a :: s =>
    by_cases ha : a = '/'
    · subst ha
      match s with
      | [] => simp at hx; exact absurd hx hne
      | b :: s =>
        by_cases hb : b = '/'
        · subst hb
          match s with
          | [] => simp at hx; exact absurd hx hne
          | c :: s =>
            by_cases hc : c = '/'
            · subst hc; simp [Symlink.parse]
            · simp [Symlink.parse, hc]
        · simp [Symlink.parse, hb]
    · simp [Symlink.parse, ha]

theorem joinpath_rel (lower : Str → Str) : ∀ (rest : List Str) (p : Symlink.Pure), (∀ s ∈ rest, s.head? ≠ some '/') →
    posix.joinpath lower (ofPure p) rest = ofPure ⟨p.root, p.comps ++ rest.flatMap fun s => (Symlink.parse s).comps⟩
  | [], p, _ => by simp [Flavour.joinpath]
  | s :: rest, p, h => by
    have hs : (Symlink.parse s).root = [] := root_rel (h s (List.mem_cons_self ..))
    have ih := joinpath_rel lower rest (p.join (Symlink.parse s)) fun t ht => h t (List.mem_cons_of_mem _ ht)
    rw [Flavour.joinpath, List.foldl_cons, parse_posix, slash_posix]
    rw [Flavour.joinpath] at ih
    rw [ih]
    simp [Symlink.Pure.join, hs, List.flatMap_cons]

theorem comps_joinC : ∀ (first : Str) (rest : List Str), (Symlink.parse (joinC '/' (first :: rest))).comps =
    (Symlink.parse first).comps ++ rest.flatMap fun s => (Symlink.parse s).comps
  | first, [] => by simp [joinC]
  | first, s :: rest => by
    rw [show joinC '/' (first :: s :: rest) = first ++ '/' :: joinC '/' (s :: rest) from rfl, comps_mid, comps_joinC s rest, List.flatMap_cons]

/-- **C157**: on posix a single part, whatever text it is, is joined like `pathlib` joins it. -/
theorem C157_one (lower : Str → Str) (base : Symlink.Pure) (s : Str) :
    posix.child (ofPure base) [s] = .ok (posix.joinpath lower (ofPure base) [s]) := by
  rw [child_posix base (by simp)]
  simp [joinC, Flavour.joinpath, parse_posix, slash_posix]

/-- **C157**: on posix several parts are joined like `pathlib` joins them, if the first is not empty or only slashes and no other one begins with a slash.
Missing from the full statement: the other parts, and no parts (see the counterexamples). -/
theorem C157_joinpath_partial (lower : Str → Str) (base : Symlink.Pure) (first : Str) (rest : List Str) (hf : Solid first)
    (hr : ∀ s ∈ rest, s.head? ≠ some '/') :
    posix.child (ofPure base) (first :: rest) = .ok (posix.joinpath lower (ofPure base) (first :: rest)) := by
  rw [child_posix base (by simp)]
  have h := joinpath_rel lower rest (base.join (Symlink.parse first)) hr
  rw [Flavour.joinpath] at h
  rw [Flavour.joinpath, List.foldl_cons, parse_posix, slash_posix, h]
  have hroot : (Symlink.parse (joinC '/' (first :: rest))).root = (Symlink.parse first).root := by
    cases rest with
    | nil => rfl
    | cons s rest => exact root_solid hf _
  have hc := comps_joinC first rest
  congr 2
  unfold Symlink.Pure.join
  rw [hroot, hc]
  split
  · rw [← hroot, ← hc]
  · simp

/-- **C157**: what a remote gives as its parts are names, and then the child is at these names below the cache, however many there are, and this is where
the older versions of python put it. -/
theorem C157_names (base : Symlink.Pure) (names : List Str) (hne : names ≠ []) (h : ∀ w ∈ names, w ≠ [] ∧ w ≠ ['.'] ∧ '/' ∉ w) :
    posix.child (ofPure base) names = .ok ⟨[], base.root, base.comps ++ names⟩ ∧
    posix.child (ofPure base) names = .ok (ofPure (base.join (Symlink.ofParts names))) := by
  have e : Symlink.parse (joinC '/' names) = ⟨[], names⟩ := Symlink.parse_joinC names hne h
  rw [child_posix base hne, e, Ssh.ofParts_comps names h]
  simp [Symlink.Pure.join, ofPure]

/-- **C157 is false** without parts, which is what a remote has relative to itself: python wants an argument, and before python 3.12 the child was the cache. -/
theorem C157_none_counterexample (F : Flavour) (lower : Str → Str) (base : Parsed) :
    F.child base [] = .error .typeError ∧ F.joinpath lower base [] = base := ⟨rfl, rfl⟩

/-- **C157 is false** on posix when the first of several parts is empty: the child is not below the cache, but below the root. -/
theorem C157_empty_counterexample (base : Symlink.Pure) :
    posix.child (ofPure base) [[], lit "a"] = .ok ⟨[], ['/'], [lit "a"]⟩ ∧
    ∀ lower, posix.joinpath lower (ofPure base) [[], lit "a"] = ⟨[], base.root, base.comps ++ [lit "a"]⟩ := by
  refine ⟨?_, fun lower => ?_⟩
  · rw [child_posix base (by simp)]; rfl
  · rw [joinpath_rel lower _ _ (by decide)]; rfl

/-- **C157 is false** on posix when a part after the first is absolute: it is put below those before. -/
theorem C157_absolute_counterexample (base : Symlink.Pure) :
    posix.child (ofPure base) [lit "a", lit "/b"] = .ok ⟨[], base.root, base.comps ++ [lit "a", lit "b"]⟩ ∧
    ∀ lower, posix.joinpath lower (ofPure base) [lit "a", lit "/b"] = ⟨[], ['/'], [lit "b"]⟩ := by
  refine ⟨?_, fun lower => ?_⟩
  · rw [child_posix base (by simp)]; rfl
  · rfl

/-- **C157 is false** on windows for a path with a root and no drive: the anchor becomes a component, and the first component is lost. -/
theorem C157_rooted_counterexample (drv root : Str) (tail : List Str) (w : Str) (ws : List Str) (hd : drv ≠ []) (hr : root ≠ []) :
    joinParsed ⟨drv, root, tail⟩ ⟨[], root, w :: ws⟩ = .ok ⟨drv, root, (drv ++ root) :: ws⟩ ∧
    ∀ lower, slash lower ⟨drv, root, tail⟩ ⟨[], root, w :: ws⟩ = ⟨drv, root, w :: ws⟩ := by
  simp [joinParsed, slash, hd, hr]

/-- **C157 is false** on windows for a path with the same drive and no root: the first component is lost. -/
theorem C157_drive_counterexample (drv root : Str) (tail : List Str) (w : Str) (ws : List Str) (hd : drv ≠ []) :
    joinParsed ⟨drv, root, tail⟩ ⟨drv, [], w :: ws⟩ = .ok ⟨drv, root, tail ++ ws⟩ ∧
    ∀ lower, slash lower ⟨drv, root, tail⟩ ⟨drv, [], w :: ws⟩ = ⟨drv, root, tail ++ w :: ws⟩ := by
  simp [joinParsed, slash, hd]

theorem replaceC_of_not_mem {c d : Char} {s : Str} (h : c ∉ s) : replaceC c d s = s := by
  unfold replaceC
  conv => rhs; rw [← List.map_id s]
  refine List.map_congr_left fun x hx => ?_
  have : x ≠ c := fun e => h (e ▸ hx)
  simp [this]

theorem mem_joinC {c sep : Char} (hs : c ≠ sep) : ∀ {l : List Str}, c ∈ joinC sep l → ∃ w ∈ l, c ∈ w
  | [w], h => ⟨w, by simp, by simpa [joinC] using h⟩
  | w :: v :: l, h => by
    rw [show joinC sep (w :: v :: l) = w ++ sep :: joinC sep (v :: l) from rfl] at h
    rcases List.mem_append.1 h with h | h
    · exact ⟨w, by simp, h⟩
    · rcases List.mem_cons.1 h with h | h
      · exact absurd h hs
      · obtain ⟨x, hx, hc⟩ := mem_joinC hs h
        exact ⟨x, List.mem_cons_of_mem _ hx, hc⟩

/-- **C157 is false** on windows for a path with another drive and no root: there is no method to compare the drives with. -/
theorem C157_other_counterexample (F : Flavour) (base : Parsed) (s : Str) (ha : ∀ c, F.alt = some c → c ∉ s) (hr : (F.split s).2.1 = [])
    (hd : (F.split s).1 ≠ []) (ho : (F.split s).1 ≠ base.drv) : F.child base [s] = .error .augPathlibError := by
  have e : (F.parse s).root = (F.split s).2.1 ∧ (F.parse s).drv = (F.split s).1 := by
    cases hc : F.alt with
    | none => simp only [Flavour.parse, hc, and_self]
    | some c => simp only [Flavour.parse, hc, replaceC_of_not_mem (ha c hc), and_self]
  simp [Flavour.child, Flavour.makeChild, joinParsed, e.1, e.2, hr, hd, ho]

/-- **C157**: on every system names are put below the cache, on its drive, if the text of all of them is not taken for one with a drive or a root. -/
theorem C157_names_any (F : Flavour) (base : Parsed) (names : List Str) (hne : names ≠ [])
    (h : ∀ w ∈ names, w ≠ [] ∧ w ≠ ['.'] ∧ F.sep ∉ w) (ha : ∀ c, F.alt = some c → c ≠ F.sep ∧ ∀ w ∈ names, c ∉ w)
    (hs : F.split (joinC F.sep names) = ([], [], joinC F.sep names)) (hd : ∀ w ∈ names.head?, (F.split w).1 = []) :
    F.child base names = .ok ⟨base.drv, base.root, base.tail ++ names⟩ := by
  have e : F.parse (joinC F.sep names) = ⟨[], [], names⟩ := by
    have hf : names.filter (fun w => decide (w ≠ [] ∧ w ≠ ['.'])) = names :=
      List.filter_eq_self.2 fun w hw => by simpa using ⟨(h w hw).1, (h w hw).2.1⟩
    have hj := splitC_joinC (sep := F.sep) hne fun w hw => (h w hw).2.2
    cases hc : F.alt with
    | none => simp only [Flavour.parse, hc, hs, hj, hf]
    | some c =>
      have hr : replaceC c F.sep (joinC F.sep names) = joinC F.sep names := replaceC_of_not_mem fun hm =>
        have ⟨w, hw, hcw⟩ := mem_joinC (ha c hc).1 hm
        (ha c hc).2 w hw hcw
      simp only [Flavour.parse, hc, hr, hs, hj, hf]
  have hj : joinParsed base ⟨[], [], names⟩ = .ok ⟨base.drv, base.root, base.tail ++ names⟩ := by simp [joinParsed]
  match names with
  | [] => exact absurd rfl hne
  | [s] =>
    rw [show joinC F.sep [s] = s from rfl] at e
    simp only [Flavour.child, Flavour.makeChild, e, hj]
  | s :: t :: rest =>
    have hf : F.format (s :: t :: rest) = .ok (joinC F.sep (s :: t :: rest)) := by
      simp [Flavour.format, hd s (by simp)]
    simp only [Flavour.child, Flavour.makeChild, hf, e, hj]

/-- **C157**: the other separator of a system is as good as its separator, in a single part. -/
theorem C157_separators (F : Flavour) (base : Parsed) (c : Char) (hc : F.alt = some c) (s : Str) :
    F.child base [s] = F.child base [replaceC c F.sep s] := by
  have e : replaceC c F.sep (replaceC c F.sep s) = replaceC c F.sep s := by
    unfold replaceC
    rw [List.map_map]
    refine List.map_congr_left fun x _ => ?_
    by_cases hx : x = c
    · by_cases hy : F.sep = c <;> simp [hx, hy]
    · simp [hx]
  simp only [Flavour.child, Flavour.makeChild, Flavour.parse, hc, e]

/-- **C157 is false** on windows when the first of several parts has a drive: a list is added to a tuple. -/
theorem C157_list_counterexample (F : Flavour) (base : Parsed) (first second : Str) (rest : List Str) (h : (F.split first).1 ≠ []) :
    F.child base (first :: second :: rest) = .error .typeError := by
  simp [Flavour.child, Flavour.makeChild, Flavour.format, h]

/-- **C157**: the parts of an ssh remote relative to the anchor are names or none, and the model of these remotes (`Ssh.Texts.place`, C97) puts the child
where this one does. -/
theorem C157_ssh (T : Ssh.Texts) (base : Symlink.Pure) (o : Ssh.Rem) (parts : List Str) (h : T.parts o (T.new T.root) = .ok parts) :
    (∀ w ∈ parts, w ≠ [] ∧ w ≠ ['.'] ∧ '/' ∉ w) ∧ posix.child (ofPure base) parts = (T.place base o).map ofPure := by
  have hw : ∀ w ∈ parts, w ≠ [] ∧ w ≠ ['.'] ∧ '/' ∉ w := by
    unfold Ssh.Texts.parts at h
    split at h
    · cases h
    · cases h
    · rename_i p q _ _
      unfold Ssh.pureRelative at h
      split at h
      · have e := (Ssh.relativeTo_iff _ _ _).1 h
        exact fun w hm => (Ssh.clean_parse p).2 w (e ▸ List.mem_append_right _ hm)
      · cases h
  refine ⟨hw, ?_⟩
  unfold Ssh.Texts.place
  rw [h]
  match parts with
  | [] => rfl
  | w :: ws =>
    rw [(C157_names base (w :: ws) (by simp) hw).1]
    simp [Except.map, ofPure, Symlink.parse_joinC (w :: ws) (by simp) hw]

/-! ## Cases -/

-- C157_join_iff: a relative path, and one with a drive and a root
example : (∀ w ∈ [lit "a", lit "b"], '\\' ∉ w) ∧ '\\' ∈ (['\\'] : Str) := by decide

-- C157_joinpath_partial: with an absolute first part, empty parts and slashes within
example : Solid (lit "/x/") ∧ ∀ s ∈ [lit "a//b", [], lit "..", lit "c/"], s.head? ≠ some '/' := ⟨⟨'x', by decide, by decide⟩, by decide⟩

-- C157_names
example : ∀ w ∈ [lit "a", lit "..", lit "b c"], w ≠ [] ∧ w ≠ ['.'] ∧ '/' ∉ w := by decide

-- C157_other_counterexample: a flavour that knows a drive
example : ∃ F : Flavour, F.alt = some '/' ∧ '/' ∉ lit "D:b" ∧ (F.split (lit "D:b")).2.1 = [] ∧ (F.split (lit "D:b")).1 = lit "D:" ∧ lit "D:" ≠ lit "C:" :=
  ⟨⟨'\\', some '/', fun s => (s.take 2, [], s.drop 2)⟩, by decide, by decide, by decide, by decide, by decide⟩

-- C157_names_any: a flavour with drives
example : ∃ F : Flavour, F.alt = some '/' ∧ (F.split (lit "C:")).1 = lit "C:" ∧ F.sep = '\\' ∧
    F.split (joinC F.sep [lit "a", lit "b"]) = ([], [], joinC F.sep [lit "a", lit "b"]) ∧ (F.split (lit "a")).1 = [] :=
  ⟨⟨'\\', some '/', fun s => if s[1]? = some ':' then (s.take 2, [], s.drop 2) else ([], [], s)⟩, by decide, by decide, by decide, by decide, by decide⟩

-- C157_ssh: a file below the anchor
example : (⟨lit "h", lit "/a"⟩ : Ssh.Texts).parts ((⟨lit "h", lit "/a"⟩ : Ssh.Texts).new (lit "/a/b/c"))
    ((⟨lit "h", lit "/a"⟩ : Ssh.Texts).new (⟨lit "h", lit "/a"⟩ : Ssh.Texts).root) = .ok [lit "b", lit "c"] := by decide

end Verif.MakeChild
