import Verif.Model.SshPath
import Verif.Lemmas.Symlink
import Verif.Lemmas.Ssh
import Verif.Lemmas.Decide

/-!
# C97: paths below the remote anchor and paths below the local anchor correspond
-/

namespace Verif.Ssh
open Verif.Symlink

/-- A component of a path. -/
def Comp (w : Str) : Prop := w ≠ [] ∧ w ≠ ['.'] ∧ '/' ∉ w

/-- What `PurePosixPath` makes. -/
def Clean (p : Pure) : Prop := (p.root = [] ∨ p.root = ['/'] ∨ p.root = ['/', '/']) ∧ ∀ w ∈ p.comps, Comp w

theorem clean_parse (s : Str) : Clean (parse s) := by
  refine ⟨?_, ?_⟩
  · unfold parse
    dsimp only
    split <;> simp
  · intro w hw
    simp only [parse, List.mem_filter, decide_eq_true_eq] at hw
    exact ⟨hw.2.1, hw.2.2, splitC_not_mem '/' s w hw.1⟩

theorem filter_comps {l : List Str} (h : ∀ w ∈ l, Comp w) : l.filter (fun w => decide (w ≠ [] ∧ w ≠ ['.'])) = l := by
  rw [List.filter_eq_self]
  intro w hw
  simp [(h w hw).1, (h w hw).2.1]

theorem joinC_head {l : List Str} (h : ∀ w ∈ l, Comp w) : (joinC '/' l).head? ≠ some '/' := by
  cases l with
  | nil => simp [joinC]
  | cons w ws =>
    obtain ⟨h₁, _, h₃⟩ := h w (by simp)
    cases w with
    | nil => exact absurd rfl h₁
    | cons c w =>
      have hc : c ≠ '/' := fun e => h₃ (e ▸ List.mem_cons_self)
      cases ws with
      | nil => simpa [joinC] using hc
      | cons _ _ => simpa [joinC] using hc

theorem splitC_sep (s : Str) : splitC '/' ('/' :: s) = [] :: splitC '/' s :=
  splitC_append_sep (w := []) (by simp)

theorem comps_join {l : List Str} (h : ∀ w ∈ l, Comp w) :
    (splitC '/' (joinC '/' l)).filter (fun w => decide (w ≠ [] ∧ w ≠ ['.'])) = l := by
  cases l with
  | nil => simp [joinC, splitC]
  | cons w ws =>
    rw [splitC_joinC (by simp) fun w hw => (h w hw).2.2]
    exact filter_comps h

/-- The text of a path reads back as the path. -/
theorem parse_str {p : Pure} (hp : Clean p) : parse p.str = p := by
  obtain ⟨hr, hc⟩ := hp
  obtain ⟨r, l⟩ := p
  dsimp only at hr hc
  have hh := joinC_head hc
  rcases hr with rfl | rfl | rfl
  · cases l with
    | nil => decide
    | cons w ws =>
      have : Pure.str ⟨[], w :: ws⟩ = joinC '/' (w :: ws) := by simp [Pure.str]
      rw [this]
      exact parse_joinC _ (by simp) hc
  · have : Pure.str ⟨['/'], l⟩ = '/' :: joinC '/' l := by simp [Pure.str]
    rw [this]
    unfold parse
    congr 1
    · generalize joinC '/' l = t at hh
      cases t with
      | nil => rfl
      | cons c t =>
        have : c ≠ '/' := by simpa using hh
        split <;> simp_all
    · rw [splitC_sep]
      simp only [List.filter_cons]
      rw [if_neg (by simp)]
      exact comps_join hc
  · have : Pure.str ⟨['/', '/'], l⟩ = '/' :: '/' :: joinC '/' l := by simp [Pure.str]
    rw [this]
    unfold parse
    congr 1
    · generalize joinC '/' l = t at hh
      cases t with
      | nil => rfl
      | cons c t =>
        have : c ≠ '/' := by simpa using hh
        split <;> simp_all
        rename_i x e
        exact x _ e.symm
    · rw [splitC_sep, splitC_sep]
      simp only [List.filter_cons]
      rw [if_neg (by simp), if_neg (by simp)]
      exact comps_join hc

theorem clean_join {a b : Pure} (ha : Clean a) (hb : Clean b) : Clean (a.join b) := by
  unfold Pure.join
  split
  · exact hb
  · refine ⟨ha.1, fun w hw => ?_⟩
    rcases List.mem_append.1 hw with h | h
    · exact ha.2 w h
    · exact hb.2 w h

theorem foldl_comps (a : Pure) (l : List Str) (h : ∀ w ∈ l, Comp w) :
    l.foldl (fun a s => a.join (parse s)) a = ⟨a.root, a.comps ++ l⟩ := by
  induction l generalizing a with
  | nil => simp
  | cons w l ih =>
    rw [List.foldl_cons, ih _ fun w hw => h w (List.mem_cons_of_mem _ hw), parse_single w (h w List.mem_cons_self)]
    simp [Pure.join]

/-- A path is made again from its parts. -/
theorem ofParts_comps (l : List Str) (h : ∀ w ∈ l, Comp w) : ofParts l = ⟨[], l⟩ := by
  cases l with
  | nil => rfl
  | cons w l =>
    rw [ofParts, foldl_comps _ _ fun w hw => h w (List.mem_cons_of_mem _ hw), parse_single w (h w List.mem_cons_self)]
    simp

theorem ofParts_parts {p : Pure} (hp : Clean p) : ofParts p.parts = p := by
  obtain ⟨hr, hc⟩ := hp
  obtain ⟨r, l⟩ := p
  dsimp only at hr hc
  unfold Pure.parts
  dsimp only
  rcases hr with rfl | rfl | rfl
  · simpa using ofParts_comps l hc
  · rw [if_neg (by simp), ofParts, foldl_comps _ _ hc]
    have : parse ['/'] = ⟨['/'], []⟩ := by decide
    simp [this]
  · rw [if_neg (by simp), ofParts, foldl_comps _ _ hc]
    have : parse ['/', '/'] = ⟨['/', '/'], []⟩ := by decide
    simp [this]

theorem relativeTo_iff (a b r : List Str) : FS.relativeTo a b = .ok r ↔ a = b ++ r := by
  induction b generalizing a with
  | nil => simp [FS.relativeTo]
  | cons x b ih =>
    cases a with
    | nil => simp [FS.relativeTo]
    | cons y a =>
      simp only [FS.relativeTo, List.cons_append, List.cons.injEq]
      split
      · rename_i e; simp [e, ih]
      · rename_i e; simp [e]

theorem relativeTo_err (a b : List Str) (e : PyErr) (h : FS.relativeTo a b = .error e) : e = .valueError := by
  induction b generalizing a with
  | nil => simp [FS.relativeTo] at h
  | cons x b ih =>
    cases a with
    | nil => simp [FS.relativeTo] at h; exact h.symm
    | cons y a =>
      simp only [FS.relativeTo] at h
      split at h
      · exact ih a h
      · cases h; rfl

/-! ## The claim -/

/-- What the claim is about: a host without a colon, an absolute anchor. -/
structure Bound.Ok (S : Bound) : Prop where
  host : ':' ∉ S.host
  clean : Clean S.anchor
  root : S.anchor.root ≠ []

/-- `init` with an absolute path binds such a class. -/
theorem C97_init (host path : Str) (hh : ':' ∉ host) (hp : path.head? = some '/') :
    ∃ S, init (host ++ ':' :: path) = .ok S ∧ S.Ok ∧ S.host = host ∧ S.anchor = parse path := by
  refine ⟨⟨host, parse path⟩, ?_, ⟨hh, clean_parse path, ?_⟩, rfl, rfl⟩
  · unfold init
    rw [splitColon_append hh]
  · cases path with
    | nil => cases hp
    | cons c t =>
      simp at hp
      subst hp
      unfold parse
      dsimp only
      split <;> simp_all

theorem join_abs (a : Pure) {p : Pure} (h : p.root ≠ []) : a.join p = p := by simp [Pure.join, h]

theorem parse_rpath {S : Bound} (hS : S.Ok) {p : Pure} (hp : Clean p) : parse (S.rpath p) = S.anchor.join p :=
  parse_str (clean_join hS.clean hp)

theorem base_join (base : Pure) {r : List Str} (h : ∀ w ∈ r, Comp w) : base.join (ofParts r) = ⟨base.root, base.comps ++ r⟩ := by
  simp [ofParts_comps r h, Pure.join]

theorem pureRelative_iff (a b : Pure) (r : List Str) : pureRelative a b = .ok r ↔ a.root = b.root ∧ a.comps = b.comps ++ r := by
  unfold pureRelative
  split
  · rename_i e; simp [e, relativeTo_iff]
  · rename_i e; simp [e]

/-- Where an absolute remote path is put before python 3.12: below the local anchor, as it is below the remote anchor. -/
theorem C97_place (S : Bound) (hS : S.Ok) (base p l : Pure) (hp : Clean p) (habs : p.root ≠ []) :
    S.place base p = .ok l ↔
      ∃ r, p = ⟨S.anchor.root, S.anchor.comps ++ r⟩ ∧ l = ⟨base.root, base.comps ++ r⟩ := by
  have hpar : ∀ r, S.partsOld p S.anchor = .ok r ↔ p = ⟨S.anchor.root, S.anchor.comps ++ r⟩ := by
    intro r
    have key : (p.root = S.anchor.root ∧ p.comps = S.anchor.comps ++ r) ↔ p = ⟨S.anchor.root, S.anchor.comps ++ r⟩ := by
      obtain ⟨x, y⟩ := p
      simp
    simp only [Bound.partsOld, if_true, ofParts_parts hS.clean, pureRelative_iff, key]
  unfold Bound.place
  constructor
  · intro h
    cases hx : S.partsOld p S.anchor with
    | error e => rw [hx] at h; cases h
    | ok r =>
      rw [hx] at h
      have hr := (hpar r).1 hx
      have hc : ∀ w ∈ r, Comp w := fun w hw => hp.2 w (by rw [hr]; exact List.mem_append_right _ hw)
      cases h
      exact ⟨r, hr, base_join base hc⟩
  · rintro ⟨r, hr, rfl⟩
    have hc : ∀ w ∈ r, Comp w := fun w hw => hp.2 w (by rw [hr]; exact List.mem_append_right _ hw)
    rw [(hpar r).2 hr]
    dsimp only
    rw [base_join base hc]

theorem pureRelative_err {a b : Pure} {e : PyErr} (h : pureRelative a b = .error e) : e = .valueError := by
  unfold pureRelative at h
  split at h
  · exact relativeTo_err _ _ _ h
  · cases h; rfl

/-- Paths that are not below the remote anchor have no place: `ValueError`. -/
theorem C97_outside (S : Bound) (hS : S.Ok) (base p : Pure) (hp : Clean p) (habs : p.root ≠ [])
    (hout : ∀ r, p ≠ ⟨S.anchor.root, S.anchor.comps ++ r⟩) : S.place base p = .error .valueError := by
  cases hx : S.place base p with
  | ok l =>
    obtain ⟨r, hr, _⟩ := (C97_place S hS base p l hp habs).1 hx
    exact absurd hr (hout r)
  | error e =>
    unfold Bound.place at hx
    split at hx
    · rename_i e' h
      cases hx
      unfold Bound.partsOld at h
      split at h
      · rw [pureRelative_err h]
      · rw [pureRelative_err h]
    · cases hx

/-- Two absolute remote paths with the same place are the same path, so have the same id. -/
theorem C97_injective (S : Bound) (hS : S.Ok) (base p q l : Pure) (hp : Clean p) (hq : Clean q)
    (hpa : p.root ≠ []) (hqa : q.root ≠ []) (h₁ : S.place base p = .ok l) (h₂ : S.place base q = .ok l) : p = q := by
  obtain ⟨r, rfl, rfl⟩ := (C97_place S hS base p l hp hpa).1 h₁
  obtain ⟨r', rfl, h⟩ := (C97_place S hS base q _ hq hqa).1 h₂
  simp at h
  rw [h]

/-- Every place below the local anchor is that of a remote path: the anchor joined with the same names. -/
theorem C97_surjective (S : Bound) (hS : S.Ok) (base : Pure) (r : List Str) (hr : ∀ w ∈ r, Comp w) :
    S.place base ⟨S.anchor.root, S.anchor.comps ++ r⟩ = .ok ⟨base.root, base.comps ++ r⟩ := by
  refine (C97_place S hS base ⟨S.anchor.root, S.anchor.comps ++ r⟩ _ ⟨hS.clean.1, fun w hw => ?_⟩ hS.root).2 ⟨r, rfl, rfl⟩
  rcases List.mem_append.1 hw with h | h
  · exact hS.clean.2 w h
  · exact hr w h

/-- The place of the parent is the parent of the place, below the anchor. -/
theorem C97_parent (S : Bound) (hS : S.Ok) (base p l : Pure) (hp : Clean p) (habs : p.root ≠ [])
    (h : S.place base p = .ok l) (hne : p ≠ S.anchor) : S.place base (S.parent p) = .ok l.parent := by
  obtain ⟨r, hr, rfl⟩ := (C97_place S hS base p l hp habs).1 h
  have hrn : r ≠ [] := by
    rintro rfl
    simp at hr
    exact hne hr
  have hcp : Clean p.parent := ⟨hp.1, fun w hw => hp.2 w (List.dropLast_subset _ hw)⟩
  have hpar : S.parent p = p.parent := by
    unfold Bound.parent
    rw [if_neg]
    intro e
    have e' : parse p.parent.str = parse p.str := by rw [e]
    rw [parse_str hcp, parse_str hp, hr] at e'
    have : (S.anchor.comps ++ r).dropLast = S.anchor.comps ++ r := by
      have := congrArg Pure.comps e'
      simpa [Pure.parent] using this
    have hlen := congrArg List.length this
    have : 0 < (S.anchor.comps ++ r).length := by
      have := List.length_pos_iff.2 hrn
      simp; omega
    simp only [List.length_dropLast] at hlen
    omega
  rw [hpar]
  refine (C97_place S hS base _ _ hcp habs).2 ⟨r.dropLast, ?_, ?_⟩
  · rw [hr]
    simp [Pure.parent, List.dropLast_append_of_ne_nil hrn]
  · simp [Pure.parent, List.dropLast_append_of_ne_nil hrn]

/-- The id of a remote makes the remote again: the same id, and for absolute paths the same path. -/
theorem C97_from_id (S : Bound) (hS : S.Ok) (p : Pure) (hp : Clean p) :
    S.id (S.new (S.id p)) = S.id p ∧ (p.root ≠ [] → S.new (S.id p) = p) := by
  have hnew : S.new (S.id p) = S.anchor.join p := by
    have hpre : (S.host ++ [':']).isPrefixOf (S.id p) = true := by
      rw [List.isPrefixOf_iff_prefix]
      exact ⟨S.rpath p, by simp [Bound.id, sshId]⟩
    unfold Bound.new newPath
    rw [if_pos hpre, show splitColon (S.id p) = some (S.host, S.rpath p) from splitColon_append hS.host]
    exact parse_rpath hS hp
  rw [hnew]
  refine ⟨?_, join_abs _⟩
  have hr : (S.anchor.join p).root ≠ [] := by
    unfold Pure.join
    split
    · assumption
    · exact hS.root
  simp [Bound.id, Bound.rpath, join_abs _ hr]

/-- Lexical removal of `..`: what `os.path.normpath` does with the components of an absolute path. -/
def collapse : List Str → List Str := List.foldl (fun acc w => if w = FS.dotdot then acc.dropLast else acc ++ [w]) []

theorem collapse_plain (a r : List Str) (h : FS.dotdot ∉ r) :
    r.foldl (fun acc w => if w = FS.dotdot then acc.dropLast else acc ++ [w]) a = a ++ r := by
  induction r generalizing a with
  | nil => simp
  | cons w r ih =>
    have hw : w ≠ FS.dotdot := fun e => h (e ▸ List.mem_cons_self)
    rw [List.foldl_cons, if_neg hw, ih _ fun hm => h (List.mem_cons_of_mem _ hm)]
    simp

/-- Without `..` in the names, the place stays below the local anchor also after the dots are removed. -/
theorem C97_inside (S : Bound) (hS : S.Ok) (base p l : Pure) (hp : Clean p) (habs : p.root ≠ [])
    (h : S.place base p = .ok l) (hd : FS.dotdot ∉ p.comps) : collapse base.comps <+: collapse l.comps := by
  obtain ⟨r, rfl, rfl⟩ := (C97_place S hS base p l hp habs).1 h
  have hr : FS.dotdot ∉ r := fun hm => hd (List.mem_append_right _ hm)
  unfold collapse
  rw [List.foldl_append, collapse_plain _ _ hr]
  exact List.prefix_append _ _

/-! ## Cases, and what cannot be claimed -/

/-- `server:/srv/data` -/
def server : Bound := ⟨lit "server", parse (lit "/srv/data")⟩

theorem server_ok : server.Ok := ⟨by decide, clean_parse _, by decide⟩

/-- `/home/me/data` -/
def home : Pure := parse (lit "/home/me/data")

example : init (lit "server:/srv/data") = .ok server := by decide

example : let p := server.new (lit "server:/srv/data/a/b.txt")
    p.root ≠ [] ∧ p ≠ server.anchor ∧ server.place home p = .ok (parse (lit "/home/me/data/a/b.txt")) ∧ FS.dotdot ∉ p.comps := by decide

/-- Names that lead out of the remote anchor lead out of the local anchor: the file `/etc/passwd` of the remote belongs to the place
`/home/me/data/../../etc/passwd`, which is `/home/etc/passwd`. -/
theorem C97_escape_counterexample :
    let p := server.new (lit "server:/srv/data/../../etc/passwd")
    server.place home p = .ok (parse (lit "/home/me/data/../../etc/passwd")) ∧
    ¬ collapse home.comps <+: collapse (parse (lit "/home/me/data/../../etc/passwd")).comps := by decide

/-- The same file by two names has two ids and two places. -/
theorem C97_dotdot_counterexample :
    let p := server.new (lit "server:/srv/data/a/../b")
    let q := server.new (lit "server:/srv/data/b")
    collapse p.comps = collapse q.comps ∧ server.id p ≠ server.id q ∧
    server.place home p ≠ server.place home q := by decide

/-- A relative path has the id of an absolute one, so the two are equal (remotes.py 565-566), but before python 3.12 only the absolute one
has a place. -/
theorem C97_relative_counterexample :
    let p := server.new (lit "a/b")
    let q := server.new (lit "server:/srv/data/a/b")
    server.id p = server.id q ∧
    server.place home p = .error .valueError ∧ server.place home q = .ok (parse (lit "/home/me/data/a/b")) := by decide

/-- With a relative anchor the id of a remote made from an id has the anchor twice. -/
theorem C97_relative_anchor_counterexample :
    let S : Bound := ⟨lit "server", parse (lit "data")⟩
    init (lit "server:data") = .ok S ∧ S.id (S.new (lit "a")) = lit "server:data/a" ∧
    S.id (S.new (lit "server:data/a")) = lit "server:data/data/a" := by decide

/-! ## Python 3.12 -/

/-- What is claimed for python 3.12: a host without a colon and a slash, an absolute anchor. -/
structure Texts.Ok (T : Texts) : Prop where
  colon : ':' ∉ T.host
  slash : '/' ∉ T.host
  abs : T.path.head? = some '/'

/-- The argument is the text of an absolute path, with the host before it or not. -/
def Texts.Absolute (T : Texts) (arg : Str) : Prop := (newPath T.host arg).head? = some '/'

theorem Texts.Ok.slash_eq {T : Texts} (h : T.Ok) : T.slash = T.host ++ [':', '/'] := by
  obtain ⟨host, path⟩ := T
  obtain ⟨_, h₂, h₃⟩ := h
  dsimp only at h₂ h₃
  cases path with
  | nil => cases h₃
  | cons c t =>
    simp at h₃
    subst h₃
    unfold Texts.slash Texts.root sshId
    dsimp only
    have : ∀ l : Str, '/' ∉ l → (l ++ ':' :: '/' :: t).takeWhile (fun x => decide (x ≠ '/')) = l ++ [':'] := by
      intro l
      induction l with
      | nil => intro _; simp
      | cons x l ih =>
        intro hl
        simp at hl
        rw [List.cons_append, List.takeWhile_cons, if_pos (by simpa using Ne.symm hl.1), ih hl.2]
        rfl
    rw [this host h₂]
    simp

theorem posixJoin_abs (a t : Str) (h : t.head? = some '/') : posixJoin [a, t] = t := by
  simp [posixJoin, h]

/-- The text that the server is sent for an absolute path. -/
theorem rpath_absolute {T : Texts} (h : T.Ok) {arg : Str} (ha : T.Absolute arg) :
    T.rpath (T.new arg) = .ok (Pure.str ⟨['/'], (parse (newPath T.host arg)).comps⟩) := by
  unfold Texts.Absolute at ha
  have hroot : (T.new arg).root = T.host ++ [':', '/'] := by
    simp [Texts.new, Texts.rootOf, ha, h.slash_eq]
  have hstr : ∀ l : List Str, Pure.str ⟨['/'], l⟩ = '/' :: joinC '/' l := fun l => by simp [Pure.str]
  unfold Texts.rpath
  split
  · rename_i hc
    obtain ⟨h₁, h₂⟩ := hc
    rw [hroot] at h₁
    have h₁' : T.host ++ ':' :: ['/'] = T.host ++ ':' :: T.path := h₁
    have hpath : ['/'] = T.path := by
      have := List.append_cancel_left h₁'
      simpa using this
    have h₂' : [newPath T.host arg] = [T.path] := h₂
    have h₂'' : newPath T.host arg = T.path := by simpa using h₂'
    rw [hroot, h₂'', ← hpath, show splitColon (T.host ++ [':', '/']) = some (T.host, ['/']) from splitColon_append h.colon]
    simp only [hstr]
    decide
  · have hj : (T.joined (T.new arg)).str = T.host ++ ':' :: ('/' :: joinC '/' (parse (newPath T.host arg)).comps) := by
      unfold Texts.joined Rem.str Rem.pure
      dsimp only
      rw [show (T.new arg).raw = [newPath T.host arg] from rfl, posixJoin_abs _ _ ha]
      have : T.rootOf (T.anchor.raw ++ [newPath T.host arg]) = T.slash := by
        simp [Texts.rootOf, ha]
      rw [this, h.slash_eq]
      simp
    rw [hj, splitColon_append h.colon]
    simp only [hstr]

theorem newPath_root (T : Texts) (h : ':' ∉ T.host) : newPath T.host T.root = T.path := by
  have hpre : (T.host ++ [':']).isPrefixOf T.root = true := by
    rw [List.isPrefixOf_iff_prefix]
    exact ⟨T.path, by simp [Texts.root, sshId]⟩
  unfold newPath
  rw [if_pos hpre, show splitColon T.root = some (T.host, T.path) from splitColon_append h]

theorem clean_slash (t : Str) : Clean ⟨['/'], (parse t).comps⟩ := ⟨by simp, (clean_parse t).2⟩

theorem parts_absolute {T : Texts} (h : T.Ok) {arg : Str} (ha : T.Absolute arg) :
    T.parts (T.new arg) (T.new T.root) = FS.relativeTo (parse (newPath T.host arg)).comps (parse T.path).comps := by
  have hr : T.Absolute T.root := by unfold Texts.Absolute; rw [newPath_root T h.colon]; exact h.abs
  unfold Texts.parts
  rw [rpath_absolute h ha, rpath_absolute h hr, newPath_root T h.colon]
  simp only [parse_str (clean_slash _), pureRelative, if_true]

/-- Where an absolute remote path is put in python 3.12: below the local anchor, as it is below the remote anchor, which itself has no
place. -/
theorem C97_place_new (T : Texts) (h : T.Ok) (base l : Pure) (arg : Str) (ha : T.Absolute arg) :
    T.place base (T.new arg) = .ok l ↔
      ∃ r, r ≠ [] ∧ (parse (newPath T.host arg)).comps = (parse T.path).comps ++ r ∧ l = ⟨base.root, base.comps ++ r⟩ := by
  unfold Texts.place
  rw [parts_absolute h ha]
  cases hx : FS.relativeTo (parse (newPath T.host arg)).comps (parse T.path).comps with
  | error e =>
    dsimp only
    constructor
    · intro h; cases h
    · rintro ⟨r, _, hr, _⟩
      rw [(relativeTo_iff _ _ _).2 hr] at hx
      cases hx
  | ok r =>
    have hr := (relativeTo_iff _ _ _).1 hx
    have hc : ∀ w ∈ r, Comp w := fun w hw =>
      (clean_parse (newPath T.host arg)).2 w (by rw [hr]; exact List.mem_append_right _ hw)
    cases r with
    | nil =>
      dsimp only
      constructor
      · intro h; cases h
      · rintro ⟨r, hn, hr', _⟩
        rw [hr'] at hr
        exact absurd (List.append_cancel_left hr) hn
    | cons w r =>
      dsimp only
      rw [show (parse (joinC '/' (w :: r))).comps = w :: r from comps_join hc]
      constructor
      · intro h; cases h; exact ⟨_, by simp, hr, rfl⟩
      · rintro ⟨r', hn, hr', rfl⟩
        rw [hr'] at hr
        rw [List.append_cancel_left hr]

/-- The remote anchor has no place in python 3.12: `TypeError`. -/
theorem C97_anchor_new (T : Texts) (h : T.Ok) (base : Pure) (arg : Str) (ha : T.Absolute arg)
    (he : (parse (newPath T.host arg)).comps = (parse T.path).comps) : T.place base (T.new arg) = .error .typeError := by
  unfold Texts.place
  rw [parts_absolute h ha, he, (relativeTo_iff _ _ []).2 (by simp)]

/-- Absolute paths elsewhere have none: `ValueError`. -/
theorem C97_outside_new (T : Texts) (h : T.Ok) (base : Pure) (arg : Str) (ha : T.Absolute arg)
    (he : ¬ (parse T.path).comps <+: (parse (newPath T.host arg)).comps) : T.place base (T.new arg) = .error .valueError := by
  unfold Texts.place
  rw [parts_absolute h ha]
  cases hx : FS.relativeTo (parse (newPath T.host arg)).comps (parse T.path).comps with
  | error e => rw [relativeTo_err _ _ _ hx]
  | ok r => exact absurd ⟨r, ((relativeTo_iff _ _ _).1 hx).symm⟩ he

/-- Two remotes of absolute paths with the same place have the same id. -/
theorem C97_injective_new (T : Texts) (h : T.Ok) (base l : Pure) (a b : Str) (ha : T.Absolute a) (hb : T.Absolute b)
    (h₁ : T.place base (T.new a) = .ok l) (h₂ : T.place base (T.new b) = .ok l) : T.id (T.new a) = T.id (T.new b) := by
  obtain ⟨r, _, hr, rfl⟩ := (C97_place_new T h base l a ha).1 h₁
  obtain ⟨r', _, hr', he⟩ := (C97_place_new T h base _ b hb).1 h₂
  simp at he
  unfold Texts.id
  rw [rpath_absolute h ha, rpath_absolute h hb, hr, hr', he]

/-- The id of an absolute path: the host and the path, with one slash at the front. -/
theorem C97_id_new (T : Texts) (h : T.Ok) (arg : Str) (ha : T.Absolute arg) :
    T.id (T.new arg) = .ok (sshId T.host (Pure.str ⟨['/'], (parse (newPath T.host arg)).comps⟩)) := by
  unfold Texts.id
  rw [rpath_absolute h ha]

/-- The id of the remote of an absolute path makes a remote with this id. -/
theorem C97_from_id_new (T : Texts) (h : T.Ok) (arg i : Str) (ha : T.Absolute arg) (hi : T.id (T.new arg) = .ok i) :
    T.Absolute i ∧ T.id (T.new i) = .ok i := by
  rw [C97_id_new T h arg ha] at hi
  cases hi
  have hn : newPath T.host (sshId T.host (Pure.str ⟨['/'], (parse (newPath T.host arg)).comps⟩)) =
      Pure.str ⟨['/'], (parse (newPath T.host arg)).comps⟩ := by
    generalize Pure.str ⟨['/'], (parse (newPath T.host arg)).comps⟩ = s
    exact newPath_root ⟨T.host, s⟩ h.colon
  have habs : T.Absolute (sshId T.host (Pure.str ⟨['/'], (parse (newPath T.host arg)).comps⟩)) := by
    unfold Texts.Absolute
    rw [hn]
    simp [Pure.str]
  refine ⟨habs, ?_⟩
  rw [C97_id_new T h _ habs, hn, parse_str (clean_slash _)]

theorem newPath_abs {T : Texts} (h : T.Ok) {t : Str} (ht : t.head? = some '/') : newPath T.host t = t := by
  unfold newPath
  rw [if_neg]
  rw [List.isPrefixOf_iff_prefix]
  rintro ⟨s, rfl⟩
  have hs := h.slash
  cases hh : T.host with
  | nil => rw [hh] at ht; simp at ht
  | cons c w =>
    rw [hh] at ht hs
    simp at ht
    subst ht
    simp at hs

/-- The parent of the remote of an absolute path is the remote of an absolute path with one component less. -/
theorem parent_absolute {T : Texts} (h : T.Ok) {arg : Str} (ha : T.Absolute arg) :
    ∃ t, T.parent (T.new arg) = T.new t ∧ T.Absolute t ∧
      (parse (newPath T.host t)).comps = (parse (newPath T.host arg)).comps.dropLast := by
  have hpure : (T.new arg).pure = parse (newPath T.host arg) := by simp [Rem.pure, Texts.new, posixJoin]
  have hroot : (T.new arg).root = T.host ++ [':', '/'] := by
    unfold Texts.Absolute at ha
    simp [Texts.new, Texts.rootOf, ha, h.slash_eq]
  unfold Texts.Absolute at ha
  generalize hw : newPath T.host arg = w at *
  have hpr : (parse w).root.head? = some '/' := by
    cases w with
    | nil => cases ha
    | cons c t =>
      simp at ha
      subst ha
      unfold parse
      dsimp only
      split <;> simp_all
  have hne : (parse w).parent.str ≠ (T.new arg).str := by
    intro e
    have h₁ : (parse w).parent.str.head? = some '/' := by
      unfold Pure.str Pure.parent
      dsimp only
      rw [if_neg (by intro e; rw [e.1] at hpr; cases hpr)]
      cases hr : (parse w).root with
      | nil => rw [hr] at hpr; cases hpr
      | cons c t => rw [hr] at hpr; simpa using hpr
    rw [e] at h₁
    unfold Rem.str at h₁
    rw [hroot] at h₁
    cases hh : T.host with
    | nil => rw [hh] at h₁; simp at h₁
    | cons c t =>
      rw [hh] at h₁
      simp at h₁
      exact h.slash (by rw [hh, h₁]; simp)
  unfold Texts.parent
  rw [hpure, if_neg hne]
  dsimp only
  split
  · rename_i hc
    refine ⟨arg, ?_, ?_, ?_⟩
    · simp [Texts.new]
    · unfold Texts.Absolute; rw [hw]; exact ha
    · rw [hw, hc]; rfl
  · have hs : ((parse w).root ++ joinC '/' (parse w).comps.dropLast).head? = some '/' := by
      cases hr : (parse w).root with
      | nil => rw [hr] at hpr; cases hpr
      | cons c t => rw [hr] at hpr; simpa using hpr
    refine ⟨(parse w).root ++ joinC '/' (parse w).comps.dropLast, ?_, ?_, ?_⟩
    · unfold Texts.new
      rw [newPath_abs h hs]
    · unfold Texts.Absolute
      rw [newPath_abs h hs]
      exact hs
    · rw [newPath_abs h hs]
      have hcl : Clean (parse w).parent := ⟨(clean_parse w).1, fun v hv => (clean_parse w).2 v (List.dropLast_subset _ hv)⟩
      have : (parse w).root ++ joinC '/' (parse w).comps.dropLast = (parse w).parent.str := by
        unfold Pure.str Pure.parent
        dsimp only
        rw [if_neg (by intro e; rw [e.1] at hpr; cases hpr)]
      rw [this, parse_str hcl]
      rfl

/-- In python 3.12 the id of the parent is the one of the path without its last component, and its place is the parent of the place
if that is not the local anchor. -/
theorem C97_parent_new (T : Texts) (h : T.Ok) (base l : Pure) (arg : Str) (ha : T.Absolute arg) :
    T.id (T.parent (T.new arg)) = .ok (sshId T.host (Pure.str ⟨['/'], (parse (newPath T.host arg)).comps.dropLast⟩)) ∧
    (T.place base (T.new arg) = .ok l →
      T.place base (T.parent (T.new arg)) = if l.parent = base then .error .typeError else .ok l.parent) := by
  obtain ⟨t, ht, hta, htc⟩ := parent_absolute h ha
  rw [ht]
  refine ⟨by rw [C97_id_new T h t hta, htc], fun hl => ?_⟩
  obtain ⟨r, hn, hr, rfl⟩ := (C97_place_new T h base l arg ha).1 hl
  have hd : (parse (newPath T.host t)).comps = (parse T.path).comps ++ r.dropLast := by
    rw [htc, hr, List.dropLast_append_of_ne_nil hn]
  have hp : Pure.parent ⟨base.root, base.comps ++ r⟩ = ⟨base.root, base.comps ++ r.dropLast⟩ := by
    simp [Pure.parent, List.dropLast_append_of_ne_nil hn]
  rw [hp]
  by_cases he : r.dropLast = []
  · rw [if_pos (by rw [he]; simp), C97_anchor_new T h base t hta (by rw [hd, he]; simp)]
  · rw [if_neg]
    · exact (C97_place_new T h base _ t hta).2 ⟨r.dropLast, he, hd, rfl⟩
    · intro e
      have := congrArg Pure.comps e
      simp at this
      exact he this

/-- The components of a path without its dots and double slashes are where the path has its characters. -/
theorem colon_comps {s : Str} (h : ':' ∈ s) : ':' ∈ joinC '/' (parse s).comps := by
  have hw : ∃ w ∈ splitC '/' s, ':' ∈ w := by
    by_cases hn : ∃ w ∈ splitC '/' s, ':' ∈ w
    · exact hn
    · exfalso
      have hj := joinC_splitC '/' s
      have : ∀ l : List Str, (∀ w ∈ l, ':' ∉ w) → ':' ∉ joinC '/' l := by
        intro l
        induction l with
        | nil => intro _; simp [joinC]
        | cons w l ih =>
          intro hl
          cases l with
          | nil => simpa [joinC] using hl w (by simp)
          | cons v l =>
            simp only [joinC, List.mem_append, List.mem_cons, not_or]
            exact ⟨hl w (by simp), by decide, ih fun x hx => hl x (List.mem_cons_of_mem _ hx)⟩
      exact this _ (fun w hw hc => hn ⟨w, hw, hc⟩) (by rw [hj]; exact h)
  obtain ⟨w, hw, hc⟩ := hw
  have hm : w ∈ (parse s).comps := by
    simp only [parse, List.mem_filter, decide_eq_true_eq]
    refine ⟨hw, ?_, ?_⟩
    · rintro rfl; cases hc
    · rintro rfl; simp at hc
  generalize (parse s).comps = l at hm
  induction l with
  | nil => cases hm
  | cons v l ih =>
    cases l with
    | nil =>
      simp at hm
      simpa [joinC, ← hm] using hc
    | cons u l =>
      simp only [joinC, List.mem_append, List.mem_cons]
      rcases List.mem_cons.1 hm with rfl | hm
      · exact .inl hc
      · exact .inr (.inr (by simpa [joinC] using ih hm))

/-- In python 3.12 no relative path has the id of the path below the anchor that it is: the text sent to the server has the host in it. -/
theorem C97_relative_new (T : Texts) (h : T.Ok) (arg : Str) (hr : ¬ T.Absolute arg) :
    ∃ p, T.rpath (T.new arg) = .ok p ∧ T.path <+: p ∧ ':' ∈ p.drop T.path.length := by
  unfold Texts.Absolute at hr
  have hroot : (T.new arg).root = T.root := by simp [Texts.new, Texts.rootOf, hr]
  generalize hw : newPath T.host arg = w at *
  have hraw : (T.new arg).raw = [w] := by simp [Texts.new, hw]
  have hne : ¬ ((T.new arg).root = T.anchor.root ∧ (T.new arg).raw = T.anchor.raw) := by
    rintro ⟨_, e⟩
    rw [hraw] at e
    have e' : [w] = [T.path] := e
    simp at e'
    exact hr (e' ▸ h.abs)
  unfold Texts.rpath
  rw [if_neg hne]
  have hj : (T.joined (T.new arg)).str = T.host ++ ':' :: (T.path ++ joinC '/' (T.joined (T.new arg)).pure.comps) := by
    unfold Rem.str
    have : (T.joined (T.new arg)).root = T.root := by
      simp [Texts.joined, hraw, Texts.rootOf, hr]
    rw [this]
    simp [Texts.root, sshId]
  rw [hj, splitColon_append h.colon]
  refine ⟨_, rfl, List.prefix_append _ _, ?_⟩
  rw [List.drop_left]
  unfold Rem.pure
  refine colon_comps ?_
  have : ':' ∈ T.anchor.str := by simp [Rem.str, Texts.anchor, Texts.root, sshId]
  show ':' ∈ posixJoin (T.anchor.str :: (T.new arg).raw)
  rw [hraw]
  simp only [posixJoin, List.foldl_cons, List.foldl_nil]
  rw [if_neg hr]
  split <;> simp [this]

/-! ### Cases -/

/-- `server:/srv/data` -/
def serverTexts : Texts := ⟨lit "server", lit "/srv/data"⟩

theorem serverTexts_ok : serverTexts.Ok := ⟨by decide, by decide, by decide⟩

example : serverTexts.Absolute (lit "server:/srv/data/a/b.txt") ∧ serverTexts.Absolute (lit "/srv//data/a/b.txt") ∧
    serverTexts.place home (serverTexts.new (lit "server:/srv/data/a/b.txt")) = .ok (parse (lit "/home/me/data/a/b.txt")) ∧
    serverTexts.place home (serverTexts.new (lit "server:/srv/other")) = .error .valueError ∧
    serverTexts.id (serverTexts.new (lit "/srv//data/a/b.txt")) = .ok (lit "server:/srv/data/a/b.txt") := by
  unfold Texts.Absolute
  decide +kernel

/-- The remote anchor has a place before python 3.12 only. -/
theorem C97_anchor_counterexample :
    server.place home (server.new (lit "server:/srv/data")) = .ok home ∧
    serverTexts.place home (serverTexts.new (lit "server:/srv/data")) = .error .typeError := by decide +kernel

/-- The id of a relative remote in the two versions. -/
theorem C97_relative_id_counterexample :
    server.id (server.new (lit "a/b")) = lit "server:/srv/data/a/b" ∧
    serverTexts.id (serverTexts.new (lit "a/b")) = .ok (lit "server:/srv/dataserver:/srv/datasrv/data/a/b") := by decide +kernel

/-- Two slashes at the front are kept by the older versions only, in which the path then has no place. -/
theorem C97_slashes_counterexample :
    server.id (server.new (lit "//srv/data/a")) = lit "server://srv/data/a" ∧
    server.place home (server.new (lit "//srv/data/a")) = .error .valueError ∧
    serverTexts.id (serverTexts.new (lit "//srv/data/a")) = .ok (lit "server:/srv/data/a") ∧
    serverTexts.place home (serverTexts.new (lit "//srv/data/a")) = .ok (parse (lit "/home/me/data/a")) := by decide +kernel

/-- The attribute `_anchor` is the text of the anchor twice in python 3.12; with a slash in the host no path is right. -/
theorem C97_anchor_text_counterexample :
    serverTexts.anchor.str = lit "server:/srv/datasrv/data" ∧
    let T : Texts := ⟨lit "a/b", lit "/srv"⟩
    T.rpath (T.new (lit "/srv/x")) = .error .valueError := by decide +kernel

theorem splitColon_none : ∀ {s : Str}, splitColon s = none ↔ ':' ∉ s
  | [] => by simp [splitColon]
  | c :: cs => by
    have ih := splitColon_none (s := cs)
    unfold splitColon
    by_cases h : c = ':'
    · simp [h]
    · rw [if_neg h]
      have h2 : ¬ ':' = c := fun h' => h h'.symm
      rw [Option.map_eq_none_iff, ih, List.mem_cons]
      exact ⟨fun h1 h3 => h3.elim h2 h1, fun h1 h3 => h1 (.inr h3)⟩

/-- **C97**: without a colon there is no host, and `init` raises `ValueError`; with one it never raises. -/
theorem C97_init_refused (s : Str) : (init s = .error .valueError ↔ ':' ∉ s) ∧ ((∃ S, init s = .ok S) ↔ ':' ∈ s) := by
  unfold init
  have h := splitColon_none (s := s)
  cases hs : splitColon s with
  | none => simp [h.1 hs]
  | some r =>
    have : ':' ∈ s := Decidable.not_not.1 fun hn => by rw [h.2 hn] at hs; cases hs
    simp [this]

end Verif.Ssh
