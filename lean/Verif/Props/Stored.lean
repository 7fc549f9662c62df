import Verif.Lemmas.Stored
import Verif.Lemmas.Samples
import Verif.Props.Fetch
import Verif.Lemmas.Decide

/-!
# C95: What is on the disk stands for the metadata

The theorems about the primary cache are about disks whose objects carry metadata.  Here the same functions run on disks as they
are, with bytes in extended attributes and text in links, and they do the same.
-/

namespace Verif.Cache
open Verif.FS Verif.Xattrs Verif.Spec

variable (C : XEnv) (hp : ParsesIso C.env)

/-- Running on the disk as it is does the same as running on a disk with metadata: for every pair of disks that belong together,
after every number of calls, the same value is returned or the same exception raised, after the same number of calls, and the disks
belong together again. -/
def SameAs {α : Type} (p : Prog XObj α) (p' : Prog CObj α) : Prop :=
  ∀ d a k, Alike (Holds C) d a → (p ⟨d, k⟩).1 = (p' ⟨a, k⟩).1 ∧ (p ⟨d, k⟩).2.tick = (p' ⟨a, k⟩).2.tick ∧
    Alike (Holds C) (p ⟨d, k⟩).2.disk (p' ⟨a, k⟩).2.disk

variable {C}

theorem SameAs.of {α : Type} {p : Prog XObj α} {p' : Prog CObj α} {Q : α → Prop} (h : Sim (Holds C) p p' Q) : SameAs C p p' := by
  intro d a k hd
  obtain ⟨r, d', a', k', h1, h2, h3, -⟩ := h d a k hd
  rw [h1, h2]
  exact ⟨rfl, rfl, h3⟩

theorem SameAs.sim {α : Type} {p : Prog XObj α} {p' : Prog CObj α} (h : SameAs C p p') : Sim (Holds C) p p' fun _ => True := by
  intro d a k hd
  obtain ⟨h1, h2, h3⟩ := h d a k hd
  refine ⟨(p ⟨d, k⟩).1, (p ⟨d, k⟩).2.disk, (p' ⟨a, k⟩).2.disk, (p ⟨d, k⟩).2.tick, rfl, ?_, h3, fun _ _ => trivial⟩
  rw [h1, h2]

/-- **C95**: reading metadata. -/
theorem C95_read (q : Path) : SameAs C (C.getMeta q) (C.toPEnv.getMeta q) := .of (getMeta_sim C q)

/-- **C95**: metadata that do not decode are an error that reaches the caller, never "no metadata" (on which a fetch or an update would
go on to write). -/
theorem C95_unreadable (hF : ∀ n, C.F n = none) (d : Disk XObj) (k : Nat) (q : Path) (e : PyErr)
    (hd : (∃ a, (d.at_ q = some (.dir a) ∨ ∃ b, d.at_ q = some (.file b a)) ∧ C.ofAttrs a = .error e) ∨
      ∃ t, d.at_ q = some (.link t) ∧ C.ofLink q t = .error e) :
    (C.getMeta q ⟨d, k⟩).1 = .error e ∧ (C.getMeta q ⟨d, k⟩).2.disk = d := by
  unfold XEnv.getMeta Prog.look Prog.sys
  rcases hd with ⟨a, hd | ⟨b, hd⟩, he⟩ | ⟨t, hd, he⟩ <;> simp [hF, hd, he]

include hp

/-- **C95**: storing metadata that survives being stored. -/
theorem C95_store {q : Path} (hq : IsName (nameOf q)) {m : Meta} (hm : KeepsAll m) :
    SameAs C (C.setMeta q (some m)) (C.toPEnv.setMeta q (some m)) :=
  .of (setMeta_sim C hp hq fun m' h => by injection h with h; exact h ▸ hm)

/-- **C95**: fetching. -/
theorem C95_fetch (hr : SameAs C C.refreshX C.refresh) {q : Path} (hq : IsName (nameOf q)) (limit : Option Int) :
    SameAs C (C.fetch q limit) (C.toPEnv.fetch q limit) := .of (fetch_sim C hp hr.sim hq limit)

/-- **C95**: updating metadata. -/
theorem C95_update (hr : SameAs C C.refreshX C.refresh) {q : Path} (hq : IsName (nameOf q)) {new : Meta} (hn : KeepsAll new) (fetch : Bool) :
    SameAs C (C.metaUpdater q new fetch) (C.toPEnv.metaUpdater q new fetch) := .of (metaUpdater_sim C hp hr.sim hq hn fetch)

/-- **C95**: moving. -/
theorem C95_move (hr : SameAs C C.refreshX C.refresh) {parents : Prog XObj Unit} {parents' : Prog CObj Unit} (hpar : SameAs C parents parents')
    (q : Path) {t : Path} (ht : IsName (nameOf t)) {given : Option Meta} (hg : ∀ m, given = some m → KeepsAll m) (remote cast : Bool) :
    SameAs C (C.move parents q t given remote cast) (C.toPEnv.move parents' q t given remote cast) :=
  .of (move_sim C hp hr.sim hpar.sim q ht hg remote cast)

omit hp

/-! ## The disk as it is -/

/-- The metadata on the object at a location, as it is decoded. -/
def decoded (C : XEnv) (q : Path) : XObj → Except PyErr Meta
  | .dir S | .file _ S => C.ofAttrs S
  | .link t => C.ofLink q t

/-- The metadata of the object can be read and survives being stored again; a link may also be one that is no metadata. -/
def LegibleObj (C : XEnv) (q : Path) (x : XObj) : Prop :=
  (∀ S, (x = .dir S ∨ ∃ b, x = .file b S) → (S.map Prod.fst).Nodup) ∧
  ((∃ m, decoded C q x = .ok m ∧ KeepsAll m) ∨ ∃ t, x = .link t ∧ decoded C q x = .error .valueError)

/-- All metadata on the disk is legible. -/
def Legible (C : XEnv) (d : Disk XObj) : Prop := ∀ e ∈ d, LegibleObj C e.1 e.2

theorem shows_of_view {env : Env} {o : PathMeta} {w : Meta} (h : view env o = .ok w) : o.Shows env w := by
  unfold view at h
  split at h
  · simp at h
  · rename_i c hc
    split at h
    · simp at h
    · rename_i u hu
      simp only [Except.ok.injEq] at h
      subst h
      intro f
      cases f <;> simp_all [PathMeta.get]

theorem attrsHold_of {S : Attrs} {m : Meta} (hn : (S.map Prod.fst).Nodup) (h : C.ofAttrs S = .ok m) (hk : KeepsAll m) : AttrsHold C S (some m) := by
  unfold XEnv.ofAttrs at h
  split at h
  · simp at h
  · rename_i o ho
    exact ⟨hn, hk, o, ho, shows_of_view h⟩

theorem textHolds_of {q : Path} {t : Str} {m : Meta} (h : C.ofLink q t = .ok m) (hk : KeepsAll m) : TextHolds C t (some m) := by
  unfold XEnv.ofLink at h
  split at h
  · simp at h
  · rename_i o ho
    rw [fromSymlink_name _ []] at ho
    exact ⟨hk, o, ho, shows_of_view h⟩

theorem holds_of {q : Path} {x : XObj} (h : LegibleObj C q x) : ∃ y, Holds C x y := by
  obtain ⟨h1, h2⟩ := h
  rcases h2 with ⟨m, hm, hk⟩ | ⟨t, rfl, ht⟩
  · cases x with
    | dir S => exact ⟨_, .dir (attrsHold_of (h1 S (.inl rfl)) hm hk)⟩
    | file b S => exact ⟨_, .file b (attrsHold_of (h1 S (.inr ⟨b, rfl⟩)) hm hk)⟩
    | link t => exact ⟨_, .link (textHolds_of hm hk)⟩
  · exact ⟨.link none, .link ((ofLink_any C [] q t).trans ht)⟩

theorem legible_of {x : XObj} {y : CObj} (h : Holds C x y) (q : Path) : LegibleObj C q x := by
  cases h with
  | @dir S mo h =>
    refine ⟨?_, .inl ⟨_, ofAttrs_holds h, h.2.1⟩⟩
    rintro S' (h' | ⟨b, h'⟩)
    · injection h' with h'; exact h' ▸ h.1
    · simp at h'
  | @file b S mo h =>
    refine ⟨?_, .inl ⟨_, ofAttrs_holds h, h.2.1⟩⟩
    rintro S' (h' | ⟨b, h'⟩)
    · simp at h'
    · injection h' with _ h'; exact h' ▸ h.1
  | @link t mo h =>
    refine ⟨?_, ?_⟩
    · rintro S' (h' | ⟨b, h'⟩) <;> simp at h'
    · cases mo with
      | none => exact .inr ⟨t, rfl, ofLink_none h⟩
      | some m => exact .inl ⟨m, ofLink_some h, h.1⟩

theorem alike_of {d : Disk XObj} (h : Legible C d) : ∃ a, Alike (Holds C) d a := by
  induction d with
  | nil => exact ⟨[], .nil⟩
  | cons e d ih =>
    obtain ⟨a, ha⟩ := ih fun e he => h e (List.mem_cons_of_mem _ he)
    obtain ⟨y, hy⟩ := holds_of (h e List.mem_cons_self)
    exact ⟨(e.1, y) :: a, .cons e.1 hy ha⟩

theorem legible_alike {d : Disk XObj} {a : Disk CObj} (h : Alike (Holds C) d a) : Legible C d := by
  induction h with
  | nil => exact fun e he => by simp at he
  | cons q hr _ ih =>
    intro e he
    rcases List.mem_cons.1 he with rfl | he
    · exact legible_of hr q
    · exact ih e he

theorem SameAs.legible {α : Type} {p : Prog XObj α} {p' : Prog CObj α} (h : SameAs C p p') {s : Machine XObj} (hs : Legible C s.disk) :
    Legible C (p s).2.disk := by
  obtain ⟨a, ha⟩ := alike_of hs
  exact legible_alike (h s.disk a s.tick ha).2.2

include hp

/-- **C95**: on a disk on which all metadata is legible, all metadata is legible at every moment of a fetch, of an update with
metadata that survives being stored, and of a move, and so also after a crash at any call. -/
theorem C95_legible (hr : SameAs C C.refreshX C.refresh) {s : Machine XObj} (hs : Legible C s.disk) :
    (∀ q limit, IsName (nameOf q) → Legible C (C.fetch q limit s).2.disk) ∧
    (∀ q new fetch, IsName (nameOf q) → KeepsAll new → Legible C (C.metaUpdater q new fetch s).2.disk) ∧
    ∀ parents parents' q t given remote cast, SameAs C parents parents' → IsName (nameOf t) → (∀ m, given = some m → KeepsAll m) →
      Legible C (C.move parents q t given remote cast s).2.disk :=
  ⟨fun _ limit hq => (C95_fetch hp hr hq limit).legible hs,
   fun _ _ fetch hq hn => (C95_update hp hr hq hn fetch).legible hs,
   fun _ _ q _ _ remote cast hpar ht hg => (C95_move hp hr hpar q ht hg remote cast).legible hs⟩

/-- **C95**: what C34 says about metadata holds of the bytes on the disk.  At the path is a file whose attributes, or a link whose
text, is the metadata `m`, with the id of a file.  A fetch that the limit allows and that returns wrote all the data of the remote
to the file, and the attributes of the file decode to metadata that the data matches, and that is `m` but for the errors. -/
theorem C95_fetched (hr : SameAs C C.refreshX C.refresh) {q : Path} (hq : IsName (nameOf q)) {limit : Option Int} {m : Meta} {x : XObj}
    {S : Attrs} {s s' : Machine XObj} (hs : Legible C s.disk) (hx : s.disk.at_ q = some x) (hnd : ∀ S, x ≠ .dir S)
    (hdec : decoded C q x = .ok m) (hm : metaBool m = true) (hdir : s.disk.at_ q.dropLast = some (.dir S)) (hne : q ≠ [])
    (hid : m .file_id ≠ .none) (hall : Allowed limit m) (hrun : C.fetch q limit s = (.ok (), s')) :
    ∃ cs S' m', C.chunks = cs.map .ok ∧ cs ≠ [] ∧ s'.disk.at_ q = some (.file cs.flatten S') ∧ C.ofAttrs S' = .ok m' ∧
      Matches C.toPEnv m' cs.flatten ∧ SameButMark C.toPEnv cs.flatten m m' := by
  obtain ⟨a, ha⟩ := alike_of hs
  have hsame := C95_fetch hp hr hq limit s.disk a s.tick ha
  have hrec : Recorded a q m := by
    rcases ha.at_ q with ⟨h1, -⟩ | ⟨x', y, h1, h2, hy⟩
    · rw [hx] at h1; simp at h1
    · rw [hx, Option.some.injEq] at h1
      subst h1
      cases hy with
      | dir h => exact absurd rfl (hnd _)
      | @file b S mo h =>
        have := ofAttrs_holds h
        simp only [decoded] at hdec
        rw [hdec, Except.ok.injEq] at this
        cases mo with
        | none => rw [this, Option.getD_none, metaBool_blank] at hm; simp at hm
        | some m0 => exact .inl ⟨b, by rw [h2, this]; rfl⟩
      | @link t mo h =>
        simp only [decoded] at hdec
        cases mo with
        | none => rw [ofLink_none h] at hdec; simp at hdec
        | some m0 => rw [ofLink_some h, Except.ok.injEq] at hdec; exact .inr (by rw [h2, hdec])
  have hind : InDir a q := by
    refine ⟨hne, ?_⟩
    rcases ha.at_ q.dropLast with ⟨h1, -⟩ | ⟨x', y, h1, h2, hy⟩
    · rw [hdir] at h1; simp at h1
    · rw [hdir, Option.some.injEq] at h1
      subst h1
      cases hy with | @dir S mo h => exact ⟨mo, h2⟩
  change C.fetch q limit ⟨s.disk, s.tick⟩ = _ at hrun
  rw [hrun] at hsame
  obtain ⟨h1, -, h3⟩ := hsame
  generalize hrun' : C.toPEnv.fetch q limit ⟨a, s.tick⟩ = r' at h1 h3
  obtain ⟨r', t'⟩ := r'
  simp only at h1 h3
  subst h1
  obtain ⟨cs, m', g1, g2, g3, g4, g5, -⟩ := C34_verified C.toPEnv (s := ⟨a, s.tick⟩) hrec hm hind hid hall hrun'
  rcases h3.at_ q with ⟨-, h2⟩ | ⟨x', y, h4, h5, hy⟩
  · rw [g3] at h2; simp at h2
  · rw [g3, Option.some.injEq] at h5
    subst h5
    cases hy with | @file b S' mo h => exact ⟨cs, S', m', g1, g2, h4, ofAttrs_holds h, g4, g5⟩

omit hp

/-! ## Examples, and where the claims fail -/

/-- An environment in which nothing fails and the remote sends two chunks. -/
def plain : XEnv := { simple with env := sampleEnv, pre := none, refreshX := .pure () }

/-- The attributes for three bytes. -/
def threeAttrs : Attrs :=
  [(utf8 (lit "size"), utf8 (lit "3")), (utf8 (lit "checksum"), [1]), (utf8 (lit "id"), utf8 (lit "i")), (utf8 (lit "file_id"), utf8 (lit "7"))]

/-- The link for three bytes. -/
def threeText : Str := lit "a/i/.mdv6.7.3.#.#.01.#.#.#.#.#.#.#.#.#.#..3"

/-- Two files, one of them only a link. -/
def onDisk : Disk XObj := [([], .dir []), ([['t']], .dir []), ([['a']], .link threeText), ([['b']], .file [9] threeAttrs)]

theorem keeps_three : KeepsAll (threeBytes [1]) := fun f => by
  cases f <;> simp [threeBytes, Keeps, HasType, XattrStorable, SymlinkStorable]

example : Legible plain onDisk ∧ SameAs plain plain.refreshX plain.refresh ∧ IsName (nameOf [['a']]) ∧
    decoded plain [['a']] (.link threeText) = .ok (threeBytes [1]) ∧ decoded plain [['b']] (.file [9] threeAttrs) = .ok (threeBytes [1]) ∧
    metaBool (threeBytes [1]) = true ∧ threeBytes [1] .file_id ≠ .none ∧ Allowed none (threeBytes [1]) := by
  have hl : decoded plain [['a']] (.link threeText) = .ok (threeBytes [1]) := by decide +kernel
  have hb : decoded plain [['b']] (.file [9] threeAttrs) = .ok (threeBytes [1]) := by decide +kernel
  have he : ∀ q, decoded plain q (.dir []) = .ok blank := fun q => ofAttrs_holds (attrsHold_nil plain)
  refine ⟨?_, fun d a k h => ⟨rfl, rfl, h⟩, by unfold IsName nameOf; decide, hl, hb, by decide, by simp [threeBytes], fun l h => by simp at h⟩
  intro e he'
  simp only [onDisk, List.mem_cons, List.not_mem_nil, or_false] at he'
  rcases he' with rfl | rfl | rfl | rfl
  · refine ⟨?_, .inl ⟨_, he _, keeps_blank⟩⟩
    rintro S (h | ⟨b, h⟩) <;> simp_all
  · refine ⟨?_, .inl ⟨_, he _, keeps_blank⟩⟩
    rintro S (h | ⟨b, h⟩) <;> simp_all
  · refine ⟨?_, .inl ⟨_, hl, keeps_three⟩⟩
    rintro S (h | ⟨b, h⟩) <;> simp_all
  · refine ⟨?_, .inl ⟨_, hb, keeps_three⟩⟩
    rintro S (h | ⟨b, h⟩)
    · simp at h
    · injection h with _ h
      subst h
      decide +kernel

example : (plain.fetch [['a']] none ⟨onDisk, 0⟩).1 = .ok () ∧
    (plain.fetch [['a']] none ⟨onDisk, 0⟩).2.disk.at_ [['a']] = some (.file [1, 2, 3] threeAttrs) := by
  refine ⟨by decide +kernel, by decide +kernel⟩

/-- Metadata of a file with one error, in which there is a semicolon. -/
def semicolon : Meta := Verif.setField (threeBytes [1]) .errors (.strs [lit "a;b"])

/-- Metadata with a name that a link has no way to write. -/
def barred : Meta := Verif.setField (threeBytes [1]) .name (.str (lit "a|b/c"))

/-- Metadata that does not survive being stored.  An error with a semicolon comes back as two errors.  For a name with a slash the
link is not written: the old link is in the trash, and nothing is at the path. -/
theorem C95_lost_counterexample :
    ((plain.setMeta [['b']] (some semicolon) ⟨onDisk, 0⟩).1 = .ok () ∧ semicolon .errors = .strs [lit "a;b"] ∧
      (plain.getMeta [['b']] (plain.setMeta [['b']] (some semicolon) ⟨onDisk, 0⟩).2).1.map (Option.map (· .errors)) =
        .ok (some (.strs [lit "a", lit "b"]))) ∧
    (plain.setMeta [['a']] (some barred) ⟨onDisk, 0⟩).1 = .error .valueError ∧
    (plain.setMeta [['a']] (some barred) ⟨onDisk, 0⟩).2.disk.at_ [['a']] = none ∧
    (plain.setMeta [['a']] (some barred) ⟨onDisk, 0⟩).2.disk.at_ [['t'], ['i']] = some (.link threeText) := by
  refine ⟨⟨?_, rfl, ?_⟩, ?_, ?_, ?_⟩ <;> decide +kernel

end Verif.Cache
