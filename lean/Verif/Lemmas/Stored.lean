import Verif.Model.Stored
import Verif.Lemmas.Sim
import Verif.Lemmas.EatCache
import Verif.Lemmas.Primary
import Verif.Props.Symlink

/-!
# The encoded metadata does what the metadata does
-/

namespace Verif.Cache
open Verif.FS Verif.Xattrs Verif.Spec

/-- A value that survives being stored, in either form. -/
def Keeps (f : Field) (v : PyVal) : Prop := HasType f v ∧ XattrStorable f v ∧ SymlinkStorable f v

/-- Metadata that survives being stored, in either form. -/
def KeepsAll (m : Meta) : Prop := ∀ f, Keeps f (m f)

theorem keeps_blank : KeepsAll blank := fun f => by
  cases f <;> simp [Keeps, blank, HasType, XattrStorable, SymlinkStorable]

/-- The attributes hold the metadata. -/
def AttrsHold (C : XEnv) (S : Attrs) (mo : Option Meta) : Prop :=
  (S.map Prod.fst).Nodup ∧ KeepsAll (mo.getD blank) ∧ ∃ o, fromXattrs C.env S C.pre = .ok o ∧ o.Shows C.env (mo.getD blank)

/-- The text of a link holds the metadata, or none at all. -/
def TextHolds (C : XEnv) (t : Str) : Option Meta → Prop
  | some m => KeepsAll m ∧ ∃ o, Symlink.fromSymlink [] t false = .ok o ∧ o.Shows C.env m
  | none => C.ofLink [] t = .error .valueError

/-- The object on the disk is the object with its metadata. -/
inductive Holds (C : XEnv) : XObj → CObj → Prop
  | dir {S : Attrs} {mo : Option Meta} : AttrsHold C S mo → Holds C (.dir S) (.dir mo)
  | file (b : Bytes) {S : Attrs} {mo : Option Meta} : AttrsHold C S mo → Holds C (.file b S) (.file b mo)
  | link {t : Str} {mo : Option Meta} : TextHolds C t mo → Holds C (.link t) (.link mo)

theorem holds_kind (C : XEnv) : SameKind (Holds C) := fun x y h => by cases h <;> rfl

theorem view_shows {env : Env} {o : PathMeta} {w : Meta} (h : o.Shows env w) : view env o = .ok w := by
  unfold view
  rw [h .created, h .updated]
  simp only [Except.ok.injEq]
  funext f
  have := h f
  cases f <;> simp_all [PathMeta.get]

theorem attrsHold_nil (C : XEnv) : AttrsHold C [] none := by
  refine ⟨by simp, keeps_blank, ?_⟩
  obtain ⟨o, h1, h2, -⟩ := mkMeta_shows C.env [] blank rfl (fun f => by cases f <;> first | (simp [ArgOK, dictGet, blank]; done) | rfl)
  exact ⟨o, by simpa [fromXattrs, kwargs] using h1, h2⟩

theorem blank_unwritten (f : Field) : ¬ written (blank f) := by
  unfold written blank
  split <;> simp [PyVal.emptyIterable]

/-- The attributes of metadata with one field. -/
theorem attrs_single (env : Env) (pre : Option Str) (f : Field) (v : PyVal) (hw : written v) {b : Bytes} (hb : encode env f v = .ok b) :
    ∀ fs : List Field, fs.Nodup → attrs env pre (Verif.setField blank f v) fs = .ok (if f ∈ fs then [(utf8 (key pre f), b)] else []) := by
  intro fs
  induction fs with
  | nil => intro _; rfl
  | cons g fs ih =>
    intro hn
    rw [List.nodup_cons] at hn
    have ih := ih hn.2
    by_cases hg : g = f
    · subst hg
      have : attr env pre (Verif.setField blank g v) g = .ok [(utf8 (key pre g), b)] := by
        unfold attr
        simp only [Verif.setField, if_true]
        rw [if_pos (by simpa [written] using hw), hb]
      simp only [attrs, this, ih, if_neg hn.1, List.mem_cons_self, if_true]
      rfl
    · have : attr env pre (Verif.setField blank f v) g = .ok [] := by
        unfold attr
        simp only [Verif.setField, if_neg hg]
        exact if_neg (blank_unwritten g)
      have hm : f ∈ g :: fs ↔ f ∈ fs := by simp [Ne.symm hg]
      simp only [attrs, this, ih, hm, List.nil_append]

/-- Setting the attribute for one field. -/
theorem attrsHold_set (C : XEnv) (hp : ParsesIso C.env) {S : Attrs} {mo : Option Meta} (h : AttrsHold C S mo) {f : Field} {v : PyVal}
    (hk : Keeps f v) (hw : written v) {b : Bytes} (hb : encode C.env f v = .ok b) :
    AttrsHold C (setAttr (utf8 (key C.pre f)) b S) (some (Verif.setField (mo.getD blank) f v)) := by
  obtain ⟨h1, h2, o, h3, h4⟩ := h
  refine ⟨nodup_setAttr h1, ?_, ?_⟩
  · intro g
    simp only [Option.getD_some, Verif.setField]
    split
    · rename_i hg; subst hg; exact hk
    · exact h2 g
  · have ht : WellTyped (Verif.setField blank f v) := fun g => by
      simp only [Verif.setField]
      split
      · rename_i hg; subst hg; exact hk.1
      · exact (keeps_blank g).1
    have hx : asXattrs C.env (Verif.setField blank f v) C.pre = .ok [(utf8 (key C.pre f), b)] := by
      unfold asXattrs
      rw [attrs_single C.env C.pre f v hw hb _ Field.nodup_all, if_pos f.mem_all]
    obtain ⟨o', h5, h6⟩ := overlay hp ht h1 h3 h4 hx
    refine ⟨o', h5, fun g => ?_⟩
    rw [h6 g]
    simp only [Option.getD_some, Verif.setField]
    by_cases hg : g = f
    · subst hg
      simp only [if_true, if_pos hw]
      rw [(xattrReadBack_eq_iff g v hk.1).2 hk.2.1]
    · simp only [if_neg hg, if_neg (blank_unwritten g)]

theorem ofAttrs_holds {C : XEnv} {S : Attrs} {mo : Option Meta} (h : AttrsHold C S mo) : C.ofAttrs S = .ok (mo.getD blank) := by
  obtain ⟨-, -, o, h1, h2⟩ := h
  simp [XEnv.ofAttrs, h1, view_shows h2]

theorem fromSymlink_name (n n' t : Str) : Symlink.fromSymlink n t false = Symlink.fromSymlink n' t false := by
  unfold Symlink.fromSymlink
  simp

theorem ofLink_some {C : XEnv} {q : Path} {t : Str} {m : Meta} (h : TextHolds C t (some m)) : C.ofLink q t = .ok m := by
  obtain ⟨-, o, h1, h2⟩ := h
  rw [fromSymlink_name _ (nameOf q)] at h1
  simp [XEnv.ofLink, h1, view_shows h2]

theorem ofLink_any (C : XEnv) (q q' : Path) (t : Str) : C.ofLink q t = C.ofLink q' t := by
  unfold XEnv.ofLink
  rw [fromSymlink_name]

theorem ofLink_none {C : XEnv} {q : Path} {t : Str} (h : TextHolds C t none) : C.ofLink q t = .error .valueError :=
  (ofLink_any C q [] t).trans h

theorem metaBool_blank : metaBool blank = false := by decide

/-- Metadata that was read survives being stored. -/
def OptKeeps (mo : Option Meta) : Prop := ∀ m, mo = some m → KeepsAll m

variable (C : XEnv)

theorem getMeta_sim (q : Path) : Sim (Holds C) (C.getMeta q) (C.toPEnv.getMeta q) OptKeeps := by
  unfold XEnv.getMeta PEnv.getMeta
  have hres : ∀ {S : Attrs} {m : Meta}, AttrsHold C S (some m) → ∀ x,
      (.ok (if metaBool m then some m else none) : Except PyErr (Option Meta)) = .ok x → OptKeeps x := by
    rintro S m0 ⟨-, h, -⟩ x hx m rfl
    simp only [Except.ok.injEq] at hx
    split at hx
    · injection hx with hx; exact hx ▸ h
    · simp at hx
  have hnone : ∀ x, (.ok none : Except PyErr (Option Meta)) = .ok x → OptKeeps x := by
    intro x hx m hm
    injection hx with hx
    subst hx
    simp at hm
  refine .look_ fun d a hd => ?_
  rcases hd.at_ q with ⟨h1, h2⟩ | ⟨x, y, h1, h2, hr⟩
  · rw [h1, h2]
    exact ⟨rfl, hnone⟩
  · rw [h1, h2]
    cases hr with
    | @dir S mo h =>
      dsimp only
      rw [ofAttrs_holds h]
      cases mo with
      | none => exact ⟨by simp [metaBool_blank], hnone⟩
      | some m => exact ⟨rfl, hres h⟩
    | @file b S mo h =>
      dsimp only
      rw [ofAttrs_holds h]
      cases mo with
      | none => exact ⟨by simp [metaBool_blank], hnone⟩
      | some m => exact ⟨rfl, hres h⟩
    | @link t mo h =>
      dsimp only
      cases mo with
      | none =>
        rw [ofLink_none h]
        exact ⟨rfl, fun x hx => by simp at hx⟩
      | some m =>
        rw [ofLink_some h]
        refine ⟨rfl, fun x hx => ?_⟩
        simp only [Except.ok.injEq] at hx
        subst hx
        intro m' hm'
        injection hm' with hm'
        exact hm' ▸ h.1

theorem setField_sim (hp : ParsesIso C.env) (q : Path) {f : Field} {v : PyVal} (hk : Keeps f v) (hw : written v) {b : Bytes}
    (hb : encode C.env f v = .ok b) :
    Sim (Holds C) (C.osSet q (utf8 (key C.pre f)) b) (C.toPEnv.setField q f v) fun _ => True := by
  unfold XEnv.osSet PEnv.setField
  refine .act_ (fun d a hd => ?_) trivial
  rcases hd.at_ q with ⟨h1, h2⟩ | ⟨x, y, h1, h2, hr⟩
  · simp only [h1, h2]; rfl
  · simp only [h1, h2]
    cases hr with
    | dir h => exact hd.put q (.dir (attrsHold_set C hp h hk hw hb))
    | file c h => exact hd.put q (.file c (attrsHold_set C hp h hk hw hb))
    | link h => rfl

theorem setFields_sim (hp : ParsesIso C.env) (q : Path) {m : Meta} (hm : KeepsAll m) : ∀ fs : List Field,
    ∃ xs, attrs C.env C.pre m fs = .ok xs ∧
      Sim (Holds C) (.each (fun kv => C.osSet q kv.1 kv.2) xs)
        (.each (fun f => C.toPEnv.setField q f (m f)) (fs.filter fun f => m f ≠ .none ∧ !(m f).emptyIterable)) fun _ => True
  | [] => ⟨[], rfl, .pure_ trivial⟩
  | f :: fs => by
    obtain ⟨xs, h1, h2⟩ := setFields_sim hp q hm fs
    by_cases hw : written (m f)
    · obtain ⟨b, hb, -⟩ := encode_decode C.env f (m f) (hm f).1 hw
      refine ⟨(utf8 (key C.pre f), b) :: xs, ?_, ?_⟩
      · have : attr C.env C.pre m f = .ok [(utf8 (key C.pre f), b)] := by
          unfold attr
          rw [if_pos (by simpa [written] using hw), hb]
        simp [attrs, this, h1]
      · have hw' := hw
        unfold written at hw'
        rw [List.filter_cons, if_pos (by simpa using hw')]
        unfold Prog.each
        exact .bind_ (setField_sim C hp q (hm f) hw hb) fun _ _ => h2
    · refine ⟨xs, ?_, ?_⟩
      · have : attr C.env C.pre m f = .ok [] := by
          unfold attr
          exact if_neg hw
        simp [attrs, this, h1]
      · have hw' := hw
        unfold written at hw'
        rw [List.filter_cons, if_neg (by simpa using hw')]
        exact h2

theorem setXattrs_sim (hp : ParsesIso C.env) (q : Path) {m : Meta} (hm : KeepsAll m) :
    Sim (Holds C) (C.setXattrs q m) (C.toPEnv.setXattrs q m) fun _ => True := by
  obtain ⟨xs, h1, h2⟩ := setFields_sim C hp q hm Field.all
  unfold XEnv.setXattrs PEnv.setXattrs storedFields
  rw [asXattrs, h1]
  exact h2

theorem there_sim {d : Disk XObj} {a : Disk CObj} (hd : Alike (Holds C) d a) (q : Path) : Stored.there d q = there a q := by
  unfold Stored.there there
  rcases hd.at_ q with ⟨h1, h2⟩ | ⟨x, y, h1, h2, hr⟩
  · simp [h1, h2]
  · cases hr <;> simp [h1, h2]

theorem isFile_sim {d : Disk XObj} {a : Disk CObj} (hd : Alike (Holds C) d a) (q : Path) : Stored.isFile d q = isFile a q := by
  unfold Stored.isFile isFile
  rcases hd.at_ q with ⟨h1, h2⟩ | ⟨x, y, h1, h2, hr⟩
  · simp [h1, h2]
  · cases hr <;> simp [h1, h2]

theorem isDirAt_sim {d : Disk XObj} {a : Disk CObj} (hd : Alike (Holds C) d a) (q : Path) : Stored.isDirAt d q = isDirAt a q := by
  unfold Stored.isDirAt isDirAt
  rcases hd.at_ q with ⟨h1, h2⟩ | ⟨x, y, h1, h2, hr⟩
  · simp [h1, h2]
  · cases hr <;> simp [h1, h2]

theorem isBroken_sim {d : Disk XObj} {a : Disk CObj} (hd : Alike (Holds C) d a) (q : Path) : Stored.isBroken d q = isBroken a q := by
  unfold Stored.isBroken isBroken
  rcases hd.at_ q with ⟨h1, h2⟩ | ⟨x, y, h1, h2, hr⟩
  · simp [h1, h2]
  · cases hr <;> simp [h1, h2]

theorem sizeAt_sim {d : Disk XObj} {a : Disk CObj} (hd : Alike (Holds C) d a) (q : Path) : Stored.sizeAt d q = sizeAt a q := by
  unfold Stored.sizeAt sizeAt
  rcases hd.at_ q with ⟨h1, h2⟩ | ⟨x, y, h1, h2, hr⟩
  · simp [h1, h2]
  · cases hr <;> simp [h1, h2]

theorem dataAt_sim {d : Disk XObj} {a : Disk CObj} (hd : Alike (Holds C) d a) (q : Path) : Stored.dataAt d q = dataAt a q := by
  unfold Stored.dataAt dataAt
  rcases hd.at_ q with ⟨h1, h2⟩ | ⟨x, y, h1, h2, hr⟩
  · simp [h1, h2]
  · cases hr <;> simp [h1, h2]

theorem isSome_sim {d : Disk XObj} {a : Disk CObj} (hd : Alike (Holds C) d a) (q : Path) : (d.at_ q).isSome = (a.at_ q).isSome := by
  rcases hd.at_ q with ⟨h1, h2⟩ | ⟨x, y, h1, h2, hr⟩ <;> simp [h1, h2]

theorem trash_alike : TrashAlike (Holds C) C.trash C.toPEnv.trash :=
  ⟨rfl, rfl, rfl, fun _ _ q hd => there_sim C hd q, .dir (attrsHold_nil C), holds_kind C⟩

theorem look_sim {α : Type} {f : Disk XObj → α} {f' : Disk CObj → α} (h : ∀ d a, Alike (Holds C) d a → f d = f' a) :
    Sim (Holds C) (.look C.F fun d => .ok (f d)) (.look C.F fun d => .ok (f' d)) fun _ => True :=
  .look_ fun d a hd => ⟨by rw [h d a hd], fun _ _ => trivial⟩

theorem linkHolds (hp : ParsesIso C.env) {q : Path} (hq : IsName (nameOf q)) {m : Meta} (hm : KeepsAll m) :
    ∃ p, Symlink.asSymlink C.env m (some (nameOf q)) = .ok p ∧ TextHolds C p.str (some m) := by
  obtain ⟨p, o, h1, h2, h3⟩ := Symlink.C15_symlink_round_trip_partial C.env hp m (fun f => (hm f).1) (fun f => (hm f).2.2) _ hq
  refine ⟨p, h1, hm, o, ?_, h3⟩
  unfold Symlink.fromSymlink at h2 ⊢
  split at h2
  · simp at h2
  · exact h2
  · rename_i hx hne
    split at h2
    · simp at h2
    · simpa using h2

theorem writeLink_sim (hp : ParsesIso C.env) {q : Path} (hq : IsName (nameOf q)) {m : Meta} (hm : KeepsAll m) :
    Sim (Holds C) (C.writeLink q m) (.act C.F fun d => d.create q (.link (some m))) fun _ => True := by
  obtain ⟨p, h1, h2⟩ := linkHolds C hp hq hm
  unfold XEnv.writeLink
  rw [h1]
  exact .act_ (fun d a hd => hd.create (holds_kind C) q (.link h2)) trivial

theorem setLink_sim (hp : ParsesIso C.env) {q : Path} (hq : IsName (nameOf q)) {m : Meta} (hm : KeepsAll m) :
    Sim (Holds C) (C.setLink q m) (C.toPEnv.setLink q m) fun _ => True := by
  unfold XEnv.setLink PEnv.setLink
  intro d a k hd
  cases hF : C.F k with
  | some e =>
    exact ⟨.error e, d, a, k + 1, by simp [Prog.bind, Prog.look, Prog.sys, hF], by simp [Prog.bind, Prog.look, Prog.sys, hF], hd,
      fun y hy => by simp at hy⟩
  | none =>
    have hlook : ∀ {κ α : Type} (d : Disk κ) (f : Option κ → Prog κ α) (q : Path),
        Prog.bind (.look C.F fun d => .ok (d.at_ q)) f ⟨d, k⟩ = f (d.at_ q) ⟨d, k + 1⟩ := by
      intro κ α d f q
      simp [Prog.bind, Prog.look, Prog.sys, hF]
    rw [hlook, hlook]
    rcases hd.at_ q with ⟨h1, h2⟩ | ⟨x, y, h1, h2, hr⟩
    · simp only [h1, h2]
      exact writeLink_sim C hp hq hm d a (k + 1) hd
    · simp only [h1, h2]
      cases hr with
      | dir h => exact (Sim.throw_ : Sim (Holds C) (.throw _) (.throw _) fun _ : Unit => True) d a (k + 1) hd
      | file b h => exact (Sim.throw_ : Sim (Holds C) (.throw _) (.throw _) fun _ : Unit => True) d a (k + 1) hd
      | @link t mo h =>
        cases mo with
        | none =>
          simp only [ofLink_none h]
          exact (Sim.throw_ : Sim (Holds C) (.throw _) (.throw _) fun _ : Unit => True) d a (k + 1) hd
        | some old =>
          simp only [ofLink_some h]
          have hs : Sim (Holds C)
              (match C.replace old m with
                | .error e => .throw e
                | .ok false => .pure ()
                | .ok true => .bind (C.trash.crumpleOr (idIn old) q) fun _ => C.writeLink q m)
              (match C.replace old m with
                | .error e => .throw e
                | .ok false => .pure ()
                | .ok true => .bind (C.toPEnv.trash.crumpleOr (idIn old) q) fun _ => .act C.F fun d => d.create q (.link (some m)))
              fun _ => True := by
            cases C.replace old m with
            | error e => exact .throw_
            | ok b =>
              cases b with
              | false => exact .pure_ trivial
              | true => exact .bind_ ((trash_alike C).crumpleOr _ _) fun _ _ => writeLink_sim C hp hq hm
          exact hs d a (k + 1) hd

theorem prepare_sim (q : Path) : Sim (Holds C) (C.prepare q) (C.toPEnv.prepare q) fun _ => True := by
  unfold XEnv.prepare PEnv.prepare
  refine .ite_ (fun _ => ?_) fun _ => ?_
  all_goals
    refine .bind_ (look_sim C fun d a hd => there_sim C hd _) fun b _ => .ite_ (fun _ => .pure_ trivial) fun _ => ?_
    exact .act_ (fun d a hd => hd.create (holds_kind C) _ (.dir (attrsHold_nil C))) trivial

theorem setMeta_sim (hp : ParsesIso C.env) {q : Path} (hq : IsName (nameOf q)) {mo : Option Meta} (hm : OptKeeps mo) :
    Sim (Holds C) (C.setMeta q mo) (C.toPEnv.setMeta q mo) fun _ => True := by
  cases mo with
  | none => exact .pure_ trivial
  | some m =>
    have hm := hm m rfl
    unfold XEnv.setMeta PEnv.setMeta
    refine .ite_ (fun _ => .pure_ trivial) fun _ => ?_
    refine .bind_ (look_sim C fun d a hd => there_sim C hd _) fun b _ => .ite_ (fun _ => setXattrs_sim C hp q hm) fun _ => ?_
    refine .bind_ (prepare_sim C q) fun _ _ => ?_
    exact .bind_ (look_sim C fun d a hd => there_sim C hd _) fun b _ => .ite_ (fun _ => setXattrs_sim C hp q hm) fun _ =>
      setLink_sim C hp hq hm

/-! ## Writing data -/

theorem openW_sim (q : Path) : Sim (Holds C) (C.openW q) (C.toPEnv.openW q) fun _ => True := by
  unfold XEnv.openW PEnv.openW
  refine .act_ (fun d a hd => ?_) trivial
  rcases hd.at_ q with ⟨h1, h2⟩ | ⟨x, y, h1, h2, hr⟩
  · simp only [h1, h2]
    exact hd.create (holds_kind C) q (.file [] (attrsHold_nil C))
  · simp only [h1, h2]
    cases hr with
    | dir h => rfl
    | file b h => exact hd.put q (.file [] h)
    | link h => rfl

theorem append_sim (q : Path) (b : Bytes) : Sim (Holds C) (C.append q b) (C.toPEnv.append q b) fun _ => True := by
  unfold XEnv.append PEnv.append
  refine .act_ (fun d a hd => ?_) trivial
  rcases hd.at_ q with ⟨h1, h2⟩ | ⟨x, y, h1, h2, hr⟩
  · simp only [h1, h2]; rfl
  · simp only [h1, h2]
    cases hr with
    | dir h => rfl
    | file c h => exact hd.put q (.file _ h)
    | link h => rfl

theorem writeChunks_sim (q : Path) : Sim (Holds C) (C.writeChunks q) (C.toPEnv.writeChunks q) fun _ => True := by
  unfold XEnv.writeChunks PEnv.writeChunks
  rcases C.chunks with _ | ⟨_ | b, rest⟩
  · exact .throw_
  · exact .throw_
  · refine .bind_ (openW_sim C q) fun _ _ => .bind_ (append_sim C q _) fun _ _ => .each_ _ fun r _ => ?_
    cases r with
    | ok b => exact append_sim C q b
    | error e => exact .throw_

theorem setData_sim (q : Path) : Sim (Holds C) (C.setData q) (C.toPEnv.setData q) fun _ => True := by
  unfold XEnv.setData PEnv.setData
  exact .bind_ (getMeta_sim C q) fun _ _ => .bind_ (writeChunks_sim C q) fun _ _ => .bind_ (getMeta_sim C q) fun _ _ =>
    .ite_ (fun _ => .throw_) fun _ => .pure_ trivial

/-! ## Fetching -/

theorem keeps_mark {m : Meta} (hm : KeepsAll m) {l : List Str} (hl : m .errors = .strs l) : KeepsAll (mark m l) := by
  intro f
  unfold mark Verif.setField
  split
  · rename_i hf
    subst hf
    have h := hm .errors
    rw [hl] at h
    obtain ⟨-, h1, h2⟩ := h
    have hmis : mismatch ≠ [] ∧ ';' ∉ mismatch ∧ '.' ∉ mismatch ∧ '/' ∉ mismatch ∧ mismatch ≠ ['#'] := by
      rw [mismatch]; decide
    refine ⟨trivial, ?_, ?_⟩
    · intro e he
      rcases List.mem_append.1 he with he | he
      · exact h1 e he
      · rw [List.mem_singleton.1 he]; exact ⟨hmis.1, hmis.2.1⟩
    · refine ⟨fun he => ?_, fun e he => ?_⟩
      · cases l with
        | nil => exact hmis.2.2.2.2 (by simpa using he)
        | cons x l => simp at he
      · rcases List.mem_append.1 he with he | he
        · exact h2.2 e he
        · rw [List.mem_singleton.1 he]; exact ⟨hmis.1, hmis.2.1, hmis.2.2.1, hmis.2.2.2.1⟩
  · exact hm f

variable (hp : ParsesIso C.env)
include hp

theorem checkSum_sim {q : Path} (hq : IsName (nameOf q)) {m : Meta} (hm : KeepsAll m) :
    Sim (Holds C) (C.checkSum q m) (C.toPEnv.checkSum q m) fun _ => True := by
  unfold XEnv.checkSum PEnv.checkSum
  refine .ite_ (fun _ => .pure_ trivial) fun _ => .bind_ (getMeta_sim C q) fun now _ => ?_
  cases now with
  | none => exact .throw_
  | some now =>
    dsimp only
    cases C.cypher (now .checksum_cypher) with
    | error e => exact .throw_
    | ok h =>
      refine .bind_ (Q := fun _ => True) (.look_ fun d a hd => ⟨dataAt_sim C hd q, fun _ _ => trivial⟩) fun b _ => ?_
      cases m .checksum with
      | none => exact .pure_ trivial
      | bytes c =>
        refine .ite_ (fun _ => ?_) fun _ => .pure_ trivial
        cases hl : m .errors with
        | strs l => exact setMeta_sim C hp hq fun m' h => by injection h with h; exact h ▸ keeps_mark hm hl
        | _ => exact .throw_
      | _ => exact .throw_

theorem download_sim {q : Path} (hq : IsName (nameOf q)) {m : Meta} (hm : KeepsAll m) :
    Sim (Holds C) (C.download q m) (C.toPEnv.download q m) fun _ => True := by
  unfold XEnv.download PEnv.download
  cases C.cacheKey with
  | some e => exact .throw_
  | none =>
    refine .bind_ (setData_sim C q) fun _ _ => ?_
    refine .bind_ (Q := fun _ => True) (.look_ fun d a hd => ⟨sizeAt_sim C hd q, fun _ _ => trivial⟩) fun b _ => ?_
    exact .ite_ (fun _ => checkSum_sim C hp hq hm) fun _ => .throw_

theorem fetchData_sim {q : Path} (hq : IsName (nameOf q)) {m : Meta} (hm : KeepsAll m) :
    Sim (Holds C) (C.fetchData q m) (C.toPEnv.fetchData q m) fun _ => True := by
  unfold XEnv.fetchData PEnv.fetchData
  refine .bind_ (look_sim C fun d a hd => isBroken_sim C hd _) fun b _ => ?_
  refine .bind_ (Q := fun _ => True) (.ite_ (fun _ => ?_) fun _ => .pure_ trivial) fun _ _ => download_sim C hp hq hm
  refine .bind_ (Q := fun _ => True) (.act_ (fun d a hd => hd.unlink (holds_kind C) q) trivial) fun _ _ => ?_
  refine .bind_ (Q := fun _ => True) (.act_ (fun d a hd => hd.create (holds_kind C) q (.file [] (attrsHold_nil C))) trivial) fun _ _ => ?_
  exact setMeta_sim C hp hq fun m' h => by injection h with h; exact h ▸ hm

theorem fetch_sim (hr : Sim (Holds C) C.refreshX C.refresh fun _ => True) {q : Path} (hq : IsName (nameOf q)) (limit : Option Int) :
    Sim (Holds C) (C.fetch q limit) (C.toPEnv.fetch q limit) fun _ => True := by
  unfold XEnv.fetch PEnv.fetch
  refine .bind_ (getMeta_sim C q) fun mo hmo => ?_
  refine .bind_ (look_sim C fun d a hd => isDirAt_sim C hd _) fun b _ => .ite_ (fun _ => .throw_) fun _ => ?_
  cases mo with
  | none => exact .throw_
  | some m =>
    have hm := hmo m rfl
    refine .ite_ (fun _ => hr) fun _ => ?_
    cases limit with
    | none => exact fetchData_sim C hp hq hm
    | some l =>
      dsimp only
      cases m .size with
      | int n => exact .ite_ (fun _ => fetchData_sim C hp hq hm) fun _ => .pure_ trivial
      | _ => exact .pure_ trivial

/-! ## Updating metadata -/

omit hp in
theorem contentDifferent_sim (q : Path) : Sim (Holds C) (C.contentDifferent q) (C.toPEnv.contentDifferent q) fun _ => True := by
  unfold XEnv.contentDifferent PEnv.contentDifferent
  refine .bind_ (getMeta_sim C q) fun mo _ => ?_
  cases mo with
  | none => exact .throw_
  | some m =>
    refine .bind_ (Q := fun _ => True) (.look_ fun d a hd => ⟨dataAt_sim C hd q, fun _ _ => trivial⟩) fun b _ => ?_
    refine .ite_ (fun _ => .pure_ trivial) fun _ => ?_
    cases C.remoteSum with
    | error e => exact .throw_
    | ok r => exact .pure_ trivial

omit hp in
theorem localChanges_sim (q : Path) (new : Meta) : Sim (Holds C) (C.localChanges q new) (C.toPEnv.localChanges q new) fun _ => True := by
  unfold XEnv.localChanges PEnv.localChanges
  refine .catch_ (.bind_ (contentDifferent_sim C q) fun b _ => .ite_ (fun _ => ?_) fun _ => .pure_ trivial) fun e =>
    .ite_ (fun _ => .pure_ trivial) fun _ => .throw_
  refine .bind_ (Q := fun _ => True) (.look_ fun d a hd => ⟨dataAt_sim C hd q, fun _ _ => trivial⟩) fun b _ => ?_
  exact .ite_ (fun _ => .pure_ trivial) fun _ => .throw_

omit hp in
theorem keeps_merge {new : Meta} (hn : KeepsAll new) : ∀ (fs : List Field) (st st' : MergeState), KeepsAll st.kw →
    mergeLoop new fs st = .ok st' → KeepsAll st'.kw
  | [], st, st', hk, h => by
    simp only [mergeLoop, Except.ok.injEq] at h
    exact h ▸ hk
  | f :: fs, st, st', hk, h => by
    simp only [mergeLoop] at h
    split at h
    · rename_i st1 h1
      refine keeps_merge hn fs st1 st' ?_ h
      have hset : KeepsAll (Verif.setField st.kw f (new f)) := fun g => by
        unfold Verif.setField
        split
        · rename_i hg; subst hg; exact hn g
        · exact hk g
      unfold mergeStep at h1
      dsimp only at h1
      split at h1
      · simp only [Except.ok.injEq] at h1; exact h1 ▸ hk
      · split at h1
        · split at h1
          · simp only [Except.ok.injEq] at h1; subst h1; exact hset
          · simp at h1
          · simp only [Except.ok.injEq] at h1; subst h1; exact hset
        · simp only [Except.ok.injEq] at h1; subst h1; exact hset
    · simp at h

omit hp in
theorem keeps_strip (new : Meta) : ∀ (fs : List Field) (kw : Meta), KeepsAll kw → KeepsAll (stripLoop new fs kw)
  | [], kw, h => h
  | f :: fs, kw, h => by
    unfold stripLoop
    split
    · refine keeps_strip new fs _ fun g => ?_
      unfold Verif.setField
      split
      · rename_i hg; subst hg
        exact keeps_blank g
      · exact h g
    · exact keeps_strip new fs _ h

omit hp in
theorem keeps_update {old new : Option Meta} (ho : OptKeeps old) (hn : OptKeeps new) {b : Bool} {u : Option Meta}
    (h : updateMeta old new = .ok (b, u)) : OptKeeps u := by
  unfold updateMeta at h
  split at h
  · simp only [Except.ok.injEq, Prod.mk.injEq] at h; exact h.2 ▸ hn
  · rename_i o
    split at h
    · simp only [Except.ok.injEq, Prod.mk.injEq] at h; exact h.2 ▸ hn
    · split at h
      · simp only [Except.ok.injEq, Prod.mk.injEq] at h; exact h.2 ▸ ho
      · rename_i n
        split at h
        · simp only [Except.ok.injEq, Prod.mk.injEq] at h; exact h.2 ▸ ho
        · dsimp only at h
          split at h
          · simp at h
          · rename_i st hst
            simp only [Except.ok.injEq, Prod.mk.injEq] at h
            have hkw : KeepsAll st.kw := by
              refine keeps_merge (hn n rfl) _ _ st ?_ hst
              dsimp only
              split
              · exact ho o rfl
              · intro g
                unfold Verif.setField
                split
                · rename_i hg
                  subst hg
                  have := ho o rfl .id
                  revert this
                  cases o .id <;> simp [Keeps, HasType, XattrStorable, SymlinkStorable]
                · exact ho o rfl g
            intro m hm
            rw [← h.2] at hm
            injection hm with hm
            subst hm
            split
            · exact keeps_strip _ _ _ hkw
            · exact hkw

theorem metaUpdater_sim (hr : Sim (Holds C) C.refreshX C.refresh fun _ => True) {q : Path} (hq : IsName (nameOf q)) {new : Meta}
    (hn : KeepsAll new) (fetch : Bool) : Sim (Holds C) (C.metaUpdater q new fetch) (C.toPEnv.metaUpdater q new fetch) fun _ => True := by
  unfold XEnv.metaUpdater PEnv.metaUpdater
  refine .bind_ (getMeta_sim C q) fun mo hmo => ?_
  cases hu : updateMeta mo (some new) with
  | error e => exact .throw_
  | ok du =>
    obtain ⟨different, updated⟩ := du
    dsimp only
    have hk := keeps_update hmo (fun m h => by injection h with h; exact h ▸ hn) hu
    refine .bind_ (Q := fun _ => True) (.ite_ (fun _ => look_sim C fun d a hd => isFile_sim C hd _) fun _ => .pure_ trivial) fun isf _ => ?_
    refine .ite_ (fun _ => ?_) fun _ => .bind_ (setMeta_sim C hp hq hk) fun _ _ => .pure_ trivial
    refine .bind_ (localChanges_sim C q new) fun _ _ => .bind_ ((trash_alike C).crumple _ _) fun trashed _ => ?_
    refine .bind_ (Q := fun _ => True) (.catch_ (.bind_ (setMeta_sim C hp hq hk) fun _ _ => fetch_sim C hp hr hq none) fun e => ?_) fun _ _ =>
      .pure_ trivial
    exact .bind_ (Q := fun _ => True) (.act_ (fun d a hd => hd.rename (holds_kind C) _ _) trivial) fun _ _ => .throw_

/-! ## Moving -/

theorem conflict_sim (hr : Sim (Holds C) C.refreshX C.refresh fun _ => True) (q : Path) {t : Path} (ht : IsName (nameOf t)) (remote cast : Bool) :
    Sim (Holds C) (C.conflict q t remote cast) (C.toPEnv.conflict q t remote cast) fun _ => True := by
  unfold XEnv.conflict PEnv.conflict
  refine .bind_ (getMeta_sim C t) fun mt _ => .bind_ (getMeta_sim C q) fun mq hmq => .ite_ (fun _ => ?_) fun _ => ?_
  · refine .bind_ (look_sim C fun d a hd => isBroken_sim C hd _) fun b _ => .ite_ (fun _ => ?_) fun _ => .pure_ trivial
    cases mq with
    | some m => exact .bind_ (metaUpdater_sim C hp hr ht (hmq m rfl) true) fun _ _ => .pure_ trivial
    | none => exact .bind_ (getMeta_sim C t) fun mo hmo => setMeta_sim C hp ht hmo
  · refine .bind_ (look_sim C fun d a hd => isBroken_sim C hd _) fun b _ => .ite_ (fun _ => ?_) fun _ => .throw_
    exact .ite_ (fun _ => .throw_) fun _ => .throw_

omit hp in
theorem renames_sim (q t : Path) : Sim (Holds C) (C.renames q t) (C.toPEnv.renames q t) fun _ => True := by
  unfold XEnv.renames PEnv.renames XEnv.cleanup
  have hclean : Sim (Holds C)
      (.bind (.look C.F fun d => .ok (Stored.isBroken d (safeUnlink t))) fun b => if b then .act C.F fun d => d.unlink (safeUnlink t) else .pure ())
      (.bind (.look C.F fun d => .ok (isBroken d (safeUnlink t))) fun b => if b then .act C.F fun d => d.unlink (safeUnlink t) else .pure ())
      fun _ => True :=
    .bind_ (look_sim C fun d a hd => isBroken_sim C hd _) fun b _ =>
      .ite_ (fun _ => .act_ (fun d a hd => hd.unlink (holds_kind C) _) trivial) fun _ => .pure_ trivial
  refine .bind_ (Q := fun _ => True) (.catch_ (.catch_ ?_ fun _ => ?_) fun e => .bind_ hclean fun _ _ => .throw_) fun _ _ => hclean
  · refine .bind_ (look_sim C fun d a hd => isBroken_sim C hd _) fun b _ => ?_
    refine .bind_ (Q := fun _ => True) (.ite_ (fun _ => .act_ (fun d a hd => hd.rename (holds_kind C) _ _) trivial) fun _ => .pure_ trivial) fun _ _ => ?_
    exact .act_ (fun d a hd => hd.rename (holds_kind C) _ _) trivial
  · exact .bind_ (look_sim C fun d a hd => isBroken_sim C hd _) fun b _ =>
      .ite_ (fun _ => .act_ (fun d a hd => hd.rename (holds_kind C) _ _) trivial) fun _ => .pure_ trivial

theorem move_sim (hr : Sim (Holds C) C.refreshX C.refresh fun _ => True) {parents : Prog XObj Unit} {parents' : Prog CObj Unit}
    (hpar : Sim (Holds C) parents parents' fun _ => True) (q : Path) {t : Path} (ht : IsName (nameOf t)) {given : Option Meta}
    (hg : OptKeeps given) (remote cast : Bool) :
    Sim (Holds C) (C.move parents q t given remote cast) (C.toPEnv.move parents' q t given remote cast) fun _ => True := by
  unfold XEnv.move PEnv.move
  refine .ite_ (fun _ => .pure_ trivial) fun _ => ?_
  refine .bind_ (look_sim C fun d a hd => there_sim C hd _) fun b _ => ?_
  refine .bind_ (Q := fun _ => True) (.ite_ (fun _ => .pure_ trivial) fun _ => hpar) fun _ _ => ?_
  refine .bind_ (Q := fun _ => True) (.ite_ (fun _ => ?_) fun _ => .pure_ trivial) fun _ _ => ?_
  · cases given with
    | some m =>
      refine .ite_ (fun _ => .bind_ (metaUpdater_sim C hp hr ht (hg m rfl) true) fun _ _ => .pure_ trivial) fun _ => ?_
      exact .bind_ (getMeta_sim C t) fun _ _ => .ite_ (fun _ => .throw_) fun _ => .pure_ trivial
    | none => exact .bind_ (getMeta_sim C t) fun _ _ => .ite_ (fun _ => .throw_) fun _ => .pure_ trivial
  refine .bind_ (look_sim C fun d a hd => isSome_sim C hd _) fun b _ => ?_
  refine .bind_ (Q := fun _ => True) (.ite_ (fun _ => conflict_sim C hp hr q ht remote cast) fun _ => .pure_ trivial) fun _ _ => ?_
  refine .bind_ (look_sim C fun d a hd => there_sim C hd _) fun b _ => ?_
  refine .bind_ (Q := fun _ => True) (.ite_ (fun _ => renames_sim C q t) fun _ => ?_) fun _ _ => .pure_ trivial
  exact .bind_ (look_sim C fun d a hd => isBroken_sim C hd _) fun b _ =>
      .ite_ (fun _ => .act_ (fun d a hd => hd.unlink (holds_kind C) _) trivial) fun _ => .pure_ trivial

end Verif.Cache
