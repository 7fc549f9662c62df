import Verif.Props.Race
import Verif.Lemmas.Disk

/-! A fetch of `Model/Race.lean` that is alone does what the fetch of `Model/Primary.lean` does (C126). -/

namespace Verif.Race
open Verif.Cache Verif.FS

/-! ## A fetch that is alone -/


/-- The calls of one process. -/
def alone : Nat → World → Proc → World × Proc
  | 0, w, p => (w, p)
  | n + 1, w, p => alone n (p.step w).1 (p.step w).2

theorem alone_add : ∀ (a b : Nat) (w : World) (p : Proc), alone (a + b) w p = alone b (alone a w p).1 (alone a w p).2
  | 0, b, w, p => by simp [alone]
  | a + 1, b, w, p => by rw [show a + 1 + b = (a + b) + 1 by omega, alone, alone_add a b, alone]

/-- The process gets from one point to another. -/
def Runs (w : World) (p : Proc) (w' : World) (p' : Proc) : Prop := ∃ k, alone k w p = (w', p')

theorem Runs.refl (w : World) (p : Proc) : Runs w p w p := ⟨0, rfl⟩

theorem Runs.trans {w w' w'' : World} {p p' p'' : Proc} (h : Runs w p w' p') (h' : Runs w' p' w'' p'') : Runs w p w'' p'' := by
  obtain ⟨a, ha⟩ := h
  obtain ⟨b, hb⟩ := h'
  exact ⟨a + b, by rw [alone_add, ha, hb]⟩

theorem Runs.step {w w' : World} {p p' : Proc} (h : Runs (p.step w).1 (p.step w).2 w' p') : Runs w p w' p' := by
  obtain ⟨a, ha⟩ := h
  exact ⟨a + 1, ha⟩

section
variable {w w' : World} {p' : Proc} {i : Nat} {b : Bytes} {mo : Option Meta}

/-- The path is file `i` with this content and these attributes. -/
def AtFile (i : Nat) (b : Bytes) (mo : Option Meta) (w : World) : Prop := w.entry = .file i ∧ w.node i = ⟨b, mo⟩

/-- What is read as metadata -/
def seen (mo : Option Meta) : Option Meta := match mo with | some m => if metaBool m then some m else none | none => none

theorem Runs.exists_ {k} (h : w.entry = .file i) (hr : Runs w (k true) w' p') : Runs w (.exists_ k) w' p' :=
  .step (by simp only [Proc.step, h]; exact hr)

theorem Runs.isSymlink {k} (h : w.entry = .file i) (hr : Runs w (k false) w' p') : Runs w (.isSymlink k) w' p' :=
  .step (by simp only [Proc.step, h]; exact hr)

theorem runs_readX {k : Except PyErr (Option Meta) → Proc} (hr : Runs w (k (.ok (seen mo))) w' p') :
    Runs w (match (.ok mo : Except PyErr (Option Meta)) with
            | .ok (some m) => k (.ok (if metaBool m then some m else none))
            | .ok none => k (.ok none)
            | .error e => k (.error e)) w' p' := by
  cases mo with
  | none => exact hr
  | some m => exact hr

theorem runs_readMeta (h : AtFile i b mo w) {k} (hr : Runs w (k (.ok (seen mo))) w' p') : Runs w (readMeta k) w' p' := by
  unfold readMeta
  refine Runs.exists_ h.1 ?_
  rw [if_pos rfl]
  refine Runs.exists_ h.1 ?_
  rw [if_pos rfl]
  refine .step ?_
  have e : ∀ k, (Proc.xattrs k).step w = (w, k (.ok mo)) := fun k => by simp only [Proc.step, h.1, h.2]
  rw [e]
  exact runs_readX hr

theorem runs_setAll (m : Meta) {k} : ∀ (fs : List Field) {mo : Option Meta} {w : World}, AtFile i b mo w →
    ∃ w1, AtFile i b (fs.foldl (fun o f => some (Verif.setField (o.getD blank) f (m f))) mo) w1 ∧ Runs w (setAll m k fs) w1 (k (.ok ()))
  | [], mo, w, h => ⟨w, h, .refl _ _⟩
  | f :: fs, mo, w, h => by
    obtain ⟨w1, h1, hr⟩ := runs_setAll m fs (k := k) (mo := some (Verif.setField (mo.getD blank) f (m f))) (w := w.setField i f (m f))
      ⟨h.1, by simp [World.setField, h.2]⟩
    refine ⟨w1, h1, ?_⟩
    rw [setAll]
    refine .step ?_
    have e : ∀ k, (Proc.setxattr f (m f) k).step w = (w.setField i f (m f), k (.ok ())) := fun k => by simp only [Proc.step, h.1]
    rw [e]
    exact hr

theorem runs_setMeta (E : Env) {m : Meta} (hm : metaBool m = true) {k} (h : AtFile i b mo w) :
    ∃ w1, AtFile i b (laid mo m) w1 ∧ Runs w (setMeta E m k) w1 (k (.ok ())) := by
  obtain ⟨w1, h1, hr⟩ := runs_setAll m (storedFields m) (k := k) h
  refine ⟨w1, h1, ?_⟩
  unfold setMeta
  dsimp only
  rw [if_neg (by rw [hm]; simp)]
  refine Runs.exists_ h.1 ?_
  rw [if_pos rfl]
  refine Runs.isSymlink h.1 ?_
  rw [if_neg (by simp)]
  unfold eatSet
  refine Runs.exists_ h.1 ?_
  rw [if_pos rfl]
  refine Runs.isSymlink h.1 ?_
  rw [if_neg (by simp)]
  exact hr

theorem runs_writeAll {k : Proc} : ∀ (bs : List Bytes) {x : Bytes} {w : World}, AtFile i x mo w →
    ∃ w1, AtFile i (x ++ bs.flatten) mo w1 ∧ Runs w (writeAll k bs ⟨i, x.length⟩) w1 k
  | [], x, w, h => ⟨w, by simpa using h, .refl _ _⟩
  | b :: bs, x, w, h => by
    obtain ⟨w1, h1, hr⟩ := runs_writeAll (k := k) bs (x := x ++ b) (w := w.setData i (x ++ b)) ⟨h.1, by simp [World.setData, h.2]⟩
    refine ⟨w1, by simpa using h1, ?_⟩
    rw [writeAll]
    refine .step ?_
    have hx : writeAt (w.node i).data x.length b = x ++ b := by rw [h.2]; simp [writeAt]
    have e : ∀ k, (Proc.write ⟨i, x.length⟩ b k).step w = (w.setData i (x ++ b), k ⟨i, x.length + b.length⟩) := fun k => by simp only [Proc.step, hx]
    rw [e, ← List.length_append]
    exact hr

end

section
variable {C : PEnv} {q : Path} {w w' : World} {i : Nat} {b : Bytes} {mo : Option Meta}

theorem look_eq (hF : ∀ n, C.F n = none) {α : Type} (f : Disk CObj → Except PyErr α) (s : Machine CObj) :
    Prog.look C.F f s = (f s.disk, ⟨s.disk, s.tick + 1⟩) := by
  simp only [Prog.look, Prog.sys, hF]
  cases f s.disk <;> rfl

theorem act_eq (hF : ∀ n, C.F n = none) (f : Disk CObj → Except PyErr (Disk CObj)) (s : Machine CObj) {d : Disk CObj} (h : f s.disk = .ok d) :
    Prog.act C.F f s = (.ok (), ⟨d, s.tick + 1⟩) := by
  simp only [Prog.act, Prog.sys, hF, h]

theorem bind_ok {α β : Type} {P : Prog CObj α} {f : α → Prog CObj β} {s s' : Machine CObj} {a : α} (h : P s = (.ok a, s')) : Prog.bind P f s = f a s' := by
  simp only [Prog.bind, h]

theorem bind_error {α β : Type} {P : Prog CObj α} {f : α → Prog CObj β} {s s' : Machine CObj} {e : PyErr} (h : P s = (.error e, s')) :
    Prog.bind P f s = (.error e, s') := by
  simp only [Prog.bind, h]

theorem getMeta_eq (hF : ∀ n, C.F n = none) {s : Machine CObj} (h : s.disk.at_ q = some (.file b mo)) :
    C.getMeta q s = (.ok (seen mo), ⟨s.disk, s.tick + 1⟩) := by
  unfold PEnv.getMeta
  rw [look_eq hF, h]
  cases mo <;> rfl

/-- The end of a run of the other model -/
def outcome : Except PyErr Unit → Outcome
  | .ok _ => .returned
  | .error e => .raised e

/-- The same is at the path. -/
def Same (q : Path) (d : Disk CObj) (w : World) : Prop :=
  (∃ m, d.at_ q = some (.link (some m)) ∧ w.entry = .link m) ∨ ∃ b mo i, d.at_ q = some (.file b mo) ∧ AtFile i b mo w

/-- Both models come to the same end. -/
def Agree (q : Path) (r : Except PyErr Unit × Machine CObj) (w : World) (p : Proc) : Prop :=
  ∃ w', Runs w p w' (.ret (outcome r.1)) ∧ Same q r.2.disk w'

theorem Agree.mk_file {r : Except PyErr Unit × Machine CObj} {p : Proc} (h : AtFile i b mo w) (hd : r.2.disk.at_ q = some (.file b mo))
    (hp : p = .ret (outcome r.1)) : Agree q r w p := ⟨w, hp ▸ .refl _ _, .inr ⟨b, mo, i, hd, h⟩⟩

theorem setXattrs_eq (hF : ∀ n, C.F n = none) (m : Meta) : ∀ (fs : List Field) {mo : Option Meta} {s : Machine CObj}, s.disk.at_ q = some (.file b mo) →
    ∃ s', Prog.each (fun f => C.setField q f (m f)) fs s = (.ok (), s') ∧
      s'.disk.at_ q = some (.file b (fs.foldl (fun o f => some (Verif.setField (o.getD blank) f (m f))) mo))
  | [], mo, s, h => ⟨s, rfl, h⟩
  | f :: fs, mo, s, h => by
    have h1 : C.setField q f (m f) s = (.ok (), ⟨s.disk.put q (.file b (some (Verif.setField (mo.getD blank) f (m f)))), s.tick + 1⟩) := by
      unfold PEnv.setField
      exact act_eq hF _ s (by rw [h])
    obtain ⟨s', e, hs'⟩ := setXattrs_eq hF m fs (s := ⟨s.disk.put q (.file b (some (Verif.setField (mo.getD blank) f (m f)))), s.tick + 1⟩) (at_put_self _ _ _)
    exact ⟨s', by rw [Prog.each, bind_ok h1, e], hs'⟩

theorem setMeta_eq (hF : ∀ n, C.F n = none) {m : Meta} (hm : metaBool m = true) {s : Machine CObj} (h : s.disk.at_ q = some (.file b mo)) :
    ∃ s', C.setMeta q (some m) s = (.ok (), s') ∧ s'.disk.at_ q = some (.file b (laid mo m)) := by
  unfold PEnv.setMeta
  dsimp only
  rw [if_neg (by rw [hm]; simp), bind_ok (look_eq hF (fun d => .ok (there d q)) s)]
  rw [if_pos (there_file h)]
  exact setXattrs_eq hF m _ h

theorem appends_eq (hF : ∀ n, C.F n = none) : ∀ (bs : List Bytes) {x : Bytes} {s : Machine CObj}, s.disk.at_ q = some (.file x mo) →
    ∃ s', Prog.each (fun (r : Except PyErr Bytes) => match r with | .ok b => C.append q b | .error e => .throw e) (bs.map .ok) s = (.ok (), s') ∧
      s'.disk.at_ q = some (.file (x ++ bs.flatten) mo)
  | [], x, s, h => ⟨s, rfl, by simpa using h⟩
  | b :: bs, x, s, h => by
    have h1 : C.append q b s = (.ok (), ⟨s.disk.put q (.file (x ++ b) mo), s.tick + 1⟩) := by
      unfold PEnv.append
      exact act_eq hF _ s (by rw [h])
    obtain ⟨s', e, hs'⟩ := appends_eq hF bs (s := ⟨s.disk.put q (.file (x ++ b) mo), s.tick + 1⟩) (at_put_self _ _ _)
    refine ⟨s', ?_, by simpa using hs'⟩
    rw [List.map_cons, Prog.each]
    exact (bind_ok h1).trans e

theorem writeChunks_eq (hF : ∀ n, C.F n = none) {cs : List Bytes} (hc : C.chunks = cs.map .ok) (hne : cs ≠ []) {s : Machine CObj} (h : s.disk.at_ q = some (.file b mo)) :
    ∃ s', C.writeChunks q s = (.ok (), s') ∧ s'.disk.at_ q = some (.file cs.flatten mo) := by
  obtain ⟨c, cs, rfl⟩ := List.exists_cons_of_ne_nil hne
  have h1 : C.openW q s = (.ok (), ⟨s.disk.put q (.file [] mo), s.tick + 1⟩) := by
    unfold PEnv.openW
    exact act_eq hF _ s (by rw [h])
  obtain ⟨s', e, hs'⟩ := appends_eq hF (C := C) (c :: cs) (s := ⟨s.disk.put q (.file [] mo), s.tick + 1⟩) (at_put_self _ _ _)
  refine ⟨s', ?_, by simpa using hs'⟩
  unfold PEnv.writeChunks
  rw [hc]
  exact (bind_ok h1).trans e

/-- What is done with the content -/
def judge (E : Env) (m : Meta) (g : Bytes → Bytes) (b : Bytes) : Proc := match m .checksum with
  | .none => .ret .returned
  | .bytes c =>
    if g b ≠ c then
      match m .errors with
      | .strs l => setMeta E (mark m l) fun r => match r with | .error e => .ret (.raised e) | .ok _ => .ret .returned
      | _ => .ret (.raised .typeError)
    else .ret .returned
  | _ => .ret (.raised .attributeError)

def judgeP (C : PEnv) (q : Path) (m : Meta) (g : Bytes → Bytes) (b : Bytes) : Prog CObj Unit := match m .checksum with
  | .none => .pure ()
  | .bytes c =>
    if g b ≠ c then
      match m .errors with
      | .strs l => C.setMeta q (some (mark m l))
      | _ => .throw .typeError
    else .pure ()
  | _ => .throw .attributeError

theorem agree_judge (hF : ∀ n, C.F n = none) (E : Env) (m : Meta) (g : Bytes → Bytes) {s : Machine CObj} (h : AtFile i b mo w)
    (hd : s.disk.at_ q = some (.file b mo)) : Agree q (judgeP C q m g b s) w (judge E m g b) := by
  unfold judgeP judge
  cases m .checksum with
  | none => exact .mk_file h hd rfl
  | bytes c =>
    dsimp only
    by_cases hg : g b ≠ c
    · rw [if_pos hg, if_pos hg]
      cases m .errors with
      | strs l =>
        dsimp only
        obtain ⟨s', e, hs'⟩ := setMeta_eq hF (metaBool_mark m l) hd
        obtain ⟨w1, h1, hr⟩ := runs_setMeta E (metaBool_mark m l) (k := fun r => match r with | .error e => .ret (.raised e) | .ok _ => .ret .returned) h
        rw [e]
        exact ⟨w1, hr, .inr ⟨b, _, i, hs', h1⟩⟩
      | _ => exact .mk_file h hd rfl
    · rw [if_neg hg, if_neg hg]
      exact .mk_file h hd rfl
  | _ => exact .mk_file h hd rfl

/-- What is done with the metadata -/
def weigh (E : Env) (m : Meta) : Option Meta → Proc
  | none => .ret (.raised .attributeError)
  | some now => match E.cypher (now .checksum_cypher) with
    | .error e => .ret (.raised e)
    | .ok h => .content fun r => match r with
      | .error e => .ret (.raised e)
      | .ok b => judge E m h b

def weighP (C : PEnv) (q : Path) (m : Meta) : Option Meta → Prog CObj Unit
  | none => .throw .attributeError
  | some now => match C.cypher (now .checksum_cypher) with
    | .error e => .throw e
    | .ok h => .bind (.look C.F fun d => dataAt d q) fun b => judgeP C q m h b

theorem agree_weigh (hF : ∀ n, C.F n = none) (E : Env) (hE : E.cypher = C.cypher) (m : Meta) (o : Option Meta) {s : Machine CObj} (h : AtFile i b mo w)
    (hd : s.disk.at_ q = some (.file b mo)) : Agree q (weighP C q m o s) w (weigh E m o) := by
  cases o with
  | none => exact .mk_file h hd rfl
  | some now =>
    unfold weighP weigh
    dsimp only
    rw [hE]
    cases C.cypher (now .checksum_cypher) with
    | error e => exact .mk_file h hd rfl
    | ok g =>
      dsimp only
      have hb : dataAt s.disk q = .ok b := by simp [dataAt, hd]
      rw [bind_ok ((look_eq hF _ _).trans (by rw [hb]))]
      obtain ⟨w', hr, hs⟩ := agree_judge hF E m g (s := ⟨s.disk, s.tick + 1⟩) h hd
      refine ⟨w', .step ?_, hs⟩
      have e : ∀ k, (Proc.content k).step w = (w, k (.ok b)) := fun k => by simp only [Proc.step, h.1, h.2]
      rw [e]
      exact hr

theorem checkSumP_eq (m : Meta) : C.checkSum q m = if marked m then .pure () else .bind (C.getMeta q) (weighP C q m) := by
  unfold PEnv.checkSum
  congr 2

theorem checkSum_eq (E : Env) (m : Meta) :
    checkSum E m = if marked m then .ret .returned else readMeta fun r => match r with | .error e => .ret (.raised e) | .ok o => weigh E m o := by
  unfold checkSum
  congr 2
  funext r
  cases r with
  | error e => rfl
  | ok o => cases o <;> rfl

theorem agree_checkSum (hF : ∀ n, C.F n = none) (E : Env) (hE : E.cypher = C.cypher) (m : Meta) {s : Machine CObj} (h : AtFile i b mo w)
    (hd : s.disk.at_ q = some (.file b mo)) : Agree q (C.checkSum q m s) w (checkSum E m) := by
  rw [checkSumP_eq, checkSum_eq]
  by_cases hm : marked m = true
  · rw [if_pos hm, if_pos hm]; exact .mk_file h hd rfl
  · rw [if_neg hm, if_neg hm, bind_ok (getMeta_eq hF hd)]
    obtain ⟨w', hr, hs⟩ := agree_weigh hF E hE m (seen mo) (s := ⟨s.disk, s.tick + 1⟩) h hd
    exact ⟨w', runs_readMeta h hr, hs⟩

theorem agree_download (hF : ∀ n, C.F n = none) (hk : C.cacheKey = none) {cs : List Bytes} (hc : C.chunks = cs.map .ok) (E : Env) (hE : E.cypher = C.cypher)
    (m : Meta) {s : Machine CObj} (h : AtFile i b mo w) (hd : s.disk.at_ q = some (.file b mo)) : Agree q (C.download q m s) w (download E cs m) := by
  have hP : C.download q m s = Prog.bind (C.setData q) (fun _ => .bind (.look C.F fun d => sizeAt d q) fun n =>
      if m .size = .int n then C.checkSum q m else .throw .valueError) s := by
    unfold PEnv.download; rw [hk]
  rw [hP]
  -- reading the id
  suffices hs : Agree q (Prog.bind (C.setData q) (fun _ => .bind (.look C.F fun d => sizeAt d q) fun n =>
      if m .size = .int n then C.checkSum q m else .throw .valueError) s) w (setData cs (checkSize E m)) by
    obtain ⟨w', hr, hs⟩ := hs
    refine ⟨w', ?_, hs⟩
    unfold download readId
    refine runs_readMeta h ?_
    cases hsn : seen mo with
    | none => exact hr
    | some m' =>
      refine runs_readMeta h ?_
      rw [hsn]
      exact hr
  cases hcs : cs with
  | nil =>
    have e : C.setData q s = (.error .stopIteration, ⟨s.disk, s.tick + 1⟩) := by
      unfold PEnv.setData
      rw [bind_ok (getMeta_eq hF hd)]
      refine bind_error ?_
      unfold PEnv.writeChunks
      rw [hc, hcs]
      rfl
    rw [bind_error e]
    refine ⟨w, ?_, .inr ⟨b, mo, i, hd, h⟩⟩
    unfold setData
    exact runs_readMeta h (.refl _ _)
  | cons c cs' =>
    rw [← hcs]
    have hne : cs ≠ [] := by rw [hcs]; simp
    obtain ⟨s1, e1, hd1⟩ := writeChunks_eq hF hc hne (s := ⟨s.disk, s.tick + 1⟩) hd
    have h0 : AtFile i [] mo (w.setData i []) := ⟨h.1, by simp [World.setData, h.2]⟩
    obtain ⟨w1, h1, hr1⟩ := runs_writeAll (k := afterData (checkSize E m)) cs h0
    have hd1 : s1.disk.at_ q = some (.file cs.flatten mo) := hd1
    rw [List.nil_append] at h1
    have start : Runs w (setData cs (checkSize E m)) w1 (afterData (checkSize E m)) := by
      unfold setData
      refine runs_readMeta h ?_
      rw [hcs]
      dsimp only
      refine .step ?_
      have e : ∀ k, (Proc.openW k).step w = (w.setData i [], k (.ok ⟨i, 0⟩)) := fun k => by simp only [Proc.step, h.1]
      rw [e, ← hcs]
      exact hr1
    have eP : C.setData q s = (if (seen mo).isNone then (.error .attributeError, ⟨s1.disk, s1.tick + 1⟩) else (.ok (), ⟨s1.disk, s1.tick + 1⟩)) := by
      unfold PEnv.setData
      rw [bind_ok (getMeta_eq hF hd), bind_ok e1, bind_ok (getMeta_eq hF hd1)]
      by_cases hn : (seen mo).isNone = true
      · rw [if_pos hn, if_pos hn]; rfl
      · rw [if_neg hn, if_neg hn]; rfl
    cases hsn : seen mo with
    | none =>
      rw [hsn, if_pos (by rfl)] at eP
      rw [bind_error eP]
      refine ⟨w1, start.trans ?_, .inr ⟨_, mo, i, hd1, h1⟩⟩
      unfold afterData
      refine runs_readMeta h1 ?_
      rw [hsn]
      exact .refl _ _
    | some m' =>
      rw [hsn, if_neg (by simp)] at eP
      have hsz : sizeAt s1.disk q = .ok (cs.flatten.length : Int) := by simp [sizeAt, hd1]
      rw [bind_ok eP, bind_ok ((look_eq hF _ _).trans (by rw [hsz]))]
      have mid : ∀ {w' p'}, Runs w1 (if m .size = .int cs.flatten.length then checkSum E m else .ret (.raised .valueError)) w' p' →
          Runs w1 (afterData (checkSize E m)) w' p' := fun hr => by
        unfold afterData
        refine runs_readMeta h1 ?_
        rw [hsn]
        refine runs_readMeta h1 ?_
        rw [hsn]
        refine runs_readMeta h1 ?_
        rw [hsn]
        dsimp only
        unfold checkSize
        refine .step ?_
        have e : ∀ k, (Proc.size k).step w1 = (w1, k (.ok cs.flatten.length)) := fun k => by simp only [Proc.step, h1.1, h1.2]
        rw [e]
        exact hr
      by_cases hm : m .size = .int cs.flatten.length
      · rw [if_pos hm]
        obtain ⟨w', hr, hs⟩ := agree_checkSum hF E hE m (s := ⟨s1.disk, s1.tick + 1 + 1⟩) h1 hd1
        exact ⟨w', start.trans (mid (by rw [if_pos hm]; exact hr)), hs⟩
      · rw [if_neg hm]
        exact ⟨w1, start.trans (mid (by rw [if_neg hm]; exact .refl _ _)), .inr ⟨_, mo, i, hd1, h1⟩⟩

/-- The link is replaced by a file. -/
theorem agree_makeFile (hF : ∀ n, C.F n = none) (hk : C.cacheKey = none) {cs : List Bytes} (hc : C.chunks = cs.map .ok) (E : Env) (hE : E.cypher = C.cypher)
    {m : Meta} {s : Machine CObj} (h : w.entry = .link m) (hd : s.disk.at_ q = some (.link (some m))) {x : Option Meta} (hq : q ≠ [])
    (hp : s.disk.at_ q.dropLast = some (.dir x)) :
    Agree q (Prog.bind (.bind (.act C.F fun d => d.unlink q) fun _ => .bind (.act C.F fun d => d.create q (.file [] none)) fun _ => C.setMeta q (some m))
      (fun _ => C.download q m) s) w (makeFile E cs m) := by
  have hne : q.dropLast ≠ q := fun e => hq (by
    have := congrArg List.length e
    rw [List.length_dropLast] at this
    exact List.length_eq_zero_iff.mp (by have := List.length_pos_iff.mpr hq; omega))
  have hu : s.disk.unlink q = .ok (s.disk.erase q) := by simp [Disk.unlink, hd, Kinded.isDir]
  have hcr : (s.disk.erase q).create q (.file [] none) = .ok ((s.disk.erase q).put q (.file [] none)) := by
    simp [Disk.create, Disk.at_erase, hne, hp, Kinded.isDir]
  have a1 := act_eq hF (fun d => d.unlink q) s hu
  have a2 := act_eq hF (fun d => d.create q (.file [] none)) ⟨s.disk.erase q, s.tick + 1⟩ hcr
  have start : ∀ {w' p'}, Runs ({ w with entry := .none } : World).make (setMeta E m fun r => match r with | .error e => .ret (.raised e) | .ok _ => download E cs m) w' p' →
      Runs w (makeFile E cs m) w' p' := fun hr => by
    unfold makeFile
    refine .step ?_
    have e : ∀ k, (Proc.unlink k).step w = ({ w with entry := .none }, k (.ok ())) := fun k => by simp only [Proc.step, h]
    rw [e]
    exact .step (.step hr)
  have hf : AtFile w.next [] none ({ w with entry := .none } : World).make := ⟨rfl, by simp [World.make]⟩
  by_cases hm : metaBool m = true
  · obtain ⟨s', e, hs'⟩ := setMeta_eq hF hm (s := ⟨(s.disk.erase q).put q (.file [] none), s.tick + 1 + 1⟩) (at_put_self _ _ _)
    obtain ⟨w1, h1, hr⟩ := runs_setMeta E hm (k := fun r => match r with | .error e => .ret (.raised e) | .ok _ => download E cs m) hf
    obtain ⟨w', hr', hs⟩ := agree_download hF hk hc E hE m h1 hs'
    rw [bind_ok (((bind_ok a1).trans (bind_ok a2)).trans e)]
    exact ⟨w', start (hr.trans hr'), hs⟩
  · have e : C.setMeta q (some m) ⟨(s.disk.erase q).put q (.file [] none), s.tick + 1 + 1⟩ = (.ok (), ⟨(s.disk.erase q).put q (.file [] none), s.tick + 1 + 1⟩) := by
      unfold PEnv.setMeta
      dsimp only
      rw [if_pos (by simpa using hm)]
      rfl
    obtain ⟨w', hr', hs⟩ := agree_download hF hk hc E hE m (s := ⟨(s.disk.erase q).put q (.file [] none), s.tick + 1 + 1⟩) hf (at_put_self _ _ _)
    rw [bind_ok (((bind_ok a1).trans (bind_ok a2)).trans e)]
    refine ⟨w', start ?_, hs⟩
    unfold setMeta
    dsimp only
    rw [if_pos (by simpa using hm)]
    exact hr'

theorem agree_fetch (hF : ∀ n, C.F n = none) (hk : C.cacheKey = none) {cs : List Bytes} (hc : C.chunks = cs.map .ok) (E : Env) (hE : E.cypher = C.cypher)
    {s : Machine CObj} (hsame : Same q s.disk w) (hq : q ≠ []) {x : Option Meta} (hp : s.disk.at_ q.dropLast = some (.dir x))
    (hid : ∀ m, (C.getMeta q s).1 = .ok (some m) → m .file_id ≠ .none) :
    Agree q (C.fetch q none s) w (fetch E cs) := by
  rcases hsame with ⟨m, hd, h⟩ | ⟨b, mo, i, hd, h⟩
  · have hg : C.getMeta q s = (.ok (some m), ⟨s.disk, s.tick + 1⟩) := by
      unfold PEnv.getMeta
      rw [look_eq hF, hd]
    have hi := hid m (by rw [hg])
    unfold PEnv.fetch
    rw [bind_ok hg, bind_ok (look_eq hF (fun d => .ok (isDirAt d q)) _), if_neg (by simp [isDirAt, hd])]
    dsimp only
    rw [if_neg hi]
    unfold PEnv.fetchData
    rw [bind_ok (look_eq hF (fun d => .ok (isBroken d q)) _), if_pos (by simp [isBroken, hd])]
    obtain ⟨w', hr, hs⟩ := agree_makeFile hF hk hc E hE (s := ⟨s.disk, s.tick + 1 + 1 + 1⟩) h hd hq hp
    refine ⟨w', ?_, hs⟩
    have ex : ∀ k, (Proc.exists_ k).step w = (w, k false) := fun k => by simp only [Proc.step, h]
    have sy : ∀ k, (Proc.isSymlink k).step w = (w, k true) := fun k => by simp only [Proc.step, h]
    have rd : ∀ k, (Proc.readlink k).step w = (w, k (.ok m)) := fun k => by simp only [Proc.step, h]
    unfold fetch readMeta linkMeta
    refine .step ?_
    rw [ex, if_neg (by simp)]
    refine .step ?_
    rw [sy, if_pos rfl]
    refine .step ?_
    rw [sy, if_pos rfl]
    refine .step ?_
    rw [ex, if_neg (by simp)]
    refine .step ?_
    rw [rd]
    dsimp only
    unfold fetchWith
    rw [if_neg hi]
    refine .step ?_
    rw [sy, if_pos rfl]
    refine .step ?_
    rw [ex, if_neg (by simp)]
    exact hr
  · have hg := getMeta_eq hF hd
    unfold PEnv.fetch fetch
    rw [bind_ok hg, bind_ok (look_eq hF (fun d => .ok (isDirAt d q)) _), if_neg (by simp [isDirAt, hd])]
    cases hsn : seen mo with
    | none =>
      refine ⟨w, runs_readMeta h ?_, .inr ⟨b, mo, i, hd, h⟩⟩
      rw [hsn]
      exact .refl _ _
    | some m =>
      have hi := hid m (by rw [hg, hsn])
      dsimp only
      rw [if_neg hi]
      unfold PEnv.fetchData
      rw [bind_ok (look_eq hF (fun d => .ok (isBroken d q)) _), if_neg (by simp [isBroken, hd])]
      obtain ⟨w', hr, hs⟩ := agree_download hF hk hc E hE m (s := ⟨s.disk, s.tick + 1 + 1 + 1⟩) h hd
      refine ⟨w', runs_readMeta h ?_, hs⟩
      rw [hsn]
      dsimp only
      unfold fetchWith
      rw [if_neg hi]
      refine Runs.isSymlink h.1 ?_
      rw [if_neg (by simp)]
      exact hr

theorem calls_alone (n : Nat) : ∀ (k : Nat) (w : World) (ps : Nat → Proc),
    calls (List.replicate k n) w ps = ((alone k w (ps n)).1, fun j => if j = n then (alone k w (ps n)).2 else ps j)
  | 0, w, ps => by
    simp only [List.replicate, calls, alone]
    congr 1
    funext j
    by_cases h : j = n
    · rw [if_pos h, h]
    · rw [if_neg h]
  | k + 1, w, ps => by
    rw [List.replicate_succ, calls, calls_alone n k, alone]
    simp only [call, if_pos]
    congr 1
    funext j
    by_cases h : j = n
    · rw [if_pos h, if_pos h]
    · rw [if_neg h, if_neg h, if_neg h]

theorem alone_ended (o : Outcome) : ∀ (k : Nat) (w : World), alone k w (.ret o) = (w, .ret o)
  | 0, w => rfl
  | k + 1, w => by rw [alone]; exact alone_ended o k w

/-- **C126**: a fetch that no other process disturbs does what the fetch of `Model/Primary.lean` does: after enough calls it has ended with the same
result, and the same is at the path. -/
theorem C126_alone (hF : ∀ n, C.F n = none) (hk : C.cacheKey = none) {cs : List Bytes} (hc : C.chunks = cs.map .ok) (E : Env) (hE : E.cypher = C.cypher)
    {s : Machine CObj} (hsame : Same q s.disk w) (hq : q ≠ []) {x : Option Meta} (hp : s.disk.at_ q.dropLast = some (.dir x))
    (hid : ∀ m, (C.getMeta q s).1 = .ok (some m) → m .file_id ≠ .none) (n : Nat) (ps : Nat → Proc) (hn : ps n = fetch E cs) :
    ∃ k, ∀ j, k ≤ j → (calls (List.replicate j n) w ps).2 n = .ret (outcome (C.fetch q none s).1) ∧
      Same q (C.fetch q none s).2.disk (calls (List.replicate j n) w ps).1 := by
  obtain ⟨w', ⟨k, hr⟩, hs⟩ := agree_fetch hF hk hc E hE hsame hq hp hid
  refine ⟨k, fun j hj => ?_⟩
  obtain ⟨j, rfl⟩ := Nat.exists_eq_add_of_le hj
  rw [calls_alone, hn, alone_add, hr, alone_ended]
  exact ⟨if_pos rfl, hs⟩

end

/-- A library without failures whose remote sends two chunks. -/
def quiet : PEnv where
  F := fun _ => none
  long := fun _ => false
  loc := [['t']]
  replace := asIs.replace
  hash := id
  cypher := asIs.cypher
  remoteSum := .ok []
  remoteIsDir := false
  chunks := [.ok [1], .ok [2]]
  cacheKey := none
  refresh := .pure ()

/-- A link and a file; the content that is sent is right, has another checksum, or another size. -/
example : Same [['a']] ([([], .dir none), ([['a']], .link (some record))] : Disk CObj) onLink ∧
    (quiet.fetch [['a']] none ⟨[([], .dir none), ([['a']], .link (some record))], 0⟩).1 = .ok () ∧
    (summary (calls (List.replicate 100 0) onLink (fetchers 1 [1, 2]))).2.1.map (·.1) = some [1, 2] :=
  ⟨.inl ⟨record, by decide +kernel, rfl⟩, by decide +kernel, by decide +kernel⟩

example : (∃ k, ∀ j, k ≤ j → (calls (List.replicate j 0) onLink (fetchers 1 [1, 2])).2 0 =
      .ret (outcome (quiet.fetch [['a']] none ⟨[([], .dir none), ([['a']], .link (some record))], 0⟩).1) ∧
    Same [['a']] (quiet.fetch [['a']] none ⟨[([], .dir none), ([['a']], .link (some record))], 0⟩).2.disk
      (calls (List.replicate j 0) onLink (fetchers 1 [1, 2])).1) :=
  C126_alone (cs := [[1], [2]]) (fun _ => rfl) rfl rfl asIs rfl (.inl ⟨record, by decide +kernel, rfl⟩) (by simp) (x := none) (by decide +kernel)
    (fun m hm => by
      have : (quiet.getMeta [['a']] ⟨[([], .dir none), ([['a']], .link (some record))], 0⟩).1 = .ok (some record) := rfl
      rw [this] at hm
      cases hm
      simp [record]) 0 _ rfl

example : (quiet.fetch [['a']] none ⟨[([], .dir none), ([['a']], .file [9] (some record))], 0⟩).1 = .ok () ∧
    (summary (calls (List.replicate 100 0) onFile (fetchers 1 [1, 2]))).2.1.map (·.1) = some [1, 2] ∧
    ({ quiet with chunks := [.ok [1]] }.fetch [['a']] none ⟨[([], .dir none), ([['a']], .file [9] (some record))], 0⟩).1 = .error .valueError ∧
    result ((calls (List.replicate 100 0) onFile (fetchers 1 [1])).2 0) = some (.raised .valueError) :=
  ⟨by decide +kernel, by decide +kernel, by decide +kernel, by decide +kernel⟩

end Verif.Race
