import Verif.Model.Backup
import Verif.Lemmas.Primary

/-!
# The backup restores metadata that is gone (C122)
-/

namespace Verif.Cache
open Verif.FS
variable {σ : Type}

namespace Spec

/-- What a backup is for: what was put in for a path is found for it, until something else is put in. -/
structure Keeps (B : Backup σ) : Prop where
  stores : ∀ s q m, ∃ s', B.set s q m = .ok s'
  own : ∀ {s q m s'}, B.set s q m = .ok s' → B.get s' q = .ok (some m)
  other : ∀ {s q m s' r}, B.set s q m = .ok s' → r ≠ q → B.get s' r = B.get s r

/-- There is a file with content `b` and metadata `mo`, or (`b` is `none`) a directory. -/
def Holds (d : Disk CObj) (q : Path) (b : Option Bytes) (mo : Option Meta) : Prop :=
  d.at_ q = some (match b with | some b => .file b mo | none => .dir mo)

/-- No metadata can be read. -/
def Wiped (mo : Option Meta) : Prop := ∀ m, mo = some m → metaBool m = false

/-- Metadata after other metadata was written on it: the values that there are, and the old ones elsewhere. -/
def Over (mo : Option Meta) (m : Meta) (o : Option Meta) : Prop :=
  ∀ f, (o.getD blank) f = if m f ≠ .none ∧ (m f).emptyIterable = false then m f else (mo.getD blank) f

end Spec
open Spec

theorem getMeta_wiped (C : PEnv) {q : Path} {d0 : Disk CObj} {b : Option Bytes} {mo : Option Meta} (hw : Wiped mo) {R : PyErr → Disk CObj → Prop}
    (herr : ∀ e n, C.F n = some e → R e d0) (hq : Holds d0 q b mo) :
    Hoare (fun d => d = d0) (C.getMeta q) (fun r d => r = none ∧ d = d0) R := by
  have hm : ∀ m, (if metaBool m then some m else none) = (none : Option Meta) ↔ metaBool m = false := fun m => by
    cases metaBool m <;> simp
  unfold Holds at hq
  refine getMeta_hoare C ?_ ?_ ?_ ?_ ?_
  · rintro d c m rfl h
    rw [hq] at h
    cases b <;> simp at h
    exact ⟨(hm m).2 (hw m h.2), rfl⟩
  · rintro d m rfl h
    rw [hq] at h
    cases b <;> simp at h
  · rintro d m rfl h
    rw [hq] at h
    cases b <;> simp at h
    exact ⟨(hm m).2 (hw m h), rfl⟩
  · rintro d rfl -
    exact ⟨rfl, rfl⟩
  · rintro e d rfl (⟨n, h⟩ | h)
    · exact herr e n h
    · rw [hq] at h
      cases b <;> simp at h

theorem there_holds {d : Disk CObj} {q : Path} {b : Option Bytes} {mo : Option Meta} (h : Holds d q b mo) : there d q = true := by
  unfold Holds at h
  cases b <;> simp [there, h]

/-- Storing metadata on a file or a directory. -/
theorem setMeta_holds (C : PEnv) {q : Path} {d0 : Disk CObj} {b : Option Bytes} {mo : Option Meta} (m : Meta) (hm : metaBool m = true)
    {R : PyErr → Disk CObj → Prop} (herr : ∀ e n d, C.F n = some e → R e d) :
    Hoare (fun d => OnlyAt q d0 d ∧ Holds d q b mo) (C.setMeta q (some m))
      (fun _ d => OnlyAt q d0 d ∧ Holds d q b (laid mo m)) R := by
  unfold PEnv.setMeta
  simp only [hm, Bool.not_true, Bool.false_eq_true, if_false]
  refine .bind_ (Q := fun ex d => ex = true ∧ OnlyAt q d0 d ∧ Holds d q b mo) (.look_err ?_ ?_) fun ex => .of_pre fun hex => ?_
  · rintro d a ⟨h1, h2⟩ h
    simp only [Except.ok.injEq] at h
    exact ⟨h ▸ there_holds h2, h1, h2⟩
  · rintro e d ⟨h1, h2⟩ (⟨n, h⟩ | h)
    · exact herr e n d h
    · simp at h
  · subst hex
    simp only [if_true]
    unfold PEnv.setXattrs
    have := Hoare.each_fold (R := R) (f := fun f => C.setField q f (m f))
      (I := fun o d => OnlyAt q d0 d ∧ Holds d q b o)
      (g := fun o f => some (Verif.setField (o.getD blank) f (m f))) (storedFields m) mo fun f _ o => .act_err ?_ ?_
    · exact this
    · rintro d d' ⟨h1, h2⟩ h
      unfold Holds at h2 ⊢
      rw [h2] at h
      cases b with
      | none =>
        simp only [Except.ok.injEq] at h
        subst h
        exact ⟨h1.put _, at_put_self _ _ _⟩
      | some b =>
        simp only [Except.ok.injEq] at h
        subst h
        exact ⟨h1.put _, at_put_self _ _ _⟩
    · rintro e d ⟨h1, h2⟩ (⟨n, h⟩ | h)
      · exact herr e n d h
      · unfold Holds at h2
        cases b <;> simp [h2] at h

/-- A run of a program ends in one of two ways. -/
theorem run_cases {α : Type} {P : Disk CObj → Prop} {c : Prog CObj α} {Q : α → Disk CObj → Prop} {R : PyErr → Disk CObj → Prop}
    (h : Hoare P c Q R) (s : Machine CObj) (hP : P s.disk) :
    (∃ a, (c s).1 = .ok a ∧ Q a (c s).2.disk) ∨ ∃ e, (c s).1 = .error e ∧ R e (c s).2.disk := by
  have := h s hP
  generalize c s = o at this ⊢
  obtain ⟨o, s'⟩ := o
  cases o with
  | ok a => exact .inl ⟨a, rfl, this⟩
  | error e => exact .inr ⟨e, rfl, this⟩

/-- **C122** for a backup that keeps what is put in, whichever calls fail: if no metadata can be read from a file or directory and the
backup has some, then either that is the answer, it is now written on the file or directory, and the backup still has it, or a call
failed and its exception is raised, and the backup still has it. -/
theorem C122_restored_partial (C : PEnv) {B : Backup σ} (hB : Keeps B) {q : Path} {d : Disk CObj} {b : Option Bytes} {mo : Option Meta} {m : Meta}
    {kept : σ} (hq : Holds d q b mo) (hw : Wiped mo) (hk : B.get kept q = .ok (some m)) (hm : metaBool m = true)
    (hF : ∀ n, C.F n ≠ some .noCachedMetadataError) (t : Nat) {r : Except PyErr (Option Meta)} {s : Machine CObj} {kept' : σ}
    (hrun : C.getMetaB B q (⟨d, t⟩, kept) = (r, (s, kept'))) :
    B.get kept' q = .ok (some m) ∧ (∀ p, p ≠ q → B.get kept' p = B.get kept p) ∧
      (r = .ok (some m) ∧ OnlyAt q d s.disk ∧ (∃ o, Holds s.disk q b o ∧ Over mo m o) ∨ ∃ n e, r = .error e ∧ C.F n = some e) := by
  have h1 := run_cases (getMeta_wiped C (R := fun e _ => ∃ n, C.F n = some e) hw (fun e n h => ⟨n, h⟩) hq) ⟨d, t⟩ rfl
  unfold PEnv.getMetaB BProg.bind BProg.lift at hrun
  dsimp only at hrun
  rcases h1 with ⟨a, ha, rfl, hd⟩ | ⟨e, ha, n, he⟩
  · rw [ha] at hrun
    dsimp only at hrun
    generalize (C.getMeta q ⟨d, t⟩).2 = s1 at hrun hd
    unfold BProg.catch_ BProg.ask at hrun
    dsimp only at hrun
    rw [hk] at hrun
    dsimp only at hrun
    rw [if_pos hm] at hrun
    unfold PEnv.setMetaB at hrun
    simp only [hm, Bool.not_true, Bool.false_eq_true, if_false] at hrun
    unfold BProg.bind BProg.lift at hrun
    dsimp only at hrun
    have h2 := run_cases (setMeta_holds C (q := q) (d0 := d) (b := b) (mo := mo) m hm (R := fun e _ => ∃ n, C.F n = some e) (fun e n _ h => ⟨n, h⟩)) s1
      ⟨hd ▸ OnlyAt.refl _ _, hd ▸ hq⟩
    rcases h2 with ⟨a, ha, h3, h4⟩ | ⟨e, ha, n, he⟩
    · rw [ha] at hrun
      dsimp only at hrun
      obtain ⟨k', hk'⟩ := hB.stores kept q m
      unfold BProg.store at hrun
      dsimp only at hrun
      rw [hk'] at hrun
      simp only [BProg.pure, Prod.mk.injEq] at hrun
      obtain ⟨rfl, rfl, rfl⟩ := hrun
      exact ⟨hB.own hk', fun p hp => hB.other hk' hp, .inl ⟨rfl, h3, _, h4, laid_get mo m⟩⟩
    · rw [ha] at hrun
      have hne : e ≠ .noCachedMetadataError := fun h => hF n (h ▸ he)
      simp only [if_neg hne, BProg.throw, Prod.mk.injEq] at hrun
      obtain ⟨rfl, rfl, rfl⟩ := hrun
      exact ⟨hk, fun _ _ => rfl, .inr ⟨n, e, rfl, he⟩⟩
  · rw [ha] at hrun
    simp only [Prod.mk.injEq] at hrun
    obtain ⟨rfl, rfl, rfl⟩ := hrun
    exact ⟨hk, fun _ _ => rfl, .inr ⟨n, e, rfl, he⟩⟩

/-- Setting metadata puts it in the backup. -/
theorem setMetaB_keeps (C : PEnv) {B : Backup σ} (hB : Keeps B) {q : Path} {m : Meta} (hm : metaBool m = true) {s s' : Machine CObj} {kept kept' : σ}
    (h : C.setMetaB B q (some m) (s, kept) = (.ok (), (s', kept'))) : B.get kept' q = .ok (some m) := by
  unfold PEnv.setMetaB at h
  simp only [hm, Bool.not_true, Bool.false_eq_true, if_false] at h
  unfold BProg.bind BProg.lift at h
  dsimp only at h
  cases hs : (C.setMeta q (some m) s).1 with
  | error e => simp [hs] at h
  | ok a =>
    rw [hs] at h
    obtain ⟨k', hk'⟩ := hB.stores kept q m
    simp only [BProg.store, hk', Prod.mk.injEq] at h
    obtain ⟨-, -, rfl⟩ := h
    exact hB.own hk'

/-- **C122** for a backup that keeps what is put in: metadata that was set is found, whatever became of the disk, as long as there is a
file or directory at the path; if its attributes were wiped they are written again. -/
theorem C122_wiped_partial (C : PEnv) {B : Backup σ} (hB : Keeps B) {q : Path} {m : Meta} (hm : metaBool m = true) {s s' : Machine CObj}
    {kept kept' : σ} (hset : C.setMetaB B q (some m) (s, kept) = (.ok (), (s', kept'))) (hF : ∀ n, C.F n = none)
    {d : Disk CObj} {b : Option Bytes} {mo : Option Meta} (hq : Holds d q b mo) (hw : Wiped mo) (t : Nat) :
    ∃ s2 k2 o, C.getMetaB B q (⟨d, t⟩, kept') = (.ok (some m), (s2, k2)) ∧ OnlyAt q d s2.disk ∧ Holds s2.disk q b o ∧ Over mo m o := by
  obtain ⟨-, -, h⟩ := C122_restored_partial C hB hq hw (setMetaB_keeps C hB hm hset) hm (by simp [hF]) t rfl
  rcases h with ⟨h1, h2, o, h3, h4⟩ | ⟨n, e, -, h⟩
  · exact ⟨_, _, o, Prod.ext h1 rfl, h2, h3, h4⟩
  · simp [hF] at h

/-- The backup is not asked where metadata can be read. -/
theorem C122_not_asked (C : PEnv) (B : Backup σ) {q : Path} {s : Machine CObj} {kept : σ} {m : Meta} (h : (C.getMeta q s).1 = .ok (some m)) :
    C.getMetaB B q (s, kept) = (.ok (some m), ((C.getMeta q s).2, kept)) := by
  simp [PEnv.getMetaB, BProg.bind, BProg.lift, h, BProg.pure]

/-- A backup that has nothing, or cannot find anything, changes nothing. -/
theorem C122_nothing_kept (C : PEnv) (B : Backup σ) {q : Path} {s : Machine CObj} {kept : σ}
    (h : B.get kept q = .ok none ∨ B.get kept q = .error .noCachedMetadataError ∨ ∃ m, B.get kept q = .ok (some m) ∧ metaBool m = false) :
    C.getMetaB B q (s, kept) = ((C.getMeta q s).1, ((C.getMeta q s).2, kept)) := by
  unfold PEnv.getMetaB BProg.bind BProg.lift
  dsimp only
  cases hr : (C.getMeta q s).1 with
  | error e => rfl
  | ok o =>
    cases o with
    | some m => rfl
    | none =>
      rcases h with h | h | ⟨m, h, hm⟩
      · simp [BProg.catch_, BProg.ask, h, BProg.pure]
      · simp [BProg.catch_, BProg.ask, h, BProg.pure]
      · simp [BProg.catch_, BProg.ask, h, BProg.pure, hm]

/-- **C122 is false** for the backup that `SshCache` has: what is set is not kept, not even by the object that
it is given to, and reading gives what there is without a backup. -/
theorem C122_sqlite_counterexample (C : PEnv) (q : Path) (s : Machine CObj) :
    C.getMetaB sqlite q (s, ()) = ((C.getMeta q s).1, ((C.getMeta q s).2, ())) ∧ ¬ Keeps sqlite ∧
      ∀ m, (sqliteNew (some m)).meta = none := by
  refine ⟨C122_nothing_kept C sqlite (.inl rfl), fun h => ?_, fun _ => rfl⟩
  have := h.own (s := ()) (q := []) (m := blank) (s' := ()) rfl
  simp [sqlite, sqliteNew, SqliteObj.meta] at this

/-- **C122**: reading is enough to write where nothing is: if a remote file is in the backup and its path was removed, a link is made
there by reading its metadata. -/
theorem C122_recreates_partial (C : PEnv) {B : Backup σ} (hB : Keeps B) {q : Path} {d : Disk CObj} {m : Meta} {kept : σ}
    (hq : d.at_ q = none) {mp : Option Meta} (hp : d.at_ q.dropLast = some (.dir mp)) (hr : C.remoteIsDir = false) (hk : B.get kept q = .ok (some m))
    (hm : metaBool m = true) (hF : ∀ n, C.F n = none) (t : Nat) :
    ∃ s k, C.getMetaB B q (⟨d, t⟩, kept) = (.ok (some m), (s, k)) ∧ OnlyAt q d s.disk ∧ s.disk.at_ q = some (.link (some m)) := by
  obtain ⟨k', hk'⟩ := hB.stores kept q m
  have hg : C.getMeta q ⟨d, t⟩ = (.ok none, ⟨d, t + 1⟩) := by simp [PEnv.getMeta, Prog.look, Prog.sys, hF, hq]
  have hc : d.create q (.link (some m)) = .ok (d.put q (.link (some m))) := by
    simp [Disk.create, hq, hp, Kinded.isDir]
  have hs : ∃ t', C.setMeta q (some m) ⟨d, t + 1⟩ = (.ok (), ⟨d.put q (.link (some m)), t'⟩) := by
    simp [PEnv.setMeta, hm, Prog.bind, Prog.look, Prog.sys, hF, PEnv.prepare, hr, there, hq, hp, Prog.pure, PEnv.setLink, Prog.act, hc]
  obtain ⟨t', hs⟩ := hs
  refine ⟨⟨d.put q (.link (some m)), t'⟩, k', ?_, (OnlyAt.refl q d).put _, at_put_self _ _ _⟩
  simp [PEnv.getMetaB, PEnv.setMetaB, BProg.bind, BProg.lift, hg, BProg.catch_, BProg.ask, hk, hm, hs, BProg.store, hk', BProg.pure]

/-- The hypotheses can be met: a backup that keeps everything, and a file whose attributes were wiped. -/
example : ∃ (B : Backup (Path → Option Meta)) (kept : Path → Option Meta) (m : Meta) (d : Disk CObj), Keeps B ∧ metaBool m = true ∧
    B.get kept [['f']] = .ok (some m) ∧ Holds d [['f']] (some [1]) none ∧ Wiped none ∧ d.at_ [['g']] = none ∧ d.at_ [] = some (.dir none) := by
  refine ⟨⟨fun s q => .ok (s q), fun s q m => .ok fun r => if r = q then some m else s r⟩, fun _ => some fun _ => .int 1, fun _ => .int 1,
    [([], .dir none), ([['f']], .file [1] none)], ⟨?_, ?_, ?_⟩, by decide, rfl, rfl, by simp [Wiped], rfl, rfl⟩
  · intro s q m
    exact ⟨_, rfl⟩
  · intro s q m s' h
    simp only [Except.ok.injEq] at h
    subst h
    simp
  · intro s q m s' r h hr
    simp only [Except.ok.injEq] at h
    subst h
    simp [hr]

end Verif.Cache
