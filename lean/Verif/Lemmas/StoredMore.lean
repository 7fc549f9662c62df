import Verif.Model.StoredMore
import Verif.Lemmas.Stored

/-!
# The encoded metadata does what the metadata does: updating from a remote, validating, making directories
-/

namespace Verif.Cache
open Verif.FS Verif.Xattrs Verif.Spec

variable (C : XEnv)

theorem parentId_sim (q : Path) : Sim (Holds C) (C.parentId q) (C.toPEnv.parentId q) fun _ => True := by
  unfold XEnv.parentId PEnv.parentId
  refine .bind_ (getMeta_sim C _) fun mo _ => ?_
  cases mo <;> exact .pure_ trivial

theorem home_sim (hp : ParsesIso C.env) (hr : Sim (Holds C) C.refreshX C.refresh fun _ => True) {r : RemoteView} (hn : KeepsAll r.info)
    (hd : IsName (nameOf r.dest)) : Sim (Holds C) (C.home r) (C.toPEnv.home r) fun t => t = r.dest := by
  unfold XEnv.home PEnv.home PEnv.makeChild
  exact .catch_ (.bind_ (metaUpdater_sim C hp hr hd hn true) fun _ _ => .pure_ rfl) fun e => .ite_ (fun _ => .throw_) fun _ => .throw_

theorem updateCache_sim (hp : ParsesIso C.env) (hr : Sim (Holds C) C.refreshX C.refresh fun _ => True) {parents : Prog XObj Unit}
    {parents' : Prog CObj Unit} (hpar : Sim (Holds C) parents parents' fun _ => True) {r : RemoteView} (hn : KeepsAll r.info)
    (hd : IsName (nameOf r.dest)) {own given : Option Path} (hq : ∀ q, given.or own = some q → IsName (nameOf q)) (fetch : Bool) :
    Sim (Holds C) (C.updateCache parents r own given fetch) (C.toPEnv.updateCache parents' r own given fetch) fun _ => True := by
  unfold XEnv.updateCache PEnv.updateCache
  refine .ite_ (fun _ => .throw_) fun _ => ?_
  cases h : given.or own with
  | none => exact .throw_
  | some q =>
    refine .bind_ (parentId_sim C q) fun i _ => .ite_ (fun _ => .throw_) fun _ => .ite_ (fun _ => .throw_) fun _ => ?_
    refine .bind_ (metaUpdater_sim C hp hr (hq q h) hn fetch) fun different _ => ?_
    refine .bind_ (Q := fun _ => True) (.ite_ (fun _ => ?_) fun _ => .pure_ trivial) fun _ _ => .pure_ trivial
    refine .bind_ (Q := fun _ => True) (.bind_ (home_sim C hp hr hn hd) fun t ht => ?_) fun _ _ => .pure_ trivial
    subst ht
    exact move_sim C hp hr hpar q hd (fun m h => by simp at h) true false

theorem validate_sim (etag : PyVal → Bytes → Except PyErr (Bytes × Int)) (q : Path) :
    Sim (Holds C) (C.validate etag q) (C.toPEnv.validate etag q) fun _ => True := by
  unfold XEnv.validate PEnv.validate
  refine .bind_ (getMeta_sim C q) fun mo _ => ?_
  cases mo with
  | none => exact .throw_
  | some m =>
    refine .ite_ (fun _ => ?_) fun _ => .ite_ (fun _ => ?_) fun _ => .ite_ (fun _ => .pure_ trivial) fun _ => ?_
    · refine .bind_ (Q := fun _ => True) (.look_ fun d a hd => ⟨?_, fun _ _ => trivial⟩) fun b _ => ?_
      · rw [dataAt_sim C hd q]
      cases unpackTwo (m .etag) with
      | ok _ => exact .pure_ trivial
      | error _ => exact .throw_
    · refine .bind_ (getMeta_sim C q) fun now _ => ?_
      cases now with
      | none => exact .throw_
      | some now =>
        dsimp only
        cases C.cypher (now .checksum_cypher) with
        | error e => exact .throw_
        | ok h =>
          refine .bind_ (Q := fun _ => True) (.look_ fun d a hd => ⟨by rw [dataAt_sim C hd q], fun _ _ => trivial⟩) fun b _ => ?_
          refine .bind_ (getMeta_sim C q) fun now _ => ?_
          cases now with
          | none => exact .throw_
          | some now => exact .ite_ (fun _ => .pure_ trivial) fun _ => .throw_
    · refine .bind_ (Q := fun _ => True) (.look_ fun d a hd => ⟨by rw [sizeAt_sim C hd q], fun _ _ => trivial⟩) fun b _ => ?_
      refine .bind_ (getMeta_sim C q) fun now _ => ?_
      cases now with
      | none => exact .throw_
      | some now => exact .ite_ (fun _ => .pure_ trivial) fun _ => .throw_

theorem bootstrapData_sim (hr : Sim (Holds C) C.refreshX C.refresh fun _ => True) (etag : PyVal → Bytes → Except PyErr (Bytes × Int))
    (q : Path) (sizeKnown : Bool) :
    Sim (Holds C) (C.bootstrapData etag q sizeKnown) (C.toPEnv.bootstrapData etag q sizeKnown) fun _ => True := by
  unfold XEnv.bootstrapData PEnv.bootstrapData
  exact .bind_ (Q := fun _ => True) (.ite_ (fun _ => .pure_ trivial) fun _ => hr) fun _ _ => .bind_ (setData_sim C q) fun _ _ => validate_sim C etag q

theorem cacheInit_sim (hp : ParsesIso C.env) (hr : Sim (Holds C) C.refreshX C.refresh fun _ => True) {q : Path} (hq : IsName (nameOf q))
    {m : Meta} (hm : KeepsAll m) : Sim (Holds C) (C.cacheInit q m) (C.toPEnv.cacheInit q m) fun _ => True := by
  unfold XEnv.cacheInit PEnv.cacheInit
  refine .bind_ (getMeta_sim C q) fun mo _ => .ite_ (fun _ => .throw_) fun _ => ?_
  refine .bind_ (look_sim C fun d a hd => there_sim C hd _) fun b _ => .ite_ (fun _ => .throw_) fun _ => ?_
  refine .ite_ (fun _ => .bind_ (getMeta_sim C q) fun _ _ => .throw_) fun _ => ?_
  exact .bind_ (metaUpdater_sim C hp hr hq hm true) fun _ _ => .pure_ trivial

theorem mkdirCacheOne_sim (hp : ParsesIso C.env) {q : Path} (hq : IsName (nameOf q)) {m : Meta} (hm : KeepsAll m) :
    Sim (Holds C) (C.mkdirCacheOne q m) (C.toPEnv.mkdirCacheOne q m) fun _ => True := by
  unfold XEnv.mkdirCacheOne PEnv.mkdirCacheOne
  refine .bind_ (look_sim C fun d a hd => there_sim C hd _) fun b _ => .ite_ (fun _ => .pure_ trivial) fun _ => ?_
  refine .bind_ (Q := fun _ => True) (.act_ (fun d a hd => hd.create (holds_kind C) _ (.dir (attrsHold_nil C))) trivial) fun _ _ => ?_
  exact setMeta_sim C hp hq fun m' h => by injection h with h; exact h ▸ hm

theorem mkdirCache_sim (hp : ParsesIso C.env) : ∀ {l : List (Path × Meta)}, (∀ x ∈ l, IsName (nameOf x.1) ∧ KeepsAll x.2) →
    Sim (Holds C) (C.mkdirCache l) (C.toPEnv.mkdirCache l) fun _ => True
  | [], _ => .pure_ trivial
  | x :: l, h => by
    have h1 := mkdirCacheOne_sim C hp (h x List.mem_cons_self).1 (h x List.mem_cons_self).2
    have h2 := mkdirCache_sim hp (l := l) fun y hy => h y (List.mem_cons_of_mem _ hy)
    unfold XEnv.mkdirCache PEnv.mkdirCache at h2 ⊢
    exact .bind_ h1 fun _ _ => h2

end Verif.Cache
