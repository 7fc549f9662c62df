import Verif.Model.Primary

/-!
# The backup of a primary cache

The parts of `PrimaryCache.meta` and `_meta_setter` (`augpathlib/caches.py` lines 1301-1312 and 1338-1339) that were left out of
`Model/Primary.lean`, for any backup, and `SqliteCache` (caches.py lines 1108-1129), which is the backup of `SshCache`
(caches.py line 1472).  Simplified: as in `Model/Primary.lean`.
-/

namespace Verif.Cache
open Verif.FS

/-- A kind of backup: what `self._backup_cache(self).meta` gives, and what `self._backup_cache(self, meta=pathmeta)` changes. -/
structure Backup (σ : Type) where
  get : σ → Path → Except PyErr (Option Meta)
  set : σ → Path → Meta → Except PyErr σ

/-- A program on a disk with a backup. -/
abbrev BProg (σ α : Type) := Machine CObj × σ → Except PyErr α × (Machine CObj × σ)

namespace BProg
variable {σ α β : Type}

def pure (a : α) : BProg σ α := fun s => (.ok a, s)

def throw (e : PyErr) : BProg σ α := fun s => (.error e, s)

def bind (m : BProg σ α) (f : α → BProg σ β) : BProg σ β := fun s =>
  match m s with
  | (.ok a, s') => f a s'
  | (.error e, s') => (.error e, s')

def catch_ (m : BProg σ α) (h : PyErr → BProg σ α) : BProg σ α := fun s =>
  match m s with
  | (.ok a, s') => (.ok a, s')
  | (.error e, s') => h e s'

/-- A program that does not touch the backup. -/
def lift (m : Prog CObj α) : BProg σ α := fun s => ((m s.1).1, ((m s.1).2, s.2))

/-- `self._backup_cache(self).meta` -/
def ask (B : Backup σ) (q : Path) : BProg σ (Option Meta) := fun s => (B.get s.2 q, s)

/-- `self._backup_cache(self, meta=pathmeta)` -/
def store (B : Backup σ) (q : Path) (m : Meta) : BProg σ Unit := fun s =>
  match B.set s.2 q m with
  | .ok b => (.ok (), (s.1, b))
  | .error e => (.error e, s)

end BProg

variable {σ : Type}

/-- `PrimaryCache._meta_setter` (caches.py 1314-1345) -/
def PEnv.setMetaB (C : PEnv) (B : Backup σ) (q : Path) : Option Meta → BProg σ Unit
  | none => .pure ()
  | some m =>
    if !metaBool m then .pure ()
    else .bind (.lift (C.setMeta q (some m))) fun _ => .store B q m

/-- `PrimaryCache.meta` (caches.py 1282-1312) -/
def PEnv.getMetaB (C : PEnv) (B : Backup σ) (q : Path) : BProg σ (Option Meta) :=
  .bind (.lift (C.getMeta q)) fun here =>
  match here with
  | some m => .pure (some m)
  | none =>
    .catch_ (.bind (.ask B q) fun kept =>
        match kept with
        | none => .pure none
        | some m => if metaBool m then .bind (C.setMetaB B q (some m)) fun _ => .pure (some m) else .pure none)
      fun e => if e = .noCachedMetadataError then .pure none else .throw e

/-! ## `SqliteCache` -/

/-- An object of `SqliteCache`: the attribute `_meta`, if there is one. -/
structure SqliteObj where
  meta_ : Option Meta

/-- The getter (caches.py 1118-1122) -/
def SqliteObj.meta (o : SqliteObj) : Option Meta := o.meta_

/-- The setter (caches.py 1125-1127), which does nothing -/
def SqliteObj.setMeta (o : SqliteObj) (_ : Meta) : SqliteObj := o

/-- `SqliteCache(path, meta=...)` (caches.py 1111-1116) -/
def sqliteNew (given : Option Meta) : SqliteObj :=
  match given with
  | none => ⟨none⟩
  | some m => SqliteObj.setMeta ⟨none⟩ m

/-- `SqliteCache` as a backup; nothing is kept anywhere. -/
def sqlite : Backup Unit := ⟨fun _ _ => .ok (sqliteNew none).meta, fun s _ m => match (sqliteNew (some m)).meta with | _ => .ok s⟩

end Verif.Cache
