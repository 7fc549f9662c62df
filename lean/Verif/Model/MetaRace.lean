import Verif.Model.Data

/-!
# Metadata of a file while other processes change it

`LocalPath._meta_maker` (`augpathlib/core.py` lines 1226-1300) with the checksum (lines 796-823) and the reads (lines 1342-1350) as
separate system calls, between which other processes may do anything to the path and to the file.

Simplified: no system call fails except because of what is at the path; the program `stat` (line 1236), which is asked if the function
`stat` finds nothing, gives what the function would give; one cypher.
-/

namespace Verif.MetaRace

/-- What an inode holds; `stamp` is `(st_ctime, st_mtime)`. -/
structure File (τ : Type) where
  dir : Bool
  content : Bytes
  stamp : τ

/-- What there is at each time: the inode that the path leads to, and every inode.  System calls are one unit of time apart. -/
structure World (τ : Type) where
  at_ : Nat → Option Nat
  ino : Nat → Nat → File τ

/-- The metadata. -/
structure Info (τ : Type) where
  size : Nat
  file_id : Nat
  stamp : τ
  sum : Option Bytes
  deriving DecidableEq

/-- What comes of asking for metadata; `gone` is the object with only a name and an id (core.py 1228-1231). -/
inductive Res (τ : Type) where
  | gone
  | info (m : Info τ)
  | raised (e : PyErr)
  deriving DecidableEq

/-- What a `LocalPath` object remembers: `__change_tuple` and `_meta`. -/
structure Memo (τ : Type) where
  tuple : Option τ
  last : Option (Info τ)

def Memo.new {τ : Type} : Memo τ := ⟨none, none⟩

variable {τ : Type} [DecidableEq τ]

/-- The `read` calls of `while True: data = f.read(self.chunksize)` (core.py 1344-1350) on an open file.  Python's buffer asks the system for
`sizes t` bytes at the time `t`, whatever the chunk size `n` is; a chunk is complete with `n` bytes or when the system has nothing;
`got` is what the chunk that is being put together has by now; a chunk of nothing ends it.  The result is all the bytes and the time;
`none` if there were more than `fuel` calls. -/
def readLoop (W : World τ) (sizes : Nat → Nat) (n i : Nat) : Nat → Nat → Nat → Nat → Option (Bytes × Nat)
  | 0, _, _, _ => none
  | fuel + 1, pos, got, t =>
    let c := ((W.ino t i).content.drop pos).take (sizes t)
    if c = [] then
      if got = 0 then some ([], t + 1) else readLoop W sizes n i fuel pos 0 (t + 1)
    else (readLoop W sizes n i fuel (pos + c.length) ((got + c.length) % n) (t + 1)).map fun r => (c ++ r.1, r.2)

/-- `checksum()` (core.py 796-823) from time `t` on: what it gives or raises, and when. -/
def checksum (W : World τ) (h : Bytes → Bytes) (sizes : Nat → Nat) (n fuel t : Nat) : Option (Except PyErr (Option Bytes) × Nat) :=
  match (W.at_ t).map fun i => (W.ino t i).dir with
  | none | some true => some (.ok none, t + 1)
  | some false =>
    match W.at_ (t + 1) with
    | none => some (.error .fileNotFoundError, t + 2)
    | some i =>
      if (W.ino (t + 1) i).dir then some (.error .isADirectoryError, t + 2)
      else (readLoop W sizes n i fuel 0 0 (t + 2)).map fun r => (.ok (some (h r.1)), r.2)

/-- `stat()`, and the program `stat` if there is nothing (core.py 1233-1236): the inode and when. -/
def lookup (W : World τ) (t : Nat) : Except PyErr Nat × Nat :=
  match W.at_ t with
  | some i => (.ok i, t)
  | none => match W.at_ (t + 1) with
    | some i => (.ok i, t + 1)
    | none => (.error .osError, t + 1)

/-- Lines 1250-1300, after `i` was found at `t`. -/
def fresh (W : World τ) (h : Bytes → Bytes) (sizes : Nat → Nat) (n fuel : Nat) (want : Bool) (memo : Memo τ) (i t : Nat) :
    Option (Res τ × Memo τ × Nat) :=
  let f := W.ino t i
  let memo := { memo with tuple := some f.stamp }
  (if want then checksum W h sizes n fuel (t + 1) else some (.ok none, t + 1)).map fun
    | (.error e, t') => (.raised e, memo, t')
    | (.ok c, t') => (.info ⟨f.content.length, i, f.stamp, c⟩, { memo with last := some ⟨f.content.length, i, f.stamp, c⟩ }, t')

/-- `_meta_maker(checksum=want)` (core.py 1226-1300) from time `t` on; `none` if it has not returned after `fuel` reads. -/
def ask (W : World τ) (h : Bytes → Bytes) (sizes : Nat → Nat) (n fuel : Nat) (want : Bool) (memo : Memo τ) (t : Nat) :
    Option (Res τ × Memo τ × Nat) :=
  match W.at_ t with
  | none => some (.gone, memo, t + 1)
  | some _ =>
    match lookup W (t + 1) with
    | (.error e, t) => some (.raised e, memo, t + 1)
    | (.ok i, t) =>
      match memo.last with
      | some m => if memo.tuple = some (W.ino t i).stamp then some (.info m, memo, t + 1) else fresh W h sizes n fuel want memo i t
      | none => fresh W h sizes n fuel want memo i t

/-- One object is asked again and again; each of `gaps` is the time that passes before it is asked, and whether for a checksum. -/
def asks (W : World τ) (h : Bytes → Bytes) (sizes : Nat → Nat) (n fuel : Nat) : List (Nat × Bool) → Memo τ → Nat → Option (Memo τ × Nat)
  | [], memo, t => some (memo, t)
  | (gap, want) :: gaps, memo, t => match ask W h sizes n fuel want memo (t + gap) with
    | none => none
    | some (_, memo, t) => asks W h sizes n fuel gaps memo t

end Verif.MetaRace
