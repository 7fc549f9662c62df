import Verif.Model.Primary

/-!
# Processes that fetch the same file at the same time

`fetch` (`augpathlib/caches.py` lines 867-930) as the sequence of the system calls that it makes on the path of the cache, so that the calls
of several processes can come in any order.  `Model/Primary` has the same functions for one process, with failing calls.

Simplified: the path is in a directory that stays, and there is never a directory at it; all attributes of a file are read in one call, and so
is its content; each chunk is written in one call; the file in the directory of objects and the api of the remote are left out.
-/

namespace Verif.Race
open Verif.Cache

/-! ## The file system -/

/-- What the name of the file stands for: nothing, a symlink with metadata, or a file. -/
inductive Entry where
  | none
  | link (m : Meta)
  | file (i : Nat)
  deriving DecidableEq

/-- The content and the extended attributes of a file. -/
structure Node where
  data : Bytes
  meta_ : Option Meta

/-- Files stay while a process has them open, so that they have numbers. -/
structure World where
  entry : Entry
  node : Nat → Node
  next : Nat

/-- A file that was opened, and where it is written next. -/
structure Handle where
  file : Nat
  off : Nat

/-- `b` written at an offset of `x`; a gap is filled with zeros. -/
def writeAt (x : Bytes) (o : Nat) (b : Bytes) : Bytes :=
  x.take o ++ List.replicate (o - x.length) 0 ++ b ++ x.drop (o + b.length)

/-! ## Processes -/

/-- How a fetch ends. -/
inductive Outcome where
  | returned
  | raised (e : PyErr)
  /-- there is no `file_id`: it goes on with `refresh` (caches.py 886-889) -/
  | refreshes
  deriving DecidableEq

/-- A process: the next call, and what is done with the answer. -/
inductive Proc where
  | ret (r : Outcome)
  /-- `stat` -/
  | exists_ (k : Bool → Proc)
  /-- `lstat` -/
  | isSymlink (k : Bool → Proc)
  /-- `listxattr`, `getxattr` -/
  | xattrs (k : Except PyErr (Option Meta) → Proc)
  | setxattr (f : Field) (v : PyVal) (k : Except PyErr Unit → Proc)
  | readlink (k : Except PyErr Meta → Proc)
  | unlink (k : Except PyErr Unit → Proc)
  /-- `rename` to another place -/
  | away (k : Except PyErr Unit → Proc)
  | utime (k : Bool → Proc)
  /-- `open` with `O_CREAT` -/
  | creat (k : Except PyErr Unit → Proc)
  | symlink (m : Meta) (k : Except PyErr Unit → Proc)
  /-- `open` with `O_CREAT` and `O_TRUNC` -/
  | openW (k : Except PyErr Handle → Proc)
  | write (h : Handle) (b : Bytes) (k : Handle → Proc)
  /-- `st_size` -/
  | size (k : Except PyErr Nat → Proc)
  | content (k : Except PyErr Bytes → Proc)

/-- The exception of a call that follows the link and finds no file. -/
def World.missing (w : World) : PyErr := match w.entry with | .link _ => .osError | _ => .fileNotFoundError

/-- The attributes of file `i` with one more. -/
def World.setField (w : World) (i : Nat) (f : Field) (v : PyVal) : World :=
  { w with node := fun j => if j = i then ⟨(w.node i).data, some (Verif.setField ((w.node i).meta_.getD blank) f v)⟩ else w.node j }

/-- Other content for file `i`. -/
def World.setData (w : World) (i : Nat) (b : Bytes) : World :=
  { w with node := fun j => if j = i then ⟨b, (w.node i).meta_⟩ else w.node j }

/-- A new, empty file. -/
def World.make (w : World) : World :=
  { entry := .file w.next, node := fun j => if j = w.next then ⟨[], none⟩ else w.node j, next := w.next + 1 }

/-- One call of a process. -/
def Proc.step (w : World) : Proc → World × Proc
  | .ret r => (w, .ret r)
  | .exists_ k => (w, k (match w.entry with | .file _ => true | _ => false))
  | .isSymlink k => (w, k (match w.entry with | .link _ => true | _ => false))
  | .xattrs k => (w, k (match w.entry with | .file i => .ok (w.node i).meta_ | _ => .error w.missing))
  | .setxattr f v k => match w.entry with
    | .file i => (w.setField i f v, k (.ok ()))
    | _ => (w, k (.error w.missing))
  | .readlink k => (w, k (match w.entry with | .link m => .ok m | .file _ => .error .osError | .none => .error .fileNotFoundError))
  | .unlink k => match w.entry with
    | .none => (w, k (.error .fileNotFoundError))
    | _ => ({ w with entry := .none }, k (.ok ()))
  | .away k => match w.entry with
    | .none => (w, k (.error .fileNotFoundError))
    | _ => ({ w with entry := .none }, k (.ok ()))
  | .utime k => (w, k (match w.entry with | .file _ => true | _ => false))
  | .creat k => match w.entry with
    | .none => (w.make, k (.ok ()))
    | .file _ => (w, k (.ok ()))
    | .link _ => (w, k (.error .osError))
  | .symlink m k => match w.entry with
    | .none => ({ w with entry := .link m }, k (.ok ()))
    | _ => (w, k (.error .fileExistsError))
  | .openW k => match w.entry with
    | .none => (w.make, k (.ok ⟨w.next, 0⟩))
    | .file i => (w.setData i [], k (.ok ⟨i, 0⟩))
    | .link _ => (w, k (.error .osError))
  | .write h b k => (w.setData h.file (writeAt (w.node h.file).data h.off b), k ⟨h.file, h.off + b.length⟩)
  | .size k => (w, k (match w.entry with | .file i => .ok (w.node i).data.length | _ => .error w.missing))
  | .content k => (w, k (match w.entry with | .file i => .ok (w.node i).data | _ => .error w.missing))

def Proc.ended : Proc → Bool
  | .ret _ => true
  | _ => false

/-! ## The library -/

/-- What a fetch depends on. -/
structure Env where
  /-- what `checksum` computes for a name -/
  cypher : PyVal → Except PyErr (Bytes → Bytes)
  /-- whether the metadata of a symlink is replaced by other metadata -/
  replace : Meta → Meta → Except PyErr Bool

/-- `SymlinkCache.meta` (caches.py 1147-1180) -/
def linkMeta (k : Except PyErr (Option Meta) → Proc) : Proc :=
  .isSymlink fun s => if s then
      .exists_ fun e => if e then k (.error .pathExistsError) else
      .readlink fun r => match r with | .ok m => k (.ok (some m)) | .error e => k (.error e)
    else k (.error .noCachedMetadataError)

/-- `PrimaryCache.meta` (caches.py 1282-1312) with `EatCache.meta` (1074-1079) -/
def readMeta (k : Except PyErr (Option Meta) → Proc) : Proc :=
  .exists_ fun e => if e then
      .exists_ fun e => if e then
          .xattrs fun r => match r with
            | .ok (some m) => k (.ok (if metaBool m then some m else none))
            | .ok none => k (.ok none)
            | .error e => k (.error e)
        else k (.ok none)
    else
      .isSymlink fun s => if s then
          linkMeta fun r => match r with
            | .error e => if e = .noCachedMetadataError then k (.ok none) else k (.error e)
            | .ok m => k (.ok m)
        else k (.ok none)

/-- `setxattrs` -/
def setAll (m : Meta) (k : Except PyErr Unit → Proc) : List Field → Proc
  | [] => k (.ok ())
  | f :: fs => .setxattr f (m f) fun r => match r with | .ok _ => setAll m k fs | .error e => k (.error e)

/-- `EatCache._meta_setter` (caches.py 1081-1101); what does not exist gets to `_CachePath._meta_setter` (772-782), which raises. -/
def eatSet (m : Meta) (k : Except PyErr Unit → Proc) : Proc :=
  .exists_ fun e => if e then
      .isSymlink fun s => if s then k (.error .typeError) else setAll m k (storedFields m)
    else k (.error .typeError)

/-- `crumple` (caches.py 151-169): the id is read (743-757), and the path is renamed; without an id it raises. -/
def crumple (k : Except PyErr Unit → Proc) : Proc :=
  readMeta fun r => match r with
    | .error e => k (.error e)
    | .ok none => k (.error .attributeError)
    | .ok (some _) => readMeta fun r => match r with
      | .error e => k (.error e)
      | .ok none => k (.error .attributeError)
      | .ok (some m) => if (idIn m).isNone then k (.error .attributeError) else .away k

/-- The setter of `SymlinkCache.meta` (caches.py 1184-1274) -/
def linkSet (E : Env) (m : Meta) (k : Except PyErr Unit → Proc) : Proc :=
  .exists_ fun e => if e then k (.error .pathExistsError) else
  .isSymlink fun s => if s then
      linkMeta fun r => match r with
        | .error e => k (.error e)
        | .ok none => k (.error .attributeError)
        | .ok (some old) => match E.replace old m with
          | .error e => k (.error e)
          | .ok false => k (.ok ())
          | .ok true => crumple fun r => match r with | .error e => k (.error e) | .ok _ => .symlink m k
    else .symlink m k

/-- `PrimaryCache._meta_setter` (caches.py 1314-1345), for a remote file -/
def setMeta (E : Env) (m : Meta) (k : Except PyErr Unit → Proc) : Proc :=
  let rest : Proc := .exists_ fun e => if e then eatSet m k else linkSet E m k
  if !metaBool m then k (.ok ())
  else .exists_ fun e => if e then .isSymlink fun s => if s then rest else eatSet m k else rest

/-- `touch` of `pathlib` -/
def touch (k : Except PyErr Unit → Proc) : Proc :=
  .utime fun b => if b then k (.ok ()) else .creat k

/-- `f.write` for each chunk -/
def writeAll (k : Proc) : List Bytes → Handle → Proc
  | [], _ => k
  | b :: bs, h => .write h b fun h => writeAll k bs h

/-- The end of a fetch (caches.py 912-927) -/
def checkSum (E : Env) (m : Meta) : Proc :=
  if marked m then .ret .returned
  else
    readMeta fun r => match r with
      | .error e => .ret (.raised e)
      | .ok none => .ret (.raised .attributeError)
      | .ok (some now) => match E.cypher (now .checksum_cypher) with
        | .error e => .ret (.raised e)
        | .ok h => .content fun r => match r with
          | .error e => .ret (.raised e)
          | .ok b => match m .checksum with
            | .none => .ret .returned
            | .bytes c =>
              if h b ≠ c then
                match m .errors with
                | .strs l => setMeta E (mark m l) fun r => match r with | .error e => .ret (.raised e) | .ok _ => .ret .returned
                | _ => .ret (.raised .typeError)
              else .ret .returned
            | _ => .ret (.raised .attributeError)

/-- The size (caches.py 907-911) -/
def checkSize (E : Env) (m : Meta) : Proc :=
  .size fun r => match r with
    | .error e => .ret (.raised e)
    | .ok n => if m .size = .int n then checkSum E m else .ret (.raised .valueError)

/-- The end of the setter of `LocalPath.data` (core.py 1393-1402): the metadata is looked at three times. -/
def afterData (k : Proc) : Proc :=
  readMeta fun r => match r with
    | .error e => .ret (.raised e)
    | .ok none => .ret (.raised .attributeError)
    | .ok (some _) => readMeta fun r => match r with
      | .error e => .ret (.raised e)
      | .ok none => .ret (.raised .assertionError)
      | .ok (some _) => readMeta fun r => match r with
        | .error e => .ret (.raised e)
        | .ok none => .ret (.raised .assertionError)
        | .ok (some _) => k

/-- The setter of `LocalPath.data` (core.py 1376-1402) and `_write_chunks_posix` (1365-1371) -/
def setData (cs : List Bytes) (k : Proc) : Proc :=
  readMeta fun r => match r with
    | .error e => .ret (.raised e)
    | .ok _ => match cs with
      | [] => .ret (.raised .stopIteration)
      | b :: bs => .openW fun r => match r with
        | .error e => .ret (.raised e)
        | .ok h => writeAll (afterData k) (b :: bs) h

/-- The id, for the log (caches.py 743-757, 903) -/
def readId (k : Proc) : Proc :=
  readMeta fun r => match r with
    | .error e => .ret (.raised e)
    | .ok none => k
    | .ok (some _) => readMeta fun r => match r with
      | .error e => .ret (.raised e)
      | .ok none => .ret (.raised .attributeError)
      | .ok (some _) => k

/-- Fetching the data (caches.py 901-927) -/
def download (E : Env) (cs : List Bytes) (m : Meta) : Proc := readId (setData cs (checkSize E m))

/-- The link is replaced by an empty file with the metadata (caches.py 895-899). -/
def makeFile (E : Env) (cs : List Bytes) (m : Meta) : Proc :=
  .unlink fun r => match r with
    | .error e => .ret (.raised e)
    | .ok _ => touch fun r => match r with
      | .error e => .ret (.raised e)
      | .ok _ => setMeta E m fun r => match r with
        | .error e => .ret (.raised e)
        | .ok _ => download E cs m

/-- `fetch` after the metadata was read (caches.py 886-927), without a limit -/
def fetchWith (E : Env) (cs : List Bytes) (m : Meta) : Proc :=
  if m .file_id = .none then .ret .refreshes
  else .isSymlink fun s => if s then
      .exists_ fun e => if e then download E cs m else makeFile E cs m
    else download E cs m

/-- `fetch(size_limit_mb=None)` (caches.py 867-930); `cs` is what the remote sends. -/
def fetch (E : Env) (cs : List Bytes) : Proc :=
  readMeta fun r => match r with
    | .error e => .ret (.raised e)
    | .ok none => .ret (.raised .noCachedMetadataError)
    | .ok (some m) => fetchWith E cs m

/-! ## Running -/

/-- Process `n` makes its next call; one that has ended does nothing. -/
def call (n : Nat) (w : World) (ps : Nat → Proc) : World × (Nat → Proc) :=
  (((ps n).step w).1, fun j => if j = n then ((ps n).step w).2 else ps j)

/-- The processes make calls in the given order. -/
def calls : List Nat → World → (Nat → Proc) → World × (Nat → Proc)
  | [], w, ps => (w, ps)
  | n :: ns, w, ps => calls ns (call n w ps).1 (call n w ps).2

end Verif.Race
