import Verif.Model.Etag

/-!
# Reading, writing, hashing file content

Models parts of `AugmentedPath` and `LocalPath` in `augpathlib/core.py`.  A file object opened for
reading is its content and a position; buffering is not modelled.
-/

namespace Verif.Data

/-- The generator `LocalPath.data` (core.py 1342-1350): the list of yielded chunks for a file whose
unread content is `rest`.  `n` is the class attribute `chunksize` (a natural number here). -/
def dataChunks (n : Nat) (rest : Bytes) : List Bytes :=
  let d := rest.take n
  if _h : d = [] then []
  else d :: dataChunks n (rest.drop n)
termination_by rest.length
decreasing_by
  have h1 : 0 < n ∧ rest ≠ [] := by
    simp only [d, List.take_eq_nil_iff, not_or] at _h
    exact ⟨by omega, _h.2⟩
  have := List.length_pos_iff.2 h1.2
  simp; omega

/-- `LocalPath.etag(chunksize)` (core.py 1517-1530) of a regular file: feed every chunk, then digest.
`readSize` is the class attribute `chunksize`, `n` the etag chunk size. -/
def fileEtag (H : Bytes → Bytes) (readSize n : Nat) (content : Bytes) : Option (Bytes × Nat) :=
  (Etag.feed H (Etag.init n) (dataChunks readSize content)).map fun s => (Etag.digest H s).2

/-! ## checksum -/

/-- Which cypher `checksum(cypher)` uses (core.py 802-811).  `dflt` is `default_cypher`,
`cacheCypher` is `self._cache_class.cypher` if both attributes exist, `selfCypher` is `self.cypher`
if it exists. -/
def pickCypher {κ : Type} [DecidableEq κ] (dflt : κ) (cacheCypher selfCypher : Option κ)
    (requested : κ) : κ :=
  if requested ≠ dflt then requested
  else
    match cacheCypher with
    | some c =>
      if c ≠ requested then c
      else match selfCypher with
        | some s => if s ≠ requested then s else requested
        | none => requested
    | none =>
      match selfCypher with
      | some s => if s ≠ requested then s else requested
      | none => requested

/-- What `checksum` returns: nothing for a non-file, one digest, or a tuple of digests. -/
inductive Checksum where
  | none
  | one (d : Bytes)
  | many (ds : List Bytes)
  deriving DecidableEq, Repr

/-- The body of `checksum` (core.py 813-823) after the cypher was chosen: hash objects are the
cypher and the bytes fed so far; every chunk is fed to the main and to every extra object. -/
def checksumLoop {κ : Type} (hash : κ → Bytes → Bytes) (cypher : κ) (extra : List κ)
    (chunks : List Bytes) : Checksum :=
  let init : Bytes × List (κ × Bytes) := ([], extra.map fun c => (c, []))
  let fin := chunks.foldl
    (fun st chunk => (st.1 ++ chunk, st.2.map fun e => (e.1, e.2 ++ chunk))) init
  if extra ≠ [] then .many (hash cypher fin.1 :: fin.2.map fun e => hash e.1 e.2)
  else .one (hash cypher fin.1)

/-- `checksum(cypher, extra_cyphers)` (core.py 796-823).  `file` is the content if `is_file()`. -/
def checksum {κ : Type} [DecidableEq κ] (hash : κ → Bytes → Bytes)
    (dflt : κ) (cacheCypher selfCypher : Option κ) (readSize : Nat)
    (file : Option Bytes) (requested : κ) (extra : List κ) : Checksum :=
  match file with
  | none => .none
  | some content =>
    checksumLoop hash (pickCypher dflt cacheCypher selfCypher requested) extra
      (dataChunks readSize content)

/-! ## ranged reads -/

/-- How a generator ends. -/
abbrev Gen (α : Type) := List α × Option PyErr

/-- `f.read(k)` at position `pos`: a negative `k` reads to the end. -/
def readAt (content : Bytes) (pos : Nat) (k : Int) : Bytes :=
  if k < 0 then content.drop pos else (content.drop pos).take k.toNat

/-- `f.seek(start, 2 if start < 0 else 0)` (core.py 1320): the new position, `none` for the `OSError`
of seeking before the start of the file. -/
def seek (content : Bytes) (start : Int) : Option Nat :=
  if start < 0 then
    if content.length + start < 0 then none else some (content.length + start).toNat
  else some start.toNat

/-- The reads of one bounded range (core.py 1329-1332): `nchunks` full reads, then one last read. -/
def readChunks (content : Bytes) (n : Nat) : Nat → Nat → Int → List Bytes
  | 0, pos, last => [readAt content pos last]
  | k + 1, pos, last =>
    let d := readAt content pos n
    d :: readChunks content n k (pos + d.length) last

/-- Lines 1322-1327, for a positive chunk size (python divides by zero with 0): the two local variables `nchunks` and `last_chunksize` after the comparison;
`none` means that they are still unbound.  When `total = chunksize` no branch is taken and the
variables keep the values of the previous range. -/
def splitTotal (n : Nat) (total : Int) (prev : Option (Nat × Int)) : Option (Nat × Int) :=
  if total < n then some (0, total)
  else if (n : Int) < total then some ((total / n).toNat, total % n)
  else prev

/-- The loop over the ranges in `LocalPath._data` (core.py 1319-1340).  `locals` are the python local
variables `nchunks, last_chunksize` left over from the previous range. -/
def rangesLoop (content : Bytes) (n : Nat) :
    Option (Nat × Int) → List (Int × Option Int) → Gen Bytes
  | _, [] => ([], none)
  | locals, (start, stop) :: rest =>
    match seek content start with
    | none => ([], some .osError)
    | some pos =>
      match stop with
      | some e =>
        match splitTotal n (e - start) locals with
        | none => ([], some .unboundLocalError)
        | some (k, last) =>
          let here := readChunks content n k pos last
          let r := rangesLoop content n (some (k, last)) rest
          (here ++ r.1, r.2)
      | none =>
        let here := dataChunks n (content.drop pos)
        let r := rangesLoop content n locals rest
        (here ++ r.1, r.2)

/-- `LocalPath._data(ranges, chunksize)` (core.py 1306-1340) on an existing file. -/
def dataRanges (content : Bytes) (n : Nat) (ranges : List (Int × Option Int)) : Gen Bytes :=
  rangesLoop content n none (if ranges = [] then [(0, none)] else ranges)

/-! ## writing from a stream -/

/-- A stream handed to a data setter: the chunks it yields and the exception it ends with, if any. -/
structure Stream where
  chunks : List Bytes
  err : Option PyErr
  deriving DecidableEq, Repr

/-- The exception of `next(generator)` on a stream that yields nothing. -/
def Stream.firstErr (g : Stream) : PyErr := g.err.getD .stopIteration

/-- `_write_chunks_posix` (core.py 1365-1371): the content of the file afterwards (`none`: the file
does not exist) and the exception, if any.  Opening for writing is assumed to succeed. -/
def writeChunksPosix (file : Option Bytes) (g : Stream) : Option Bytes × Option PyErr :=
  match g.chunks with
  | [] => (file, some g.firstErr)
  | chunk1 :: rest =>
    -- open(self, 'wb') truncates
    let opened : Bytes := []
    let written := rest.foldl (fun acc c => acc ++ c) (opened ++ chunk1)
    (some written, g.err)

/-- `_write_chunks_ntfs` (core.py 1352-1363): open for appending, then truncate. -/
def writeChunksNtfs (file : Option Bytes) (g : Stream) : Option Bytes × Option PyErr :=
  match g.chunks with
  | [] => (file, some g.firstErr)
  | chunk1 :: rest =>
    let opened : Bytes := file.getD []
    let truncated := opened.take 0
    let written := rest.foldl (fun acc c => acc ++ c) (truncated ++ chunk1)
    (some written, g.err)

/-- `_data_setter(generator, append)` (core.py 1404-1416), consumed for at most `k` values by the
caller: file afterwards, values passed on, exception.  An empty source makes `next` raise
`StopIteration` inside a generator, which python turns into `RuntimeError` (PEP 479). -/
def dataSetter (file : Option Bytes) (g : Stream) (append : Bool) (k : Nat) :
    Option Bytes × List Bytes × Option PyErr :=
  match k with
  | 0 => (file, [], none)
  | k + 1 =>
    match g.chunks with
    | [] => (file, [], some (if g.err = none then .runtimeError else g.firstErr))
    | chunk1 :: rest =>
      let opened : Bytes := if append then file.getD [] else []
      let taken := rest.take k
      -- the consumer asks for one value more than there are: the source ends
      let ended : Option PyErr := if rest.length < k then g.err else none
      (some (taken.foldl (fun acc c => acc ++ c) (opened ++ chunk1)), chunk1 :: taken, ended)

/-! ## memoised metadata -/

/-- One call of `_meta_maker(checksum=..., chunksize=...)` on an existing regular file: the times `(st_ctime, st_mtime)` that
`stat` gives, what computing the checksum gives, whether it is asked for, and whether a chunk size is given. -/
structure Request (τ : Type) where
  ct : τ
  sum : Except PyErr Bytes
  wantChecksum : Bool
  chunked : Bool

/-- The part of the returned metadata that depends on these: the times (lines 1263-1264) and the checksum. -/
abbrev Meta (τ : Type) := τ × Option Bytes

/-- What a `LocalPath` object remembers: `__change_tuple` and `_meta` (`none` before the first call). -/
structure Memo (τ : Type) where
  tuple : Option τ
  last : Option (Meta τ)
  deriving DecidableEq

/-- A new object. -/
def Memo.new {τ : Type} : Memo τ := ⟨none, none⟩

/-- Lines 1250-1300.  The change tuple is stored first; the checksum may raise, and with a chunk size `self.etag()` lacks its
argument (line 1288). -/
def metaFresh {τ : Type} (memo : Memo τ) (r : Request τ) : Memo τ × Except PyErr (Meta τ) :=
  let memo := { memo with tuple := some r.ct }
  let sum : Except PyErr (Option Bytes) := if r.wantChecksum then r.sum.map some else .ok none
  match sum with
  | .error e => (memo, .error e)
  | .ok c =>
    if r.chunked then (memo, .error .typeError)
    else ({ memo with last := some (r.ct, c) }, .ok (r.ct, c))

/-- `LocalPath._meta_maker` (core.py 1226-1300) on an existing regular file.  All other fields of the returned metadata are
left out. -/
def metaMaker {τ : Type} [DecidableEq τ] (memo : Memo τ) (r : Request τ) : Memo τ × Except PyErr (Meta τ) :=
  match memo.last with
  | some m => if memo.tuple = some r.ct then (memo, .ok m) else metaFresh memo r
  | none => metaFresh memo r

/-- `LocalPath.created` (core.py 1188-1190): the statement has no `return`, so that what comes back is `None`.  `now` is the request
that `self.meta` makes. -/
def created {τ : Type} [DecidableEq τ] (memo : Memo τ) (now : Request τ) : Memo τ × Except PyErr (Option τ) :=
  match metaMaker memo { now with wantChecksum := true, chunked := false } with
  | (memo, .error e) => (memo, .error e)
  | (memo, .ok _) => (memo, .ok none)

/-- The memo after a history of requests. -/
def metaHistory {τ : Type} [DecidableEq τ] (memo : Memo τ) : List (Request τ) → Memo τ
  | [] => memo
  | r :: rs => metaHistory (metaMaker memo r).1 rs

end Verif.Data
