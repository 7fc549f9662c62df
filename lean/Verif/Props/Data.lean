import Verif.Lemmas.Decide
import Verif.Lemmas.Data
import Verif.Lemmas.Etag

/-!
# C05 – C09, C11: reading, hashing and writing file content
-/

namespace Verif.Data
open Verif.Spec

/-! ## C05 -/

/-- **C05.**  The checksum of a regular file is the one-shot hash of its content under the cypher in
use, whatever the read size; every extra value is the one-shot hash of the same content under the
corresponding extra cypher. -/
theorem C05_checksum_is_hash_of_content {κ : Type} [DecidableEq κ] (hash : κ → Bytes → Bytes)
    (dflt : κ) (cacheCypher selfCypher : Option κ) (readSize : Nat) (hr : 0 < readSize)
    (content : Bytes) (requested : κ) (extra : List κ) :
    checksum hash dflt cacheCypher selfCypher readSize (some content) requested extra =
      let main := hash (pickCypher dflt cacheCypher selfCypher requested) content
      match extra with
      | [] => .one main
      | _ :: _ => .many (main :: extra.map fun c => hash c content) := by
  simp only [checksum, checksumLoop, foldl_hash, dataChunks_flatten readSize hr]
  cases extra <;> simp [Function.comp_def]

/-- **C05**, corollary: the read size does not matter. -/
theorem C05_checksum_read_size_irrelevant {κ : Type} [DecidableEq κ] (hash : κ → Bytes → Bytes)
    (dflt : κ) (cacheCypher selfCypher : Option κ) (r r' : Nat) (hr : 0 < r) (hr' : 0 < r')
    (file : Option Bytes) (requested : κ) (extra : List κ) :
    checksum hash dflt cacheCypher selfCypher r file requested extra =
      checksum hash dflt cacheCypher selfCypher r' file requested extra := by
  cases file with
  | none => rfl
  | some content =>
    rw [C05_checksum_is_hash_of_content _ _ _ _ _ hr, C05_checksum_is_hash_of_content _ _ _ _ _ hr']

/-- **C05**, the etag of a file does not depend on the read size either. -/
theorem C05_file_etag (H : Bytes → Bytes) (readSize n : Nat) (hr : 0 < readSize) (hn : 0 < n)
    (content : Bytes) :
    ∃ r, fileEtag H readSize n content = some r ∧ IsEtag H n content r := by
  obtain ⟨s, h1, h2, h3⟩ := Etag.feed_inv H (dataChunks readSize content) (Etag.init n) []
    (Etag.init_inv H n hn)
  refine ⟨(Etag.digest H s).2, by simp [fileEtag, h1], ?_⟩
  have := Etag.digest_isEtag H s _ h3
  rw [h2] at this
  simpa [Etag.init, dataChunks_flatten readSize hr] using this

example : checksum (fun (c : Nat) b => UInt8.ofNat c :: b.take 3) 0 none none 2
    (some [1, 2, 3, 4, 5]) 0 [7] = .many [[0, 1, 2, 3], [7, 1, 2, 3]] := by decide +kernel

/-! ## C06 -/

/-- **C06 is false**: if the cache class of the path has a cypher other than the library default,
a request that names the library default is hashed with the cypher of the cache class instead. -/
theorem C06_requested_cypher_counterexample {κ : Type} [DecidableEq κ] (dflt c : κ) (h : c ≠ dflt)
    (selfCypher : Option κ) :
    pickCypher dflt (some c) selfCypher dflt ≠ dflt := by
  simp [pickCypher, h]

/-- **C06**, exactly when it holds: the requested cypher is used if and only if it is not the library
default, or neither the cache class nor the path itself prescribes another cypher. -/
theorem C06_requested_cypher_partial {κ : Type} [DecidableEq κ] (dflt : κ)
    (cacheCypher selfCypher : Option κ) (requested : κ) :
    pickCypher dflt cacheCypher selfCypher requested = requested ↔
      requested ≠ dflt ∨
        ((∀ c, cacheCypher = some c → c = dflt) ∧ (∀ c, selfCypher = some c → c = dflt)) := by
  unfold pickCypher
  by_cases h : requested = dflt
  · subst h
    cases cacheCypher with
    | none => cases selfCypher with
      | none => simp
      | some s => by_cases hs : s = requested <;> simp [hs]
    | some c =>
      by_cases hc : c = requested
      · cases selfCypher with
        | none => simp [hc]
        | some s => by_cases hs : s = requested <;> simp [hc, hs]
      · simp [hc]
  · simp [h]

/-- Consequence: a file whose recorded checksum was made with the default cypher is hashed with the
wrong function when it is validated (`validate_file` passes the recorded cypher explicitly), so that
a correct file is reported as damaged. -/
theorem C06_validation_counterexample :
    ∃ (hash : Bool → Bytes → Bytes) (content recorded : Bytes),
      recorded = hash false content ∧
      checksum hash false (some true) none 4096 (some content) false [] ≠ .one recorded :=
  ⟨fun c b => if c then 1 :: b else 0 :: b, [5], [0, 5], by decide, by decide +kernel⟩

example : pickCypher (κ := Nat) 0 (some 1) none 1 = 1 := by decide

/-! ## C07 -/

/-- **C07.**  The chunks of `data` concatenate to the content, and each is non-empty and at most as
long as the chunk size. -/
theorem C07_data_yields_content (n : Nat) (hn : 0 < n) (content : Bytes) :
    (dataChunks n content).flatten = content ∧
      ∀ c ∈ dataChunks n content, 0 < c.length ∧ c.length ≤ n :=
  ⟨dataChunks_flatten n hn content, dataChunks_bounds n content⟩

example : dataChunks 2 [1, 2, 3] = [[1, 2], [3]] := by decide +kernel

/-! ## C08 -/

/-- **C08 is false**: a range exactly as long as the chunk size raises instead of yielding data. -/
theorem C08_ranges_counterexample (content : Bytes) (n : Nat) :
    dataRanges content n [(0, some (n : Int))] = ([], some .unboundLocalError) := by
  simp [dataRanges, rangesLoop, seek, splitTotal]

/-- **C08 is false**, second way: after another range the same request silently returns the wrong
bytes, because the read plan of the previous range is reused. -/
theorem C08_ranges_stale_counterexample :
    ∃ content, ValidRange content 0 (some 1) ∧ ValidRange content 0 (some 2) ∧
      (dataRanges content 2 [(0, some 1), (0, some 2)]).2 = none ∧
      (dataRanges content 2 [(0, some 1), (0, some 2)]).1.flatten ≠
        slice content 0 (some 1) ++ slice content 0 (some 2) :=
  ⟨[1, 2, 3], by simp [ValidRange], by simp [ValidRange], by decide, by decide⟩

/-- **C08 is false** for reversed ranges too: instead of nothing they yield the rest of the file. -/
theorem C08_reversed_range_counterexample :
    (dataRanges [1, 2, 3, 4] 8 [(2, some 1)]).1.flatten ≠ slice [1, 2, 3, 4] 2 (some 1) := by
  decide

/-- **C08**, the part that holds: valid ranges, none of them exactly one chunk long, yield exactly
the requested slices and no error.  Missing: ranges of exactly the chunk size. -/
theorem C08_ranges_partial (content : Bytes) (n : Nat) (hn : 0 < n)
    (ranges : List (Int × Option Int)) (hne : ranges ≠ [])
    (hv : ∀ r ∈ ranges, ValidRange content r.1 r.2)
    (hlen : ∀ r ∈ ranges, ∀ e, r.2 = some e → e - r.1 ≠ n) :
    (dataRanges content n ranges).1.flatten =
        (ranges.map fun r => slice content r.1 r.2).flatten ∧
      (dataRanges content n ranges).2 = none := by
  simpa [dataRanges, hne] using rangesLoop_spec content n hn ranges none hv hlen

/-- What the ranges really yield: a range that is exactly one chunk long gets the length of the latest bounded range before it that
is not, and raises if there is none. -/
def rangesLaw (content : Bytes) (n : Nat) : Option Int → List (Int × Option Int) → List Bytes × Option PyErr
  | _, [] => ([], none)
  | prev, (start, none) :: rest =>
    let r := rangesLaw content n prev rest
    (slice content start none :: r.1, r.2)
  | prev, (start, some e) :: rest =>
    if e - start ≠ n then
      let r := rangesLaw content n (some (e - start)) rest
      (slice content start (some e) :: r.1, r.2)
    else match prev with
      | none => ([], some .unboundLocalError)
      | some m =>
        let r := rangesLaw content n prev rest
        ((content.drop (normIndex content.length start)).take m.toNat :: r.1, r.2)

/-- **C08**, what happens for all valid ranges, also those for which the claim is false. -/
theorem C08_law (content : Bytes) (n : Nat) (hn : 0 < n) (ranges : List (Int × Option Int)) (hne : ranges ≠ [])
    (hv : ∀ r ∈ ranges, ValidRange content r.1 r.2) :
    (dataRanges content n ranges).1.flatten = (rangesLaw content n none ranges).1.flatten ∧
    (dataRanges content n ranges).2 = (rangesLaw content n none ranges).2 := by
  have plan : ∀ m : Int, 0 ≤ m → m ≠ n → ∀ l, ∃ k last, splitTotal n m l = some (k, last) ∧
      ∀ pos, (readChunks content n k pos last).flatten = (content.drop pos).take m.toNat := by
    intro m h0 hm l
    by_cases hlt : m < n
    · exact ⟨0, m, by simp [splitTotal, hlt], fun pos => by simpa using readChunks_flatten content n 0 m h0 pos⟩
    · refine ⟨(m / n).toNat, m % n, ?_, fun pos => ?_⟩
      · simp only [splitTotal, hlt, if_false]
        rw [if_pos (by omega)]
      · have hmod : 0 ≤ m % n := Int.emod_nonneg _ (by omega)
        have hr := readChunks_flatten content n (m / n).toNat (m % n) hmod pos
        have htot : (m / n).toNat * n + (m % n).toNat = m.toNat := by
          have h1 := Int.mul_ediv_add_emod m n
          have h2 : 0 ≤ m / n := Int.ediv_nonneg (by omega) (by omega)
          have h3 : ((m / n).toNat : Int) = m / n := Int.toNat_of_nonneg h2
          have h4 : ((m % n).toNat : Int) = m % n := Int.toNat_of_nonneg hmod
          have h5 : (((m / n).toNat * n + (m % n).toNat : Nat) : Int) = m := by
            rw [Int.natCast_add, Int.natCast_mul, h3, h4, Int.mul_comm]; exact h1
          omega
        rw [hr, htot]
  have key : ∀ (ranges : List (Int × Option Int)) (prev : Option Int) (locals : Option (Nat × Int)),
      (∀ r ∈ ranges, ValidRange content r.1 r.2) →
      (prev = none → locals = none) →
      (∀ m, prev = some m → ∃ k last, locals = some (k, last) ∧
        ∀ pos, (readChunks content n k pos last).flatten = (content.drop pos).take m.toNat) →
      (rangesLoop content n locals ranges).1.flatten = (rangesLaw content n prev ranges).1.flatten ∧
      (rangesLoop content n locals ranges).2 = (rangesLaw content n prev ranges).2 := by
    intro ranges
    induction ranges with
    | nil => intro prev locals _ _ _; exact ⟨rfl, rfl⟩
    | cons r rest ih =>
      intro prev locals hv hp1 hp2
      obtain ⟨start, stop⟩ := r
      have hv0 := hv (start, stop) (by simp)
      have hv' : ∀ r ∈ rest, ValidRange content r.1 r.2 := fun r hr => hv r (by simp [hr])
      have hseek : seek content start = some (normIndex content.length start) := by
        have := hv0.1
        simp only [seek, normIndex]
        split
        · rw [if_neg (by simp at this; omega)]
        · rfl
      unfold rangesLoop rangesLaw
      rw [hseek]
      cases stop with
      | none =>
        have := ih prev locals hv' hp1 hp2
        exact ⟨by simp [slice, dataChunks_flatten n hn, this.1], this.2⟩
      | some e =>
        have hv1 := hv0.2
        simp only at hv1
        have hlen : normIndex content.length e - normIndex content.length start = (e - start).toNat := by
          have := hv0.1
          simp only at this
          simp only [normIndex]
          split <;> split <;> omega
        dsimp only
        by_cases hm : e - start = n
        · rw [if_neg (by simp [hm])]
          have hs : splitTotal n (e - start) locals = locals := by simp [splitTotal, hm]
          rw [hs]
          cases prev with
          | none => rw [hp1 rfl]; exact ⟨rfl, rfl⟩
          | some m =>
            obtain ⟨k, last, e1, e2⟩ := hp2 m rfl
            have := ih (some m) locals hv' hp1 hp2
            rw [e1] at this ⊢
            exact ⟨by simp [e2, this.1], this.2⟩
        · rw [if_pos hm]
          obtain ⟨k, last, e1, e2⟩ := plan (e - start) (by omega) hm locals
          rw [e1]
          have := ih (some (e - start)) (some (k, last)) hv' (by simp) (by
            intro m h; cases h; exact ⟨k, last, rfl, e2⟩)
          exact ⟨by simp [e2, this.1, slice, hlen], this.2⟩
  have := key ranges none none hv (fun _ => rfl) (by simp)
  simpa [dataRanges, hne] using this

example : (dataRanges [1, 2, 3, 4, 5] 2 [(0, some 1), (1, some 3), (0, some 3), (1, some 3)]).1.flatten = [1, 2, 1, 2, 3, 2, 3, 4] ∧
    (rangesLaw [1, 2, 3, 4, 5] 2 none [(0, some 1), (1, some 3), (0, some 3), (1, some 3)]).1 = [[1], [2], [1, 2, 3], [2, 3, 4]] := by
  decide +kernel

/-- **C08**, no ranges: the whole file. -/
theorem C08_no_ranges (content : Bytes) (n : Nat) (hn : 0 < n) :
    (dataRanges content n []).1.flatten = content ∧ (dataRanges content n []).2 = none := by
  have := rangesLoop_spec content n hn [(0, none)] none (by simp [ValidRange]) (by simp)
  simpa [dataRanges, slice, normIndex] using this

example : (dataRanges [1, 2, 3, 4, 5] 2 [(1, some 4), (-2, none), (0, some 1)]).1.flatten =
    [2, 3, 4, 4, 5, 1] := by decide +kernel

example : ∀ r ∈ [((1 : Int), some (4 : Int)), (-2, none), (0, some 1)],
    ValidRange [1, 2, 3, 4, 5] r.1 r.2 ∧ ∀ e, r.2 = some e → e - r.1 ≠ ((2 : Nat) : Int) := by
  simp [ValidRange]

/-! ## C09 -/

/-- **C09.**  If the stream fails before its first chunk the file is untouched and the error
propagates. -/
theorem C09_write_fails_before_first_chunk (file : Option Bytes) (e : PyErr) :
    writeChunksPosix file ⟨[], some e⟩ = (file, some e) := rfl

/-- **C09.**  If the stream delivers at least one chunk, the file afterwards holds exactly the
delivered chunks, and the error (if the stream ended with one) propagates. -/
theorem C09_write_delivers (file : Option Bytes) (g : Stream) (h : g.chunks ≠ []) :
    writeChunksPosix file g = (some g.chunks.flatten, g.err) := by
  obtain ⟨chunks, err⟩ := g
  cases chunks with
  | nil => simp at h
  | cons c cs => simp [writeChunksPosix, foldl_append]

/-- **C09 is false** for a stream that ends normally without any chunk: writing it raises and leaves
the old content instead of making the file empty. -/
theorem C09_empty_stream_counterexample (old : Bytes) (h : old ≠ []) :
    (writeChunksPosix (some old) ⟨[], none⟩).2 = some .stopIteration ∧
      (writeChunksPosix (some old) ⟨[], none⟩).1 ≠ some ([] : List Bytes).flatten := by
  simpa [writeChunksPosix, Stream.firstErr] using h

/-- **C09**, all cases in one statement for streams with at least one chunk or an error. -/
theorem C09_write_stream_partial (file : Option Bytes) (g : Stream)
    (h : g.chunks ≠ [] ∨ g.err ≠ none) :
    (g.err = none → writeChunksPosix file g = (some g.chunks.flatten, none)) ∧
    (∀ e, g.err = some e → (writeChunksPosix file g).2 = some e ∧
      (writeChunksPosix file g).1 = if g.chunks = [] then file else some g.chunks.flatten) := by
  obtain ⟨chunks, err⟩ := g
  by_cases hc : chunks = []
  · subst hc
    cases err with
    | none => simp at h
    | some e => simp [writeChunksPosix, Stream.firstErr]
  · have := C09_write_delivers file ⟨chunks, err⟩ hc
    simp only [this]
    refine ⟨by rintro rfl; rfl, ?_⟩
    rintro e rfl
    simp [hc]

/-- The windows writer has the same effect. -/
theorem C09_ntfs_same (file : Option Bytes) (g : Stream) :
    writeChunksNtfs file g = writeChunksPosix file g := by
  obtain ⟨chunks, err⟩ := g
  cases chunks <;> simp [writeChunksNtfs, writeChunksPosix]

/-- **C09** for the chained setter: whatever part of it the consumer takes, the values passed on are
the first chunks of the stream, and the file holds exactly the values passed on (after the old
content when appending). -/
theorem C09_chained_setter (file : Option Bytes) (g : Stream) (append : Bool) (k : Nat)
    (hk : 0 < k) (h : g.chunks ≠ []) :
    dataSetter file g append k =
      (some ((if append then file.getD [] else []) ++ (g.chunks.take k).flatten),
        g.chunks.take k,
        if g.chunks.length < k then g.err else none) := by
  obtain ⟨chunks, err⟩ := g
  cases chunks with
  | nil => simp at h
  | cons c cs =>
    obtain ⟨k, rfl⟩ : ∃ k', k = k' + 1 := ⟨k - 1, by omega⟩
    simp [dataSetter, foldl_append]

/-- A source that yields nothing: the file is not touched, nothing is passed on, and the consumer gets the exception of the source, or
`RuntimeError` if the source just ends. -/
theorem C09_chained_empty (file : Option Bytes) (e : Option PyErr) (append : Bool) (k : Nat) (hk : 0 < k) :
    dataSetter file ⟨[], e⟩ append k = (file, [], some (e.getD .runtimeError)) := by
  obtain ⟨k, rfl⟩ : ∃ k', k = k' + 1 := ⟨k - 1, by omega⟩
  cases e <;> simp [dataSetter, Stream.firstErr]

example : writeChunksPosix (some [9]) ⟨[[1], [2]], some .foreign⟩ = (some [1, 2], some .foreign) := by
  decide
example : dataSetter (some [9]) ⟨[[1], [2], [3]], none⟩ true 2 = (some [9, 1, 2], [[1], [2]], none) := by
  decide

/-! ## C11 -/

/-- What a request has to give, whatever was asked before: the times of the file as it is now, and the checksum exactly if it
was asked for.  It raises what computing the checksum raises, and `TypeError` if it names a chunk size. -/
def Request.due {τ : Type} (r : Request τ) : Except PyErr (Meta τ) :=
  match r.wantChecksum, r.sum, r.chunked with
  | true, .error e, _ => .error e
  | _, _, true => .error .typeError
  | true, .ok b, false => .ok (r.ct, some b)
  | false, _, false => .ok (r.ct, none)

/-- **C11 is false**: asking for metadata without checksum first and then for full metadata of the
unchanged file returns metadata without a checksum. -/
theorem C11_stale_request_counterexample {τ : Type} [DecidableEq τ] (ct : τ) (sum : Bytes) :
    (metaMaker (metaHistory .new [⟨ct, .ok sum, false, false⟩]) ⟨ct, .ok sum, true, false⟩).2 = .ok (ct, none) := by
  simp [metaHistory, metaMaker, metaFresh, Memo.new]

/-- **C11 is false** for `created`: it never is the time when the file was created, whatever that is, whatever was asked before. -/
theorem C11_created_counterexample {τ : Type} [DecidableEq τ] (memo : Memo τ) (r : Request τ) (t : τ) :
    (created memo r).2 ≠ .ok (some t) := by
  unfold created
  split <;> simp

example : (created .new (⟨7, .ok [1], true, false⟩ : Request Nat)).2 = .ok none := rfl

/-- **C11 is false** in the other direction as well: a request without checksum returns one. -/
theorem C11_stale_request_counterexample2 {τ : Type} [DecidableEq τ] (ct : τ) (sum : Bytes) :
    (metaMaker (metaHistory .new [⟨ct, .ok sum, true, false⟩]) ⟨ct, .ok sum, false, false⟩).2 = .ok (ct, some sum) := by
  simp [metaHistory, metaMaker, metaFresh, Memo.new, Except.map]

/-- **C11 is false** after a request that raised: the file has changed, one request names a chunk size and raises, and from then on
the metadata of the old file is returned for the new one, its old checksum included. -/
theorem C11_raised_counterexample {τ : Type} [DecidableEq τ] (old new : τ) (h : old ≠ new) (sum sum' : Bytes) (n : Nat) :
    (metaMaker (metaHistory .new ([⟨old, .ok sum, true, false⟩, ⟨new, .ok sum', true, true⟩] ++
      List.replicate n ⟨new, .ok sum', true, false⟩)) ⟨new, .ok sum', true, false⟩).2 = .ok (old, some sum) := by
  have hrep : ∀ n, metaHistory (⟨some new, some (old, some sum)⟩ : Memo τ) (List.replicate n ⟨new, .ok sum', true, false⟩) =
      ⟨some new, some (old, some sum)⟩ := by
    intro n
    induction n with
    | zero => rfl
    | succ n ih =>
      rw [List.replicate_succ]
      simp only [metaHistory, metaMaker, if_true]
      exact ih
  have h2 : (metaHistory (.new : Memo τ) ([⟨old, .ok sum, true, false⟩, ⟨new, .ok sum', true, true⟩] ++
      List.replicate n ⟨new, .ok sum', true, false⟩)) = ⟨some new, some (old, some sum)⟩ := by
    simp only [List.cons_append, List.nil_append, metaHistory]
    have : (metaMaker (metaMaker (.new : Memo τ) ⟨old, .ok sum, true, false⟩).1 ⟨new, .ok sum', true, true⟩).1 =
        ⟨some new, some (old, some sum)⟩ := by
      simp [metaMaker, metaFresh, Memo.new, Except.map, h]
    rw [this, hrep]
  rw [h2]
  simp [metaMaker]

theorem metaFresh_due {τ : Type} (memo : Memo τ) (r : Request τ) :
    metaFresh memo r = (⟨some r.ct, match r.due with | .ok m => some m | .error _ => memo.last⟩, r.due) := by
  obtain ⟨ct, sum, want, chunked⟩ := r
  cases want <;> cases sum <;> cases chunked <;> simp [metaFresh, Request.due, Except.map]

theorem metaHistory_append {τ : Type} [DecidableEq τ] (a b : List (Request τ)) : ∀ m : Memo τ,
    metaHistory m (a ++ b) = metaHistory (metaHistory m a) b := by
  induction a with
  | nil => intro m; rfl
  | cons x xs ih => intro m; simp only [List.cons_append, metaHistory]; exact ih _

/-- The tuple is that of the last request. -/
theorem metaMaker_tuple {τ : Type} [DecidableEq τ] (memo : Memo τ) (r : Request τ) : (metaMaker memo r).1.tuple = some r.ct := by
  unfold metaMaker
  split
  · split
    · assumption
    · rw [metaFresh_due]
  · rw [metaFresh_due]

theorem metaHistory_tuple {τ : Type} [DecidableEq τ] (l : List (Request τ)) :
    (metaHistory (.new : Memo τ) l).tuple = l.getLast?.map Request.ct := by
  rcases l.eq_nil_or_concat with rfl | ⟨l, r, rfl⟩
  · rfl
  · rw [List.concat_eq_append, metaHistory_append]
    simp only [metaHistory, metaMaker_tuple]
    simp

/-- **C11**, the part that holds: if every earlier request that saw the same times asked for the same, the answer is what is due,
whatever other requests raised.  Missing: mixed requests for the same times, among them such as raise. -/
theorem C11_request_partial {τ : Type} [DecidableEq τ] (hist : List (Request τ)) (r : Request τ) (hr : ∃ m, r.due = .ok m)
    (h : ∀ r' ∈ hist, r'.ct = r.ct → r'.due = r.due) : (metaMaker (metaHistory .new hist) r).2 = r.due := by
  have key : ∀ (l : List (Request τ)) (memo : Memo τ), (∀ r' ∈ l, r'.ct = r.ct → r'.due = r.due) →
      (∀ m, memo.last = some m → memo.tuple = some r.ct → .ok m = r.due) →
      ∀ m, (metaHistory memo l).last = some m → (metaHistory memo l).tuple = some r.ct → .ok m = r.due := by
    intro l
    induction l with
    | nil => intro memo _ h; exact h
    | cons x xs ih =>
      intro memo hl hm
      refine ih _ (fun r' hr' => hl r' (by simp [hr'])) ?_
      intro m hm1 hm2
      rw [metaMaker_tuple] at hm2
      injection hm2 with hm2
      have hx := hl x (by simp) hm2
      obtain ⟨m0, h0⟩ := hr
      have fresh : (metaFresh memo x).1.last = some m → .ok m = r.due := by
        intro hf
        rw [metaFresh_due, hx, h0] at hf
        injection hf with hf
        rw [← hf, h0]
      unfold metaMaker at hm1
      split at hm1
      · split at hm1
        · rename_i ht
          exact hm m hm1 (by rw [ht, hm2])
        · exact fresh hm1
      · exact fresh hm1
  have key := key hist .new h (by simp [Memo.new])
  unfold metaMaker
  split
  · rename_i m hm
    split
    · rename_i ht
      exact key m hm ht
    · rw [metaFresh_due]
  · rw [metaFresh_due]

example : (metaMaker (metaHistory .new [⟨1, .ok [7], true, false⟩, ⟨3, .ok [7], true, true⟩, ⟨2, .ok [8], false, false⟩])
      (⟨2, .ok [8], false, false⟩ : Request Nat)).2 = .ok (2, none) ∧
    (metaMaker (metaHistory .new [⟨1, .ok [7], true, false⟩, ⟨2, .ok [8], true, false⟩]) (⟨2, .ok [8], true, false⟩ : Request Nat)).2 =
      .ok (2, some [8]) := by
  decide

/-- What a run of requests with the same times leaves in the memo, if the object has nothing in it that counts for them. -/
theorem run_last {τ : Type} [DecidableEq τ] (ct : τ) (run : List (Request τ)) (hrun : ∀ r ∈ run, r.ct = ct) :
    ∀ memo : Memo τ, memo.last = none →
    (metaHistory memo run).last = run.findSome? fun r => r.due.toOption := by
  induction run with
  | nil => intro memo h; simpa [metaHistory] using h
  | cons x xs ih =>
    intro memo h
    simp only [metaHistory, metaMaker, h, metaFresh_due, List.findSome?_cons]
    cases hx : x.due with
    | error e =>
      simp only [Except.toOption]
      exact ih (fun r hr => hrun r (by simp [hr])) _ rfl
    | ok m =>
      simp only [Except.toOption]
      have stay : ∀ (l : List (Request τ)), (∀ r ∈ l, r.ct = ct) → metaHistory (⟨some x.ct, some m⟩ : Memo τ) l = ⟨some x.ct, some m⟩ := by
        intro l
        induction l with
        | nil => intro _; rfl
        | cons y ys ih2 =>
          intro hl
          simp only [metaHistory, metaMaker]
          rw [if_pos (by rw [hrun x (by simp), hl y (by simp)])]
          exact ih2 fun r hr => hl r (by simp [hr])
      rw [stay xs fun r hr => hrun r (by simp [hr])]

theorem run_stay {τ : Type} [DecidableEq τ] (ct : τ) (m : Meta τ) (run : List (Request τ)) (hrun : ∀ r ∈ run, r.ct = ct) :
    metaHistory (⟨some ct, some m⟩ : Memo τ) run = ⟨some ct, some m⟩ := by
  induction run with
  | nil => rfl
  | cons y ys ih =>
    simp only [metaHistory, metaMaker]
    rw [if_pos (by rw [hrun y (by simp)])]
    exact ih fun r hr => hrun r (by simp [hr])

/-- The memo holds something exactly if some request got what it was due. -/
theorem last_some {τ : Type} [DecidableEq τ] (l : List (Request τ)) :
    (∀ m, (metaHistory (.new : Memo τ) l).last = some m → ∃ r ∈ l, r.due = .ok m) ∧
    ((metaHistory (.new : Memo τ) l).last = none → ∀ r ∈ l, ∃ e, r.due = .error e) := by
  suffices h : ∀ (l : List (Request τ)) (memo : Memo τ),
      (∀ m, (metaHistory memo l).last = some m → memo.last = some m ∨ ∃ r ∈ l, r.due = .ok m) ∧
      ((metaHistory memo l).last = none → memo.last = none ∧ ∀ r ∈ l, ∃ e, r.due = .error e) by
    refine ⟨fun m hm => ?_, fun hn => ((h l .new).2 hn).2⟩
    rcases (h l .new).1 m hm with h | h
    · simp [Memo.new] at h
    · exact h
  intro l
  induction l with
  | nil => intro memo; exact ⟨fun m hm => .inl hm, fun hn => ⟨hn, by simp⟩⟩
  | cons x xs ih =>
    intro memo
    obtain ⟨h1, h2⟩ := ih (metaMaker memo x).1
    have hstep : (metaMaker memo x).1.last = memo.last ∧ memo.last ≠ none ∨
        (metaMaker memo x).1.last = (match x.due with | .ok m => some m | .error _ => memo.last) := by
      unfold metaMaker
      split
      · rename_i m hm
        split
        · left; simp [hm]
        · right; rw [metaFresh_due]
      · right; rw [metaFresh_due]
    refine ⟨fun m hm => ?_, fun hn => ?_⟩
    · rcases h1 m hm with h | ⟨r, hr, h⟩
      · rcases hstep with ⟨h3, -⟩ | h3
        · exact .inl (h3 ▸ h)
        · rw [h3] at h
          cases hx : x.due with
          | error e => rw [hx] at h; exact .inl h
          | ok m' =>
            rw [hx] at h
            injection h with h
            exact .inr ⟨x, by simp, by rw [hx, h]⟩
      · exact .inr ⟨r, by simp [hr], h⟩
    · obtain ⟨h3, h4⟩ := h2 hn
      rcases hstep with ⟨h5, h6⟩ | h5
      · exact absurd (h5 ▸ h3) h6
      · rw [h5] at h3
        cases hx : x.due with
        | ok m => rw [hx] at h3; cases h3
        | error e =>
          rw [hx] at h3
          refine ⟨h3, fun r hr => ?_⟩
          rcases List.mem_cons.1 hr with rfl | hr
          · exact ⟨e, hx⟩
          · exact h4 r hr

/-- **C11**, what happens in all histories.  `run` are the requests since the times were last other ones.  Without any request
before them that was answered: the first of them that gets what it is due decides.  Otherwise the very first of them decides: what
it was due is the answer from then on, and if it raised, the answer is what some request for an older file was due. -/
theorem C11_law {τ : Type} [DecidableEq τ] (pre run : List (Request τ)) (r : Request τ)
    (hpre : ∀ x, pre.getLast? = some x → x.ct ≠ r.ct) (hrun : ∀ x ∈ run, x.ct = r.ct) :
    ((∀ x ∈ pre, ∃ e, x.due = .error e) →
      (metaMaker (metaHistory .new (pre ++ run)) r).2 = match run.findSome? fun x => x.due.toOption with
        | some m => .ok m
        | none => r.due) ∧
    ((∃ x ∈ pre, ∃ m, x.due = .ok m) →
      match run with
      | [] => (metaMaker (metaHistory .new (pre ++ run)) r).2 = r.due
      | x :: _ => match x.due with
        | .ok m => (metaMaker (metaHistory .new (pre ++ run)) r).2 = .ok m
        | .error _ => ∃ y ∈ pre, ∃ m, y.due = .ok m ∧ (metaMaker (metaHistory .new (pre ++ run)) r).2 = .ok m) := by
  obtain ⟨hsome, hnone⟩ := last_some pre
  have htup := metaHistory_tuple pre
  rw [metaHistory_append]
  have hne : (metaHistory (.new : Memo τ) pre).tuple ≠ some r.ct := by
    rw [htup]
    cases hl : pre.getLast? with
    | none => simp
    | some x => simpa using hpre x hl
  generalize metaHistory (.new : Memo τ) pre = memo at *
  constructor
  · intro hp
    have hlast : memo.last = none := by
      cases hm : memo.last with
      | none => rfl
      | some m =>
        obtain ⟨x, hx, h⟩ := hsome m hm
        obtain ⟨e, he⟩ := hp x hx
        rw [h] at he; cases he
    have h1 := run_last r.ct run hrun memo hlast
    cases hf : run.findSome? fun x => x.due.toOption with
    | none =>
      rw [hf] at h1
      simp only [metaMaker, h1, metaFresh_due]
    | some m =>
      rw [hf] at h1
      have hrne : run ≠ [] := by rintro rfl; simp at hf
      have h2 : (metaHistory memo run).tuple = some r.ct := by
        rcases run.eq_nil_or_concat with rfl | ⟨l, x, rfl⟩
        · exact absurd rfl hrne
        · rw [List.concat_eq_append, metaHistory_append]
          simp only [metaHistory, metaMaker_tuple]
          rw [hrun x (by simp)]
      simp only [metaMaker, h1, h2, if_true]
  · rintro ⟨x, hx, m, hxm⟩
    obtain ⟨m0, hm0⟩ : ∃ m0, memo.last = some m0 := by
      cases hm : memo.last with
      | some m0 => exact ⟨m0, rfl⟩
      | none =>
        obtain ⟨e, he⟩ := hnone hm x hx
        rw [hxm] at he; cases he
    cases run with
    | nil =>
      show (metaMaker memo r).2 = r.due
      simp only [metaMaker, hm0]
      rw [if_neg hne, metaFresh_due]
    | cons x xs =>
      have hx0 : x.ct = r.ct := hrun x (by simp)
      have hxs : ∀ y ∈ xs, y.ct = r.ct := fun y hy => hrun y (by simp [hy])
      have hfirst : (metaMaker memo x).1 = ⟨some r.ct, match x.due with | .ok m => some m | .error _ => some m0⟩ := by
        simp only [metaMaker, hm0]
        rw [if_neg (by rw [hx0]; exact hne), metaFresh_due, hx0, hm0]
      simp only [metaHistory, hfirst]
      cases hd : x.due with
      | ok m1 =>
        simp only
        rw [run_stay r.ct m1 xs hxs]
        simp [metaMaker]
      | error e =>
        simp only
        obtain ⟨y, hy, hym⟩ := hsome m0 hm0
        refine ⟨y, hy, m0, hym, ?_⟩
        rw [run_stay r.ct m0 xs hxs]
        simp [metaMaker]

example : (metaMaker (metaHistory .new ([⟨1, .ok [7], false, false⟩] ++ [⟨2, .ok [8], true, false⟩, ⟨2, .ok [8], false, false⟩]))
      (⟨2, .ok [8], false, false⟩ : Request Nat)).2 = .ok (2, some [8]) := by
  decide

/-- What is read from a position on: `m` bytes if there are so many, all of them for a negative `m`. -/
def someOf (l : Bytes) (m : Int) : Bytes := if m < 0 then l else l.take m.toNat

/-- What any ranges yield: the difference of the two ends decides how much is read from the start on, so a range that ends before it
begins, and one that begins before the end of the file and ends after its beginning (`-3, 5`), read too much; a start before the beginning raises; a range that is exactly
one chunk long gets the length of the latest bounded range before it that is not, and raises if there is none. -/
def rangesLawAll (content : Bytes) (n : Nat) : Option Int → List (Int × Option Int) → List Bytes × Option PyErr
  | _, [] => ([], none)
  | prev, (start, stop) :: rest =>
    if content.length + start < 0 then ([], some .osError)
    else
      let from_ := content.drop (normIndex content.length start)
      match stop with
      | none => let r := rangesLawAll content n prev rest; (from_ :: r.1, r.2)
      | some e => match (if e - start = n then prev else some (e - start)) with
        | none => ([], some .unboundLocalError)
        | some m => let r := rangesLawAll content n (some m) rest; (someOf from_ m :: r.1, r.2)

/-- **C08**, what happens for all ranges whatsoever. -/
theorem C08_law_all (content : Bytes) (n : Nat) (hn : 0 < n) (ranges : List (Int × Option Int)) (hne : ranges ≠ []) :
    (dataRanges content n ranges).1.flatten = (rangesLawAll content n none ranges).1.flatten ∧
    (dataRanges content n ranges).2 = (rangesLawAll content n none ranges).2 := by
  have plan : ∀ m : Int, m ≠ n → ∀ l, ∃ k last, splitTotal n m l = some (k, last) ∧
      ∀ pos, (readChunks content n k pos last).flatten = someOf (content.drop pos) m := by
    intro m hm l
    by_cases h0 : m < 0
    · exact ⟨0, m, by simp only [splitTotal]; rw [if_pos (by omega)], fun pos => by simp [readChunks, readAt, someOf, h0]⟩
    · have h0' : 0 ≤ m := by omega
      unfold someOf
      simp only [h0, if_false]
      by_cases hlt : m < n
      · exact ⟨0, m, by simp [splitTotal, hlt], fun pos => by simpa using readChunks_flatten content n 0 m h0' pos⟩
      · refine ⟨(m / n).toNat, m % n, ?_, fun pos => ?_⟩
        · simp only [splitTotal, hlt, if_false]
          rw [if_pos (by omega)]
        · have hmod : 0 ≤ m % n := Int.emod_nonneg _ (by omega)
          have hr := readChunks_flatten content n (m / n).toNat (m % n) hmod pos
          have htot : (m / n).toNat * n + (m % n).toNat = m.toNat := by
            have h1 := Int.mul_ediv_add_emod m n
            have h2 : 0 ≤ m / n := Int.ediv_nonneg (by omega) (by omega)
            have h3 : ((m / n).toNat : Int) = m / n := Int.toNat_of_nonneg h2
            have h4 : ((m % n).toNat : Int) = m % n := Int.toNat_of_nonneg hmod
            have h5 : (((m / n).toNat * n + (m % n).toNat : Nat) : Int) = m := by
              rw [Int.natCast_add, Int.natCast_mul, h3, h4, Int.mul_comm]; exact h1
            omega
          rw [hr, htot]
  have key : ∀ (ranges : List (Int × Option Int)) (prev : Option Int) (locals : Option (Nat × Int)),
      (prev = none → locals = none) →
      (∀ m, prev = some m → ∃ k last, locals = some (k, last) ∧
        ∀ pos, (readChunks content n k pos last).flatten = someOf (content.drop pos) m) →
      (rangesLoop content n locals ranges).1.flatten = (rangesLawAll content n prev ranges).1.flatten ∧
      (rangesLoop content n locals ranges).2 = (rangesLawAll content n prev ranges).2 := by
    intro ranges
    induction ranges with
    | nil => intro prev locals _ _; exact ⟨rfl, rfl⟩
    | cons r rest ih =>
      intro prev locals hp1 hp2
      obtain ⟨start, stop⟩ := r
      unfold rangesLoop rangesLawAll
      by_cases hlow : content.length + start < 0
      · rw [if_pos hlow]
        have : seek content start = none := by
          simp only [seek]
          rw [if_pos (by omega), if_pos hlow]
        rw [this]
        exact ⟨rfl, rfl⟩
      · rw [if_neg hlow]
        have hseek : seek content start = some (normIndex content.length start) := by
          simp only [seek, normIndex]
          rw [if_neg hlow]
          split <;> rfl
        rw [hseek]
        cases stop with
        | none =>
          have := ih prev locals hp1 hp2
          exact ⟨by simp [dataChunks_flatten n hn, this.1], this.2⟩
        | some e =>
          dsimp only
          by_cases hm : e - start = n
          · rw [if_pos hm]
            have hs : splitTotal n (e - start) locals = locals := by simp [splitTotal, hm]
            rw [hs]
            cases prev with
            | none => rw [hp1 rfl]; exact ⟨rfl, rfl⟩
            | some m =>
              obtain ⟨k, last, e1, e2⟩ := hp2 m rfl
              have := ih (some m) locals hp1 hp2
              rw [e1] at this ⊢
              exact ⟨by simp [e2, this.1], this.2⟩
          · rw [if_neg hm]
            obtain ⟨k, last, e1, e2⟩ := plan (e - start) hm locals
            rw [e1]
            have := ih (some (e - start)) (some (k, last)) (by simp) (by
              intro m h; cases h; exact ⟨k, last, rfl, e2⟩)
            exact ⟨by simp [e2, this.1], this.2⟩
  have := key ranges none none (fun _ => rfl) (by simp)
  simpa [dataRanges, hne] using this

example : dataRanges [1, 2, 3, 4, 5] 8 [(2, some 1), (-3, some 1), (-6, none)] = ([[3, 4, 5], [3, 4, 5]], some .osError) := by
  decide +kernel

end Verif.Data
