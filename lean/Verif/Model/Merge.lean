import Verif.Model.MetaObj

/-!
# Merging metadata (`PrimaryCache._update_meta`, `augpathlib/caches.py` lines 1347-1399)

Works on metadata as its users see it (`Meta`): the value of every attribute, with the timestamps
parsed.  Simplified: metadata whose timestamps do not parse (`items()` raises) and unexpected keyword
arguments (dropped by `items()`) are left out.  The final `PathMeta(**kwargs)` is the identity on
field values of the right type (`merge_constructs` in `Lemmas/Merge.lean`).
-/

namespace Verif

/-- `bool(meta)` (meta.py 165-173) on the values of all fields. -/
def metaBool (m : Meta) : Bool :=
  Field.all.any fun f => if f = .errors then (m f).truthy else m f ≠ .none

/-- The order of `items()` (meta.py 127-129). -/
def itemFields : List Field := plainFields ++ [.created, .updated]

/-- The fields that tell that the file itself changed (caches.py 1375). -/
def diffFields : List Field := [.created, .updated, .size, .checksum, .file_id]

/-- The value a constructor argument has when it is not given (meta.py 38-55). -/
def defaultArg (f : Field) : PyVal := if f = .errors then .strs [] else .none

/-- The local state of `_update_meta`: `kwargs` and `file_is_different`. -/
structure MergeState where
  kw : Meta
  different : Bool

/-- `kwargs[k] = v` -/
def setField (m : Meta) (k : Field) (v : PyVal) : Meta := fun f => if f = k then v else m f

/-- One pass of the first loop (caches.py 1361-1378).  The log message calls `.hex()` on differing
checksums, which raises `AttributeError` for values that are not bytes. -/
def mergeStep (new : Meta) (st : MergeState) (k : Field) : Except PyErr MergeState :=
  let vold := st.kw k
  let vnew := new k
  if vnew = .none ∨ vnew.emptyIterable then .ok st
  else if vold ≠ .none ∧ !pyEq vold vnew then
    match k, vold, vnew with
    | .checksum, .bytes _, .bytes _ => .ok ⟨setField st.kw k vnew, true⟩
    | .checksum, _, _ => .error .attributeError
    | k, _, _ => .ok ⟨setField st.kw k vnew, st.different || k ∈ diffFields⟩
  else .ok ⟨setField st.kw k vnew, st.different⟩

/-- The first loop. -/
def mergeLoop (new : Meta) : List Field → MergeState → Except PyErr MergeState
  | [], st => .ok st
  | k :: ks, st => match mergeStep new st k with
    | .ok st => mergeLoop new ks st
    | .error e => .error e

/-- The second loop (caches.py 1380-1389): fields that are `None` in the new metadata are dropped,
so the constructor falls back to its default. -/
def stripLoop (new : Meta) : List Field → Meta → Meta
  | [], kw => kw
  | k :: ks, kw =>
    if k ≠ .old_id ∧ new k = .none then stripLoop new ks (setField kw k (defaultArg k))
    else stripLoop new ks kw

/-- `_update_meta(old, new)` (caches.py 1347-1399): whether the file is different, and the merged
metadata. -/
def updateMeta (old new : Option Meta) : Except PyErr (Bool × Option Meta) :=
  match old with
  | none => .ok (false, new)
  | some o =>
    if !metaBool o then .ok (false, new)
    else match new with
      | none => .ok (false, some o)
      | some n =>
        if !metaBool n then .ok (false, some o)
        else
          let kw := if pyEq (o .id) (n .id) then o else setField o .old_id (o .id)
          match mergeLoop n itemFields ⟨kw, false⟩ with
          | .error e => .error e
          | .ok st =>
            .ok (st.different, some (if st.different then stripLoop n itemFields st.kw else st.kw))

end Verif
