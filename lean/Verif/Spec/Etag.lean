import Verif.Model.Basic

/-!
# Specification vocabulary for multipart etags

`IsBlocks n data bl` says that `bl` is the list of consecutive `n`-byte blocks of `data`, the last
one possibly shorter.  Nothing here refers to the model of the code.
-/

namespace Verif.Spec

/-- `bl` cuts `data` into blocks of exactly `n` bytes, except that the last block may be shorter (but
not empty). -/
structure IsBlocks (n : Nat) (data : Bytes) (bl : List Bytes) : Prop where
  concat : bl.flatten = data
  full : ∀ b ∈ bl.dropLast, b.length = n
  bounds : ∀ b ∈ bl, 0 < b.length ∧ b.length ≤ n

/-- The multipart etag of `data`: hash of the concatenated hashes of the blocks, and their number. -/
def IsEtag (H : Bytes → Bytes) (n : Nat) (data : Bytes) (r : Bytes × Nat) : Prop :=
  ∃ bl, IsBlocks n data bl ∧ r = (H (bl.map H).flatten, bl.length)

end Verif.Spec
