import Verif.Lemmas.Xattrs
import Verif.Props.Etag
import Verif.Model.EtagHex

/-!
# C02: the text of an etag
-/

namespace Verif.Etag
open Verif.Spec

/-- **C02**: a second `hexdigest` returns the same text and leaves the object alone, and it does not matter whether the first call was
`digest` or `hexdigest`. -/
theorem C02_hexdigest_stable (H : Bytes → Bytes) (s : Obj) :
    hexdigest H (hexdigest H s).1 = hexdigest H s ∧ hexdigest H (digest H s).1 = hexdigest H s ∧ digest H (hexdigest H s).1 = digest H s := by
  have h := C02_digest_stable H s
  simp only [hexdigest, h, and_self]

/-- **C02**: the text tells the digest and the number of parts: what reads the etag field of stored metadata finds them in it. -/
theorem C02_hexdigest_read (H : Bytes → Bytes) (s : Obj) :
    Xattrs.decodeEtag (hexdigest H s).2 = .ok (.etag (digest H s).2.1 (digest H s).2.2) :=
  Xattrs.decodeEtag_enc (digest H s).2.1 (digest H s).2.2 (Int.natCast_nonneg _)

/-- **C02**: two objects have the same text if and only if they have the same digest and the same number of parts. -/
theorem C02_hexdigest_iff (H H' : Bytes → Bytes) (s s' : Obj) : (hexdigest H s).2 = (hexdigest H' s').2 ↔ (digest H s).2 = (digest H' s').2 := by
  constructor
  · intro h
    have h1 := C02_hexdigest_read H s
    rw [h, C02_hexdigest_read H' s'] at h1
    simp only [Except.ok.injEq, PyVal.etag.injEq, Int.natCast_inj] at h1
    exact Prod.ext h1.1.symm h1.2.symm
  · intro h
    simp only [hexdigest, h]

/-- **C02**: any feeding of bytes gives a text in which the reader finds the multipart etag of the bytes. -/
theorem C02_hexdigest_of_any_feeding (H : Bytes → Bytes) (n : Nat) (hn : 0 < n) (inputs : List Bytes) :
    ∃ s d k, feed H (init n) inputs = some s ∧ Xattrs.decodeEtag (hexdigest H s).2 = .ok (.etag d (Int.ofNat k)) ∧ IsEtag H n inputs.flatten (d, k) := by
  obtain ⟨s, h1, h2⟩ := C01_etag_of_any_feeding H n hn inputs
  exact ⟨s, _, _, h1, C02_hexdigest_read H s, h2⟩

/-- Three bytes in blocks of two, with the identity for the hash. -/
example : ((feed id (init 2) [[1], [2, 255]]).map fun s => (hexdigest id s).2) = some (lit "0102ff-2") := by decide +kernel

end Verif.Etag
