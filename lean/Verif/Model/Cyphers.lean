import Verif.Model.Data
import Verif.Model.Primary

/-!
# Which cypher a checksum is made and checked with

The names of cyphers in metadata: `_meta_maker` (`augpathlib/core.py` lines 1276-1281) writes them, `_instance_cypher`
(`augpathlib/caches.py` lines 586-596) reads them, and `checksum` (`core.py` lines 796-823) has the last word (`pickCypher`).
-/

namespace Verif.Cache
open Verif.Data

/-- The cyphers that there are (utils.py 30-32). -/
structure Cyphers (κ : Type) where
  /-- `default_cypher` -/
  dflt : κ
  /-- `cypher_lookup` -/
  lookup : Str → Option κ
  /-- `cypher_algo` -/
  algo : κ → Option Str
  /-- what a cypher computes -/
  hash : κ → Bytes → Bytes

variable {κ : Type} [DecidableEq κ]

/-- `_instance_cypher` (caches.py 586-596) for the name in the metadata; `cls` is the cypher of the cache class. -/
def Cyphers.instance_ (A : Cyphers κ) (cls : κ) (name : PyVal) : Except PyErr κ :=
  match name with
  | .none => .ok cls
  | .str s => match A.lookup s with
    | none => .error .notImplementedError
    | some c => .ok c
  | _ => .error .notImplementedError

/-- `self.local.checksum(cypher=self._instance_cypher())` (caches.py 608 and 916) as a function of the content; `own` is the
attribute `cypher` of the class of local paths, if it has one. -/
def Cyphers.check (A : Cyphers κ) (cls : κ) (own : Option κ) (name : PyVal) : Except PyErr (Bytes → Bytes) :=
  (A.instance_ cls name).map fun c => A.hash (pickCypher A.dflt (some cls) own c)

/-- The checksum and the name of its cypher in the metadata of a local file (core.py 1276-1281); `cls` is the cypher of the cache
class, if there is one.  Simplified: no digest is empty. -/
def Cyphers.localSum (A : Cyphers κ) (cls own : Option κ) (content : Bytes) : Except PyErr (Bytes × Str) :=
  let c := cls.getD A.dflt
  let sum := A.hash (pickCypher A.dflt cls own c) content
  match A.algo c with
  | none => .error .keyError
  | some name => .ok (sum, name)

end Verif.Cache
