import Verif.Lemmas.Meta

namespace Verif
open Verif.Spec

/-! ## Environments and metadata that meet the hypotheses -/

/-- An environment whose timestamp parser is the reader of the specification. -/
def sampleEnv : Env where
  dateparse s := match readIso s with
    | some d => .ok (.dt d)
    | none => .error .valueError
  legacyTime _ := .error .valueError
  repr _ := []

theorem sampleEnv_parses : ParsesIso sampleEnv := by
  intro d hd
  simp [sampleEnv, readIso_isoformat d hd]

/-- Metadata with every field set. -/
def sampleMeta : Meta
  | .name => .str (lit "data.tar.gz")
  | .size => .int 123456
  | .created => .dt ⟨2019, 3, 1, 12, 30, 59, 250000, some 0⟩
  | .updated => .dt ⟨2020, 12, 31, 0, 0, 0, 0, some (-330)⟩
  | .checksum => .bytes [0, 255, 59, 46]
  | .checksum_cypher => .str (lit "sha256")
  | .etag => .etag [1, 2, 3] 17
  | .chunksize => .int 4096
  | .multi => .int 0
  | .parent_id => .str (lit "N:collection:1")
  | .id => .str (lit "N:package:2")
  | .file_id => .int 7
  | .old_id => .str (lit "N:package:1")
  | .gid => .int 1000
  | .user_id => .str (lit "N:user:3")
  | .mode => .str (lit "rw-r--r--")
  | .errors => .strs [lit "a bad thing", lit "another one"]

theorem sampleMeta_wellTyped : WellTyped sampleMeta := by
  intro f
  cases f <;> simp [sampleMeta, HasType] <;> constructor <;> simp

end Verif
