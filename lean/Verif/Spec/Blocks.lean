import Verif.Spec.Reader
import Verif.Spec.Machine
/-! # The blocks of a file

What a flush writes: for each device of the schema, in the order of the names, a chunk group; in it, for each series of
the device that has points to write, in the order of the names, one chunk. -/

namespace TsFile.Spec

/-- A chunk group: device and chunks. -/
abbrev Group := Bytes × List Chunk

/-- What a scan finds in a chunk group. -/
def Group.items (g : Group) : List Item := .group g.1 :: g.2.map .chunk

/-- The chunk groups are those of a flush of the points `burst`. -/
structure IsBlock (schema : Schema) (burst : List Rec) (block : List Group) : Prop where
  /-- one group for each device of the schema -/
  devices : (block.map Prod.fst).Perm (schema.map Prod.fst)
  /-- in the order of the names -/
  sorted : (block.map Prod.fst).Pairwise (· < ·)
  /-- the chunks in the order of the names of their series, not more than one for a series -/
  chunks : ∀ g ∈ block, (g.2.map Chunk.measurement).Pairwise (· < ·)
  /-- a chunk has the points of its series, and is not empty -/
  points : ∀ g ∈ block, ∀ c ∈ g.2, c.points = series burst g.1 c.measurement ∧ c.points ≠ []
  /-- every point is in a chunk -/
  complete : ∀ r ∈ burst, ∃ g ∈ block, g.1 = r.device ∧ ∃ c ∈ g.2, c.measurement = r.measurement

end TsFile.Spec
