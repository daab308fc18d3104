import Verif.Spec.Assumptions
import Verif.Spec.Machine
/-! # Sizes of inputs -/

namespace TsFile

/-- The number of series of a schema. -/
def Schema.size (schema : Schema) : Nat := (schema.map (fun d => d.2.length)).sum

/-- No device name and no path of a series is longer than `N` bytes. -/
structure Schema.NamesBelow (schema : Schema) (N : Nat) : Prop where
  devices : ∀ d ∈ schema, d.1.length ≤ N
  paths : ∀ d ∈ schema, ∀ m ∈ d.2, d.1.length + 1 + m.1.length ≤ N

namespace Spec

/-- The number of points handed over in a history, accepted or not. -/
def handed (ops : List Op) : Nat := (ops.map (fun op => op.recs.length)).sum

/-- The number of calls that made the output grow. -/
def growths (grown : List Nat) : Nat := (grown.filter (fun n => decide (0 < n))).length

/-- All series of the schema use PLAIN encoding and no compression. -/
def _root_.TsFile.Schema.Plain (schema : Schema) : Prop :=
  ∀ e ∈ schema, ∀ m ∈ e.2, m.2.encoding = .PLAIN ∧ m.2.compression = .UNCOMPRESSED

end Spec
end TsFile
