import Verif.Model.Types
import Verif.Spec.Assumptions
/-! # Devices whose names are not mixed up with others -/

namespace TsFile

/-- No series of another device has a path (device, dot, measurement) that reads as a series of device `d`, that is `d`,
a dot, and a name without dots. -/
def Schema.Isolated (schema : Schema) (d : Bytes) : Prop :=
  ∀ e ∈ schema, ∀ x ∈ e.2, ∀ m, NoDot m → e.1 ++ [0x2e] ++ x.1 = d ++ [0x2e] ++ m → e.1 = d

/-- Device `d` has at most 65536 measurements whose names have no dots. -/
def Schema.FewIn (schema : Schema) (d : Bytes) : Prop :=
  ∀ e ∈ schema, e.1 = d → (e.2.filter (fun x => decide (NoDot x.1))).length ≤ 65536

/-- What is assumed about a schema for the index to be correct for device `d`. Nothing is assumed about dots and numbers
of measurements in other devices. -/
structure Schema.IndexableAt (schema : Schema) (d : Bytes) : Prop extends schema.Named where
  isolated : schema.Isolated d
  few : schema.FewIn d

end TsFile
