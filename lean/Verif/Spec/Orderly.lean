import Verif.Spec.Machine
import Verif.Spec.Size
/-! # Orderly histories and the programs of the documentation -/

namespace TsFile.Spec

/-- A history as the documentation asks for: every call hands over a point; every point belongs to a series of the schema and
has its type; the type can be encoded; the timestamps of each series are not negative and increase from call to call. Nothing
is said about what the writer answers. -/
structure Orderly (schema : Schema) (ops : List Op) : Prop where
  calls : ∀ op ∈ ops, op.recs ≠ []
  known : ∀ r ∈ ops.flatMap Op.recs, ∃ ms s, look r.device schema = some ms ∧ look r.measurement ms = some s
    ∧ fits s.dataType r.value = true ∧ encodable s.dataType s.encoding = true
  increasing : ∀ d m, Increasing (series (ops.flatMap Op.recs) d m)

end TsFile.Spec
