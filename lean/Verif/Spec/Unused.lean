import Verif.Spec.Machine
/-! # Specification for C99: schemas that differ in what is not written to -/

namespace TsFile.Spec

/-- The device a call names. -/
def Op.device : Op → Bytes
  | .write d _ _ _ => d
  | .writeMany d _ _ => d

/-- Two schemas say the same about the device and the series that a call names; of other devices and series they may differ. -/
structure Op.SameFor (schema schema' : Schema) (op : Op) : Prop where
  device : (look (Op.device op) schema).isSome = (look (Op.device op) schema').isSome
  series : ∀ r ∈ Op.recs op, (look r.device schema).bind (look r.measurement) = (look r.device schema').bind (look r.measurement)

end TsFile.Spec
