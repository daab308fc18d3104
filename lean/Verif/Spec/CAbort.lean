import Verif.Spec.CApi
import Verif.Model.Session
/-! # The reasons for which a call of the C interface aborts the process -/

namespace TsFile.Spec
open CApi (Addr CCall)

/-- In a history, `p` is the null pointer or a string that is not UTF-8. -/
def BadString (ce : CApi.CEnv) (H : List (CCall × CApi.Outcome)) (p : Addr) : Prop :=
  p = 0 ∨ ∃ s, (.newString s, .ok p) ∈ H ∧ ce.utf8 s = false

/-- In a history, the handle `p` is that of a schema with one device `d` and one measurement `m`. -/
def SchemaIs (H : List (CCall × CApi.Outcome)) (p : Addr) (d m : Bytes) (ms : MeasurementSchema) : Prop :=
  ∃ da ma x y z, (.newString d, .ok da) ∈ H ∧ (.newString m, .ok ma) ∈ H ∧ (.schemaSimple da ma x y z, .ok p) ∈ H
    ∧ TSDataType.tryFrom x = some ms.dataType ∧ TSEncoding.tryFrom y = some ms.encoding
    ∧ CompressionType.tryFrom z = some ms.compression

/-- `w` is the writer of the Rust interface, opened with this schema, after these calls. -/
def RustWriter (env : Env) (schema : Schema) (ops : List Op) (w : Writer) : Prop :=
  ∃ w0, Writer.new env schema { bytes := [], cap := none } = .ok w0 ∧ w = (w0.run env ops).1

/-- The reasons for a call to abort the process, after the history `H`: a string is null or not UTF-8, a code is unknown, the file
cannot be created, the handle of the writer is null for a write; or the same call of the Rust interface, with the same schema and
after the same points, does not return `Ok`. -/
def AbortReason (ce : CApi.CEnv) (H : List (CCall × CApi.Outcome)) : CCall → Prop
  | .newString _ | .freeString _ | .schemaFree _ => False
  | .schemaSimple d m x y z => BadString ce H d ∨ BadString ce H m
    ∨ TSDataType.tryFrom x = none ∨ TSEncoding.tryFrom y = none ∨ CompressionType.tryFrom z = none
  | .fileWriterNew f s => BadString ce H f ∨ (∃ name, (.newString name, .ok f) ∈ H ∧ ce.canCreate name = false)
    ∨ ∃ d m ms e, SchemaIs H s d m ms ∧ Writer.new ce.env [(d, [(m, ms)])] { bytes := [], cap := none } = .error e
  | .fileWriterWriteInt32 w da ma t v => w = 0 ∨ BadString ce H da ∨ BadString ce H ma
    ∨ ∃ f d m ms writer d' m', OpenedAs H w f d m ms ∧ RustWriter ce.env [(d, [(m, ms)])] (writesTo w [] H) writer
      ∧ (.newString d', .ok da) ∈ H ∧ (.newString m', .ok ma) ∈ H ∧ (writer.write ce.env d' m' t (.INT v)).2 ≠ .ok ()
  | .fileWriterClose w => w ≠ 0 ∧ ∃ f d m ms, OpenedAs H w f d m ms ∧ session ce.env [(d, [(m, ms)])] (writesTo w [] H) = none

end TsFile.Spec
