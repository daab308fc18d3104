import Verif.Model.Types
/-! # `writer/schema.rs`: the builders -/

namespace TsFile

/-- `HashMap::insert`: an entry with the key is overwritten, otherwise one is added. The list holds the entries; in what
order a `HashMap` is iterated is given separately by a function from lists to lists. (`writer/schema.rs:24`, `63-70`) -/
def hashInsert {α : Type} (k : Bytes) (v : α) : List (Bytes × α) → List (Bytes × α)
  | [] => [(k, v)]
  | e :: m => if e.1 = k then (k, v) :: m else e :: hashInsert k v m

/-- The iteration order of a `HashMap`. -/
abbrev IterOrder (α : Type) := List (Bytes × α) → List (Bytes × α)

/-- The loops of the `build` methods: iterate over a map and insert every entry into a new one. -/
def hashCopy {α : Type} (order : IterOrder α) (m : List (Bytes × α)) : List (Bytes × α) :=
  (order m).foldl (fun c e => hashInsert e.1 e.2 c) []

/-- `DeviceBuilder`, `writer/schema.rs:45-47`. -/
structure DeviceBuilder where
  measurementGroupsMap : List (Bytes × MeasurementSchema)
  deriving DecidableEq, Repr

namespace DeviceBuilder

/-- `new`, `writer/schema.rs:50-54`. -/
def new : DeviceBuilder := { measurementGroupsMap := [] }

/-- `add`, `writer/schema.rs:56-72`. -/
def add (b : DeviceBuilder) (measurement : Bytes) (dataType : TSDataType) (encoding : TSEncoding)
    (compression : CompressionType) : DeviceBuilder :=
  { measurementGroupsMap := hashInsert measurement { dataType, compression, encoding } b.measurementGroupsMap }

/-- `build`, `writer/schema.rs:74-85`: the builder afterwards (it keeps its content) and the group; `none` is the failed
assertion. -/
def build (order : IterOrder MeasurementSchema) (b : DeviceBuilder) :
    Option (DeviceBuilder × List (Bytes × MeasurementSchema)) :=
  if b.measurementGroupsMap.isEmpty then none else some (b, hashCopy order b.measurementGroupsMap)

end DeviceBuilder

/-- `TsFileSchemaBuilder`, `writer/schema.rs:8-10`. -/
structure SchemaBuilder where
  measurementGroupsMap : List (Bytes × List (Bytes × MeasurementSchema))
  deriving DecidableEq, Repr

namespace SchemaBuilder

/-- `new`, `writer/schema.rs:13-17`. -/
def new : SchemaBuilder := { measurementGroupsMap := [] }

/-- `add`, `writer/schema.rs:19-26`. -/
def add (b : SchemaBuilder) (device : Bytes) (schema : List (Bytes × MeasurementSchema)) : SchemaBuilder :=
  { measurementGroupsMap := hashInsert device schema b.measurementGroupsMap }

/-- `build`, `writer/schema.rs:28-36`. -/
def build (order : IterOrder (List (Bytes × MeasurementSchema))) (b : SchemaBuilder) : SchemaBuilder × Schema :=
  (b, hashCopy order b.measurementGroupsMap)

end SchemaBuilder

/-- `Schema::simple`, `writer/mod.rs:293-310`; the branch for the failed assertion cannot be reached (`C39_simple`). -/
def Schema.simple (device measurement : Bytes) (dataType : TSDataType) (encoding : TSEncoding)
    (compression : CompressionType) : Schema :=
  match ((DeviceBuilder.new.add measurement dataType encoding compression).build id) with
  | none => []
  | some (_, g) => ((SchemaBuilder.new.add device g).build id).2

end TsFile
