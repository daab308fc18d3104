import Verif.Model.Prim
/-! # Data types, codes, errors, environment

Paths in the comments are relative to `/repo/tsfile-writer/src`. -/

namespace TsFile

/-- `TSDataType`, `writer/mod.rs:186-191`. -/
inductive TSDataType | INT32 | INT64 | FLOAT
  deriving DecidableEq, Repr

/-- `TSDataType::serialize`, `writer/mod.rs:193-201`. -/
def TSDataType.serialize : TSDataType → UInt8
  | .INT32 => 1 | .INT64 => 2 | .FLOAT => 3

/-- `TryFrom<u8> for TSDataType`, `writer/mod.rs:203-214`. -/
def TSDataType.tryFrom (value : UInt8) : Option TSDataType :=
  if value = 1 then some .INT32 else if value = 2 then some .INT64
  else if value = 3 then some .FLOAT else none

/-- `TSEncoding`, `writer/encoding/mod.rs:11-15`. -/
inductive TSEncoding | PLAIN | TS2DIFF
  deriving DecidableEq, Repr

/-- `TSEncoding::serialize`, `writer/encoding/mod.rs:29-36`. -/
def TSEncoding.serialize : TSEncoding → UInt8
  | .PLAIN => 0 | .TS2DIFF => 4

/-- `TryFrom<u8> for TSEncoding`, `writer/encoding/mod.rs:17-27`. -/
def TSEncoding.tryFrom (value : UInt8) : Option TSEncoding :=
  if value = 0 then some .PLAIN else if value = 4 then some .TS2DIFF else none

/-- `CompressionType`, `writer/compression.rs:4-8`. -/
inductive CompressionType | UNCOMPRESSED | SNAPPY
  deriving DecidableEq, Repr

/-- `CompressionType::serialize`, `writer/compression.rs:22-29`. -/
def CompressionType.serialize : CompressionType → UInt8
  | .UNCOMPRESSED => 0 | .SNAPPY => 1

/-- `TryFrom<u8> for CompressionType`, `writer/compression.rs:10-20`. -/
def CompressionType.tryFrom (value : UInt8) : Option CompressionType :=
  if value = 0 then some .UNCOMPRESSED else if value = 1 then some .SNAPPY else none

/-- `IoTDBValue`, `writer/mod.rs:121-129`. Floats are bit patterns. -/
inductive IoTDBValue
  | DOUBLE (v : W64) | FLOAT (v : W32) | INT (v : W32) | LONG (v : W64)
  deriving DecidableEq, Repr

/-- `MeasurementSchema`, `writer/mod.rs:216-221`. -/
structure MeasurementSchema where
  dataType : TSDataType
  encoding : TSEncoding
  compression : CompressionType
  deriving DecidableEq, Repr

/-- `Schema` / `MeasurementGroup`, `writer/mod.rs:261-281`: a `HashMap` of `HashMap`s. The list is the
order in which the maps happen to be iterated; keys are distinct. -/
abbrev Schema := List (Bytes × List (Bytes × MeasurementSchema))

/-- `TsFileError`, `writer/errors.rs:4-14`. The payload of `IoError` is not modelled. -/
inductive TsFileError
  | error (source : Option String)
  | ioError
  | writeError
  | outOfOrderData
  | illegalState (source : Option String)
  | compression
  | wrongTypeForSeries
  | encoding
  deriving DecidableEq, Repr

/-- Outcome of a Rust call: `Ok`, `Err`, or a panic. -/
inductive Res (α : Type) | ok (a : α) | err (e : TsFileError) | panic
  deriving DecidableEq, Repr

/-- `MetadataIndexNodeType`, `writer/mod.rs:326-331`. -/
inductive NodeType | leafMeasurement | internalMeasurement | leafDevice
  deriving DecidableEq, Repr

/-- `Serializable for MetadataIndexNodeType`, `writer/mod.rs:345-354`. -/
def NodeType.serialize : NodeType → UInt8
  | .leafMeasurement => 3 | .internalMeasurement => 2 | .leafDevice => 1

/-- `MetadataIndexEntry`, `writer/mod.rs:359-363`. -/
structure IndexEntry where
  name : Bytes
  offset : Nat
  deriving DecidableEq, Repr

/-- `MetadataIndexNode`, `writer/mod.rs:379-384`. -/
structure IndexNode where
  children : List IndexEntry
  endOffset : Nat
  nodeType : NodeType
  deriving DecidableEq, Repr

/-- What the code takes from outside the crate: IEEE arithmetic, the `snap` crate, and the iteration
order of `HashMap`. All theorems quantify over it; assumptions are stated where they are used. -/
structure Env where
  /-- `f64 + f64` on bit patterns -/
  f64Add : W64 → W64 → W64
  /-- `i64 as f64` -/
  i64ToF64 : W64 → W64
  /-- `f32 as f64` -/
  f32ToF64 : W32 → W64
  /-- `snap::raw::Encoder::compress` (`none`: the crate reports an error) -/
  snappy : Bytes → Option Bytes
  /-- `((PAGE_SIZE_THRESHOLD as f32) / (current_page_size as f32) * (point_number as f32)) as u32`,
  `writer/chunk_writer.rs:326-328`; arguments: current page size, point number -/
  nextCheck : Nat → Nat → Nat
  /-- `(-num_of_string as f64 * error.ln() / ln2 / ln2) as i32 + 1`, `writer/mod.rs:727` -/
  bloomSize : Nat → Nat
  /-- `((-1.0 * error.ln() / ln2) + 1.0) as i32`, `writer/mod.rs:728` -/
  bloomHashes : Nat
  /-- iteration order of `device_metadata_index_map: HashMap`, `writer/mod.rs:564` -/
  hashOrder : List (Bytes × IndexNode) → List (Bytes × IndexNode)

/-- `TsFileConfig::default().max_degree_of_index_node`, `writer/ts_file_config.rs:15`. The fields of
`TsFileConfig` are `pub(crate)` and nothing in the crate sets them, so the default is the only
configuration a user can pass. -/
def maxDegree : Nat := 256

/-- `TsFileConfig::default().minimal_size`, `writer/ts_file_config.rs:19`. -/
def bloomMinimalSize : Nat := 256

/-- `TsFileConfig::default().maximal_hash_function_size`, `writer/ts_file_config.rs:20`. -/
def bloomMaxHashes : Nat := 8

/-- `TsFileConfig::default().seeds`, `writer/ts_file_config.rs:21`. -/
def bloomSeeds : List W32 := [5, 7, 11, 19, 31, 37, 43, 59]

end TsFile
