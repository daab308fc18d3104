import Verif.Model.Encoders
import Verif.Model.Statistics
/-! # Pages and chunks: `writer/chunk_writer.rs` -/

namespace TsFile

/-- `MAX_NUMBER_OF_POINTS_IN_PAGE`, `writer/chunk_writer.rs:15`. -/
def maxPointsInPage : Nat := 1048576
/-- `VALUE_COUNT_IN_ONE_PAGE_FOR_NEXT_CHECK`, `writer/chunk_writer.rs:16`. -/
def valueCountForNextCheckInit : Nat := 7989
/-- `PAGE_SIZE_THRESHOLD`, `writer/chunk_writer.rs:17`. -/
def pageSizeThreshold : Nat := 65536
/-- `MINIMUM_RECORD_COUNT_FOR_CHECK`, `writer/chunk_writer.rs:18`. -/
def minimumRecordCountForCheck : Nat := 1500

/-- `PageWriter`, `writer/chunk_writer.rs:20-28`. `point_number: u32` is a `Nat` (it never exceeds
1048577, theorem `C14`). -/
structure PageWriter where
  timeEncoder : Ts2Diff 64
  valueEncoder : ValueEncoder
  dataType : TSDataType
  statistics : Statistics
  pointNumber : Nat
  buffer : Bytes
  deriving DecidableEq, Repr

namespace PageWriter

/-- `new`, `writer/chunk_writer.rs:31-40`. -/
def new (env : Env) (dataType : TSDataType) (encoding : TSEncoding) : Except TsFileError PageWriter :=
  match ValueEncoder.new dataType encoding with
  | .error e => .error e
  | .ok ve => .ok { timeEncoder := Ts2Diff.new, valueEncoder := ve, dataType,
                    statistics := Statistics.new env dataType, pointNumber := 0, buffer := [] }

/-- `reset`, `writer/chunk_writer.rs:42-47`. -/
def reset (env : Env) (p : PageWriter) : PageWriter :=
  { p with statistics := Statistics.new env p.dataType, timeEncoder := p.timeEncoder.reset,
           valueEncoder := p.valueEncoder.reset, pointNumber := 0 }

/-- `estimate_max_mem_size`, `writer/chunk_writer.rs:49-58`. -/
def estimateMaxMemSize (p : PageWriter) : W32 :=
  p.timeEncoder.size + p.valueEncoder.size + p.timeEncoder.getMaxByteSize
    + p.valueEncoder.getMaxByteSize

/-- `write`, `writer/chunk_writer.rs:60-66`; `none` is a panic. The timestamp is passed as
`IoTDBValue::LONG`, so the time encoder's `try_into` cannot fail. -/
def write (env : Env) (p : PageWriter) (timestamp : W64) (value : IoTDBValue) : Option PageWriter :=
  match p.timeEncoder.write longToBytes timestamp with
  | none => none
  | some te =>
    match p.valueEncoder.write value with
    | none => none
    | some ve =>
      match p.statistics.update env timestamp value with
      | none => none
      | some st => some { p with timeEncoder := te, valueEncoder := ve, statistics := st,
                                 pointNumber := p.pointNumber + 1 }

/-- `prepare_buffer`, `writer/chunk_writer.rs:68-76`. -/
def prepareBuffer (p : PageWriter) : Option PageWriter :=
  match p.timeEncoder.serialize longToBytes with
  | none => none
  | some (te, timeBuffer) =>
    match p.valueEncoder.serialize with
    | none => none
    | some (ve, valueBuffer) =>
      some { p with timeEncoder := te, valueEncoder := ve,
                    buffer := writeVarU32 (u32 timeBuffer.length) ++ timeBuffer ++ valueBuffer }

end PageWriter

/-- `ChunkWriter`, `writer/chunk_writer.rs:79-95`. `num_pages: u32` and
`value_count_in_one_page_for_next_check: u32` are `Nat`; the unused `offset_of_chunk_header` is left
out. -/
structure ChunkWriter where
  measurementId : Bytes
  dataType : TSDataType
  compression : CompressionType
  encoding : TSEncoding
  mask : UInt8
  statistics : Statistics
  currentPageWriter : Option PageWriter
  pageBuffer : Bytes
  numPages : Nat
  firstPageStatistics : Option Statistics
  nextCheck : Nat
  sizeWithoutStatistics : Nat
  deriving DecidableEq, Repr

/-- `ChunkHeader`, `writer/chunk_writer.rs:499-507`. -/
structure ChunkHeader where
  measurementId : Bytes
  dataSize : W32
  dataType : TSDataType
  compression : CompressionType
  encoding : TSEncoding
  numPages : Nat
  mask : UInt8

/-- `ChunkHeader::serialize`, `writer/chunk_writer.rs:510-535`; the markers are
`ONLY_ONE_PAGE_CHUNK_HEADER = 5` and `CHUNK_HEADER = 1` (`writer/mod.rs:1807-1808`). -/
def ChunkHeader.serialize (h : ChunkHeader) : Bytes :=
  let marker : UInt8 := if h.numPages ≤ 1 then 5 else 1
  [marker ||| h.mask] ++ writeStr h.measurementId ++ writeVarU32 h.dataSize
    ++ [h.dataType.serialize] ++ [h.compression.serialize] ++ [h.encoding.serialize]

/-- `ChunkMetadata`, `writer/chunk_writer.rs:558-565`. -/
structure ChunkMetadata where
  measurementId : Bytes
  dataType : TSDataType
  mask : UInt8
  offsetOfChunkHeader : W64
  statistics : Statistics
  deriving DecidableEq, Repr

/-- `ChunkMetadata::serialize`, `writer/chunk_writer.rs:584-594`. -/
def ChunkMetadata.serialize (env : Env) (m : ChunkMetadata) (serializeStatistics : Bool) : Bytes :=
  be64 m.offsetOfChunkHeader ++ (if serializeStatistics then m.statistics.serialize env else [])

namespace ChunkWriter

/-- `new`, `writer/chunk_writer.rs:98-119`. -/
def new (env : Env) (measurementId : Bytes) (dataType : TSDataType) (compression : CompressionType)
    (encoding : TSEncoding) : ChunkWriter :=
  { measurementId, dataType, compression, encoding, mask := 0,
    statistics := Statistics.new env dataType, currentPageWriter := none, pageBuffer := [],
    numPages := 0, firstPageStatistics := none, nextCheck := valueCountForNextCheckInit,
    sizeWithoutStatistics := 0 }

/-- Compressed size and content to be written, for each of the three branches of `write_page_to_buffer`
(`writer/chunk_writer.rs:361-386`); `none` is the `Err(Compression)` return. -/
def pageContent (env : Env) (compression : CompressionType) (buffer : Bytes) : Option (W32 × Bytes) :=
  match compression with
  | .UNCOMPRESSED => some (u32 buffer.length, buffer)
  | .SNAPPY => (env.snappy buffer).map (fun out => (u32 out.length, out))

/-- `write_page_to_buffer`, `writer/chunk_writer.rs:358-496`. `none` is a panic. The `Err(Compression)`
return is ignored by both callers (lines 185, 310, 321); it leaves the page prepared but not written. -/
def writePageToBuffer (env : Env) (c : ChunkWriter) : Option ChunkWriter :=
  match c.currentPageWriter with
  | none => some c
  | some p =>
    match p.prepareBuffer with
    | none => none
    | some p =>
      let uncompressedBytes := u32 p.buffer.length
      match pageContent env c.compression p.buffer with
      | none => some { c with currentPageWriter := some p }
      | some (compressedBytes, data) =>
        let header := writeVarU32 uncompressedBytes ++ writeVarU32 compressedBytes
        let next : Option ChunkWriter :=
          if c.numPages = 0 then
            -- lines 387-408
            some { c with pageBuffer := c.pageBuffer ++ header ++ data
                          sizeWithoutStatistics := c.sizeWithoutStatistics + header.length
                          firstPageStatistics := some p.statistics }
          else if c.numPages = 1 then
            -- lines 409-461: put the statistics of the first page after its header
            if c.sizeWithoutStatistics ≤ c.pageBuffer.length then
              match c.firstPageStatistics with
              | none => none
              | some st =>
                some { c with
                  pageBuffer := c.pageBuffer.take c.sizeWithoutStatistics ++ st.serialize env
                    ++ c.pageBuffer.drop c.sizeWithoutStatistics
                    ++ header ++ p.statistics.serialize env ++ data
                  firstPageStatistics := none }
            else none
          else
            -- lines 462-489
            some { c with pageBuffer := c.pageBuffer ++ header ++ p.statistics.serialize env ++ data }
        match next with
        | none => none
        | some c =>
          match c.statistics.merge env p.statistics with
          | none => none
          | some st => some { c with numPages := c.numPages + 1, statistics := st,
                                     currentPageWriter := some ({ p with buffer := [] }.reset env) }

/-- `seal_current_page`, `writer/chunk_writer.rs:180-189`. -/
def sealCurrentPage (env : Env) (c : ChunkWriter) : Option ChunkWriter :=
  match c.currentPageWriter with
  | none => some c
  | some p => if p.pointNumber > 0 then writePageToBuffer env c else some c

/-- `get_serialized_chunk_size`, `writer/chunk_writer.rs:191-206`. Simplified: the code adds the length of the name after
a cast to `i32` and back; below 2^31 bytes, which `Schema.Named` demands, that is the length. -/
def getSerializedChunkSize (c : ChunkWriter) : Nat :=
  if c.pageBuffer.isEmpty then 0
  else 1 + sizeVarI32 (u32 c.measurementId.length) + c.measurementId.length
    + sizeVarU32 (u32 c.pageBuffer.length) + 1 + 1 + 1 + c.pageBuffer.length

/-- `estimate_max_series_mem_size`, `writer/chunk_writer.rs:263-281`. -/
def estimateMaxSeriesMemSize (c : ChunkWriter) : W32 :=
  match c.currentPageWriter with
  | some p => u32 c.pageBuffer.length + p.estimateMaxMemSize
      + (2 * (4 + 1) + p.statistics.getSerializedSize)
  | none => 0

/-- `check_page_size_and_may_open_new_page`, `writer/chunk_writer.rs:304-331`. -/
def checkPageSize (env : Env) (c : ChunkWriter) : Option ChunkWriter :=
  match c.currentPageWriter with
  | none => some c
  | some p =>
    if p.pointNumber > maxPointsInPage then writePageToBuffer env c
    else if p.pointNumber ≥ c.nextCheck then
      let currentPageSize := p.estimateMaxMemSize
      if currentPageSize.toNat > pageSizeThreshold then
        match writePageToBuffer env c with
        | none => none
        | some c => some { c with nextCheck := minimumRecordCountForCheck }
      else some { c with nextCheck := env.nextCheck currentPageSize.toNat p.pointNumber }
    else some c

/-- The page a point goes to, created if there is none, `writer/chunk_writer.rs:285-293`. -/
def openPage (env : Env) (c : ChunkWriter) : Except TsFileError PageWriter :=
  match c.currentPageWriter with
  | none => PageWriter.new env c.dataType c.encoding
  | some p => .ok p

/-- `write`, `writer/chunk_writer.rs:283-302`: the new state and the number of records written. -/
def write (env : Env) (c : ChunkWriter) (timestamp : W64) (value : IoTDBValue) :
    Res (ChunkWriter × W32) :=
  match c.openPage env with
  | .error e => .err e
  | .ok p =>
    match p.write env timestamp value with
    | none => .panic
    | some p =>
      match checkPageSize env { c with currentPageWriter := some p } with
      | none => .panic
      | some c => .ok (c, 1)

end ChunkWriter

end TsFile
