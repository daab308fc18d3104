import Verif.Model.Index
import Verif.Model.Bloom
/-! # `writer/tsfile_io_writer.rs`, `writer/group_writer.rs`, `writer/tsfile_writer.rs` -/

namespace TsFile

/-- `"TsFile"`, `writer/tsfile_io_writer.rs:86,191`. -/
def magic : Bytes := [0x54, 0x73, 0x46, 0x69, 0x6c, 0x65]

/-- `TsFileIoWriter`, `writer/tsfile_io_writer.rs:10-18`. -/
structure IoWriter where
  out : Sink
  currentDevice : Option Bytes
  chunkMetadataList : List ChunkMetadata
  currentChunkMetadata : Option ChunkMetadata
  chunkGroupMetadataList : List (Bytes × List ChunkMetadata)
  timeseriesMetadataMap : BMap (List TimeSeriesMetadata)
  deriving DecidableEq, Repr

namespace IoWriter

/-- `new` and `start_file`, `writer/tsfile_io_writer.rs:68-89`. -/
def new (out : Sink) : Except TsFileError IoWriter :=
  let b := magic ++ [3]
  if out.ok b then
    .ok { out := out.write b, currentDevice := none, chunkMetadataList := [],
          currentChunkMetadata := none, chunkGroupMetadataList := [], timeseriesMetadataMap := [] }
  else .error .ioError

/-- `start_chunk_group`, `writer/tsfile_io_writer.rs:91-103`: new state, and whether it returned `Ok`. -/
def startChunkGroup (io : IoWriter) (deviceId : Bytes) : IoWriter × Bool :=
  let b := chunkGroupHeader deviceId
  if io.out.ok b then
    ({ io with out := io.out.write b, currentDevice := some deviceId, chunkMetadataList := [] }, true)
  else ({ io with out := io.out.write b }, false)

/-- `start_flush_chunk`, `writer/tsfile_io_writer.rs:36-64` (with `ChunkMetadata::new`,
`writer/chunk_writer.rs:568-582`). Output errors are ignored. -/
def startFlushChunk (io : IoWriter) (h : ChunkHeader) (statistics : Statistics) : IoWriter :=
  let m : ChunkMetadata :=
    { measurementId := h.measurementId, dataType := h.dataType, mask := h.mask,
      offsetOfChunkHeader := BitVec.ofNat 64 io.out.pos, statistics }
  { io with currentChunkMetadata := some m, out := io.out.write h.serialize }

/-- `end_current_chunk`, `writer/tsfile_io_writer.rs:21-31`; `none` is a panic. -/
def endCurrentChunk (io : IoWriter) : Option IoWriter :=
  match io.currentChunkMetadata with
  | none => none
  | some m => some { io with chunkMetadataList := io.chunkMetadataList ++ [m],
                             currentChunkMetadata := none }

/-- `end_chunk_group`, `writer/tsfile_io_writer.rs:115-132` (the `flush` of the output is in `Model/Stream`). -/
def endChunkGroup (io : IoWriter) : IoWriter :=
  match io.currentDevice with
  | none => io
  | some d =>
    if io.chunkMetadataList.isEmpty then io
    else { io with chunkGroupMetadataList := io.chunkGroupMetadataList ++ [(d, io.chunkMetadataList)],
                   currentDevice := none, chunkMetadataList := [] }

/-- `format!("{}.{}", device_id, measurement_id)`, `writer/tsfile_io_writer.rs:147-150`. -/
def seriesPath (device measurement : Bytes) : Bytes := device ++ [0x2e] ++ measurement

/-- One step of building `chunk_metadata_map`, `writer/tsfile_io_writer.rs:146-160`. -/
def addChunkMetadata (m : BMap (List ChunkMetadata)) (path : Bytes) (c : ChunkMetadata) :
    BMap (List ChunkMetadata) :=
  m.push path c

/-- `chunk_metadata_map`, `writer/tsfile_io_writer.rs:144-162`. -/
def chunkMetadataMap (io : IoWriter) : BMap (List ChunkMetadata) :=
  io.chunkGroupMetadataList.foldl (fun m g =>
    g.2.foldl (fun m c => addChunkMetadata m (seriesPath g.1 c.measurementId) c) m) []

/-- The merge loop of `flush_metadata_index`, `writer/tsfile_io_writer.rs:217-227`; `none` is the panic
of `Statistics::merge`. -/
def mergeChunks (env : Env) (dataType : TSDataType) (serializeStatistic : Bool) :
    List ChunkMetadata → Bytes → Statistics → Option (Bytes × Statistics)
  | [], buffer, st => some (buffer, st)
  | m :: ms, buffer, st =>
    if m.dataType ≠ dataType then mergeChunks env dataType serializeStatistic ms buffer st
    else
      match st.merge env m.statistics with
      | none => none
      | some st => mergeChunks env dataType serializeStatistic ms
          (buffer ++ m.serialize env serializeStatistic) st

/-- Building one `TimeSeriesMetadata`, `writer/tsfile_io_writer.rs:212-240`; `none` is a panic
(`metadata.get(0).unwrap()` on an empty list, or a statistics mismatch). -/
def timeSeriesMetadata (env : Env) : List ChunkMetadata → Option TimeSeriesMetadata
  | [] => none
  | m :: ms =>
    let serializeStatistic := decide ((m :: ms).length > 1)
    match mergeChunks env m.dataType serializeStatistic (m :: ms) [] (Statistics.new env m.dataType) with
    | none => none
    | some (buffer, st) =>
      some { metadataType := (if serializeStatistic then 1 else 0) ||| m.mask,
             chunkMetaDataListDataSize := buffer.length, measurementId := m.measurementId,
             dataType := m.dataType, statistics := st, buffer }

/-- `str::split('.')`: the pieces between the dots. -/
def splitDot : Bytes → List Bytes
  | [] => [[]]
  | b :: bs =>
    if b = 0x2e then [] :: splitDot bs
    else
      match splitDot bs with
      | [] => [[b]]
      | p :: ps => (b :: p) :: ps

/-- Joining with `.` (the loop of `writer/tsfile_io_writer.rs:245-250`). -/
def joinDot : List Bytes → Bytes
  | [] => []
  | [p] => p
  | p :: q :: ps => p ++ [0x2e] ++ joinDot (q :: ps)

/-- The device id of a path: all pieces but the last, `writer/tsfile_io_writer.rs:243-250`. -/
def deviceOfPath (path : Bytes) : Bytes := joinDot (splitDot path).dropLast

/-- The assertion of `writer/tsfile_io_writer.rs:202-211`. -/
def pathInOrder (last : Option Bytes) (path : Bytes) : Bool :=
  match last with
  | none => true
  | some p => bytesLt p path

/-- The loop of `flush_metadata_index`, `writer/tsfile_io_writer.rs:198-261`. `last` is `last_path`,
which is only ever set to the first path (lines 202-211); the assertion failure is `none`. -/
def flushIndexLoop (env : Env) : Option Bytes → BMap (List ChunkMetadata) →
    BMap (List TimeSeriesMetadata) → Option (BMap (List TimeSeriesMetadata))
  | _, [], tsm => some tsm
  | last, (path, metadata) :: rest, tsm =>
    if pathInOrder last path then
      match timeSeriesMetadata env metadata with
      | none => none
      | some t => flushIndexLoop env (some (last.getD path)) rest (tsm.push (deviceOfPath path) t)
    else none

/-- `end_file`, `writer/tsfile_io_writer.rs:134-192`, with `flush_metadata_index`, lines 194-273.
`none` is a panic; output errors are ignored. -/
def endFile (env : Env) (io : IoWriter) : Option IoWriter :=
  let cmm := io.chunkMetadataMap
  let metaOffset := io.out.pos
  let out := io.out.write [2]
  match flushIndexLoop env none cmm io.timeseriesMetadataMap with
  | none => none
  | some tsm =>
    match constructMetadataIndex env tsm out with
    | none => none
    | some (out, node) =>
      let footerIndex := out.pos
      let out := out.write (tsFileMetadataSerialize node metaOffset)
      match BloomFilter.build env (cmm.map Prod.fst) with
      | none => none
      | some bf =>
        match bf.serialize with
        | none => none
        | some b =>
          let out := out.write b
          let sizeOfFooter := u32 (out.pos - footerIndex)
          let out := out.write (be32 sizeOfFooter)
          let out := out.write magic
          some { io with out := out, timeseriesMetadataMap := tsm }

end IoWriter

/-- `ChunkWriter::write_to_file_writer` with `write_all_pages_of_chunk_to_ts_file`,
`writer/chunk_writer.rs:208-261`; `none` is a panic. -/
def ChunkWriter.writeToFileWriter (env : Env) (c : ChunkWriter) (io : IoWriter) :
    Option (ChunkWriter × IoWriter) :=
  match c.sealCurrentPage env with
  | none => none
  | some c =>
    let c' := { c with pageBuffer := [], numPages := 0, firstPageStatistics := none,
                       statistics := Statistics.new env c.dataType }
    if c.statistics.count = 0 then some (c', io)
    else
      let io := io.startFlushChunk
        { measurementId := c.measurementId, dataSize := u32 c.pageBuffer.length,
          dataType := c.dataType, compression := c.compression, encoding := c.encoding,
          numPages := c.numPages, mask := 0 } c.statistics
      let io := { io with out := io.out.write c.pageBuffer }
      match io.endCurrentChunk with
      | none => none
      | some io => some (c', io)

/-- `GroupWriter`, `writer/group_writer.rs:8-12`. -/
structure GroupWriter where
  path : Bytes
  chunkWriters : BMap ChunkWriter
  lastTimeMap : BMap W64
  deriving DecidableEq, Repr

namespace GroupWriter

/-- `check_is_history_data`, `writer/group_writer.rs:106-118`: the state with the `-1` entry inserted,
and whether the timestamp is newer than the last one. -/
def checkIsHistoryData (g : GroupWriter) (measurementId : Bytes) (timestamp : W64) :
    GroupWriter × Bool :=
  match g.lastTimeMap.get? measurementId with
  | none => ({ g with lastTimeMap := g.lastTimeMap.insert measurementId (-1) },
             !(timestamp.sle (-1)))
  | some last => (g, !(timestamp.sle last))

/-- `write`, `writer/group_writer.rs:85-104`: the new state and the result. The `unwrap` on the chunk
writer's error is a panic. -/
def write (env : Env) (g : GroupWriter) (measurementId : Bytes) (timestamp : W64)
    (value : IoTDBValue) : GroupWriter × Res W32 :=
  match checkIsHistoryData g measurementId timestamp with
  | (g, false) => (g, .err .outOfOrderData)
  | (g, true) =>
    match g.chunkWriters.get? measurementId with
    | none => (g, .err (.illegalState (some "Unknown measurement id")))
    | some c =>
      match c.write env timestamp value with
      | .panic => (g, .panic)
      | .err _ => (g, .panic)
      | .ok (c, n) =>
        ({ g with chunkWriters := g.chunkWriters.insert measurementId c,
                  lastTimeMap := g.lastTimeMap.insert measurementId timestamp }, .ok n)

/-- `write_many`, `writer/group_writer.rs:15-25`; `records` is the accumulator. -/
def writeMany (env : Env) (timestamp : W64) :
    List (Bytes × IoTDBValue) → W32 → GroupWriter → GroupWriter × Res W32
  | [], records, g => (g, .ok records)
  | (m, v) :: dps, records, g =>
    match g.write env m timestamp v with
    | (g, .ok n) => writeMany env timestamp dps (records + n) g
    | (g, .err e) => (g, .err e)
    | (g, .panic) => (g, .panic)

/-- `update_max_group_mem_size`, `writer/group_writer.rs:52-64`. -/
def updateMaxGroupMemSize (g : GroupWriter) : W32 :=
  g.chunkWriters.foldl (fun s c => s + c.2.estimateMaxSeriesMemSize) 0

/-- `seal_all_chunks`, `writer/group_writer.rs:65-69`. -/
def sealAll (env : Env) : BMap ChunkWriter → Option (BMap ChunkWriter)
  | [] => some []
  | (m, c) :: rest =>
    match c.sealCurrentPage env with
    | none => none
    | some c => (sealAll env rest).map ((m, c) :: ·)

/-- `get_current_chunk_group_size`, `writer/group_writer.rs:70-81`. -/
def chunkGroupSize (cs : BMap ChunkWriter) : Nat :=
  cs.foldl (fun s c => s + c.2.getSerializedChunkSize) 0

/-- The loop of `flush_to_filewriter`, `writer/group_writer.rs:45-47`. -/
def writeAllChunks (env : Env) : BMap ChunkWriter → IoWriter → Option (BMap ChunkWriter × IoWriter)
  | [], io => some ([], io)
  | (m, c) :: rest, io =>
    match c.writeToFileWriter env io with
    | none => none
    | some (c, io) =>
      match writeAllChunks env rest io with
      | none => none
      | some (cs, io) => some ((m, c) :: cs, io)

/-- `flush_to_filewriter`, `writer/group_writer.rs:35-50`: new state, new output, announced size. -/
def flushToFilewriter (env : Env) (g : GroupWriter) (io : IoWriter) :
    Option (GroupWriter × IoWriter × Nat) :=
  match sealAll env g.chunkWriters with
  | none => none
  | some cs =>
    let size := chunkGroupSize cs
    match writeAllChunks env cs io with
    | none => none
    | some (cs, io) => some ({ g with chunkWriters := cs }, io, size)

/-- The group writer of one device, `writer/tsfile_writer.rs:251-269,311-329`. -/
def new (env : Env) (path : Bytes) (ms : List (Bytes × MeasurementSchema)) : GroupWriter :=
  { path,
    chunkWriters := BMap.ofList
      (ms.map (fun m => (m.1, ChunkWriter.new env m.1 m.2.dataType m.2.compression m.2.encoding))),
    lastTimeMap := [] }

end GroupWriter

/-- `CHUNK_GROUP_SIZE_THRESHOLD_BYTE`, `writer/tsfile_writer.rs:14`. -/
def chunkGroupSizeThreshold : Nat := 128 * 1024 * 1024

/-- `TsFileWriter`, `writer/tsfile_writer.rs:105-120`. Unused fields are left out. -/
structure Writer where
  io : IoWriter
  groupWriters : BMap GroupWriter
  recordCount : W32
  recordCountForNextMemCheck : W32
  nonAlignedLastTimeMap : BMap (BMap W64)
  schema : Schema
  deriving DecidableEq, Repr

namespace Writer

/-- The group writers of a schema, `writer/tsfile_writer.rs:245-272,304-332`. -/
def newGroupWriters (env : Env) (schema : Schema) : BMap GroupWriter :=
  BMap.ofList (schema.map (fun d => (d.1, GroupWriter.new env d.1 d.2)))

/-- `new_from_writer`, `writer/tsfile_writer.rs:299-347`. -/
def new (env : Env) (schema : Schema) (out : Sink) : Except TsFileError Writer :=
  match IoWriter.new out with
  | .error e => .error e
  | .ok io => .ok { io, groupWriters := newGroupWriters env schema, recordCount := 0,
                    recordCountForNextMemCheck := 100, nonAlignedLastTimeMap := [], schema }

/-- `reset`, `writer/tsfile_writer.rs:241-273`. -/
def reset (env : Env) (w : Writer) : Writer :=
  { w with recordCount := 0, groupWriters := newGroupWriters env w.schema }

/-- `calculate_mem_size_for_all_groups`, `writer/tsfile_writer.rs:228-239`. -/
def memSize (w : Writer) : W32 :=
  w.groupWriters.foldl (fun s g => s + g.2.updateMaxGroupMemSize) 0

/-- The device loop of `flush_all_chunk_groups`, `writer/tsfile_writer.rs:205-222`. Returns the group
writers, the output, the last time map and the error, if the loop was left early. -/
def flushLoop (env : Env) : BMap GroupWriter → IoWriter → BMap (BMap W64) →
    Option (BMap GroupWriter × IoWriter × BMap (BMap W64) × Option TsFileError)
  | [], io, lm => some ([], io, lm, none)
  | (d, g) :: rest, io, lm =>
    match io.startChunkGroup d with
    | (io, false) => some ((d, g) :: rest, io, lm, some .ioError)
    | (io, true) =>
      let pos := io.out.pos
      match g.flushToFilewriter env io with
      | none => none
      | some (g, io, dataSize) =>
        if io.out.pos - pos ≠ dataSize then
          some ((d, g) :: rest, io, lm,
            some (.illegalState (some "Bytes written are not as expected!")))
        else
          let io := io.endChunkGroup
          let lm := lm.insert d g.lastTimeMap
          match flushLoop env rest io lm with
          | none => none
          | some (gs, io, lm, e) => some ((d, g) :: gs, io, lm, e)

/-- `flush_all_chunk_groups`, `writer/tsfile_writer.rs:203-226`: new state and error. -/
def flushAllChunkGroups (env : Env) (w : Writer) : Option (Writer × Option TsFileError) :=
  if w.recordCount.toNat > 0 then
    match flushLoop env w.groupWriters w.io w.nonAlignedLastTimeMap with
    | none => none
    | some (gs, io, lm, some e) =>
      some ({ w with groupWriters := gs, io, nonAlignedLastTimeMap := lm }, some e)
    | some (gs, io, lm, none) =>
      some (({ w with groupWriters := gs, io, nonAlignedLastTimeMap := lm } : Writer).reset env, none)
  else some (w, none)

/-- The new `record_count_for_next_mem_check`, `writer/tsfile_writer.rs:181-184,189-192`: computed in
`u64`, then `as u32`. Dividing by zero is a panic, checked by the caller. -/
def nextMemCheck (cur mem : W32) : W32 := u32 (cur.toNat * chunkGroupSizeThreshold / mem.toNat)

/-- `check_memory_size_and_may_flush_chunks`, `writer/tsfile_writer.rs:170-201`. `none` is a panic
(division by zero, or one inside the flush). Its error is ignored by the callers. -/
def checkMemorySize (env : Env) (w : Writer) : Option Writer :=
  if w.recordCount.toNat ≥ w.recordCountForNextMemCheck.toNat then
    let mem := w.memSize
    if mem.toNat = 0 then none
    else
      let w' := { w with recordCountForNextMemCheck := nextMemCheck w.recordCountForNextMemCheck mem }
      if mem.toNat > chunkGroupSizeThreshold then (flushAllChunkGroups env w').map Prod.fst
      else some w'
  else some w

/-- `write`, `writer/tsfile_writer.rs:131-151`: the state after the call and its result. The state
after a panic is the one in which the panic happened (only the output part of it is meaningful). -/
def write (env : Env) (w : Writer) (device measurementId : Bytes) (timestamp : W64)
    (value : IoTDBValue) : Writer × Res Unit :=
  match w.groupWriters.get? device with
  | none => (w, .err (.illegalState (some "No Group Writer found")))
  | some g =>
    match g.write env measurementId timestamp value with
    | (g, .panic) => ({ w with groupWriters := w.groupWriters.insert device g }, .panic)
    | (g, .err e) => ({ w with groupWriters := w.groupWriters.insert device g }, .err e)
    | (g, .ok n) =>
      let w := { w with groupWriters := w.groupWriters.insert device g,
                        recordCount := w.recordCount + n }
      match w.checkMemorySize env with
      | none => (w, .panic)
      | some w => (w, .ok ())

/-- `write_many`, `writer/tsfile_writer.rs:153-168`. -/
def writeMany (env : Env) (w : Writer) (device : Bytes) (timestamp : W64)
    (values : List (Bytes × IoTDBValue)) : Writer × Res Unit :=
  match w.groupWriters.get? device with
  | none => (w, .err (.illegalState none))
  | some g =>
    match g.writeMany env timestamp values 0 with
    | (g, .panic) => ({ w with groupWriters := w.groupWriters.insert device g }, .panic)
    | (g, .err e) => ({ w with groupWriters := w.groupWriters.insert device g }, .err e)
    | (g, .ok n) =>
      let w := { w with groupWriters := w.groupWriters.insert device g,
                        recordCount := w.recordCount + n }
      match w.checkMemorySize env with
      | none => (w, .panic)
      | some w => (w, .ok ())

/-- `close`, `writer/tsfile_writer.rs:123-127`; errors of the flush are ignored, `none` is a panic. -/
def close (env : Env) (w : Writer) : Option Writer :=
  match w.flushAllChunkGroups env with
  | none => none
  | some (w, _) =>
    match w.io.endFile env with
    | none => none
    | some io => some { w with io }

end Writer

end TsFile
