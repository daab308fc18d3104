import Verif.Model.Writer
import Verif.Model.Output
import Verif.Spec.Machine
/-! # The writer on any output, call by call

`Model/Writer.lean` writes to a `Sink`, which treats all the bytes of a group of calls at once. Here the same functions are
modelled with every single call of `write_all` and `write` on the output, in the order of the code. The output is any
`std::io::Write` (`Model/Output.lean`): each call may take only a part, fail, and work again later. What happens in memory
is shared with `Model/Writer.lean`. -/

namespace TsFile
open Spec

/-- An output: the method `write` of the inner writer, how many calls of it `write_all` may need for a buffer of a
given length before we say that it does not return, and the method `flush`. -/
structure Port (σ : Type) where
  dev : Device σ
  patience : Nat → Nat
  flush : σ → σ

/-- A step of a serialiser: some calls of `write_all`, each with `?` except the last, whose result is dropped, or a single
`write` whose result is dropped. -/
inductive Call
  | all (parts : List Bytes)
  | one (b : Bytes)
  deriving DecidableEq, Repr

/-- What a step is meant to write. -/
def Call.bytes : Call → Bytes
  | .all parts => parts.flatten
  | .one b => b

namespace Port
variable {σ : Type}

/-- `a?; b?; c`: stops at the first error. Whether there was none. `none`: some `write_all` does not return. -/
def script (p : Port σ) : WriteWrapper σ → List Bytes → Option (WriteWrapper σ × Bool)
  | w, [] => some (w, true)
  | w, b :: bs =>
    match w.writeAll p.dev (p.patience b.length) b with
    | none => none
    | some (w, .error _) => some (w, false)
    | some (w, .ok _) => script p w bs

/-- Steps whose results are dropped. -/
def perform (p : Port σ) : WriteWrapper σ → List Call → Option (WriteWrapper σ)
  | w, [] => some w
  | w, .one b :: cs => perform p (w.write p.dev b).1 cs
  | w, .all parts :: cs =>
    match p.script w parts with
    | none => none
    | some (w, _) => perform p w cs

end Port

/-! ## The serialisers, as calls -/

/-- `write_var_u32`, `writer/utils.rs:4-19`: one `write_all` for each byte. -/
def varParts (num : W32) : List Bytes := (writeVarU32 num).map (fun b => [b])

/-- `write_str`, `writer/mod.rs:852-858`. -/
def strParts (s : Bytes) : List Bytes := varParts (zigzag (u32 s.length)) ++ [s]

/-- `Serializable for ChunkGroupHeader`, `writer/mod.rs:830-836`. -/
def chunkGroupHeaderParts (deviceId : Bytes) : List Bytes := [[0]] ++ strParts deviceId

/-- `ChunkHeader::serialize`, `writer/chunk_writer.rs:510-535`. -/
def ChunkHeader.parts (h : ChunkHeader) : List Bytes :=
  let marker : UInt8 := if h.numPages ≤ 1 then 5 else 1
  [[marker ||| h.mask]] ++ strParts h.measurementId ++ varParts h.dataSize
    ++ [[h.dataType.serialize], [h.compression.serialize], [h.encoding.serialize]]

/-- `serialize` of `StatisticsStruct`, `writer/statistics.rs:177-192`. -/
def StatisticsStruct.parts {T S : Type} (k : StatType T S) (s : StatisticsStruct T S) : List Bytes :=
  varParts s.count ++ [be64 s.tsFirst, be64 s.tsLast, k.bytes s.minValue, k.bytes s.maxValue, k.bytes s.firstValue,
    k.bytes s.lastValue, k.bytesSum s.sumValue]

/-- `Serializable for Statistics`, `writer/statistics.rs:77-85`. -/
def Statistics.parts (env : Env) : Statistics → List Bytes
  | .INT32 s => s.parts statI32
  | .INT64 s => s.parts (statI64 env)
  | .FLOAT s => s.parts (statF32 env)

/-- `TimeSeriesMetadatable::serialize`, `writer/mod.rs:624-632`. -/
def TimeSeriesMetadata.calls (env : Env) (t : TimeSeriesMetadata) : List Call :=
  [.all [[t.metadataType]], .all (strParts t.measurementId), .all [[t.dataType.serialize]],
    .all (varParts (u32 t.chunkMetaDataListDataSize)), .all (t.statistics.parts env), .all [t.buffer]]

/-- `Serializable for MetadataIndexEntry`, `writer/mod.rs:365-377`: the offset goes through a single `write`. -/
def IndexEntry.calls (e : IndexEntry) : List Call :=
  [.all (strParts e.name), .one (be64 (BitVec.ofNat 64 e.offset))]

/-- `Serializable for MetadataIndexNode`, `writer/mod.rs:386-407`, with that of `MetadataIndexNodeType`,
`writer/mod.rs:345-354`: the last two go through single `write`s. -/
def IndexNode.calls (n : IndexNode) : List Call :=
  [.all (varParts (u32 n.children.length))] ++ n.children.flatMap IndexEntry.calls
    ++ [.one (be64 (BitVec.ofNat 64 n.endOffset)), .one [n.nodeType.serialize]]

/-- `Serializable for TsFileMetadata`, `writer/mod.rs:802-818`. -/
def tsFileMetadataCalls (node : IndexNode) (metaOffset : Nat) : List Call :=
  node.calls ++ [.all [be64 (BitVec.ofNat 64 metaOffset)]]

/-- `Serializable for BloomFilter`, `writer/mod.rs:774-786`; `none` is a panic. -/
def BloomFilter.calls (f : BloomFilter) : Option (List Call) :=
  f.serializeBits.map (fun bytes =>
    [.all (varParts (u32 bytes.length)), .all [bytes], .all (varParts (u32 f.size)),
      .all (varParts (u32 f.hashFunctionSize))])

namespace Stream
variable {σ : Type}

/-! ## `TsFileIoWriter` -/

/-- `TsFileIoWriter`, `writer/tsfile_io_writer.rs:10-18`. -/
structure Io (σ : Type) where
  out : WriteWrapper σ
  currentDevice : Option Bytes
  chunkMetadataList : List ChunkMetadata
  currentChunkMetadata : Option ChunkMetadata
  chunkGroupMetadataList : List (Bytes × List ChunkMetadata)
  timeseriesMetadataMap : BMap (List TimeSeriesMetadata)

/-- `get_position` as the number that is stored in the index. -/
def position (out : WriteWrapper σ) : Nat := out.getPosition.toNat

namespace Io

/-- `new` and `start_file`, `writer/tsfile_io_writer.rs:68-89`. Outer `none`: a write does not return. -/
def new (p : Port σ) (s : σ) : Option (Except TsFileError (Io σ)) :=
  match p.script (WriteWrapper.new s) [magic, [3]] with
  | none => none
  | some (_, false) => some (.error .ioError)
  | some (out, true) =>
    some (.ok { out, currentDevice := none, chunkMetadataList := [], currentChunkMetadata := none,
                chunkGroupMetadataList := [], timeseriesMetadataMap := [] })

/-- `start_chunk_group`, `writer/tsfile_io_writer.rs:91-103`. -/
def startChunkGroup (p : Port σ) (io : Io σ) (deviceId : Bytes) : Option (Io σ × Bool) :=
  match p.script io.out (chunkGroupHeaderParts deviceId) with
  | none => none
  | some (out, true) => some ({ io with out, currentDevice := some deviceId, chunkMetadataList := [] }, true)
  | some (out, false) => some ({ io with out }, false)

/-- `start_flush_chunk`, `writer/tsfile_io_writer.rs:36-64`. -/
def startFlushChunk (p : Port σ) (io : Io σ) (h : ChunkHeader) (statistics : Statistics) : Option (Io σ) :=
  let m : ChunkMetadata :=
    { measurementId := h.measurementId, dataType := h.dataType, mask := h.mask,
      offsetOfChunkHeader := io.out.getPosition, statistics }
  match p.script io.out h.parts with
  | none => none
  | some (out, _) => some { io with currentChunkMetadata := some m, out }

/-- `end_current_chunk`, `writer/tsfile_io_writer.rs:21-31`; `none` is a panic. -/
def endCurrentChunk (io : Io σ) : Option (Io σ) :=
  match io.currentChunkMetadata with
  | none => none
  | some m => some { io with chunkMetadataList := io.chunkMetadataList ++ [m], currentChunkMetadata := none }

/-- `end_chunk_group`, `writer/tsfile_io_writer.rs:115-132`; the result of `flush` is dropped. -/
def endChunkGroup (p : Port σ) (io : Io σ) : Io σ :=
  match io.currentDevice with
  | none => io
  | some d =>
    if io.chunkMetadataList.isEmpty then io
    else { io with chunkGroupMetadataList := io.chunkGroupMetadataList ++ [(d, io.chunkMetadataList)],
                   currentDevice := none, chunkMetadataList := [], out := io.out.flush p.flush }

/-- `chunk_metadata_map`, `writer/tsfile_io_writer.rs:144-162`. -/
def chunkMetadataMap (io : Io σ) : BMap (List ChunkMetadata) :=
  io.chunkGroupMetadataList.foldl (fun m g =>
    g.2.foldl (fun m c => IoWriter.addChunkMetadata m (IoWriter.seriesPath g.1 c.measurementId) c) m) []

end Io

/-! ## The index -/

/-- State of the measurement loop of `construct_metadata_index`. -/
structure Leaf (σ : Type) where
  out : WriteWrapper σ
  cur : IndexNode
  queue : List IndexNode

/-- The measurement loop of `construct_metadata_index`, `writer/mod.rs:524-543`. -/
def leafLoop (env : Env) (p : Port σ) : Nat → Leaf σ → List TimeSeriesMetadata → Option (Leaf σ)
  | _, s, [] => some s
  | i, s, t :: ts =>
    let s :=
      if i % maxDegree = 0 then
        let s := if s.cur.isFull then
            { s with queue := s.queue ++ [{ s.cur with endOffset := position s.out }],
                     cur := IndexNode.new .leafMeasurement }
          else s
        { s with cur := { s.cur with children := s.cur.children ++ [⟨t.measurementId, position s.out⟩] } }
      else s
    match p.perform s.out (t.calls env) with
    | none => none
    | some out => leafLoop env p (i + 1) { s with out } ts

/-- One device of `construct_metadata_index`, `writer/mod.rs:517-558`. -/
def deviceIndex (env : Env) (p : Port σ) (out : WriteWrapper σ) (l : List TimeSeriesMetadata) :
    Option (WriteWrapper σ × IndexNode) :=
  match leafLoop env p 0 ⟨out, IndexNode.new .leafMeasurement, []⟩ l with
  | none => none
  | some s =>
    let queue := s.queue ++ [{ s.cur with endOffset := position s.out }]
    (generateRootNode queue (position s.out) .internalMeasurement).map (fun n => (s.out, n))

/-- The device loop of `construct_metadata_index`, `writer/mod.rs:510-559`. -/
def devicesLoop (env : Env) (p : Port σ) : WriteWrapper σ → BMap (List TimeSeriesMetadata) →
    Option (WriteWrapper σ × List (Bytes × IndexNode))
  | out, [] => some (out, [])
  | out, (d, l) :: rest =>
    if l.isEmpty then devicesLoop env p out rest
    else
      match deviceIndex env p out l with
      | none => none
      | some (out, node) =>
        match devicesLoop env p out rest with
        | none => none
        | some (out, m) => some (out, (d, node) :: m)

/-- The loop over the device map, `writer/mod.rs:564-570`. -/
def writeDeviceNodes (p : Port σ) : WriteWrapper σ → List (Bytes × IndexNode) →
    Option (WriteWrapper σ × List IndexEntry)
  | out, [] => some (out, [])
  | out, (d, node) :: rest =>
    match p.perform out node.calls with
    | none => none
    | some out' =>
      match writeDeviceNodes p out' rest with
      | none => none
      | some (out', es) => some (out', ⟨d, position out⟩ :: es)

/-- `construct_metadata_index`, `writer/mod.rs:505-575`. -/
def constructMetadataIndex (env : Env) (p : Port σ) (m : BMap (List TimeSeriesMetadata)) (out : WriteWrapper σ) :
    Option (WriteWrapper σ × IndexNode) :=
  match devicesLoop env p out m with
  | none => none
  | some (out, map) =>
    if map.length ≤ maxDegree then
      match writeDeviceNodes p out (env.hashOrder map) with
      | none => none
      | some (out, es) => some (out, { children := es, endOffset := position out, nodeType := .leafDevice })
    else none

/-- `end_file`, `writer/tsfile_io_writer.rs:134-192`. `none`: a panic, or a write that does not return. -/
def Io.endFile (env : Env) (p : Port σ) (io : Io σ) : Option (Io σ) :=
  let cmm := io.chunkMetadataMap
  let metaOffset := position io.out
  match p.perform io.out [.all [[2]]] with
  | none => none
  | some out =>
    match IoWriter.flushIndexLoop env none cmm io.timeseriesMetadataMap with
    | none => none
    | some tsm =>
      match constructMetadataIndex env p tsm out with
      | none => none
      | some (out, node) =>
        let footerIndex := out.getPosition
        match p.perform out (tsFileMetadataCalls node metaOffset) with
        | none => none
        | some out =>
          match BloomFilter.build env (cmm.map Prod.fst) with
          | none => none
          | some bf =>
            match bf.calls with
            | none => none
            | some cs =>
              match p.perform out cs with
              | none => none
              | some out =>
                let sizeOfFooter := u32 (out.getPosition - footerIndex).toNat
                match p.perform out [.all [be32 sizeOfFooter], .all [magic]] with
                | none => none
                | some out => some { io with out, timeseriesMetadataMap := tsm }

/-! ## Chunks and groups -/

/-- `ChunkWriter::write_to_file_writer` with `write_all_pages_of_chunk_to_ts_file`, `writer/chunk_writer.rs:208-261`.
`none`: a panic, or a write that does not return. -/
def writeToFileWriter (env : Env) (p : Port σ) (c : ChunkWriter) (io : Io σ) : Option (ChunkWriter × Io σ) :=
  match c.sealCurrentPage env with
  | none => none
  | some c =>
    let c' := { c with pageBuffer := [], numPages := 0, firstPageStatistics := none,
                       statistics := Statistics.new env c.dataType }
    if c.statistics.count = 0 then some (c', io)
    else
      match io.startFlushChunk p
        { measurementId := c.measurementId, dataSize := u32 c.pageBuffer.length,
          dataType := c.dataType, compression := c.compression, encoding := c.encoding,
          numPages := c.numPages, mask := 0 } c.statistics with
      | none => none
      | some io =>
        match p.perform io.out [.all [c.pageBuffer]] with
        | none => none
        | some out =>
          match ({ io with out } : Io σ).endCurrentChunk with
          | none => none
          | some io => some (c', io)

/-- The loop of `flush_to_filewriter`, `writer/group_writer.rs:45-47`. -/
def writeAllChunks (env : Env) (p : Port σ) : BMap ChunkWriter → Io σ → Option (BMap ChunkWriter × Io σ)
  | [], io => some ([], io)
  | (m, c) :: rest, io =>
    match writeToFileWriter env p c io with
    | none => none
    | some (c, io) =>
      match writeAllChunks env p rest io with
      | none => none
      | some (cs, io) => some ((m, c) :: cs, io)

/-- `flush_to_filewriter`, `writer/group_writer.rs:35-50`. -/
def flushToFilewriter (env : Env) (p : Port σ) (g : GroupWriter) (io : Io σ) : Option (GroupWriter × Io σ × Nat) :=
  match GroupWriter.sealAll env g.chunkWriters with
  | none => none
  | some cs =>
    let size := GroupWriter.chunkGroupSize cs
    match writeAllChunks env p cs io with
    | none => none
    | some (cs, io) => some ({ g with chunkWriters := cs }, io, size)

/-! ## `TsFileWriter` -/

/-- `TsFileWriter`, `writer/tsfile_writer.rs:105-120`. Unused fields are left out. -/
structure Writer (σ : Type) where
  io : Io σ
  groupWriters : BMap GroupWriter
  recordCount : W32
  recordCountForNextMemCheck : W32
  nonAlignedLastTimeMap : BMap (BMap W64)
  schema : Schema

namespace Writer

/-- `new_from_writer`, `writer/tsfile_writer.rs:299-347`. -/
def new (env : Env) (p : Port σ) (schema : Schema) (s : σ) : Option (Except TsFileError (Writer σ)) :=
  match Io.new p s with
  | none => none
  | some (.error e) => some (.error e)
  | some (.ok io) => some (.ok { io, groupWriters := TsFile.Writer.newGroupWriters env schema, recordCount := 0,
                                 recordCountForNextMemCheck := 100, nonAlignedLastTimeMap := [], schema })

/-- `reset`, `writer/tsfile_writer.rs:241-273`. -/
def reset (env : Env) (w : Writer σ) : Writer σ :=
  { w with recordCount := 0, groupWriters := TsFile.Writer.newGroupWriters env w.schema }

/-- `calculate_mem_size_for_all_groups`, `writer/tsfile_writer.rs:228-239`. -/
def memSize (w : Writer σ) : W32 :=
  w.groupWriters.foldl (fun s g => s + g.2.updateMaxGroupMemSize) 0

/-- The device loop of `flush_all_chunk_groups`, `writer/tsfile_writer.rs:205-222`. -/
def flushLoop (env : Env) (p : Port σ) : BMap GroupWriter → Io σ → BMap (BMap W64) →
    Option (BMap GroupWriter × Io σ × BMap (BMap W64) × Option TsFileError)
  | [], io, lm => some ([], io, lm, none)
  | (d, g) :: rest, io, lm =>
    match io.startChunkGroup p d with
    | none => none
    | some (io, false) => some ((d, g) :: rest, io, lm, some .ioError)
    | some (io, true) =>
      let pos := io.out.getPosition
      match flushToFilewriter env p g io with
      | none => none
      | some (g, io, dataSize) =>
        if (io.out.getPosition - pos).toNat ≠ dataSize then
          some ((d, g) :: rest, io, lm, some (.illegalState (some "Bytes written are not as expected!")))
        else
          let io := io.endChunkGroup p
          let lm := lm.insert d g.lastTimeMap
          match flushLoop env p rest io lm with
          | none => none
          | some (gs, io, lm, e) => some ((d, g) :: gs, io, lm, e)

/-- `flush_all_chunk_groups`, `writer/tsfile_writer.rs:203-226`. -/
def flushAllChunkGroups (env : Env) (p : Port σ) (w : Writer σ) : Option (Writer σ × Option TsFileError) :=
  if w.recordCount.toNat > 0 then
    match flushLoop env p w.groupWriters w.io w.nonAlignedLastTimeMap with
    | none => none
    | some (gs, io, lm, some e) =>
      some ({ w with groupWriters := gs, io, nonAlignedLastTimeMap := lm }, some e)
    | some (gs, io, lm, none) =>
      some (({ w with groupWriters := gs, io, nonAlignedLastTimeMap := lm } : Writer σ).reset env, none)
  else some (w, none)

/-- `check_memory_size_and_may_flush_chunks`, `writer/tsfile_writer.rs:170-201`. -/
def checkMemorySize (env : Env) (p : Port σ) (w : Writer σ) : Option (Writer σ) :=
  if w.recordCount.toNat ≥ w.recordCountForNextMemCheck.toNat then
    let mem := w.memSize
    if mem.toNat = 0 then none
    else
      let w' := { w with recordCountForNextMemCheck := TsFile.Writer.nextMemCheck w.recordCountForNextMemCheck mem }
      if mem.toNat > chunkGroupSizeThreshold then (flushAllChunkGroups env p w').map Prod.fst
      else some w'
  else some w

/-- `write`, `writer/tsfile_writer.rs:131-151`. The result `panic` also stands for a write that does not return. -/
def write (env : Env) (p : Port σ) (w : Writer σ) (device measurementId : Bytes) (timestamp : W64)
    (value : IoTDBValue) : Writer σ × Res Unit :=
  match w.groupWriters.get? device with
  | none => (w, .err (.illegalState (some "No Group Writer found")))
  | some g =>
    match g.write env measurementId timestamp value with
    | (g, .panic) => ({ w with groupWriters := w.groupWriters.insert device g }, .panic)
    | (g, .err e) => ({ w with groupWriters := w.groupWriters.insert device g }, .err e)
    | (g, .ok n) =>
      let w := { w with groupWriters := w.groupWriters.insert device g,
                        recordCount := w.recordCount + n }
      match w.checkMemorySize env p with
      | none => (w, .panic)
      | some w => (w, .ok ())

/-- `write_many`, `writer/tsfile_writer.rs:153-168`. -/
def writeMany (env : Env) (p : Port σ) (w : Writer σ) (device : Bytes) (timestamp : W64)
    (values : List (Bytes × IoTDBValue)) : Writer σ × Res Unit :=
  match w.groupWriters.get? device with
  | none => (w, .err (.illegalState none))
  | some g =>
    match g.writeMany env timestamp values 0 with
    | (g, .panic) => ({ w with groupWriters := w.groupWriters.insert device g }, .panic)
    | (g, .err e) => ({ w with groupWriters := w.groupWriters.insert device g }, .err e)
    | (g, .ok n) =>
      let w := { w with groupWriters := w.groupWriters.insert device g,
                        recordCount := w.recordCount + n }
      match w.checkMemorySize env p with
      | none => (w, .panic)
      | some w => (w, .ok ())

/-- `close`, `writer/tsfile_writer.rs:123-127`; errors of the flush are ignored. The output may behave differently
(`p'`) once the index is being written. -/
def close (env : Env) (p p' : Port σ) (w : Writer σ) : Option (Writer σ) :=
  match w.flushAllChunkGroups env p with
  | none => none
  | some (w, _) =>
    match w.io.endFile env p' with
    | none => none
    | some io => some { w with io }

/-- A call of the user: `write` or `write_many`. -/
def step (env : Env) (p : Port σ) (w : Writer σ) : Op → Writer σ × Res Unit
  | .write d m t v => w.write env p d m t v
  | .writeMany d t vs => w.writeMany env p d t vs

/-- A history of calls: the last state and the results. -/
def run (env : Env) (p : Port σ) (w : Writer σ) : List Op → Writer σ × List (Res Unit)
  | [] => (w, [])
  | op :: ops =>
    let r := w.step env p op
    let rs := run env p r.1 ops
    (rs.1, r.2 :: rs.2)

end Writer

end Stream

end TsFile
