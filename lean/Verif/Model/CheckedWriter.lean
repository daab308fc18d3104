import Verif.Model.Checked
/-! # The writer in a build with overflow checks

The functions of the writer once more, with overflow checks at every addition and subtraction of a counter, a sum or a size that is
kept in 32 bits, and at every difference of the delta encoders; `none` (or `.panic`) is a panic. What cannot overflow is left as it
is: positions and sizes in `u64` and `usize` (they count bytes held in memory or written), the serialised size of statistics (at most
62), the sizes the encoders report (computed in `usize`, then cast), the next memory check (32 times 27 bits in `u64`), the next page
check (in `f32`). -/

namespace TsFile
open Spec

/-- `a + b` on an unsigned type with overflow check. -/
def uaddC {w : Nat} (a b : BitVec w) : Option (BitVec w) := if a.uaddOverflow b then none else some (a + b)

namespace StatisticsStruct
variable {T S : Type}

/-- `merge`, `writer/statistics.rs:138-155`, with overflow checks in lines 153-154; `add` is the checked `+` of the sum. -/
def mergeC (k : StatType T S) (add : S → S → Option S) (s o : StatisticsStruct T S) : Option (StatisticsStruct T S) :=
  match uaddC s.count o.count with
  | none => none
  | some count =>
    match add s.sumValue o.sumValue with
    | none => none
    | some sumValue => some { s.merge k o with count, sumValue }

/-- `update`, `writer/statistics.rs:157-174`, with overflow checks in lines 172-173. -/
def updateC (k : StatType T S) (add : S → S → Option S) (s : StatisticsStruct T S) (timestamp : W64) (value : T) :
    Option (StatisticsStruct T S) :=
  match uaddC s.count 1 with
  | none => none
  | some count =>
    match add s.sumValue (k.toSum value) with
    | none => none
    | some sumValue => some { s.update k timestamp value with count, sumValue }

end StatisticsStruct

namespace Statistics

/-- `Statistics::update`, `writer/statistics.rs:31-40`, with overflow checks. Only INT32 has an integer sum. -/
def updateC (env : Env) : Statistics → W64 → IoTDBValue → Option Statistics
  | .INT32 s, t, .INT v => (s.updateC statI32 addC t v).map .INT32
  | .INT64 s, t, .LONG v => (s.updateC (statI64 env) (fun a b => some (env.f64Add a b)) t v).map .INT64
  | .FLOAT s, t, .FLOAT v => (s.updateC (statF32 env) (fun a b => some (env.f64Add a b)) t v).map .FLOAT
  | _, _, _ => none

/-- `Statistics::merge`, `writer/statistics.rs:42-65`, with overflow checks. -/
def mergeC (env : Env) : Statistics → Statistics → Option Statistics
  | .INT32 s, .INT32 o => (s.mergeC statI32 addC o).map .INT32
  | .INT64 s, .INT64 o => (s.mergeC (statI64 env) (fun a b => some (env.f64Add a b)) o).map .INT64
  | .FLOAT s, .FLOAT o => (s.mergeC (statF32 env) (fun a b => some (env.f64Add a b)) o).map .FLOAT
  | _, _ => none

end Statistics

/-- `serialize`, `writer/encoding/time_encoder.rs:72-77`, with overflow checks. -/
def Ts2Diff.serializeC {w : Nat} (tb : BitVec w → Bytes → Nat → Nat → Option Bytes) (e : Ts2Diff w) :
    Option (Ts2Diff w × Bytes) :=
  match flushC tb e with
  | none => none
  | some e => some (e, e.buffer)

namespace ValueEncoder

/-- `Encoder::write`, `writer/encoding/plain.rs:22-38`, `writer/encoding/time_encoder.rs:39-62`, with overflow checks. -/
def writeC : ValueEncoder → IoTDBValue → Option ValueEncoder
  | .plain e, v => some (.plain (e.write v))
  | .long e, .LONG v => (e.writeC longToBytes v).map .long
  | .long e, _ => some (.long e)
  | .int e, .INT v => (e.writeC intToBytes v).map .int
  | .int e, _ => some (.int e)

/-- `Encoder::serialize`, `writer/encoding/plain.rs:51-53`, `writer/encoding/time_encoder.rs:72-77`, with overflow checks. -/
def serializeC : ValueEncoder → Option (ValueEncoder × Bytes)
  | .plain e => some (.plain e, e.buffer)
  | .long e => (e.serializeC longToBytes).map (fun r => (.long r.1, r.2))
  | .int e => (e.serializeC intToBytes).map (fun r => (.int r.1, r.2))

end ValueEncoder

namespace PageWriter

/-- `estimate_max_mem_size`, `writer/chunk_writer.rs:49-58`, with overflow checks. -/
def estimateMaxMemSizeC (p : PageWriter) : Option W32 :=
  match uaddC p.timeEncoder.size p.valueEncoder.size with
  | none => none
  | some a =>
    match uaddC a p.timeEncoder.getMaxByteSize with
    | none => none
    | some b => uaddC b p.valueEncoder.getMaxByteSize

/-- `write`, `writer/chunk_writer.rs:60-66`, with overflow checks. -/
def writeC (env : Env) (p : PageWriter) (timestamp : W64) (value : IoTDBValue) : Option PageWriter :=
  match p.timeEncoder.writeC longToBytes timestamp with
  | none => none
  | some te =>
    match p.valueEncoder.writeC value with
    | none => none
    | some ve =>
      match p.statistics.updateC env timestamp value with
      | none => none
      | some st =>
        if p.pointNumber + 1 < 2 ^ 32 then
          some { p with timeEncoder := te, valueEncoder := ve, statistics := st, pointNumber := p.pointNumber + 1 }
        else none

/-- `prepare_buffer`, `writer/chunk_writer.rs:68-76`, with overflow checks. -/
def prepareBufferC (p : PageWriter) : Option PageWriter :=
  match p.timeEncoder.serializeC longToBytes with
  | none => none
  | some (te, timeBuffer) =>
    match p.valueEncoder.serializeC with
    | none => none
    | some (ve, valueBuffer) =>
      some { p with timeEncoder := te, valueEncoder := ve,
                    buffer := writeVarU32 (u32 timeBuffer.length) ++ timeBuffer ++ valueBuffer }

end PageWriter

namespace ChunkWriter

/-- `write_page_to_buffer`, `writer/chunk_writer.rs:358-496`, with overflow checks: in `prepare_buffer` (line 361), `num_pages += 1`
(line 490) and `merge` (line 491). Simplified: the checks are made first, then the function runs as in a release build. -/
def writePageToBufferC (env : Env) (c : ChunkWriter) : Option ChunkWriter :=
  match c.currentPageWriter with
  | none => some c
  | some p =>
    match p.prepareBufferC with
    | none => none
    | some p =>
      match pageContent env c.compression p.buffer with
      | none => c.writePageToBuffer env
      | some _ =>
        if c.numPages + 1 < 2 ^ 32 then
          match c.statistics.mergeC env p.statistics with
          | none => none
          | some _ => c.writePageToBuffer env
        else none

/-- `seal_current_page`, `writer/chunk_writer.rs:180-189`, with overflow checks. -/
def sealCurrentPageC (env : Env) (c : ChunkWriter) : Option ChunkWriter :=
  match c.currentPageWriter with
  | none => some c
  | some p => if p.pointNumber > 0 then writePageToBufferC env c else some c

/-- `estimate_max_series_mem_size`, `writer/chunk_writer.rs:263-281`, with overflow checks. -/
def estimateMaxSeriesMemSizeC (c : ChunkWriter) : Option W32 :=
  match c.currentPageWriter with
  | some p =>
    match p.estimateMaxMemSizeC with
    | none => none
    | some m =>
      match uaddC (2 * (4 + 1)) p.statistics.getSerializedSize with
      | none => none
      | some st =>
        match uaddC (u32 c.pageBuffer.length) m with
        | none => none
        | some a => uaddC a st
  | none => some 0

/-- `check_page_size_and_may_open_new_page`, `writer/chunk_writer.rs:304-331`, with overflow checks. -/
def checkPageSizeC (env : Env) (c : ChunkWriter) : Option ChunkWriter :=
  match c.currentPageWriter with
  | none => some c
  | some p =>
    if p.pointNumber > maxPointsInPage then writePageToBufferC env c
    else if p.pointNumber ≥ c.nextCheck then
      match p.estimateMaxMemSizeC with
      | none => none
      | some currentPageSize =>
        if currentPageSize.toNat > pageSizeThreshold then
          match writePageToBufferC env c with
          | none => none
          | some c => some { c with nextCheck := minimumRecordCountForCheck }
        else some { c with nextCheck := env.nextCheck currentPageSize.toNat p.pointNumber }
    else some c

/-- `write`, `writer/chunk_writer.rs:283-302`, with overflow checks. -/
def writeC (env : Env) (c : ChunkWriter) (timestamp : W64) (value : IoTDBValue) : Res (ChunkWriter × W32) :=
  match c.openPage env with
  | .error e => .err e
  | .ok p =>
    match p.writeC env timestamp value with
    | none => .panic
    | some p =>
      match checkPageSizeC env { c with currentPageWriter := some p } with
      | none => .panic
      | some c => .ok (c, 1)

/-- `write_to_file_writer`, `writer/chunk_writer.rs:208-261`, with overflow checks: they are in `seal_current_page`. -/
def writeToFileWriterC (env : Env) (c : ChunkWriter) (io : IoWriter) : Option (ChunkWriter × IoWriter) :=
  match c.sealCurrentPageC env with
  | none => none
  | some _ => c.writeToFileWriter env io

end ChunkWriter

namespace GroupWriter

/-- `write`, `writer/group_writer.rs:85-104`, with overflow checks. -/
def writeC (env : Env) (g : GroupWriter) (measurementId : Bytes) (timestamp : W64) (value : IoTDBValue) :
    GroupWriter × Res W32 :=
  match checkIsHistoryData g measurementId timestamp with
  | (g, false) => (g, .err .outOfOrderData)
  | (g, true) =>
    match g.chunkWriters.get? measurementId with
    | none => (g, .err (.illegalState (some "Unknown measurement id")))
    | some c =>
      match c.writeC env timestamp value with
      | .panic => (g, .panic)
      | .err _ => (g, .panic)
      | .ok (c, n) =>
        ({ g with chunkWriters := g.chunkWriters.insert measurementId c,
                  lastTimeMap := g.lastTimeMap.insert measurementId timestamp }, .ok n)

/-- `write_many`, `writer/group_writer.rs:15-25`, with overflow checks; `records` is the accumulator. -/
def writeManyC (env : Env) (timestamp : W64) : List (Bytes × IoTDBValue) → W32 → GroupWriter → GroupWriter × Res W32
  | [], records, g => (g, .ok records)
  | (m, v) :: dps, records, g =>
    match g.writeC env m timestamp v with
    | (g, .ok n) =>
      match uaddC records n with
      | none => (g, .panic)
      | some records => writeManyC env timestamp dps records g
    | (g, .err e) => (g, .err e)
    | (g, .panic) => (g, .panic)

/-- The loop of `update_max_group_mem_size`, `writer/group_writer.rs:52-64`, with overflow checks. -/
def memLoopC : BMap ChunkWriter → W32 → Option W32
  | [], s => some s
  | (_, c) :: cs, s =>
    match c.estimateMaxSeriesMemSizeC with
    | none => none
    | some n =>
      match uaddC s n with
      | none => none
      | some s => memLoopC cs s

/-- `seal_all_chunks`, `writer/group_writer.rs:65-69`, with overflow checks. -/
def sealAllC (env : Env) : BMap ChunkWriter → Option (BMap ChunkWriter)
  | [] => some []
  | (m, c) :: rest =>
    match c.sealCurrentPageC env with
    | none => none
    | some c => (sealAllC env rest).map ((m, c) :: ·)

/-- The loop of `flush_to_filewriter`, `writer/group_writer.rs:45-47`, with overflow checks. -/
def writeAllChunksC (env : Env) : BMap ChunkWriter → IoWriter → Option (BMap ChunkWriter × IoWriter)
  | [], io => some ([], io)
  | (m, c) :: rest, io =>
    match c.writeToFileWriterC env io with
    | none => none
    | some (c, io) =>
      match writeAllChunksC env rest io with
      | none => none
      | some (cs, io) => some ((m, c) :: cs, io)

/-- `flush_to_filewriter`, `writer/group_writer.rs:35-50`, with overflow checks. -/
def flushToFilewriterC (env : Env) (g : GroupWriter) (io : IoWriter) : Option (GroupWriter × IoWriter × Nat) :=
  match sealAllC env g.chunkWriters with
  | none => none
  | some cs =>
    match writeAllChunksC env cs io with
    | none => none
    | some (cs', io) => some ({ g with chunkWriters := cs' }, io, chunkGroupSize cs)

end GroupWriter

/-- The merge loop of `flush_metadata_index`, `writer/tsfile_io_writer.rs:217-227`, with overflow checks. -/
def IoWriter.mergeChunksC (env : Env) (dataType : TSDataType) : List ChunkMetadata → Statistics → Option Statistics
  | [], st => some st
  | m :: ms, st =>
    if m.dataType ≠ dataType then mergeChunksC env dataType ms st
    else
      match st.mergeC env m.statistics with
      | none => none
      | some st => mergeChunksC env dataType ms st

/-- The statistics of the series in `flush_metadata_index`, `writer/tsfile_io_writer.rs:198-240`, with overflow checks: whether
none of the merges panics. -/
def IoWriter.mergesC (env : Env) : BMap (List ChunkMetadata) → Bool
  | [] => true
  | (_, []) :: rest => mergesC env rest
  | (_, m :: ms) :: rest =>
    (mergeChunksC env m.dataType (m :: ms) (Statistics.new env m.dataType)).isSome && mergesC env rest

/-- `end_file`, `writer/tsfile_io_writer.rs:134-192`, with overflow checks: in the merges of the statistics and in the hash of the
Bloom filter. Simplified: the checks are made first, then the function runs as in a release build. -/
def IoWriter.endFileC (env : Env) (io : IoWriter) : Option IoWriter :=
  if mergesC env io.chunkMetadataMap then
    match BloomFilter.buildC env (io.chunkMetadataMap.map Prod.fst) with
    | none => none
    | some _ => io.endFile env
  else none

namespace Writer

/-- The loop of `calculate_mem_size_for_all_groups`, `writer/tsfile_writer.rs:228-239`, with overflow checks. -/
def memLoopC : BMap GroupWriter → W32 → Option W32
  | [], s => some s
  | (_, g) :: gs, s =>
    match GroupWriter.memLoopC g.chunkWriters 0 with
    | none => none
    | some n =>
      match uaddC s n with
      | none => none
      | some s => memLoopC gs s

/-- The device loop of `flush_all_chunk_groups`, `writer/tsfile_writer.rs:205-222`, with overflow checks. -/
def flushLoopC (env : Env) : BMap GroupWriter → IoWriter → BMap (BMap W64) →
    Option (BMap GroupWriter × IoWriter × BMap (BMap W64) × Option TsFileError)
  | [], io, lm => some ([], io, lm, none)
  | (d, g) :: rest, io, lm =>
    match io.startChunkGroup d with
    | (io, false) => some ((d, g) :: rest, io, lm, some .ioError)
    | (io, true) =>
      match g.flushToFilewriterC env io with
      | none => none
      | some (g, io', dataSize) =>
        if io'.out.pos - io.out.pos ≠ dataSize then
          some ((d, g) :: rest, io', lm, some (.illegalState (some "Bytes written are not as expected!")))
        else
          match flushLoopC env rest io'.endChunkGroup (lm.insert d g.lastTimeMap) with
          | none => none
          | some (gs, io, lm, e) => some ((d, g) :: gs, io, lm, e)

/-- `flush_all_chunk_groups`, `writer/tsfile_writer.rs:203-226`, with overflow checks. -/
def flushAllChunkGroupsC (env : Env) (w : Writer) : Option (Writer × Option TsFileError) :=
  if w.recordCount.toNat > 0 then
    match flushLoopC env w.groupWriters w.io w.nonAlignedLastTimeMap with
    | none => none
    | some (gs, io, lm, some e) => some ({ w with groupWriters := gs, io, nonAlignedLastTimeMap := lm }, some e)
    | some (gs, io, lm, none) =>
      some (({ w with groupWriters := gs, io, nonAlignedLastTimeMap := lm } : Writer).reset env, none)
  else some (w, none)

/-- `check_memory_size_and_may_flush_chunks`, `writer/tsfile_writer.rs:170-201`, with overflow checks. -/
def checkMemorySizeC (env : Env) (w : Writer) : Option Writer :=
  if w.recordCount.toNat ≥ w.recordCountForNextMemCheck.toNat then
    match memLoopC w.groupWriters 0 with
    | none => none
    | some mem =>
      if mem.toNat = 0 then none
      else
        let w' := { w with recordCountForNextMemCheck := nextMemCheck w.recordCountForNextMemCheck mem }
        if mem.toNat > chunkGroupSizeThreshold then (flushAllChunkGroupsC env w').map Prod.fst
        else some w'
  else some w

/-- What follows the call of the group writer in `write` and `write_many`, `writer/tsfile_writer.rs:139-141,149-150` and
`159-161,166-167`, with overflow checks: count the records, check the memory. -/
def countC (env : Env) (w : Writer) (n : W32) : Writer × Res Unit :=
  match uaddC w.recordCount n with
  | none => (w, .panic)
  | some k =>
    match ({ w with recordCount := k } : Writer).checkMemorySizeC env with
    | none => ({ w with recordCount := k }, .panic)
    | some w => (w, .ok ())

/-- `write`, `writer/tsfile_writer.rs:131-151`, with overflow checks. -/
def writeC (env : Env) (w : Writer) (device measurementId : Bytes) (timestamp : W64) (value : IoTDBValue) :
    Writer × Res Unit :=
  match w.groupWriters.get? device with
  | none => (w, .err (.illegalState (some "No Group Writer found")))
  | some g =>
    match g.writeC env measurementId timestamp value with
    | (g, .panic) => ({ w with groupWriters := w.groupWriters.insert device g }, .panic)
    | (g, .err e) => ({ w with groupWriters := w.groupWriters.insert device g }, .err e)
    | (g, .ok n) => ({ w with groupWriters := w.groupWriters.insert device g } : Writer).countC env n

/-- `write_many`, `writer/tsfile_writer.rs:153-168`, with overflow checks. -/
def writeManyC (env : Env) (w : Writer) (device : Bytes) (timestamp : W64) (values : List (Bytes × IoTDBValue)) :
    Writer × Res Unit :=
  match w.groupWriters.get? device with
  | none => (w, .err (.illegalState none))
  | some g =>
    match g.writeManyC env timestamp values 0 with
    | (g, .panic) => ({ w with groupWriters := w.groupWriters.insert device g }, .panic)
    | (g, .err e) => ({ w with groupWriters := w.groupWriters.insert device g }, .err e)
    | (g, .ok n) => ({ w with groupWriters := w.groupWriters.insert device g } : Writer).countC env n

/-- `close`, `writer/tsfile_writer.rs:123-127`, with overflow checks. -/
def closeC (env : Env) (w : Writer) : Option Writer :=
  match w.flushAllChunkGroupsC env with
  | none => none
  | some (w, _) =>
    match w.io.endFileC env with
    | none => none
    | some io => some { w with io }

/-- One call (`writer/tsfile_writer.rs:131-168`), with overflow checks. -/
def stepC (env : Env) (w : Writer) : Op → Writer × Res Unit
  | .write d m t v => w.writeC env d m t v
  | .writeMany d t vs => w.writeManyC env d t vs

/-- A history of calls, with overflow checks: the last state and the results. -/
def runC (env : Env) (w : Writer) : List Op → Writer × List (Res Unit)
  | [] => (w, [])
  | op :: ops =>
    let r := w.stepC env op
    let rs := runC env r.1 ops
    (rs.1, r.2 :: rs.2)

end Writer

end TsFile
