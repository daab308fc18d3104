import Verif.Proofs.CloseAny
/-! # Only the last step of `close` depends on the iteration order of hash maps -/

namespace TsFile
open Spec

/-- The same environment with another iteration order. -/
def Env.reorder (env : Env) (o : List (Bytes × IndexNode) → List (Bytes × IndexNode)) : Env :=
  { env with hashOrder := o }

section
variable (env : Env) (o : List (Bytes × IndexNode) → List (Bytes × IndexNode))

namespace Reorder

theorem statUpdate (s : Statistics) (t : W64) (v : IoTDBValue) : s.update (env.reorder o) t v = s.update env t v := rfl
theorem statMerge (s t : Statistics) : s.merge (env.reorder o) t = s.merge env t := rfl
theorem statNew (dt : TSDataType) : Statistics.new (env.reorder o) dt = Statistics.new env dt := rfl
theorem statSer (s : Statistics) : s.serialize (env.reorder o) = s.serialize env := rfl
theorem pageNew (dt : TSDataType) (e : TSEncoding) : PageWriter.new (env.reorder o) dt e = PageWriter.new env dt e := rfl
theorem pageReset (p : PageWriter) : p.reset (env.reorder o) = p.reset env := rfl
theorem pageWrite (p : PageWriter) (t : W64) (v : IoTDBValue) : p.write (env.reorder o) t v = p.write env t v := rfl
theorem cmSer (m : ChunkMetadata) (b : Bool) : m.serialize (env.reorder o) b = m.serialize env b := rfl
theorem chunkNew (m : Bytes) (dt : TSDataType) (c : CompressionType) (e : TSEncoding) :
    ChunkWriter.new (env.reorder o) m dt c e = ChunkWriter.new env m dt c e := rfl
theorem pageContent (c : CompressionType) (b : Bytes) :
    ChunkWriter.pageContent (env.reorder o) c b = ChunkWriter.pageContent env c b := rfl
theorem writePage (c : ChunkWriter) : c.writePageToBuffer (env.reorder o) = c.writePageToBuffer env := rfl
theorem sealPage (c : ChunkWriter) : c.sealCurrentPage (env.reorder o) = c.sealCurrentPage env := rfl
theorem checkPage (c : ChunkWriter) : c.checkPageSize (env.reorder o) = c.checkPageSize env := rfl
theorem openPage (c : ChunkWriter) : c.openPage (env.reorder o) = c.openPage env := rfl
theorem chunkWrite (c : ChunkWriter) (t : W64) (v : IoTDBValue) : c.write (env.reorder o) t v = c.write env t v := rfl
theorem tsSer (t : TimeSeriesMetadata) : t.serialize (env.reorder o) = t.serialize env := rfl
theorem writeTo (c : ChunkWriter) (io : IoWriter) : c.writeToFileWriter (env.reorder o) io = c.writeToFileWriter env io := rfl
theorem groupWrite (g : GroupWriter) (m : Bytes) (t : W64) (v : IoTDBValue) :
    g.write (env.reorder o) m t v = g.write env m t v := rfl

theorem groupWriteMany (t : W64) (vs : List (Bytes × IoTDBValue)) (n : W32) (g : GroupWriter) :
    GroupWriter.writeMany (env.reorder o) t vs n g = GroupWriter.writeMany env t vs n g := by
  induction vs generalizing n g with
  | nil => rfl
  | cons p vs ih =>
    simp only [GroupWriter.writeMany, groupWrite, ih]

theorem sealAll (l : BMap ChunkWriter) : GroupWriter.sealAll (env.reorder o) l = GroupWriter.sealAll env l := by
  induction l with
  | nil => rfl
  | cons p l ih => simp only [GroupWriter.sealAll, sealPage, ih]

theorem writeAll (l : BMap ChunkWriter) (io : IoWriter) :
    GroupWriter.writeAllChunks (env.reorder o) l io = GroupWriter.writeAllChunks env l io := by
  induction l generalizing io with
  | nil => rfl
  | cons p l ih => simp only [GroupWriter.writeAllChunks, writeTo, ih]

theorem flushTo (g : GroupWriter) (io : IoWriter) : g.flushToFilewriter (env.reorder o) io = g.flushToFilewriter env io := by
  simp only [GroupWriter.flushToFilewriter, sealAll, writeAll]

theorem groupWriters (schema : Schema) : Writer.newGroupWriters (env.reorder o) schema = Writer.newGroupWriters env schema := rfl
theorem writerNew (schema : Schema) (out : Sink) : Writer.new (env.reorder o) schema out = Writer.new env schema out := rfl
theorem reset (w : Writer) : w.reset (env.reorder o) = w.reset env := rfl

theorem flushLoop (l : BMap GroupWriter) (io : IoWriter) (lm : BMap (BMap W64)) :
    Writer.flushLoop (env.reorder o) l io lm = Writer.flushLoop env l io lm := by
  induction l generalizing io lm with
  | nil => rfl
  | cons p l ih => simp only [Writer.flushLoop, flushTo, ih]

theorem flushAll (w : Writer) : w.flushAllChunkGroups (env.reorder o) = w.flushAllChunkGroups env := by
  simp only [Writer.flushAllChunkGroups, flushLoop, reset]

theorem checkMem (w : Writer) : w.checkMemorySize (env.reorder o) = w.checkMemorySize env := by
  simp only [Writer.checkMemorySize, flushAll]

theorem step (w : Writer) (op : Op) : w.step (env.reorder o) op = w.step env op := by
  cases op <;> simp only [Writer.step, Writer.write, Writer.writeMany, groupWrite, groupWriteMany, checkMem]

theorem run (ops : List Op) (w : Writer) : w.run (env.reorder o) ops = w.run env ops := by
  induction ops generalizing w with
  | nil => rfl
  | cons op ops ih => simp only [Writer.run, step, ih]

theorem grown (ops : List Op) (w : Writer) : w.grown (env.reorder o) ops = w.grown env ops := by
  induction ops generalizing w with
  | nil => rfl
  | cons op ops ih => simp only [Writer.grown, step, ih]

theorem mergeChunks (dt : TSDataType) (b : Bool) (l : List ChunkMetadata) (buf : Bytes) (st : Statistics) :
    IoWriter.mergeChunks (env.reorder o) dt b l buf st = IoWriter.mergeChunks env dt b l buf st := by
  induction l generalizing buf st with
  | nil => rfl
  | cons m l ih => simp only [IoWriter.mergeChunks, statMerge, cmSer, ih]

theorem timeSeries (l : List ChunkMetadata) :
    IoWriter.timeSeriesMetadata (env.reorder o) l = IoWriter.timeSeriesMetadata env l := by
  cases l with
  | nil => rfl
  | cons m l => simp only [IoWriter.timeSeriesMetadata, mergeChunks, statNew]

theorem flushIndex (last : Option Bytes) (l : BMap (List ChunkMetadata)) (tsm : BMap (List TimeSeriesMetadata)) :
    IoWriter.flushIndexLoop (env.reorder o) last l tsm = IoWriter.flushIndexLoop env last l tsm := by
  induction l generalizing last tsm with
  | nil => rfl
  | cons p l ih => simp only [IoWriter.flushIndexLoop, timeSeries, ih]

theorem leaf (i : Nat) (s : LeafState) (l : List TimeSeriesMetadata) :
    leafLoop (env.reorder o) i s l = leafLoop env i s l := by
  induction l generalizing i s with
  | nil => rfl
  | cons t l ih => simp only [leafLoop, tsSer, ih]

theorem device (out : Sink) (l : List TimeSeriesMetadata) :
    deviceIndex (env.reorder o) out l = deviceIndex env out l := by
  simp only [deviceIndex, leaf]

theorem devices (out : Sink) (m : BMap (List TimeSeriesMetadata)) :
    devicesLoop (env.reorder o) out m = devicesLoop env out m := by
  induction m generalizing out with
  | nil => rfl
  | cons p m ih => simp only [devicesLoop, device, ih]

theorem bloom (paths : List Bytes) : BloomFilter.build (env.reorder o) paths = BloomFilter.build env paths := rfl

end Reorder

end

/-- The bytes of a closed file, given the order in which the device nodes are written. -/
def closedBytes (env : Env) (groups : List GGroup) (tsm : BMap (List TimeSeriesMetadata)) (bloom : Bytes)
    (order : List (Bytes × IndexNode)) : Bytes :=
  let p := (fileBytes env groups).length + 1 + (metaBytes env tsm).length
  let nodes := order.flatMap (fun e => e.2.serialize)
  let root : IndexNode := { children := devEntries p order, endOffset := p + nodes.length, nodeType := .leafDevice }
  fileBytes env groups ++ ([2] ++ (metaBytes env tsm ++ (nodes
    ++ (footerBytes root (fileBytes env groups).length bloom
      ++ (be32 (u32 (footerBytes root (fileBytes env groups).length bloom).length) ++ magic)))))

theorem endFile_reorder {env : Env} {unsnap : Bytes → Option Bytes} {schema : Schema}
    {io : IoWriter} {groups : List GGroup} (h : FileRep env unsnap schema io groups) :
    ∃ tsm map, BMap.Sorted tsm ∧ (∀ d, d ∈ tsm.map Prod.fst ↔ ∃ p ∈ io.chunkMetadataMap.map Prod.fst, IoWriter.deviceOfPath p = d)
      ∧ map.map Prod.fst = tsm.map Prod.fst ∧ ∀ o, io.endFile (env.reorder o) =
      if map.length ≤ 256 then
        ((BloomFilter.build env (io.chunkMetadataMap.map Prod.fst)).bind BloomFilter.serialize).map (fun bloom =>
          { io with
            out := ⟨closedBytes env groups tsm bloom (o map), none⟩
            timeseriesMetadataMap := tsm })
      else none := by
  obtain ⟨hsorted, hget⟩ := chunkMetadataMap_rep h
  obtain ⟨tsm, hloop, hsort, hne, hkeys⟩ := flushIndex_any hsorted hget
  obtain ⟨out, map, hdl, hmap⟩ := devicesLoop_any env tsm (fileBytes env groups ++ [2]) hne
  obtain ⟨rfl, _⟩ := devicesLoop_out _ _ hdl
  refine ⟨tsm, map, hsort, hkeys, hmap, fun o => ?_⟩
  rw [IoWriter.endFile, Reorder.flushIndex, h.tsm]
  simp only [hloop]
  have hout : io.out.write [2] = ⟨fileBytes env groups ++ [2], none⟩ := by
    rw [Sink.write, h.cap]
    simp only [h.bytes]
  have hc' : constructMetadataIndex (env.reorder o) tsm ⟨fileBytes env groups ++ [2], none⟩ =
      if map.length ≤ 256 then
        let order := o map
        let p := (fileBytes env groups ++ [2]).length + (metaBytes env tsm).length
        some (⟨fileBytes env groups ++ [2] ++ metaBytes env tsm ++ order.flatMap (fun e => e.2.serialize), none⟩,
          { children := devEntries p order
            endOffset := p + (order.flatMap (fun e => e.2.serialize)).length
            nodeType := .leafDevice })
      else none := by
    rw [constructMetadataIndex, Reorder.devices, hdl]
    simp only [maxDegree, writeDeviceNodes_eq, Sink.pos, List.length_append, Env.reorder]
  rw [hout, hc', Reorder.bloom]
  by_cases hfew : map.length ≤ 256
  · rw [if_pos hfew, if_pos hfew]
    simp only [List.length_append, List.length_singleton]
    cases hb : BloomFilter.build env (io.chunkMetadataMap.map Prod.fst) with
    | none => simp
    | some bf =>
      simp only [Option.bind_some]
      cases hbs : bf.serialize with
      | none => simp
      | some bb =>
        simp only [Option.map_some, Option.some.injEq]
        have hsub : ∀ a b c d x y : Nat, a + (b + (c + (d + (x + y)))) - (a + (b + (c + d))) = x + y := by
          intros; omega
        simp only [closedBytes, Sink.write, Sink.pos, footerBytes, List.append_assoc, List.length_append, h.bytes, hsub,
          List.length_singleton, Nat.add_assoc]
  · rw [if_neg hfew, if_neg hfew]

/-- A session with any iteration order: only the order of the device nodes varies. -/
theorem session_reorder {env : Env} {unsnap : Bytes → Option Bytes} (he : EnvOk env unsnap) {schema : Schema}
    (hsch : schema.WF) {ops : List Op} {w : Writer} (hn : Writer.new env schema ⟨[], none⟩ = .ok w)
    (hlen : burstsBelow (2 ^ 32) 0 (ops.zip ((w.grown env ops).map (fun n => decide (0 < n)))))
    (hp : .panic ∉ (w.run env ops).2) :
    ∃ groups tsm map, ∃ bloom? : Option Bytes,
      map.length = (indexDevicesOf (storedBy schema ops (w.grown env ops))).length
      ∧ (∃ w2, (w.run env ops).1.flushAllChunkGroups env = some (w2, none) ∧ w2.io.out.bytes = fileBytes env groups)
      ∧ ∀ o, session (env.reorder o) schema ops =
      if map.length ≤ 256 then
        bloom?.map (fun bloom =>
          let file := closedBytes env groups tsm bloom (o map)
          { results := (w.run env ops).2
            grown := w.grown env ops
            closing := file.length - (w.run env ops).1.io.out.bytes.length
            file := file })
      else none := by
  obtain ⟨new, hres, hs1, hl, _⟩ := sim_run he.snappy hsch ops (sim_new unsnap hsch hn) 0 (by simp [AState.init])
    hlen hp
  have hl' : (AState.init.run schema (ops.zip ((w.grown env ops).map (fun n => decide (0 < n))))).1.pending.length
      < 2 ^ 32 := by
    by_cases ho : ops = []
    · subst ho; simp [AState.run, AState.init]
    · exact hl ho
  obtain ⟨w2, new2, hf, hs2, _⟩ := sim_flush he.snappy hsch hs1 hl'
  obtain ⟨tsm, map, hsort, hkeys, hmap, hend⟩ := endFile_reorder hs2.file
  obtain ⟨_, hget⟩ := chunkMetadataMap_rep hs2.file
  have hmem := chunkPaths_mem hs2.file.ok hget hs2.stored
  refine ⟨_, tsm, map, (BloomFilter.build env (w2.io.chunkMetadataMap.map Prod.fst)).bind BloomFilter.serialize, ?_,
    ⟨w2, hf, hs2.file.bytes⟩, fun o => ?_⟩
  · rw [← List.length_map (f := Prod.fst), hmap]
    refine length_eq_of_mem_iff hsort.nodup (List.nodup_dedup _) (fun d => ?_)
    rw [hkeys, mem_indexDevicesOf]
    simp only [hmem, storedBy]
  rw [session, Reorder.writerNew, hn]
  simp only [Reorder.run, Reorder.grown]
  rw [if_neg hp, Writer.close, Reorder.flushAll, hf]
  simp only
  rw [hend]
  by_cases hfew : map.length ≤ 256
  · rw [if_pos hfew, if_pos hfew]
    cases (BloomFilter.build env (w2.io.chunkMetadataMap.map Prod.fst)).bind BloomFilter.serialize <;> simp
  · rw [if_neg hfew, if_neg hfew]

theorem devEntries_length (p : Nat) (l : List (Bytes × IndexNode)) :
    ((devEntries p l).flatMap IndexEntry.serialize).length = (l.flatMap (fun e => writeStr e.1 ++ be64 0)).length
    ∧ (devEntries p l).length = l.length := by
  induction l generalizing p with
  | nil => simp [devEntries]
  | cons e l ih =>
    obtain ⟨d, node⟩ := e
    obtain ⟨h1, h2⟩ := ih (p + node.serialize.length)
    rw [devEntries, List.flatMap_cons, List.flatMap_cons, List.length_append, List.length_append, h1, List.length_cons, h2]
    refine ⟨?_, rfl⟩
    congr 1
    simp [IndexEntry.serialize]

/-- The length of the file does not depend on the order. -/
theorem closedBytes_perm (env : Env) (groups : List GGroup) (tsm : BMap (List TimeSeriesMetadata)) (bloom : Bytes)
    {order order' : List (Bytes × IndexNode)} (h : order.Perm order') :
    (closedBytes env groups tsm bloom order).length = (closedBytes env groups tsm bloom order').length := by
  have h1 : (order.flatMap (fun e => e.2.serialize)).length = (order'.flatMap (fun e => e.2.serialize)).length :=
    (h.flatMap_right _).length_eq
  have h2 : (order.flatMap (fun e => writeStr e.1 ++ be64 0)).length
      = (order'.flatMap (fun e => writeStr e.1 ++ be64 0)).length := (h.flatMap_right _).length_eq
  have h3 := h.length_eq
  simp only [closedBytes, footerBytes, tsFileMetadataSerialize, IndexNode.serialize, List.length_append,
    (devEntries_length _ _).1, (devEntries_length _ _).2, length_be64, length_be32] at h1 ⊢
  rw [h1, h2, h3]

end TsFile
