import Verif.Model.Chunk
/-! # Output sink and metadata index: `writer/mod.rs:312-654,788-858` -/

namespace TsFile

/-- The output `T: PositionedWrite` (`writer/mod.rs:137-184`). `cap = none` is an output that accepts
everything (a `Vec<u8>`, a file on a disk with room); `cap = some n` accepts `n` bytes in total and then
fails, after having taken as many bytes of the failing write as fit. -/
structure Sink where
  bytes : Bytes
  cap : Option Nat
  deriving DecidableEq, Repr

namespace Sink

/-- `get_position`. -/
def pos (s : Sink) : Nat := s.bytes.length

/-- The output after `write_all` (also after a sequence of `write_all`s of the parts of `b`, because
once one of them fails every later non-empty one fails too). -/
def write (s : Sink) (b : Bytes) : Sink :=
  match s.cap with
  | none => { s with bytes := s.bytes ++ b }
  | some n => { s with bytes := s.bytes ++ b.take (n - s.bytes.length) }

/-- Whether `write_all` returns `Ok`. -/
def ok (s : Sink) (b : Bytes) : Bool :=
  match s.cap with
  | none => true
  | some n => decide (b.length ≤ n - s.bytes.length)

end Sink

/-- `Serializable for MetadataIndexEntry`, `writer/mod.rs:365-377`. -/
def IndexEntry.serialize (e : IndexEntry) : Bytes :=
  writeStr e.name ++ be64 (BitVec.ofNat 64 e.offset)

/-- `Serializable for MetadataIndexNode`, `writer/mod.rs:386-407`. -/
def IndexNode.serialize (n : IndexNode) : Bytes :=
  writeVarU32 (u32 n.children.length) ++ n.children.flatMap IndexEntry.serialize
    ++ be64 (BitVec.ofNat 64 n.endOffset) ++ [n.nodeType.serialize]

/-- `MetadataIndexNode::new`, `writer/mod.rs:410-416`. -/
def IndexNode.new (t : NodeType) : IndexNode := { children := [], endOffset := 0, nodeType := t }

/-- `is_full`, `writer/mod.rs:609-611`. -/
def IndexNode.isFull (n : IndexNode) : Bool := decide (n.children.length ≥ maxDegree)

/-- `TimeSeriesMetadata`, `writer/mod.rs:635-642`. -/
structure TimeSeriesMetadata where
  metadataType : UInt8
  chunkMetaDataListDataSize : Nat
  measurementId : Bytes
  dataType : TSDataType
  statistics : Statistics
  buffer : Bytes
  deriving DecidableEq, Repr

/-- `TimeSeriesMetadatable::serialize`, `writer/mod.rs:624-632`. -/
def TimeSeriesMetadata.serialize (env : Env) (t : TimeSeriesMetadata) : Bytes :=
  [t.metadataType] ++ writeStr t.measurementId ++ [t.dataType.serialize]
    ++ writeVarU32 (u32 t.chunkMetaDataListDataSize) ++ t.statistics.serialize env ++ t.buffer

/-- The inner `for` loop of `generate_root_node`, `writer/mod.rs:463-487`: `n` iterations with the
queue (last element first out) and the node under construction. Nothing is written to the file.
`none` is a panic. -/
def rootNodePass (pos : Nat) : Nat → List IndexNode → IndexNode → Option (List IndexNode × IndexNode)
  | 0, queue, cur => some (queue, cur)
  | n + 1, queue, cur =>
    match queue.getLast? with
    | none => none
    | some node =>
      match node.children with
      | [] => none
      | first :: _ =>
        let queue := queue.dropLast
        let full := cur.isFull
        let cur := if full then { cur with endOffset := pos } else cur
        let queue := if full then queue ++ [cur] else queue
        rootNodePass pos n queue { cur with children := cur.children ++ [⟨first.name, pos⟩] }

/-- The `while queue_size != 1` loop of `generate_root_node`, `writer/mod.rs:462-501`. A pass over `q`
nodes leaves fewer nodes whenever `q ≥ 2`, so fuel `q + 2` suffices (`Proofs.Index`). -/
def rootNodeLoop (pos : Nat) (t : NodeType) : Nat → List IndexNode → Option IndexNode
  | fuel, queue =>
    if queue.length = 1 then queue.head? else
    match fuel with
    | 0 => none
    | fuel + 1 =>
      match rootNodePass pos queue.length queue (IndexNode.new t) with
      | none => none
      | some (queue, cur) => rootNodeLoop pos t fuel (queue ++ [{ cur with endOffset := pos }])

/-- `generate_root_node`, `writer/mod.rs:430-502`. It only reads the file position. -/
def generateRootNode (queue : List IndexNode) (pos : Nat) (t : NodeType) : Option IndexNode :=
  rootNodeLoop pos t (queue.length + 2) queue

/-- State of the measurement loop of `construct_metadata_index`. -/
structure LeafState where
  out : Sink
  cur : IndexNode
  queue : List IndexNode

/-- The measurement loop of `construct_metadata_index`, `writer/mod.rs:524-543`; `i` is the loop index.
Includes `add_current_index_node_to_queue`, lines 418-428. -/
def leafLoop (env : Env) : Nat → LeafState → List TimeSeriesMetadata → LeafState
  | _, s, [] => s
  | i, s, t :: ts =>
    let s :=
      if i % maxDegree = 0 then
        let s := if s.cur.isFull then
            { s with queue := s.queue ++ [{ s.cur with endOffset := s.out.pos }],
                     cur := IndexNode.new .leafMeasurement }
          else s
        { s with cur := { s.cur with children := s.cur.children ++ [⟨t.measurementId, s.out.pos⟩] } }
      else s
    leafLoop env (i + 1) { s with out := s.out.write (t.serialize env) } ts

/-- One device of `construct_metadata_index`, `writer/mod.rs:517-558`. -/
def deviceIndex (env : Env) (out : Sink) (l : List TimeSeriesMetadata) : Option (Sink × IndexNode) :=
  let s := leafLoop env 0 ⟨out, IndexNode.new .leafMeasurement, []⟩ l
  let queue := s.queue ++ [{ s.cur with endOffset := s.out.pos }]
  (generateRootNode queue s.out.pos .internalMeasurement).map (fun n => (s.out, n))

/-- The device loop of `construct_metadata_index`, `writer/mod.rs:510-559`. The keys are those of a
`BTreeMap`, hence distinct, so inserting into the `HashMap` adds an entry. -/
def devicesLoop (env : Env) : Sink → BMap (List TimeSeriesMetadata) →
    Option (Sink × List (Bytes × IndexNode))
  | out, [] => some (out, [])
  | out, (d, l) :: rest =>
    if l.isEmpty then devicesLoop env out rest
    else
      match deviceIndex env out l with
      | none => none
      | some (out, node) =>
        match devicesLoop env out rest with
        | none => none
        | some (out, m) => some (out, (d, node) :: m)

/-- The loop over the device map, `writer/mod.rs:564-570`. -/
def writeDeviceNodes : Sink → List (Bytes × IndexNode) → Sink × List IndexEntry
  | out, [] => (out, [])
  | out, (d, node) :: rest =>
    let r := writeDeviceNodes (out.write node.serialize) rest
    (r.1, ⟨d, out.pos⟩ :: r.2)

/-- `construct_metadata_index`, `writer/mod.rs:505-575`. `none` is a panic; line 575 panics for more
than `max_degree_of_index_node` devices. -/
def constructMetadataIndex (env : Env) (m : BMap (List TimeSeriesMetadata)) (out : Sink) :
    Option (Sink × IndexNode) :=
  match devicesLoop env out m with
  | none => none
  | some (out, map) =>
    if map.length ≤ maxDegree then
      let r := writeDeviceNodes out (env.hashOrder map)
      some (r.1, { children := r.2, endOffset := r.1.pos, nodeType := .leafDevice })
    else none

/-- `Serializable for TsFileMetadata` with `metadata_index = Some(node)`, `writer/mod.rs:802-818`. The
`None` case (`writer/mod.rs:808-811`) is never constructed. -/
def tsFileMetadataSerialize (node : IndexNode) (metaOffset : Nat) : Bytes :=
  node.serialize ++ be64 (BitVec.ofNat 64 metaOffset)

/-- `Serializable for ChunkGroupHeader`, `writer/mod.rs:830-836`. -/
def chunkGroupHeader (deviceId : Bytes) : Bytes := [0] ++ writeStr deviceId

end TsFile
