import Verif.Spec.Reference
import Verif.Spec.Bloom
import Verif.Spec.Closing
/-! # The reference writer, continued: index, footer and Bloom filter

The second part of a file, again as plain functions of the points of each flush. -/

namespace TsFile.Spec.Ref

/-- Pieces laid one after the other from a position on: where each of them starts. -/
def placed {α : Type} : Nat → List (α × Bytes) → List (α × Nat)
  | _, [] => []
  | p, x :: l => (x.1, p) :: placed (p + x.2.length) l

/-! ## chunks and their positions -/

/-- The statistics of a chunk: those of its pages together. -/
def chunkStats (env : Env) (ms : MeasurementSchema) (pts : List (W64 × IoTDBValue)) : Summary :=
  together env ms.dataType ((pages env ms pts).map (stats env ms.dataType))

/-- What the index has to know about a chunk. -/
structure Chunk where
  device : Bytes
  measurement : Bytes
  type : TSDataType
  stats : Summary

/-- The path of the series of a chunk. -/
def Chunk.path (c : Chunk) : Bytes := c.device ++ [46] ++ c.measurement

/-- The pieces of a group: its header and the chunks. -/
def groupPieces (env : Env) (points : List Rec) (d : Bytes × List (Bytes × MeasurementSchema)) : List (Option Chunk × Bytes) :=
  (none, [0] ++ string d.1) :: ((byName d.2).filter (fun m => !(series points d.1 m.1).isEmpty)).map (fun m =>
    (some ⟨d.1, m.1, m.2.dataType, chunkStats env m.2 (series points d.1 m.1)⟩,
      (chunk env m.1 m.2 (series points d.1 m.1)).getD []))

/-- The chunks of the file with their positions; the first group is behind the seven bytes of the head. -/
def chunks (env : Env) (schema : Schema) (bursts : List (List Rec)) : List (Chunk × Nat) :=
  (placed 7 (bursts.flatMap (fun b => (byName schema).flatMap (groupPieces env b)))).filterMap
    (fun x => x.1.map (fun c => (c, x.2)))

/-- Names in their order, each once. -/
def names (l : List Bytes) : List Bytes := (byName (l.dedup.map (fun x => (x, ())))).map Prod.fst

/-- The paths of the series that have chunks. -/
def paths (cs : List (Chunk × Nat)) : List Bytes := names (cs.map (fun c => c.1.path))

/-- The paths of all series of a schema. -/
def schemaPaths (schema : Schema) : List Bytes := schema.flatMap (fun d => d.2.map (fun m => d.1 ++ [46] ++ m.1))

/-! ## records of the series -/

/-- The record of a series, with its name: whether it has several chunks, name, type, size of the list, statistics, and the list
of its chunks, with their statistics if there are several. If two series have the same path, name and type are those of the
first chunk, and chunks of the other type are left out. -/
def record (env : Env) : List (Chunk × Nat) → Bytes × Bytes
  | [] => ([], [])
  | c :: cs =>
    let several := decide (1 < (c :: cs).length)
    let same := (c :: cs).filter (fun x => decide (x.1.type = c.1.type))
    let list := same.flatMap (fun x => big 8 x.2 ++ (if several then x.1.stats.bytes c.1.type else []))
    (c.1.measurement, [(if several then 1 else 0 : UInt8)] ++ string c.1.measurement
      ++ [(match c.1.type with | .INT32 => 1 | .INT64 => 2 | .FLOAT => 3 : UInt8)]
      ++ varint list.length ++ (together env c.1.type (same.map (fun x => x.1.stats))).bytes c.1.type ++ list)

/-- The records, by device. The device of a series is the part of its path before the last dot. Devices are in the order of
their names, records in that of the paths. -/
def records (env : Env) (cs : List (Chunk × Nat)) : List (Bytes × List (Bytes × Bytes)) :=
  (names ((paths cs).map beforeLastDot)).map (fun d =>
    (d, ((paths cs).filter (fun p => decide (beforeLastDot p = d))).map (fun p =>
      record env (cs.filter (fun c => decide (c.1.path = p))))))

/-! ## nodes -/

/-- A node of the index: entries, end, kind. -/
def node (kind : UInt8) (entries : List (Bytes × Nat)) (stop : Nat) : Bytes :=
  varint entries.length ++ entries.flatMap (fun e => string e.1 ++ big 8 e.2) ++ big 8 stop ++ [kind]

/-- The first of every `n` elements. -/
def every {α : Type} (n : Nat) (l : List α) : List α :=
  (List.range ((l.length + (n - 1)) / n)).flatMap (fun k => (l.drop (n * k)).take 1)

/-- The names in the upper node of a device with many records, from the first names of the nodes below: these in reverse order,
at most 256. More are reduced to at most 256 first, in rounds in which a part of them is replaced by the last one, twice. -/
def upper : Nat → List Bytes → List Bytes
  | 0, l => l.reverse
  | rounds + 1, l =>
    if l.length ≤ 256 then l.reverse
    else upper rounds (l.take (l.length - 257) ++ l.drop (l.length - 1) ++ l.drop (l.length - 1))

/-- The node of a device whose records start at the given position. Up to 65536 records, it has one entry for every 256 of
them. Beyond, it is an upper node, and its entries all have the position behind the records. The nodes below it, one for every
65536 records, are not in the file. -/
def deviceNode (p : Nat) (records : List (Bytes × Bytes)) : Bytes :=
  let stop := p + (records.flatMap Prod.snd).length
  if records.length ≤ 65536 then node 3 (every 256 (placed p records)) stop
  else node 2 ((upper records.length (every 65536 (records.map Prod.fst))).map (fun n => (n, stop))) stop

/-- The nodes of the devices. The records of the first device start at the given position. -/
def deviceNodes : Nat → List (Bytes × List (Bytes × Bytes)) → List (Bytes × Bytes)
  | _, [] => []
  | p, d :: l => (d.1, deviceNode p d.2) :: deviceNodes (p + (d.2.flatMap Prod.snd).length) l

/-! ## Bloom filter -/

/-- The filter of some paths: its bytes without the zeros at the end, number of bits, number of hash functions. -/
def bloom (env : Env) (paths : List Bytes) : Bytes :=
  let n := max (env.bloomSize paths.length) 256
  let k := min env.bloomHashes 8
  let on := paths.flatMap (fun p => (bloomSeedsSpec.take k).map (fun seed => (pathHash p seed).natAbs % n))
  let len := (on.map (fun i => i / 8 + 1)).foldl max 0
  let bytes : Bytes := (List.range len).map (fun j =>
    UInt8.ofNat ((List.range 8).map (fun b => if on.contains (8 * j + b) then 2 ^ b else 0)).sum)
  varint len ++ bytes ++ varint n ++ varint k

/-! ## file -/

/-- The whole file. `head` is the part before the index, `cs` are the chunks in it, and `order` are the nodes of the devices in
some order (the writer takes that of a hash table). -/
def file (env : Env) (head : Bytes) (cs : List (Chunk × Nat)) (order : List (Bytes × Bytes)) : Bytes :=
  let list := (records env cs).flatMap (fun d => d.2.flatMap Prod.snd)
  let nodes := order.flatMap Prod.snd
  let start := head.length + 1 + list.length
  let footer := node 1 (placed start order) (start + nodes.length) ++ big 8 head.length ++ bloom env (paths cs)
  head ++ [2] ++ list ++ nodes ++ footer ++ big 4 footer.length ++ [84, 115, 70, 105, 108, 101]

end TsFile.Spec.Ref
