import Verif.Spec.Format
/-! # A reader of the TsFile format, part 2: whole files

Two ways to read a file: through the metadata index at its end (what a query does), and by scanning the
chunk groups from the beginning (what a repair tool does). Written from the format description. -/

namespace TsFile.Spec

/-- Head of a file: `TsFile` and the version 3. -/
def head : Bytes := [0x54, 0x73, 0x46, 0x69, 0x6c, 0x65, 3]

/-- Tail of a file: `TsFile`. -/
def tailMagic : Bytes := [0x54, 0x73, 0x46, 0x69, 0x6c, 0x65]

/-- An entry of an index node. -/
structure Entry where
  name : Bytes
  offset : Nat
  deriving DecidableEq, Repr

/-- An index node. Kinds: 0 inner device node, 1 leaf device node, 2 inner measurement node, 3 leaf
measurement node. -/
structure Node where
  entries : List Entry
  endOffset : Nat
  kind : UInt8
  deriving DecidableEq, Repr

/-- `n` times the same thing. -/
def pRepeat {α : Type} (p : Parser α) : Nat → Parser (List α)
  | 0, b => some ([], b)
  | n + 1, b =>
    match p b with
    | none => none
    | some (a, b) =>
      match pRepeat p n b with
      | none => none
      | some (l, b) => some (a :: l, b)

/-- An index entry: name, 8 byte offset. -/
def pEntry : Parser Entry := fun b => do
  let (name, b) ← pStr b
  let (offset, b) ← pBE 8 b
  some (⟨name, offset⟩, b)

/-- An index node: number of entries, entries, 8 byte end offset, kind. -/
def pNode : Parser Node := fun b => do
  let (n, b) ← pVarU b
  let (entries, b) ← pRepeat pEntry n b
  let (endOffset, b) ← pBE 8 b
  let (kind, b) ← pByte b
  some (⟨entries, endOffset, kind⟩, b)

/-- The Bloom filter at the end of the footer: bit bytes, number of bits, number of hash functions. -/
structure Bloom where
  bits : Bytes
  size : Nat
  hashes : Nat
  deriving DecidableEq, Repr

/-- The footer of a file. -/
structure Footer where
  root : Node
  metaOffset : Nat
  bloom : Bloom
  deriving DecidableEq, Repr

/-- The footer: root index node, 8 byte offset of the end of the data part, Bloom filter. -/
def pFooter : Parser Footer := fun b => do
  let (root, b) ← pNode b
  let (metaOffset, b) ← pBE 8 b
  let (len, b) ← pVarU b
  let (bits, b) ← pTake len b
  let (size, b) ← pVarU b
  let (hashes, b) ← pVarU b
  some (⟨root, metaOffset, ⟨bits, size, hashes⟩⟩, b)

/-- The footer of a file: the file begins with `head`, ends with `tailMagic`, before that is the 4 byte
size of the footer, before that the footer, which fills these bytes exactly. -/
def readFooter (F : Bytes) : Option Footer :=
  let n := F.length
  if F.take 7 = head ∧ F.drop (n - 6) = tailMagic then
    let size := beNat ((F.drop (n - 10)).take 4)
    if size + 10 ≤ n then
      match pFooter ((F.drop (n - 10 - size)).take size) with
      | some (f, []) => some f
      | _ => none
    else none
  else none

/-- Metadata of a chunk in the index: the offset of the chunk, and its statistics if the series has
several chunks. -/
structure ChunkMeta where
  offset : Nat
  stats : Option Stats
  deriving DecidableEq, Repr

/-- Metadata of a series in the index. -/
structure SeriesMeta where
  measurement : Bytes
  dataType : TSDataType
  stats : Stats
  chunks : List ChunkMeta
  deriving DecidableEq, Repr

/-- Chunk metadata. -/
def pChunkMeta (dt : TSDataType) (withStats : Bool) : Parser ChunkMeta := fun b => do
  let (offset, b) ← pBE 8 b
  let (st, b) ← if withStats then (pStats dt b).map (fun r => (some r.1, r.2)) else some (none, b)
  some (⟨offset, st⟩, b)

/-- Series metadata: kind (0: one chunk without statistics, 1: several chunks with statistics), name,
data type, size of the chunk metadata, statistics, chunk metadata. -/
def pSeriesMeta : Parser SeriesMeta := fun b => do
  let (kind, b) ← pByte b
  let (name, b) ← pStr b
  let (dt, b) ← pByte b
  let dt ← dataTypeOfCode dt
  let (size, b) ← pVarU b
  let (stats, b) ← pStats dt b
  let (data, b) ← pTake size b
  let chunks ← pAll (pChunkMeta dt (kind ≠ 0)) data
  some (⟨name, dt, stats, chunks⟩, b)

/-- The index node at an offset. -/
def readNode (F : Bytes) (offset : Nat) : Option Node := (pNode (F.drop offset)).map Prod.fst

/-- The part of the file that an index node gives for a name: from the offset of the last entry whose
name is not greater (entries are sorted) to the offset of the next entry, or to the end offset. -/
def select (m : Bytes) : List Entry → Nat → Option (Nat × Nat)
  | [], _ => none
  | [e], stop => if m < e.name then none else some (e.offset, stop)
  | e :: e' :: es, stop =>
    if m < e'.name then (if m < e.name then none else some (e.offset, e'.offset))
    else select m (e' :: es) stop

/-- Descend from a measurement node to the part of the file with the series metadata. `none`: the index is
malformed; `some none`: the measurement is not in the index. -/
def locate (F m : Bytes) : Nat → Node → Option (Option (Nat × Nat))
  | 0, _ => none
  | fuel + 1, node =>
    match select m node.entries node.endOffset with
    | none => some none
    | some (lo, hi) =>
      if node.kind = 3 then some (some (lo, hi))
      else if node.kind = 2 then
        match readNode F lo with
        | none => none
        | some child => locate F m fuel child
      else none

/-- Bytes `lo` to `hi` of the file. -/
def slice (F : Bytes) (lo hi : Nat) : Bytes := (F.drop lo).take (hi - lo)

/-- The metadata of a series, through the index. The devices in the root node are searched one by one (the
format requires them to be sorted, and readers use binary search; see property C24). -/
def readSeriesMeta (F d m : Bytes) : Option (Option SeriesMeta) := do
  let footer ← readFooter F
  if footer.root.kind = 1 then
    match footer.root.entries.find? (fun e => e.name = d) with
    | none => some none
    | some e => do
      let node ← readNode F e.offset
      match ← locate F m F.length node with
      | none => some none
      | some (lo, hi) => do
        let metas ← pAll pSeriesMeta (slice F lo hi)
        some (metas.find? (fun s => s.measurement = m))
  else none

/-- The chunks that the series metadata point to, which must be chunks of this measurement. -/
def readChunks (unsnap : Bytes → Option Bytes) (F : Bytes) (m : Bytes) : List ChunkMeta → Option (List Chunk)
  | [] => some []
  | c :: cs =>
    match pChunk unsnap (F.drop c.offset) with
    | none => none
    | some (chunk, _) =>
      if chunk.measurement = m then (readChunks unsnap F m cs).map (chunk :: ·) else none

/-- The points of a series, through the index. A series that is not in the index has no points. -/
def readSeries (unsnap : Bytes → Option Bytes) (F d m : Bytes) : Option (List Point) :=
  match readSeriesMeta F d m with
  | none => none
  | some none => some []
  | some (some s) => (readChunks unsnap F m s.chunks).map (fun cs => cs.flatMap Chunk.points)

/-- All the series metadata below a leaf measurement node. -/
def nodeSeries (F : Bytes) (node : Node) : Option (List SeriesMeta) :=
  match node.entries with
  | [] => none
  | e :: _ => if node.kind = 3 then pAll pSeriesMeta (slice F e.offset node.endOffset) else none

/-- All the index entries of the devices in a list of root entries. -/
def entriesSeries (F : Bytes) : List Entry → Option (List (Bytes × List SeriesMeta))
  | [] => some []
  | e :: es => do
    let node ← readNode F e.offset
    let metas ← nodeSeries F node
    let rest ← entriesSeries F es
    some ((e.name, metas) :: rest)

/-- The whole index: devices with their series. -/
def listIndex (F : Bytes) : Option (List (Bytes × List SeriesMeta)) := do
  let footer ← readFooter F
  if footer.root.kind = 1 then entriesSeries F footer.root.entries else none

/-- What a scan finds. -/
inductive Item
  | group (device : Bytes)
  | chunk (c : Chunk)
  deriving DecidableEq, Repr

/-- Scan from a marker byte: 0 chunk group header, 2 end of the data, otherwise a chunk. Returns what was
found and the rest of the bytes, beginning with the end marker. -/
def scanFuel (unsnap : Bytes → Option Bytes) : Nat → Bytes → Option (List Item × Bytes)
  | 0, _ => none
  | _ + 1, [] => none
  | fuel + 1, marker :: b =>
    if marker = 2 then some ([], marker :: b)
    else if marker = 0 then
      match pStr b with
      | none => none
      | some (d, b) => (scanFuel unsnap fuel b).map (fun r => (.group d :: r.1, r.2))
    else
      match pChunk unsnap (marker :: b) with
      | none => none
      | some (c, b) => (scanFuel unsnap fuel b).map (fun r => (.chunk c :: r.1, r.2))

/-- Scan a file from the beginning to the end of its data part: what was found and the position of the end
marker. -/
def scan (unsnap : Bytes → Option Bytes) (F : Bytes) : Option (List Item × Nat) :=
  if F.take 7 = head then
    (scanFuel unsnap F.length (F.drop 7)).map (fun r => (r.1, F.length - r.2.length))
  else none

/-- The points of a series in a scan; `cur` is the device of the current chunk group. -/
def scanPoints (d m : Bytes) : Option Bytes → List Item → List Point
  | _, [] => []
  | _, .group d' :: l => scanPoints d m (some d') l
  | cur, .chunk c :: l =>
    (if cur = some d ∧ c.measurement = m then c.points else []) ++ scanPoints d m cur l

end TsFile.Spec
