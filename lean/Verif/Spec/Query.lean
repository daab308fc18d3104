import Verif.Spec.Bloom
import Verif.Spec.Stats
/-! # Queries that skip what the statistics rule out

How a database uses a file: it asks for the points of a series in a range of times, and possibly of values. It looks at the Bloom
filter before it looks at the index, and at the statistics of the series, of its chunks and of their pages before it reads them. A
chunk that the statistics rule out is not touched; a page that they rule out is jumped over without decompressing it. Written from
the format description, in parallel to `Spec/Reader`, which reads everything. -/

namespace TsFile.Spec

/-- The number in a value; `none` for NaN. Those of type FLOAT are in units of 2^-149. (No series has values of type DOUBLE.) -/
def number : IoTDBValue → Option Int
  | .INT v => some v.toInt
  | .LONG v => some v.toInt
  | .FLOAT x => f32Val x
  | .DOUBLE _ => none

/-- What is asked for: times between `since` and `till`, and, if given, values between two bounds. -/
structure Query where
  since : Int
  till : Int
  values : Option (Int × Int)

/-- The points that are asked for. -/
def Query.wants (q : Query) (p : Point) : Bool :=
  decide (q.since ≤ p.1.toInt ∧ p.1.toInt ≤ q.till)
  && match q.values with
    | none => true
    | some (low, high) =>
      match number p.2 with
      | none => false
      | some v => decide (low ≤ v ∧ v ≤ high)

/-- Statistics do not rule out that there is a point that is asked for. -/
def Query.mayMatch (q : Query) (st : Stats) : Bool :=
  decide (st.startTime.toInt ≤ q.till ∧ q.since ≤ st.endTime.toInt)
  && match q.values with
    | none => true
    | some (low, high) =>
      match number st.min, number st.max with
      | some lo, some hi => decide (lo ≤ high ∧ low ≤ hi)
      | _, _ => true

/-- The points of a page that are asked for. If the statistics rule the page out, its data is not looked at. -/
def queryPage (unsnap : Bytes → Option Bytes) (q : Query) (dt : TSDataType) (comp : CompressionType) (enc : TSEncoding)
    (withStats : Bool) : Parser (List Point) := fun b => do
  let (uncompressed, b) ← pVarU b
  let (compressed, b) ← pVarU b
  let (st, b) ← if withStats then (pStats dt b).map (fun r => (some r.1, r.2)) else some (none, b)
  let (data, b) ← pTake compressed b
  if st.any (fun st => !q.mayMatch st) then some ([], b)
  else
    let raw ← decompress unsnap comp data
    if raw.length = uncompressed then
      let pts ← decodePage dt enc raw
      some (pts.filter q.wants, b)
    else none

/-- The measurement of a chunk, and its points that are asked for. -/
def queryChunk (unsnap : Bytes → Option Bytes) (q : Query) (b : Bytes) : Option (Bytes × List Point) := do
  let (marker, b) ← pByte b
  let (measurement, b) ← pStr b
  let (dataSize, b) ← pVarU b
  let (dt, b) ← pByte b
  let (comp, b) ← pByte b
  let (enc, b) ← pByte b
  let dt ← dataTypeOfCode dt
  let comp ← compressionOfCode comp
  let enc ← encodingOfCode enc
  let (data, _) ← pTake dataSize b
  if marker = 5 then
    let (pts, rest) ← queryPage unsnap q dt comp enc false data
    if rest = [] then some (measurement, pts) else none
  else if marker = 1 then
    let pages ← pAll (queryPage unsnap q dt comp enc true) data
    some (measurement, pages.flatten)
  else none

/-- The points of chunks that are asked for. Chunks that the statistics in the index rule out are not looked at. -/
def queryChunks (unsnap : Bytes → Option Bytes) (q : Query) (F m : Bytes) : List ChunkMeta → Option (List Point)
  | [] => some []
  | c :: cs =>
    if c.stats.any (fun st => !q.mayMatch st) then queryChunks unsnap q F m cs
    else
      match queryChunk unsnap q (F.drop c.offset) with
      | none => none
      | some (measurement, pts) =>
        if measurement = m then (queryChunks unsnap q F m cs).map (pts ++ ·) else none

/-- The points of a series that are asked for. -/
def querySeries (unsnap : Bytes → Option Bytes) (q : Query) (F d m : Bytes) : Option (List Point) :=
  match readFooter F with
  | none => none
  | some footer =>
    if footer.bloom.mayContain (d ++ [0x2e] ++ m) then
      match readSeriesMeta F d m with
      | none => none
      | some none => some []
      | some (some s) => if q.mayMatch s.stats then queryChunks unsnap q F m s.chunks else some []
    else some []

end TsFile.Spec
