import Verif.Spec.Query
/-! # Aggregates computed from the statistics

How a database computes the number of points, the first and last time, the smallest and largest value, or the sum of the values
that a query asks for: where the statistics of the series, of a chunk or of a page say that all of its points are in the range of
times, it takes the result from the statistics and reads nothing; where they rule all points out it skips them; it decodes only
the other pages. Written from the format description. -/

namespace TsFile.Spec

/-- An aggregate: its value for a list of points, the value that statistics give for it, and how values for two parts are put
together. -/
structure Aggregate (α : Type) where
  ofPoints : List Point → α
  ofStats : Stats → α
  join : α → α → α

/-- The number of points. -/
def Aggregate.count : Aggregate Nat := ⟨List.length, Stats.count, (· + ·)⟩

/-- The smallest time. -/
def Aggregate.firstTime : Aggregate (Option Int) :=
  ⟨fun pts => (pts.map (fun p => p.1.toInt)).min?, fun st => some st.startTime.toInt, Option.merge min⟩

/-- The largest time. -/
def Aggregate.lastTime : Aggregate (Option Int) :=
  ⟨fun pts => (pts.map (fun p => p.1.toInt)).max?, fun st => some st.endTime.toInt, Option.merge max⟩

/-- The smallest value. -/
def Aggregate.smallest : Aggregate (Option Int) :=
  ⟨fun pts => (pts.filterMap (fun p => number p.2)).min?, fun st => number st.min, Option.merge min⟩

/-- The largest value. -/
def Aggregate.largest : Aggregate (Option Int) :=
  ⟨fun pts => (pts.filterMap (fun p => number p.2)).max?, fun st => number st.max, Option.merge max⟩

/-- The sum of an INT32 series (its statistics have a 64 bit integer there). -/
def Aggregate.sum : Aggregate Int :=
  ⟨fun pts => (pts.filterMap (fun p => intVal p.2)).sum, fun st => st.sum.toInt, (· + ·)⟩

/-- The later of two points. -/
def later : Option Point → Option Point → Option Point
  | none, r => r
  | some p, none => some p
  | some p, some r => if p.1.toInt ≤ r.1.toInt then some r else some p

/-- The earlier of two points. -/
def earlier : Option Point → Option Point → Option Point
  | none, r => r
  | some p, none => some p
  | some p, some r => if p.1.toInt ≤ r.1.toInt then some p else some r

/-- The last point, with its value. -/
def Aggregate.last : Aggregate (Option Point) :=
  ⟨List.foldr (fun p r => later (some p) r) none, fun st => some (st.endTime, st.last), later⟩

/-- The first point, with its value. -/
def Aggregate.first : Aggregate (Option Point) :=
  ⟨List.foldr (fun p r => earlier (some p) r) none, fun st => some (st.startTime, st.first), earlier⟩

/-- The given point is one with the largest time; none is given only if there is no point. -/
def Latest (l : List Point) : Option Point → Prop
  | none => l = []
  | some p => p ∈ l ∧ ∀ x ∈ l, x.1.toInt ≤ p.1.toInt

/-- The given point is one with the smallest time; none is given only if there is no point. -/
def Earliest (l : List Point) : Option Point → Prop
  | none => l = []
  | some p => p ∈ l ∧ ∀ x ∈ l, p.1.toInt ≤ x.1.toInt

/-- Statistics say that all their points are asked for. -/
def Query.covers (q : Query) (st : Stats) : Bool :=
  q.values.isNone && decide (q.since ≤ st.startTime.toInt ∧ st.endTime.toInt ≤ q.till)

/-- What statistics give without reading the points: nothing is asked for, or everything. -/
def Query.known {α : Type} (q : Query) (agg : Aggregate α) (st : Stats) : Option α :=
  if q.mayMatch st then if q.covers st then some (agg.ofStats st) else none else some (agg.ofPoints [])

/-- The aggregate of a page. -/
def aggPage {α : Type} (unsnap : Bytes → Option Bytes) (q : Query) (agg : Aggregate α) (dt : TSDataType) (comp : CompressionType)
    (enc : TSEncoding) (withStats : Bool) : Parser α := fun b => do
  let (uncompressed, b) ← pVarU b
  let (compressed, b) ← pVarU b
  let (st, b) ← if withStats then (pStats dt b).map (fun r => (some r.1, r.2)) else some (none, b)
  let (data, b) ← pTake compressed b
  match st.bind (q.known agg) with
  | some a => some (a, b)
  | none =>
    let raw ← decompress unsnap comp data
    if raw.length = uncompressed then
      let pts ← decodePage dt enc raw
      some (agg.ofPoints (pts.filter q.wants), b)
    else none

/-- The measurement of a chunk, and the aggregate. -/
def aggChunk {α : Type} (unsnap : Bytes → Option Bytes) (q : Query) (agg : Aggregate α) (b : Bytes) : Option (Bytes × α) := do
  let (marker, b) ← pByte b
  let (measurement, b) ← pStr b
  let (dataSize, b) ← pVarU b
  let (dt, b) ← pByte b
  let (comp, b) ← pByte b
  let (enc, b) ← pByte b
  let dt ← dataTypeOfCode dt
  let comp ← compressionOfCode comp
  let enc ← encodingOfCode enc
  let (data, _) ← pTake dataSize b
  if marker = 5 then
    let (a, rest) ← aggPage unsnap q agg dt comp enc false data
    if rest = [] then some (measurement, a) else none
  else if marker = 1 then
    let pages ← pAll (aggPage unsnap q agg dt comp enc true) data
    some (measurement, pages.foldr agg.join (agg.ofPoints []))
  else none

/-- The aggregate of chunks. -/
def aggChunks {α : Type} (unsnap : Bytes → Option Bytes) (q : Query) (agg : Aggregate α) (F m : Bytes) : List ChunkMeta → Option α
  | [] => some (agg.ofPoints [])
  | c :: cs =>
    match c.stats.bind (q.known agg) with
    | some a => (aggChunks unsnap q agg F m cs).map (agg.join a)
    | none =>
      match aggChunk unsnap q agg (F.drop c.offset) with
      | none => none
      | some (measurement, a) => if measurement = m then (aggChunks unsnap q agg F m cs).map (agg.join a) else none

/-- The aggregate of a series. -/
def aggSeries {α : Type} (unsnap : Bytes → Option Bytes) (q : Query) (agg : Aggregate α) (F d m : Bytes) : Option α :=
  match readFooter F with
  | none => none
  | some footer =>
    if footer.bloom.mayContain (d ++ [0x2e] ++ m) then
      match readSeriesMeta F d m with
      | none => none
      | some none => some (agg.ofPoints [])
      | some (some s) =>
        match q.known agg s.stats with
        | some a => some a
        | none => aggChunks unsnap q agg F m s.chunks
    else some (agg.ofPoints [])

end TsFile.Spec
