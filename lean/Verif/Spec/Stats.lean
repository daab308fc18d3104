import Verif.Spec.Structure
import Verif.Spec.Isolated
/-! # The statistics in a file: where they are and what they should say -/

namespace TsFile.Spec

/-- `st` are statistics in the file `F` that describe the points `pts` of the series `(d, m)`: the statistics of the whole
series in the index, those of a chunk in the index, or those of a page in a chunk. -/
inductive StatsAbout (unsnap : Bytes → Option Bytes) (F d m : Bytes) : Stats → List Point → Prop
  | series {s : SeriesMeta} {pts : List Point} (h : readSeriesMeta F d m = some (some s))
      (hp : readSeries unsnap F d m = some pts) : StatsAbout unsnap F d m s.stats pts
  | chunk {s : SeriesMeta} {c : ChunkMeta} {st : Stats} {chunk : Chunk} {rest : Bytes}
      (h : readSeriesMeta F d m = some (some s)) (hc : c ∈ s.chunks) (hst : c.stats = some st)
      (hp : pChunk unsnap (F.drop c.offset) = some (chunk, rest)) : StatsAbout unsnap F d m st chunk.points
  | page {s : SeriesMeta} {c : ChunkMeta} {st : Stats} {chunk : Chunk} {rest : Bytes} {pts : List Point}
      (h : readSeriesMeta F d m = some (some s)) (hc : c ∈ s.chunks)
      (hp : pChunk unsnap (F.drop c.offset) = some (chunk, rest)) (hpage : (some st, pts) ∈ chunk.pages) :
      StatsAbout unsnap F d m st pts

/-- `st` are the statistics of a page that a scan of the file `F` finds, with the points `pts`, in a chunk of the series
`(d, m)`. -/
inductive PageStats (unsnap : Bytes → Option Bytes) (F d m : Bytes) : Stats → List Point → Prop
  | page {all : List (Bytes × Nat × Chunk)} {off : Nat} {st : Stats} {chunk : Chunk} {pts : List Point}
      (h : chunksOf unsnap F = some all) (hc : (d, off, chunk) ∈ all) (hm : chunk.measurement = m)
      (hpage : (some st, pts) ∈ chunk.pages) : PageStats unsnap F d m st pts

/-- Statistics in a file: those reached through the index, for devices for which the index is correct, and those of all
pages. -/
def StatsIn (unsnap : Bytes → Option Bytes) (schema : Schema) (F d m : Bytes) (st : Stats) (pts : List Point) : Prop :=
  (schema.IndexableAt d ∧ StatsAbout unsnap F d m st pts) ∨ PageStats unsnap F d m st pts

/-- The integer in a value of an integer type. -/
def intVal : IoTDBValue → Option Int
  | .INT v => some v.toInt
  | .LONG v => some v.toInt
  | _ => none

/-- The number in a FLOAT value, in units of 2^-149 (an IEEE single: sign, 8 bit exponent, 23 bit fraction); infinity is
2^128, which is above every finite number. `none` for NaN. -/
def f32Val (x : W32) : Option Int :=
  let e := x.toNat / 2 ^ 23 % 2 ^ 8
  let f := x.toNat % 2 ^ 23
  let a : Nat := if e = 0 then f else (2 ^ 23 + f) * 2 ^ (e - 1)
  if e = 255 ∧ f ≠ 0 then none
  else some (if x.toNat / 2 ^ 31 = 1 then -(a : Int) else a)

/-- The number in a value of type FLOAT. -/
def floatVal : IoTDBValue → Option Int
  | .FLOAT x => f32Val x
  | _ => none

/-- Positive infinity in these units. -/
def f32Inf : Int := 2 ^ 23 * 2 ^ 254

end TsFile.Spec
