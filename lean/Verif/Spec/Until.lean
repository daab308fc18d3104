import Verif.Spec.Query
/-! # Queries that stop at the end of the range

A reader that takes for granted that the times of a series increase: it reads the chunks of the series in their order, and their
pages and points in theirs, and stops at the first chunk or page whose statistics say that it begins after the end of the range, and
at the first point after the end of the range. -/

namespace TsFile.Spec

/-- The pages of a chunk: the points that are asked for, and whether the reader has stopped. -/
def untilPages (q : Query) : List (Option Stats × List Point) → List Point × Bool
  | [] => ([], false)
  | (st, pts) :: pages =>
    if st.any (fun st => decide (q.till < st.startTime.toInt)) then ([], true)
    else if pts.any (fun p => decide (q.till < p.1.toInt)) then
      ((pts.takeWhile (fun p => decide (p.1.toInt ≤ q.till))).filter q.wants, true)
    else (pts.filter q.wants ++ (untilPages q pages).1, (untilPages q pages).2)

/-- The chunks of a series. -/
def untilChunks (unsnap : Bytes → Option Bytes) (q : Query) (F m : Bytes) : List ChunkMeta → Option (List Point)
  | [] => some []
  | c :: cs =>
    if c.stats.any (fun st => decide (q.till < st.startTime.toInt)) then some []
    else
      match pChunk unsnap (F.drop c.offset) with
      | none => none
      | some (chunk, _) =>
        if chunk.measurement = m then
          match untilPages q chunk.pages with
          | (pts, true) => some pts
          | (pts, false) => (untilChunks unsnap q F m cs).map (pts ++ ·)
        else none

/-- The points of a series that are asked for, as such a reader finds them. -/
def untilSeries (unsnap : Bytes → Option Bytes) (q : Query) (F d m : Bytes) : Option (List Point) :=
  match readSeriesMeta F d m with
  | none => none
  | some none => some []
  | some (some s) => untilChunks unsnap q F m s.chunks

end TsFile.Spec
