import Verif.Spec.Machine
import Verif.Spec.Stats
/-! # A reference writer

What the file has to look like byte by byte, as plain functions of the points of each flush: no buffers, no encoder states, no
incremental statistics. It is written from the description of the format; what it takes over from the writer is the choice of the
places where a page ends, and the starting values of the statistics (see C18 and C19 for what follows from them). -/

namespace TsFile.Spec.Ref

/-- The `n` bytes of a number, most significant first. -/
def big (n x : Nat) : Bytes := (List.range n).map (fun i => UInt8.ofNat (x / 256 ^ (n - 1 - i)))

/-- LEB128, at most five bytes. -/
def varFuel : Nat → Nat → Bytes
  | 0, x => [UInt8.ofNat (x % 128)]
  | k + 1, x => if x < 128 then [UInt8.ofNat x] else UInt8.ofNat (128 + x % 128) :: varFuel k (x / 128)

/-- LEB128 of a number of at most 32 bits. -/
def varint (x : Nat) : Bytes := varFuel 4 x

/-- Zigzag: 0, -1, 1, -2, 2, ... -/
def zigzag (x : Int) : Nat := if 0 ≤ x then 2 * x.toNat else 2 * (-x).toNat - 1

/-- A string with its length in front. -/
def string (s : Bytes) : Bytes := varint (zigzag s.length) ++ s

/-! ## TS_2DIFF -/

/-- Numbers as bit fields of `width` bits, most significant first, filled up with zeros to whole bytes. -/
def packed (width : Nat) (xs : List Nat) : Bytes :=
  let bits := xs.length * width
  let len := (bits + 7) / 8
  big len (xs.foldl (fun a x => a * 2 ^ width + x) 0 * 2 ^ (8 * len - bits))

/-- The number of binary digits; zero has none. -/
def digits (x : Nat) : Nat := if x = 0 then 0 else Nat.log2 x + 1

/-- The differences of neighbours, computed in the word size. -/
def differences {w : Nat} : List (BitVec w) → List (BitVec w)
  | a :: b :: l => (b - a) :: differences (b :: l)
  | _ => []

/-- The least of some signed numbers, the greatest representable one if there are none. -/
def least {w : Nat} (ds : List (BitVec w)) : BitVec w :=
  ds.foldl (fun a d => if d.toInt < a.toInt then d else a) (BitVec.intMax w)

/-- A block of up to 129 values: number of differences, width, least difference, first value, packed excesses. -/
def block {w : Nat} : List (BitVec w) → Bytes
  | [] => []
  | first :: rest =>
    let ds := differences (first :: rest)
    let xs := ds.map (fun d => (d - least ds).toNat)
    let width := (xs.map digits).foldl max 0
    big 4 ds.length ++ big 4 width ++ big (w / 8) (least ds).toNat ++ big (w / 8) first.toNat ++ packed width xs

/-- The first `k` blocks of 129 values; the last one may be shorter. -/
def blocks {w : Nat} (k : Nat) (vs : List (BitVec w)) : Bytes :=
  (List.range k).flatMap (fun i => block ((vs.drop (129 * i)).take 129))

/-- Values in TS_2DIFF. -/
def ts2diff {w : Nat} (vs : List (BitVec w)) : Bytes := blocks ((vs.length + 128) / 129) vs

/-! ## values -/

/-- One value in PLAIN. -/
def plain : IoTDBValue → Bytes
  | .INT v => varint (zigzag v.toInt)
  | .LONG v => big 8 v.toNat
  | .FLOAT v => big 4 v.toNat
  | .DOUBLE v => big 8 v.toNat

/-- The 32 bit integers among some values. -/
def ints (vs : List IoTDBValue) : List W32 := vs.filterMap (fun v => match v with | .INT x => some x | _ => none)

/-- The 64 bit integers among some values. -/
def longs (vs : List IoTDBValue) : List W64 := vs.filterMap (fun v => match v with | .LONG x => some x | _ => none)

/-- Values in the encoding of their series. -/
def values (dt : TSDataType) : TSEncoding → List IoTDBValue → Bytes
  | .PLAIN, vs => vs.flatMap plain
  | .TS2DIFF, vs => match dt with | .INT32 => ts2diff (ints vs) | _ => ts2diff (longs vs)

/-! ## pages -/

/-- The content of a page before compression: length of the timestamps, timestamps, values. -/
def pageContent (ms : MeasurementSchema) (pts : List (W64 × IoTDBValue)) : Bytes :=
  let times := ts2diff (pts.map Prod.fst)
  varint times.length ++ times ++ values ms.dataType ms.encoding (pts.map Prod.snd)

/-- Compression; it can fail. -/
def compressed (env : Env) : CompressionType → Bytes → Option Bytes
  | .UNCOMPRESSED, b => some b
  | .SNAPPY, b => env.snappy b

/-! ### statistics -/

/-- What is stored about some points: how many, when, and their values, as words of 64 bits. -/
structure Summary where
  count : Nat
  start : W64
  stop : W64
  low : W64
  high : W64
  first : W64
  last : W64
  sum : W64

/-- A value as a word: integers with their sign, floating point numbers as bits. -/
def word : IoTDBValue → W64
  | .INT v => v.signExtend 64
  | .LONG v => v
  | .FLOAT v => v.setWidth 64
  | .DOUBLE v => v

/-- The order of the values of a type. A floating point NaN is not comparable. -/
def less : TSDataType → W64 → W64 → Bool
  | .FLOAT, a, b => match f32Val (a.setWidth 32), f32Val (b.setWidth 32) with
    | some x, some y => decide (x < y)
    | _, _ => false
  | _, a, b => decide (a.toInt < b.toInt)

/-- The greatest value of a type (of the finite ones). -/
def top : TSDataType → W64
  | .INT32 => 0x7FFFFFFF | .INT64 => 0x7FFFFFFFFFFFFFFF | .FLOAT => 0x7F7FFFFF

/-- The least value of a type (of the finite ones). -/
def bottom : TSDataType → W64
  | .INT32 => 0xFFFFFFFF80000000 | .INT64 => 0x8000000000000000 | .FLOAT => 0xFF7FFFFF

/-- Addition in a sum: 64 bit integers for INT32, double precision otherwise. -/
def plus (env : Env) : TSDataType → W64 → W64 → W64
  | .INT32, a, b => a + b
  | _, a, b => env.f64Add a b

/-- A value in the type of the sum. -/
def summand (env : Env) : IoTDBValue → W64
  | .INT v => v.signExtend 64
  | .LONG v => env.i64ToF64 v
  | .FLOAT v => env.f32ToF64 v
  | .DOUBLE v => v

/-- The greatest of some signed numbers, the least representable one if there are none. -/
def greatest {w : Nat} (ds : List (BitVec w)) : BitVec w :=
  ds.foldl (fun a d => if a.toInt < d.toInt then d else a) (BitVec.intMin w)

/-- Several summaries in one. The first value is that of the first part with the least time, the last value that of the first
part with the greatest time. A time at the end of the range of times does not count here, and the value is 0. -/
def together (env : Env) (dt : TSDataType) (l : List Summary) : Summary :=
  let start := least (l.map Summary.start)
  let stop := greatest (l.map Summary.stop)
  { count := (l.map Summary.count).sum % 2 ^ 32
    start := start
    stop := stop
    low := (l.map Summary.low).foldl (fun a v => if less dt v a then v else a) (top dt)
    high := (l.map Summary.high).foldl (fun a v => if less dt a v then v else a) (bottom dt)
    first := ((l.find? (fun s => decide (s.start = start ∧ start.toInt < 2 ^ 63 - 1))).map Summary.first).getD 0
    last := ((l.find? (fun s => decide (s.stop = stop ∧ - 2 ^ 63 < stop.toInt))).map Summary.last).getD 0
    sum := (l.map Summary.sum).foldl (plus env dt) 0 }

/-- The summary of one point. -/
def single (env : Env) (p : W64 × IoTDBValue) : Summary := ⟨1, p.1, p.1, word p.2, word p.2, word p.2, word p.2, summand env p.2⟩

/-- The statistics of some points. -/
def stats (env : Env) (dt : TSDataType) (pts : List (W64 × IoTDBValue)) : Summary := together env dt (pts.map (single env))

/-- The statistics as bytes: count, times, values in the size of their type, sum. -/
def Summary.bytes (dt : TSDataType) (s : Summary) : Bytes :=
  let size := match dt with | .INT64 => 8 | _ => 4
  varint s.count ++ big 8 s.start.toNat ++ big 8 s.stop.toNat ++ big size s.low.toNat ++ big size s.high.toNat
    ++ big size s.first.toNat ++ big size s.last.toNat ++ big 8 s.sum.toNat

/-- A page: size, compressed size, statistics if the chunk has several pages, content. -/
def page (env : Env) (ms : MeasurementSchema) (several : Bool) (pts : List (W64 × IoTDBValue)) : Option Bytes :=
  let raw := pageContent ms pts
  (compressed env ms.compression raw).map (fun data =>
    varint raw.length ++ varint data.length ++ (if several then (stats env ms.dataType pts).bytes ms.dataType else []) ++ data)

/-! ### where a page ends -/

/-- The room that TS_2DIFF takes for some values, as the writer estimates it: the full blocks, and an open one with 24 bytes
and a whole word for each difference. -/
def room {w : Nat} (vs : List (BitVec w)) : Nat :=
  (blocks (vs.length / 129) vs).length + (24 + (vs.length % 129 - 1) * w / 8)

/-- The same for the values of a page. PLAIN 32 bit integers count twice. -/
def valueRoom (dt : TSDataType) : TSEncoding → List IoTDBValue → Nat
  | .PLAIN, vs => (vs.flatMap plain).length + (match dt with | .INT32 => 24 + (vs.flatMap plain).length | _ => 0)
  | .TS2DIFF, vs => match dt with | .INT32 => room (ints vs) | _ => room (longs vs)

/-- The estimated size of a page. -/
def pageRoom (ms : MeasurementSchema) (pts : List (W64 × IoTDBValue)) : Nat :=
  room (pts.map Prod.fst) + valueRoom ms.dataType ms.encoding (pts.map Prod.snd)

/-- Points arranged in pages: full ones, the open one, and the number of points at which its size is looked at next. -/
structure Paging where
  full : List (List (W64 × IoTDBValue))
  opened : List (W64 × IoTDBValue)
  check : Nat

/-- One more point. A page ends when it has more than 1048576 points, or when its size is looked at and is more than 64 KB. After
that the size is looked at from 1500 points on; a size of up to 64 KB determines when to look again. -/
def Paging.add (env : Env) (ms : MeasurementSchema) (s : Paging) (p : W64 × IoTDBValue) : Paging :=
  let cur := s.opened ++ [p]
  if 1048576 < cur.length then ⟨s.full ++ [cur], [], s.check⟩
  else if s.check ≤ cur.length then
    if 65536 < pageRoom ms cur then ⟨s.full ++ [cur], [], 1500⟩ else ⟨s.full, cur, env.nextCheck (pageRoom ms cur) cur.length⟩
  else ⟨s.full, cur, s.check⟩

/-- The points of a chunk in pages; the size of the first page is looked at from 7989 points on. -/
def paging (env : Env) (ms : MeasurementSchema) (pts : List (W64 × IoTDBValue)) : Paging := pts.foldl (Paging.add env ms) ⟨[], [], 7989⟩

/-- The pages of a chunk. -/
def pages (env : Env) (ms : MeasurementSchema) (pts : List (W64 × IoTDBValue)) : List (List (W64 × IoTDBValue)) :=
  let s := paging env ms pts
  if s.opened.isEmpty then s.full else s.full ++ [s.opened]

/-! ## chunks and groups -/

/-- A chunk: marker, name, size, codes, pages. -/
def chunk (env : Env) (name : Bytes) (ms : MeasurementSchema) (pts : List (W64 × IoTDBValue)) : Option Bytes :=
  let ps := pages env ms pts
  (ps.mapM (page env ms (decide (1 < ps.length)))).map (fun bs =>
    (if 1 < ps.length then ([1] : Bytes) else [5]) ++ string name ++ varint bs.flatten.length
      ++ [(match ms.dataType with | .INT32 => 1 | .INT64 => 2 | .FLOAT => 3 : UInt8)]
      ++ [(match ms.compression with | .UNCOMPRESSED => 0 | .SNAPPY => 1 : UInt8)]
      ++ [(match ms.encoding with | .PLAIN => 0 | .TS2DIFF => 4 : UInt8)] ++ bs.flatten)

/-- Insertion by name. -/
def place {α : Type} (e : Bytes × α) : List (Bytes × α) → List (Bytes × α)
  | [] => [e]
  | x :: l => if e.1 < x.1 then e :: x :: l else x :: place e l

/-- Sorted by name, byte by byte. -/
def byName {α : Type} (l : List (Bytes × α)) : List (Bytes × α) := l.foldr place []

/-- A device in one flush: its name, and a chunk for every measurement with points, in the order of their names. -/
def group (env : Env) (device : Bytes) (ms : List (Bytes × MeasurementSchema)) (pts : Bytes → List (W64 × IoTDBValue)) : Option Bytes :=
  (((byName ms).filter (fun m => !(pts m.1).isEmpty)).mapM (fun m => chunk env m.1 m.2 (pts m.1))).map (fun bs =>
    [0] ++ string device ++ bs.flatten)

/-- One flush: all devices, in the order of their names. -/
def burst (env : Env) (schema : Schema) (points : List Rec) : Option Bytes :=
  ((byName schema).mapM (fun d => group env d.1 d.2 (series points d.1))).map List.flatten

/-- The file up to the index: head, version, flushes. -/
def data (env : Env) (schema : Schema) (bursts : List (List Rec)) : Option Bytes :=
  (bursts.mapM (burst env schema)).map (fun bs => [84, 115, 70, 105, 108, 101] ++ [3] ++ bs.flatten)

end TsFile.Spec.Ref
