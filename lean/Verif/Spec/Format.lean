import Verif.Model.Types
/-! # A reader of the TsFile format, part 1: primitive values, encodings, pages, chunks

Written from the description of the format (Apache IoTDB TsFile, version 3), not from the writer: it
shares with the model only the type names of `Model/Types.lean` (bytes, words, values, data types).

A parser consumes a prefix of the input and returns what is left; `none` is a malformed input. -/

namespace TsFile.Spec

/-- A parser. -/
abbrev Parser (α : Type) := Bytes → Option (α × Bytes)

/-- One byte. -/
def pByte : Parser UInt8
  | [] => none
  | b :: r => some (b, r)

/-- Exactly `n` bytes. -/
def pTake (n : Nat) : Parser Bytes := fun b =>
  if n ≤ b.length then some (b.take n, b.drop n) else none

/-- The number written in big-endian base 256. -/
def beNat (b : Bytes) : Nat := b.foldl (fun a x => a * 256 + x.toNat) 0

/-- A big-endian number of `n` bytes. -/
def pBE (n : Nat) : Parser Nat := fun b =>
  match pTake n b with
  | none => none
  | some (x, r) => some (beNat x, r)

/-- Unsigned LEB128: groups of seven bits, least significant first, the high bit of a byte says that
another one follows. -/
def pVarU : Parser Nat
  | [] => none
  | b :: r =>
    if b.toNat < 128 then some (b.toNat, r)
    else
      match pVarU r with
      | none => none
      | some (n, r) => some (b.toNat - 128 + 128 * n, r)

/-- Zigzag decoding: 0, -1, 1, -2, 2, ... -/
def unzigzag (n : Nat) : Int := if n % 2 = 0 then (n / 2 : Nat) else -((n / 2 : Nat) : Int) - 1

/-- A signed variable length integer. -/
def pVarI : Parser Int := fun b =>
  match pVarU b with
  | none => none
  | some (n, r) => some (unzigzag n, r)

/-- A string: signed variable length integer with the length, then the bytes. -/
def pStr : Parser Bytes := fun b =>
  match pVarI b with
  | none => none
  | some (n, r) => if n < 0 then none else pTake n.toNat r

/-- Apply a parser until the input is used up (it must consume at least one byte each time). -/
def pAllFuel {α : Type} (p : Parser α) : Nat → Bytes → Option (List α)
  | _, [] => some []
  | 0, _ :: _ => none
  | fuel + 1, b :: bs =>
    match p (b :: bs) with
    | none => none
    | some (a, rest) =>
      match pAllFuel p fuel rest with
      | none => none
      | some l => some (a :: l)

/-- Apply a parser until the input is used up. -/
def pAll {α : Type} (p : Parser α) (b : Bytes) : Option (List α) := pAllFuel p b.length b

/-- The `i`-th group of `width` bits of a byte string, most significant bit first. -/
def bitField (p : Bytes) (width i : Nat) : Nat :=
  beNat p / 2 ^ (8 * p.length - (i + 1) * width) % 2 ^ width

/-- Running sums modulo `2 ^ w`. -/
def undelta {w : Nat} (prev : BitVec w) : List (BitVec w) → List (BitVec w)
  | [] => []
  | d :: ds => (prev + d) :: undelta (prev + d) ds

/-- One TS_2DIFF block of `w`-bit integers: number of deltas, bit width, minimal delta, first value, and
then the deltas minus the minimal one as packed bit fields. -/
def pTs2DiffBlock (w : Nat) : Parser (List (BitVec w)) := fun b => do
  let (count, b) ← pBE 4 b
  let (width, b) ← pBE 4 b
  let (minDelta, b) ← pBE (w / 8) b
  let (first, b) ← pBE (w / 8) b
  let (payload, b) ← pTake ((count * width + 7) / 8) b
  let first := BitVec.ofNat w first
  let deltas := (List.range count).map
    (fun i => BitVec.ofNat w (bitField payload width i) + BitVec.ofNat w minDelta)
  some (first :: undelta first deltas, b)

/-- A TS_2DIFF stream: a sequence of blocks. -/
def decodeTs2Diff (w : Nat) (b : Bytes) : Option (List (BitVec w)) :=
  (pAll (pTs2DiffBlock w) b).map List.flatten

/-- One PLAIN value. -/
def pPlain : TSDataType → Parser IoTDBValue
  | .INT32 => fun b => (pVarI b).map (fun r => (.INT (BitVec.ofInt 32 r.1), r.2))
  | .INT64 => fun b => (pBE 8 b).map (fun r => (.LONG (BitVec.ofNat 64 r.1), r.2))
  | .FLOAT => fun b => (pBE 4 b).map (fun r => (.FLOAT (BitVec.ofNat 32 r.1), r.2))

/-- The values of a page. TS_2DIFF is defined for the integer types. -/
def decodeValues (dt : TSDataType) : TSEncoding → Bytes → Option (List IoTDBValue)
  | .PLAIN => fun b => pAll (pPlain dt) b
  | .TS2DIFF => fun b =>
    match dt with
    | .INT32 => (decodeTs2Diff 32 b).map (List.map .INT)
    | .INT64 => (decodeTs2Diff 64 b).map (List.map .LONG)
    | .FLOAT => none

/-- A data point: timestamp and value. -/
abbrev Point := W64 × IoTDBValue

/-- The points of an uncompressed page: length of the time column, time column (TS_2DIFF), values. -/
def decodePage (dt : TSDataType) (enc : TSEncoding) (b : Bytes) : Option (List Point) := do
  let (n, b) ← pVarU b
  let (timeBytes, valueBytes) ← pTake n b
  let times ← decodeTs2Diff 64 timeBytes
  let values ← decodeValues dt enc valueBytes
  if times.length = values.length then some (times.zip values) else none

/-- Undo the compression; `unsnap` is the decompressor of the Snappy format. -/
def decompress (unsnap : Bytes → Option Bytes) : CompressionType → Bytes → Option Bytes
  | .UNCOMPRESSED, b => some b
  | .SNAPPY, b => unsnap b

/-- The statistics of a page, chunk or series: number of points, first and last timestamp, then minimum,
maximum, first and last value and the sum (`f64`, or `i64` for INT32), as bit patterns. -/
structure Stats where
  count : Nat
  startTime : W64
  endTime : W64
  min : IoTDBValue
  max : IoTDBValue
  first : IoTDBValue
  last : IoTDBValue
  sum : W64
  deriving DecidableEq, Repr

/-- A value of fixed size. -/
def pFixed : TSDataType → Parser IoTDBValue
  | .INT32 => fun b => (pBE 4 b).map (fun r => (.INT (BitVec.ofNat 32 r.1), r.2))
  | .INT64 => fun b => (pBE 8 b).map (fun r => (.LONG (BitVec.ofNat 64 r.1), r.2))
  | .FLOAT => fun b => (pBE 4 b).map (fun r => (.FLOAT (BitVec.ofNat 32 r.1), r.2))

/-- Statistics. -/
def pStats (dt : TSDataType) : Parser Stats := fun b => do
  let (count, b) ← pVarU b
  let (startTime, b) ← pBE 8 b
  let (endTime, b) ← pBE 8 b
  let (min, b) ← pFixed dt b
  let (max, b) ← pFixed dt b
  let (first, b) ← pFixed dt b
  let (last, b) ← pFixed dt b
  let (sum, b) ← pBE 8 b
  some (⟨count, BitVec.ofNat 64 startTime, BitVec.ofNat 64 endTime, min, max, first, last,
    BitVec.ofNat 64 sum⟩, b)

/-- A page of a chunk, with its header: uncompressed size, compressed size, statistics (only if the
chunk has several pages), data. -/
def pPage (unsnap : Bytes → Option Bytes) (dt : TSDataType) (comp : CompressionType) (enc : TSEncoding)
    (withStats : Bool) : Parser (Option Stats × List Point) := fun b => do
  let (uncompressed, b) ← pVarU b
  let (compressed, b) ← pVarU b
  let (st, b) ← if withStats then (pStats dt b).map (fun r => (some r.1, r.2)) else some (none, b)
  let (data, b) ← pTake compressed b
  let raw ← decompress unsnap comp data
  if raw.length = uncompressed then
    let pts ← decodePage dt enc raw
    some ((st, pts), b)
  else none

/-- Codes of the data types in the format (0 BOOLEAN, 1 INT32, 2 INT64, 3 FLOAT, 4 DOUBLE, 5 TEXT). -/
def dataTypeOfCode (c : UInt8) : Option TSDataType :=
  if c = 1 then some .INT32 else if c = 2 then some .INT64 else if c = 3 then some .FLOAT else none

/-- Codes of the encodings (0 PLAIN, ..., 4 TS_2DIFF, ...). -/
def encodingOfCode (c : UInt8) : Option TSEncoding :=
  if c = 0 then some .PLAIN else if c = 4 then some .TS2DIFF else none

/-- Codes of the compressors (0 UNCOMPRESSED, 1 SNAPPY, ...). -/
def compressionOfCode (c : UInt8) : Option CompressionType :=
  if c = 0 then some .UNCOMPRESSED else if c = 1 then some .SNAPPY else none

/-- A chunk: measurement, data type, pages. -/
structure Chunk where
  measurement : Bytes
  dataType : TSDataType
  encoding : TSEncoding
  compression : CompressionType
  pages : List (Option Stats × List Point)
  deriving DecidableEq, Repr

/-- A chunk, including the marker byte: 5 for a chunk with one page (no page statistics), 1 for a chunk
with several pages. -/
def pChunk (unsnap : Bytes → Option Bytes) : Parser Chunk := fun b => do
  let (marker, b) ← pByte b
  let (measurement, b) ← pStr b
  let (dataSize, b) ← pVarU b
  let (dt, b) ← pByte b
  let (comp, b) ← pByte b
  let (enc, b) ← pByte b
  let dt ← dataTypeOfCode dt
  let comp ← compressionOfCode comp
  let enc ← encodingOfCode enc
  let (data, b) ← pTake dataSize b
  if marker = 5 then
    let (page, rest) ← pPage unsnap dt comp enc false data
    if rest = [] then some (⟨measurement, dt, enc, comp, [page]⟩, b) else none
  else if marker = 1 then
    let pages ← pAll (pPage unsnap dt comp enc true) data
    some (⟨measurement, dt, enc, comp, pages⟩, b)
  else none

/-- The points of a chunk. -/
def Chunk.points (c : Chunk) : List Point := (c.pages.map Prod.snd).flatten

end TsFile.Spec
