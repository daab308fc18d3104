import Verif.Model.Types
/-! # Value and time encoders: `writer/encoding/{mod,plain,time_encoder}.rs` -/

namespace TsFile

/-- `Vec::resize(n, 0)`. -/
def resize0 (r : Bytes) (n : Nat) : Bytes := r.take n ++ List.replicate (n - r.length) 0

/-- `let mut new_mask = 0; for i in 0..(8 - old_count) { new_mask |= 1 << i }; !new_mask`,
`writer/encoding/time_encoder.rs:195-199`. -/
def longMask (oldCount : Nat) : UInt8 :=
  ~~~ ((List.range (8 - oldCount)).foldl (fun m i => m ||| ((1 : UInt8) <<< UInt8.ofNat i)) 0)

/-- The `while` loop of `LongTs2DiffEncoder::to_bytes`, `writer/encoding/time_encoder.rs:182-218`.
`my_number`/`mask` (lines 181, 208-212) are never read and are left out. Every iteration lowers
`my_width`, so fuel `width` suffices; `none` is an index out of bounds (panic) or exhausted fuel. -/
def longToBytesLoop (number : W64) : Nat → Bytes → Nat → Nat → Nat → Option Bytes
  | fuel, result, cnt, index, myWidth =>
    if myWidth = 0 then some result else
    match fuel with
    | 0 => none
    | fuel + 1 =>
      let m := if myWidth + cnt ≥ 8 then 8 - cnt else myWidth
      let myWidth := myWidth - m
      let oldCount := cnt
      let cnt := cnt + m
      let y : UInt8 := byte (number.sshiftRight myWidth)
      let y := y <<< UInt8.ofNat (8 - cnt)
      let newMask := longMask oldCount
      let result := if index ≤ result.length then resize0 result (index + 1) else result
      match result[index]? with
      | none => none
      | some old =>
        let result := result.set index ((old &&& newMask) ||| y)
        if cnt = 8 then longToBytesLoop number fuel result 0 (index + 1) myWidth
        else longToBytesLoop number fuel result cnt index myWidth

/-- `LongTs2DiffEncoder::to_bytes`, `writer/encoding/time_encoder.rs:176-219`. -/
def longToBytes (number : W64) (result : Bytes) (pos width : Nat) : Option Bytes :=
  longToBytesLoop number width result (pos % 8) (pos / 8) width

/-- The mask of `IntTs2DiffEncoder::to_bytes`: `mask = 1 << (8 - cnt)` with the old `cnt`, then
`!(mask - (1 << (8 - cnt)))` with the new one, cast to `u8`,
`writer/encoding/time_encoder.rs:237,241,247`. -/
def intMask (oldCnt newCnt : Nat) : UInt8 :=
  byte (~~~ (((1#32) <<< (8 - oldCnt)) - ((1#32) <<< (8 - newCnt))))

/-- The `while` loop of `IntTs2DiffEncoder::to_bytes`, `writer/encoding/time_encoder.rs:230-253`. -/
def intToBytesLoop : Nat → W32 → Bytes → Nat → Nat → Nat → Option Bytes
  | fuel, myNumber, result, cnt, index, myWidth =>
    if myWidth = 0 then some result else
    match fuel with
    | 0 => none
    | fuel + 1 =>
      let m := if myWidth + cnt ≥ 8 then 8 - cnt else myWidth
      let myWidth := myWidth - m
      let oldCnt := cnt
      let cnt := cnt + m
      let y : UInt8 := byte (myNumber.sshiftRight myWidth)
      let y := y <<< UInt8.ofNat (8 - cnt)
      let mask := intMask oldCnt cnt
      let result := if index ≤ result.length then resize0 result (index + 1) else result
      match result[index]? with
      | none => none
      | some old =>
        let result := result.set index ((old &&& mask) ||| y)
        let myNumber := myNumber &&& ~~~ ((BitVec.allOnes 32) <<< myWidth)
        if cnt = 8 then intToBytesLoop fuel myNumber result 0 (index + 1) myWidth
        else intToBytesLoop fuel myNumber result cnt index myWidth

/-- `IntTs2DiffEncoder::to_bytes`, `writer/encoding/time_encoder.rs:223-254`. -/
def intToBytes (number : W32) (result : Bytes) (pos width : Nat) : Option Bytes :=
  intToBytesLoop width number result (pos % 8) (pos / 8) width

/-- The struct generated by `ts2diff_encoder!`, `writer/encoding/time_encoder.rs:30-36`; `w` is
`$num_bits` (64 for `LongTs2DiffEncoder`, 32 for `IntTs2DiffEncoder`, lines 171-172). -/
structure Ts2Diff (w : Nat) where
  firstValue : Option (BitVec w)
  minDelta : BitVec w
  previousValue : BitVec w
  values : List (BitVec w)
  buffer : Bytes
  deriving DecidableEq, Repr

namespace Ts2Diff
variable {w : Nat}

/-- `new`, `writer/encoding/time_encoder.rs:90-98`. -/
def new : Ts2Diff w :=
  { firstValue := none, minDelta := BitVec.intMax w, previousValue := BitVec.intMax w,
    values := [], buffer := [] }

/-- `reset`, `writer/encoding/time_encoder.rs:79-86`. -/
def reset (_ : Ts2Diff w) : Ts2Diff w :=
  { firstValue := none, minDelta := BitVec.intMax w, previousValue := BitVec.intMax w,
    values := [], buffer := [] }

/-- `get_value_width`: `$num_bits - v.leading_zeros()`, i.e. the bit length of the pattern,
`writer/encoding/time_encoder.rs:100-102`. -/
def valueWidth (v : BitVec w) : Nat := if v.toNat = 0 then 0 else Nat.log2 v.toNat + 1

/-- `calculate_bit_widths_for_delta_block_buffer`, `writer/encoding/time_encoder.rs:104-117`. -/
def blockWidth (deltaBlockBuffer : List (BitVec w)) : Nat :=
  deltaBlockBuffer.foldl (fun width v => max width (valueWidth v)) 0

/-- The payload loop of `flush`, `writer/encoding/time_encoder.rs:148-156`; `tb` is `Self::to_bytes`. -/
def payload (tb : BitVec w → Bytes → Nat → Nat → Option Bytes) (width : Nat) :
    Nat → Bytes → List (BitVec w) → Option Bytes
  | _, buf, [] => some buf
  | i, buf, v :: vs =>
    match tb v buf (i * width) width with
    | none => none
    | some buf => payload tb width (i + 1) buf vs

/-- `flush`, `writer/encoding/time_encoder.rs:119-166`. `delta - min_delta` wraps (a debug build would
panic on overflow). -/
def flush (tb : BitVec w → Bytes → Nat → Nat → Option Bytes) (e : Ts2Diff w) : Option (Ts2Diff w) :=
  match e.firstValue with
  | none => some e
  | some first =>
    let deltaBlockBuffer := e.values.map (fun delta => delta - e.minDelta)
    let writeWidth := blockWidth deltaBlockBuffer
    match payload tb writeWidth 0 [] deltaBlockBuffer with
    | none => none
    | some p =>
      some { firstValue := none, minDelta := BitVec.intMax w, previousValue := 0, values := [],
             buffer := e.buffer ++ be32 (u32 e.values.length) ++ be32 (u32 writeWidth)
               ++ beBytes (w / 8) e.minDelta.toNat ++ beBytes (w / 8) first.toNat ++ p }

/-- `Encoder::write` after the `try_into`, `writer/encoding/time_encoder.rs:41-61`. -/
def write (tb : BitVec w → Bytes → Nat → Nat → Option Bytes) (e : Ts2Diff w) (value : BitVec w) :
    Option (Ts2Diff w) :=
  let e : Ts2Diff w :=
    match e.firstValue with
    | none => { e with firstValue := some value, previousValue := value }
    | some _ =>
      let delta := value - e.previousValue
      { e with minDelta := if delta.slt e.minDelta then delta else e.minDelta,
               values := e.values ++ [delta], previousValue := value }
  if e.values.length = 128 then flush tb e else some e

/-- `size`, `writer/encoding/time_encoder.rs:64-66`. -/
def size (e : Ts2Diff w) : W32 := u32 e.buffer.length

/-- `get_max_byte_size`, `writer/encoding/time_encoder.rs:67-70`. -/
def getMaxByteSize (e : Ts2Diff w) : W32 := u32 (24 + e.values.length * w / 8)

/-- `serialize`, `writer/encoding/time_encoder.rs:72-77`: the new encoder state and the bytes appended. -/
def serialize (tb : BitVec w → Bytes → Nat → Nat → Option Bytes) (e : Ts2Diff w) :
    Option (Ts2Diff w × Bytes) :=
  match flush tb e with
  | none => none
  | some e => some (e, e.buffer)

end Ts2Diff

/-- `PlainEncoder`, `writer/encoding/plain.rs:7-10`. -/
structure PlainEncoder where
  dataType : TSDataType
  buffer : Bytes
  deriving DecidableEq, Repr

/-- The bytes `PlainEncoder::write` appends, `writer/encoding/plain.rs:22-38`. -/
def plainBytes : IoTDBValue → Bytes
  | .DOUBLE v => be64 v
  | .FLOAT v => be32 v
  | .INT v => writeVarI32 v
  | .LONG v => be64 v

namespace PlainEncoder

/-- `new`, `writer/encoding/plain.rs:13-18`. -/
def new (dataType : TSDataType) : PlainEncoder := { dataType, buffer := [] }

/-- `write`, `writer/encoding/plain.rs:22-38`. The value's type is not checked. -/
def write (e : PlainEncoder) (v : IoTDBValue) : PlainEncoder :=
  { e with buffer := e.buffer ++ plainBytes v }

/-- `size`, `writer/encoding/plain.rs:40-42`. -/
def size (e : PlainEncoder) : W32 := u32 e.buffer.length

/-- `get_max_byte_size`, `writer/encoding/plain.rs:44-50`. -/
def getMaxByteSize (e : PlainEncoder) : W32 :=
  match e.dataType with
  | .INT32 => u32 (24 + e.buffer.length)
  | .INT64 => 0
  | .FLOAT => 0

/-- `reset`, `writer/encoding/plain.rs:55-57`. -/
def reset (e : PlainEncoder) : PlainEncoder := { e with buffer := [] }

end PlainEncoder

/-- `Box<dyn Encoder>`: the three implementations `<dyn Encoder>::new` can return. -/
inductive ValueEncoder
  | plain (e : PlainEncoder)
  | long (e : Ts2Diff 64)
  | int (e : Ts2Diff 32)
  deriving DecidableEq, Repr

namespace ValueEncoder

/-- `<dyn Encoder>::new`, `writer/encoding/mod.rs:46-58`. -/
def new : TSDataType → TSEncoding → Except TsFileError ValueEncoder
  | dt, .PLAIN => .ok (.plain (PlainEncoder.new dt))
  | .INT64, .TS2DIFF => .ok (.long Ts2Diff.new)
  | .INT32, .TS2DIFF => .ok (.int Ts2Diff.new)
  | .FLOAT, .TS2DIFF => .error .encoding

/-- `Encoder::write`. For the TS2DIFF encoders a value of another type is an `Err` (`try_into`,
`writer/encoding/time_encoder.rs:6-26,40`) that the only caller ignores (`writer/chunk_writer.rs:62`),
so the encoder is unchanged; `none` is a panic. -/
def write : ValueEncoder → IoTDBValue → Option ValueEncoder
  | .plain e, v => some (.plain (e.write v))
  | .long e, .LONG v => (e.write longToBytes v).map .long
  | .long e, _ => some (.long e)
  | .int e, .INT v => (e.write intToBytes v).map .int
  | .int e, _ => some (.int e)

/-- `Encoder::size`. -/
def size : ValueEncoder → W32
  | .plain e => e.size
  | .long e => e.size
  | .int e => e.size

/-- `Encoder::get_max_byte_size`. -/
def getMaxByteSize : ValueEncoder → W32
  | .plain e => e.getMaxByteSize
  | .long e => e.getMaxByteSize
  | .int e => e.getMaxByteSize

/-- `Encoder::serialize` (`writer/encoding/plain.rs:51-53`, `writer/encoding/time_encoder.rs:72-77`). -/
def serialize : ValueEncoder → Option (ValueEncoder × Bytes)
  | .plain e => some (.plain e, e.buffer)
  | .long e => (e.serialize longToBytes).map (fun r => (.long r.1, r.2))
  | .int e => (e.serialize intToBytes).map (fun r => (.int r.1, r.2))

/-- `Encoder::reset`. -/
def reset : ValueEncoder → ValueEncoder
  | .plain e => .plain e.reset
  | .long e => .long e.reset
  | .int e => .int e.reset

end ValueEncoder

end TsFile
