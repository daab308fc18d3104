import Verif.Model.Types
/-! # `writer/statistics.rs` -/

namespace TsFile

/-- `StatisticsStruct<T, S>`, `writer/statistics.rs:87-98`. -/
structure StatisticsStruct (T S : Type) where
  tsFirst : W64
  tsLast : W64
  minValue : T
  maxValue : T
  firstValue : T
  lastValue : T
  count : W32
  sumValue : S
  deriving DecidableEq, Repr

/-- What `implement_statistics!($type, $sum)` takes from the types, `writer/statistics.rs:122-198`:
`<`, `MAX`, `MIN`, `0 as $type`, `0 as $sum`, `+` on `$sum`, `as $sum`, `to_be_bytes`. -/
structure StatType (T S : Type) where
  lt : T → T → Bool
  max : T
  min : T
  zero : T
  zeroSum : S
  add : S → S → S
  toSum : T → S
  bytes : T → Bytes
  bytesSum : S → Bytes

namespace StatisticsStruct
variable {T S : Type}

/-- `new`, `writer/statistics.rs:125-136`. -/
def new (k : StatType T S) : StatisticsStruct T S :=
  { tsFirst := BitVec.intMax 64, tsLast := BitVec.intMin 64, minValue := k.max, maxValue := k.min,
    firstValue := k.zero, lastValue := k.zero, count := 0, sumValue := k.zeroSum }

/-- `merge`, `writer/statistics.rs:138-155`. -/
def merge (k : StatType T S) (s o : StatisticsStruct T S) : StatisticsStruct T S :=
  { tsFirst := if o.tsFirst.slt s.tsFirst then o.tsFirst else s.tsFirst
    firstValue := if o.tsFirst.slt s.tsFirst then o.firstValue else s.firstValue
    tsLast := if s.tsLast.slt o.tsLast then o.tsLast else s.tsLast
    lastValue := if s.tsLast.slt o.tsLast then o.lastValue else s.lastValue
    maxValue := if k.lt s.maxValue o.maxValue then o.maxValue else s.maxValue
    minValue := if k.lt o.minValue s.minValue then o.minValue else s.minValue
    count := s.count + o.count
    sumValue := k.add s.sumValue o.sumValue }

/-- `update`, `writer/statistics.rs:157-174`. -/
def update (k : StatType T S) (s : StatisticsStruct T S) (timestamp : W64) (value : T) :
    StatisticsStruct T S :=
  { tsFirst := if timestamp.slt s.tsFirst then timestamp else s.tsFirst
    firstValue := if timestamp.slt s.tsFirst then value else s.firstValue
    tsLast := if s.tsLast.slt timestamp then timestamp else s.tsLast
    lastValue := if s.tsLast.slt timestamp then value else s.lastValue
    minValue := if k.lt value s.minValue then value else s.minValue
    maxValue := if k.lt s.maxValue value then value else s.maxValue
    count := s.count + 1
    sumValue := k.add s.sumValue (k.toSum value) }

/-- `serialize`, `writer/statistics.rs:177-192`. -/
def serialize (k : StatType T S) (s : StatisticsStruct T S) : Bytes :=
  writeVarU32 s.count ++ be64 s.tsFirst ++ be64 s.tsLast ++ k.bytes s.minValue ++ k.bytes s.maxValue
    ++ k.bytes s.firstValue ++ k.bytes s.lastValue ++ k.bytesSum s.sumValue

end StatisticsStruct

/-- `f32` NaN test on the bit pattern. -/
def f32IsNaN (x : W32) : Bool := x.toNat % 2 ^ 31 > 0x7F800000

/-- Order key of a non-NaN `f32`: signed magnitude (both zeros give 0). -/
def f32Key (x : W32) : Int :=
  if x.toNat ≥ 2 ^ 31 then -((x.toNat % 2 ^ 31 : Nat) : Int) else ((x.toNat % 2 ^ 31 : Nat) : Int)

/-- IEEE `<` on `f32`. -/
def f32Lt (a b : W32) : Bool := !f32IsNaN a && !f32IsNaN b && decide (f32Key a < f32Key b)

/-- `implement_statistics!(i32, i64)`, `writer/statistics.rs:196`. -/
def statI32 : StatType W32 W64 :=
  { lt := BitVec.slt, max := BitVec.intMax 32, min := BitVec.intMin 32, zero := 0, zeroSum := 0,
    add := (· + ·), toSum := BitVec.signExtend 64, bytes := be32, bytesSum := be64 }

/-- `implement_statistics!(i64, f64)`, `writer/statistics.rs:197`. -/
def statI64 (env : Env) : StatType W64 W64 :=
  { lt := BitVec.slt, max := BitVec.intMax 64, min := BitVec.intMin 64, zero := 0, zeroSum := 0,
    add := env.f64Add, toSum := env.i64ToF64, bytes := be64, bytesSum := be64 }

/-- `implement_statistics!(f32, f64)`, `writer/statistics.rs:198`; `f32::MAX`, `f32::MIN`. -/
def statF32 (env : Env) : StatType W32 W64 :=
  { lt := f32Lt, max := 0x7F7FFFFF, min := 0xFF7FFFFF, zero := 0, zeroSum := 0,
    add := env.f64Add, toSum := env.f32ToF64, bytes := be32, bytesSum := be64 }

/-- `Statistics`, `writer/statistics.rs:6-12`. -/
inductive Statistics
  | INT32 (s : StatisticsStruct W32 W64)
  | INT64 (s : StatisticsStruct W64 W64)
  | FLOAT (s : StatisticsStruct W32 W64)
  deriving DecidableEq, Repr

namespace Statistics

/-- `count`, `writer/statistics.rs:15-21`. -/
def count : Statistics → W32
  | .INT32 s => s.count | .INT64 s => s.count | .FLOAT s => s.count

/-- `get_serialized_size`, `writer/statistics.rs:22-28,100-120`. -/
def getSerializedSize : Statistics → W32
  | .INT32 s => u32 (sizeVarU32 s.count) + 16 + 24
  | .INT64 s => u32 (sizeVarU32 s.count) + 16 + 40
  | .FLOAT s => u32 (sizeVarU32 s.count) + 16 + 24

/-- `Statistics::update`, `writer/statistics.rs:31-40`; `none` is the `todo!()` panic. -/
def update (env : Env) : Statistics → W64 → IoTDBValue → Option Statistics
  | .INT32 s, t, .INT v => some (.INT32 (s.update statI32 t v))
  | .INT64 s, t, .LONG v => some (.INT64 (s.update (statI64 env) t v))
  | .FLOAT s, t, .FLOAT v => some (.FLOAT (s.update (statF32 env) t v))
  | _, _, _ => none

/-- `Statistics::merge`, `writer/statistics.rs:42-65`; `none` is the panic on different types. -/
def merge (env : Env) : Statistics → Statistics → Option Statistics
  | .INT32 s, .INT32 o => some (.INT32 (s.merge statI32 o))
  | .INT64 s, .INT64 o => some (.INT64 (s.merge (statI64 env) o))
  | .FLOAT s, .FLOAT o => some (.FLOAT (s.merge (statF32 env) o))
  | _, _ => none

/-- `Statistics::new`, `writer/statistics.rs:67-75` (`new` uses no arithmetic). -/
def new (env : Env) : TSDataType → Statistics
  | .INT32 => .INT32 (StatisticsStruct.new statI32)
  | .INT64 => .INT64 (StatisticsStruct.new (statI64 env))
  | .FLOAT => .FLOAT (StatisticsStruct.new (statF32 env))

/-- `Serializable for Statistics`, `writer/statistics.rs:77-85`. -/
def serialize (env : Env) : Statistics → Bytes
  | .INT32 s => s.serialize statI32
  | .INT64 s => s.serialize (statI64 env)
  | .FLOAT s => s.serialize (statF32 env)

end Statistics

end TsFile
