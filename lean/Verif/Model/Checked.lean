import Verif.Model.Session
/-! # Builds with overflow checks

The rest of the model describes a release build, in which integer arithmetic wraps. In a build with overflow checks (the
default of `cargo build`) an overflow panics. Modelled here are the places where the numbers come from the user: the
differences of the TS_2DIFF encoders and the hash of the Bloom filter. The rest of the writer follows in `CheckedWriter`. -/

namespace TsFile

/-- `a + b` on a signed type with overflow check; `none` is the panic "attempt to add with overflow". -/
def addC {w : Nat} (a b : BitVec w) : Option (BitVec w) := if a.saddOverflow b then none else some (a + b)
/-- `a - b` on a signed type with overflow check. -/
def subC {w : Nat} (a b : BitVec w) : Option (BitVec w) := if a.ssubOverflow b then none else some (a - b)
/-- `a * b` on a signed type with overflow check. -/
def mulC {w : Nat} (a b : BitVec w) : Option (BitVec w) := if a.smulOverflow b then none else some (a * b)

namespace Ts2Diff
variable {w : Nat}

/-- The loop `delta_block_buffer.push(delta - self.min_delta)`, `writer/encoding/time_encoder.rs:126-128`, with overflow check. -/
def deltasC (minDelta : BitVec w) : List (BitVec w) → Option (List (BitVec w))
  | [] => some []
  | d :: ds =>
    match subC d minDelta with
    | none => none
    | some x => (deltasC minDelta ds).map (fun xs => x :: xs)

/-- `flush`, `writer/encoding/time_encoder.rs:119-166`, with overflow check in lines 126-128. -/
def flushC (tb : BitVec w → Bytes → Nat → Nat → Option Bytes) (e : Ts2Diff w) : Option (Ts2Diff w) :=
  match e.firstValue with
  | none => some e
  | some first =>
    match deltasC e.minDelta e.values with
    | none => none
    | some deltaBlockBuffer =>
      let writeWidth := blockWidth deltaBlockBuffer
      match payload tb writeWidth 0 [] deltaBlockBuffer with
      | none => none
      | some p =>
        some { firstValue := none, minDelta := BitVec.intMax w, previousValue := 0, values := [],
               buffer := e.buffer ++ be32 (u32 e.values.length) ++ be32 (u32 writeWidth)
                 ++ beBytes (w / 8) e.minDelta.toNat ++ beBytes (w / 8) first.toNat ++ p }

/-- The state after the `match` of `Encoder::write`, `writer/encoding/time_encoder.rs:41-57`, with overflow check in line 48. -/
def takeC (e : Ts2Diff w) (value : BitVec w) : Option (Ts2Diff w) :=
  match e.firstValue with
  | none => some { e with firstValue := some value, previousValue := value }
  | some _ =>
    match subC value e.previousValue with
    | none => none
    | some delta =>
      some { e with minDelta := if delta.slt e.minDelta then delta else e.minDelta,
                    values := e.values ++ [delta], previousValue := value }

/-- `Encoder::write`, `writer/encoding/time_encoder.rs:39-62`, with overflow checks. -/
def writeC (tb : BitVec w → Bytes → Nat → Nat → Option Bytes) (e : Ts2Diff w) (value : BitVec w) : Option (Ts2Diff w) :=
  match takeC e value with
  | none => none
  | some e => if e.values.length = 128 then flushC tb e else some e

/-- Some calls of `write`, one after the other, then `serialize` (`writer/encoding/time_encoder.rs:72-77`): the bytes of a page.
Both with overflow checks. -/
def encodeC (tb : BitVec w → Bytes → Nat → Nat → Option Bytes) : Ts2Diff w → List (BitVec w) → Option Bytes
  | e, [] => (flushC tb e).map (fun e => e.buffer)
  | e, v :: vs =>
    match writeC tb e v with
    | none => none
    | some e => encodeC tb e vs

/-- The same in a release build. -/
def encode (tb : BitVec w → Bytes → Nat → Nat → Option Bytes) : Ts2Diff w → List (BitVec w) → Option Bytes
  | e, [] => (flush tb e).map (fun e => e.buffer)
  | e, v :: vs =>
    match write tb e v with
    | none => none
    | some e => encode tb e vs

end Ts2Diff

namespace Murmur128

/-- The body loop, `writer/murmur128.rs:57-74`, with overflow checks. The sum in `get_block` cannot overflow: its summands have
disjoint bits. -/
def bodyC (key : Bytes) : Nat → Nat → W64 → W64 → Option (W64 × W64)
  | 0, _, h1, h2 => some (h1, h2)
  | n + 1, i, h1, h2 => do
    let k1 ← getBlock key 0 (i * 2)
    let k2 ← getBlock key 0 (i * 2 + 1)
    let k1 ← mulC k1 c1
    let k1 := rotl64 k1 31
    let k1 ← mulC k1 c2
    let h1 := h1 ^^^ k1
    let h1 := rotl64 h1 27
    let h1 ← addC h1 h2
    let h1 ← mulC h1 5
    let h1 ← addC h1 0x52dce729#64
    let k2 ← mulC k2 c2
    let k2 := rotl64 k2 33
    let k2 ← mulC k2 c1
    let h2 := h2 ^^^ k2
    let h2 := rotl64 h2 31
    let h2 ← addC h2 h1
    let h2 ← mulC h2 5
    let h2 ← addC h2 0x38495ab5#64
    bodyC key n (i + 1) h1 h2

/-- `inner_hash`, `writer/murmur128.rs:48-153`, with overflow checks. The tail loop, `fmix` and the last two sums are computed in
`i128` or with `overflowing_add`, so only lines 146-147 are checked. -/
def innerHashC (key : Bytes) (seed : W64) : Option W64 := do
  let length := key.length
  let nblocks := length / 16
  let (h1, h2) ← bodyC key nblocks 0 seed seed
  let s ← tail key (nblocks * 16) (length % 16) { k1 := 0, k2 := 0, h1 := h1, h2 := h2 }
  let h1 := s.h1 ^^^ BitVec.ofNat 64 length
  let h2 := s.h2 ^^^ BitVec.ofNat 64 length
  let h1 ← addC h1 h2
  let h2 ← addC h2 h1
  let h1 := fmix h1
  let h2 := fmix h2
  let h1 := h1 + h2
  let h2 := h2 + h1
  return h1 + h2

/-- `Murmur128::hash`, `writer/murmur128.rs:11-18`, with overflow checks. -/
def hashC (value : Bytes) (seed : W32) : Option W32 :=
  (innerHashC value (seed.signExtend 64)).map (fun h => h.setWidth 32)

end Murmur128

/-- `i32::abs` with overflow check: `i32::MIN` has no absolute value. -/
def absC (h : W32) : Option W32 := if h = BitVec.intMin 32 then none else some (absI32 h)

/-- `HashFunction::hash`, `writer/mod.rs:670-673`, with overflow checks. -/
def hashFunctionC (cap : W32) (seed : W32) (value : Bytes) : Option Nat := do
  let h ← Murmur128.hashC value seed
  let a ← absC h
  return ((a.srem cap).signExtend 64).toNat

namespace BloomFilter

/-- The loop of `add`, `writer/mod.rs:684-690`, with overflow checks. -/
def addLoopC (size : Nat) (path : Bytes) : List W32 → List Bool → Option (List Bool)
  | [], bits => some bits
  | seed :: seeds, bits => do
    let i ← hashFunctionC (u32 size) seed path
    let bits ← setBit bits i
    addLoopC size path seeds bits

/-- The loop of `build`, `writer/mod.rs:713-715`, with `add`, `writer/mod.rs:684-690`, with overflow checks. -/
def addAllC : List Bytes → BloomFilter → Option BloomFilter
  | [], f => some f
  | p :: ps, f => do
    let b ← addLoopC f.size p f.func f.bitSet
    addAllC ps { f with bitSet := b }

/-- `build`, `writer/mod.rs:709-718`, with overflow checks. -/
def buildC (env : Env) (paths : List Bytes) : Option BloomFilter := addAllC paths (emptyFilter env paths.length)

end BloomFilter

end TsFile
