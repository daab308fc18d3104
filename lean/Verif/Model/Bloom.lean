import Verif.Model.Types
/-! # Murmur hash and Bloom filter: `writer/murmur128.rs`, `writer/mod.rs:656-786` -/

namespace TsFile

namespace Murmur128

/-- `key[i] as i64`; `none` is an index out of bounds. -/
def at? (key : Bytes) (i : Nat) : Option W64 := (key[i]?).map (fun b => BitVec.ofNat 64 b.toNat)

/-- `get_block`, `writer/murmur128.rs:21-32`. -/
def getBlock (key : Bytes) (offset index : Nat) : Option W64 := do
  let o := offset + index * 8
  let b0 ← at? key o
  let b1 ← at? key (o + 1)
  let b2 ← at? key (o + 2)
  let b3 ← at? key (o + 3)
  let b4 ← at? key (o + 4)
  let b5 ← at? key (o + 5)
  let b6 ← at? key (o + 6)
  let b7 ← at? key (o + 7)
  return (b0 &&& 0xff#64) + ((b1 &&& 0xff#64) <<< 8) + ((b2 &&& 0xff#64) <<< 16) + ((b3 &&& 0xff#64) <<< 24)
    + ((b4 &&& 0xff#64) <<< 32) + ((b5 &&& 0xff#64) <<< 40) + ((b6 &&& 0xff#64) <<< 48)
    + ((b7 &&& 0xff#64) <<< 56)

/-- `rotl64`, `writer/murmur128.rs:34-36`. -/
def rotl64 (v : W64) (n : Nat) : W64 := (v <<< n) ||| (v >>> (64 - n))

/-- `fmix`, `writer/murmur128.rs:38-46`. The products are computed in `i128` and truncated, which is the
64-bit product modulo 2^64. -/
def fmix (k : W64) : W64 :=
  let k := k ^^^ (k >>> 33)
  let k := k * 0xff51afd7ed558ccd#64
  let k := k ^^^ (k >>> 33)
  let k := k * 0xc4ceb9fe1a85ec53#64
  k ^^^ (k >>> 33)

/-- `c1`, `writer/murmur128.rs:53`. -/
def c1 : W64 := 0x87c37b91114253d5#64
/-- `c2`, `writer/murmur128.rs:54`. -/
def c2 : W64 := 0x4cf5ad432745937f#64

/-- The body loop, `writer/murmur128.rs:57-74`: `n` more blocks starting with block `i`. Wrapping
multiplication and addition: a debug build panics on overflow here. -/
def body (key : Bytes) : Nat → Nat → W64 → W64 → Option (W64 × W64)
  | 0, _, h1, h2 => some (h1, h2)
  | n + 1, i, h1, h2 => do
    let k1 ← getBlock key 0 (i * 2)
    let k2 ← getBlock key 0 (i * 2 + 1)
    let k1 := k1 * c1
    let k1 := rotl64 k1 31
    let k1 := k1 * c2
    let h1 := h1 ^^^ k1
    let h1 := rotl64 h1 27
    let h1 := h1 + h2
    let h1 := h1 * 5 + 0x52dce729#64
    let k2 := k2 * c2
    let k2 := rotl64 k2 33
    let k2 := k2 * c1
    let h2 := h2 ^^^ k2
    let h2 := rotl64 h2 31
    let h2 := h2 + h1
    let h2 := h2 * 5 + 0x38495ab5#64
    body key n (i + 1) h1 h2

/-- The state of the tail loop: `k1, k2, h1, h2`. -/
structure Tail where
  k1 : W64
  k2 : W64
  h1 : W64
  h2 : W64

/-- One iteration of the tail loop, `writer/murmur128.rs:84-139`, for `identifier` between 1 and 15. -/
def tailStep (key : Bytes) (offset identifier : Nat) (s : Tail) : Option Tail := do
  let b ← at? key (offset + (identifier - 1))
  match identifier with
  | 15 => return { s with k2 := s.k2 ^^^ (b <<< 48) }
  | 14 => return { s with k2 := s.k2 ^^^ (b <<< 40) }
  | 13 => return { s with k2 := s.k2 ^^^ (b <<< 32) }
  | 12 => return { s with k2 := s.k2 ^^^ (b <<< 24) }
  | 11 => return { s with k2 := s.k2 ^^^ (b <<< 16) }
  | 10 => return { s with k2 := s.k2 ^^^ (b <<< 8) }
  | 9 =>
    let k2 := s.k2 ^^^ b
    let k2 := k2 * c2
    let k2 := rotl64 k2 33
    let k2 := k2 * c1
    return { s with k2 := k2, h2 := s.h2 ^^^ k2 }
  | 8 => return { s with k1 := s.k1 ^^^ (b <<< 56) }
  | 7 => return { s with k1 := s.k1 ^^^ (b <<< 48) }
  | 6 => return { s with k1 := s.k1 ^^^ (b <<< 40) }
  | 5 => return { s with k1 := s.k1 ^^^ (b <<< 32) }
  | 4 => return { s with k1 := s.k1 ^^^ (b <<< 24) }
  | 3 => return { s with k1 := s.k1 ^^^ (b <<< 16) }
  | 2 => return { s with k1 := s.k1 ^^^ (b <<< 8) }
  | 1 =>
    let k1 := s.k1 ^^^ b
    let k1 := k1 * c1
    let k1 := rotl64 k1 31
    let k1 := k1 * c2
    return { s with k1 := k1, h1 := s.h1 ^^^ k1 }
  | _ => return s

/-- The tail loop `while identifier > 0`, `writer/murmur128.rs:83-141`. -/
def tail (key : Bytes) (offset : Nat) : Nat → Tail → Option Tail
  | 0, s => some s
  | identifier + 1, s => do
    let s ← tailStep key offset (identifier + 1) s
    tail key offset identifier s

/-- `inner_hash` with `offset = 0` and `length = key.len()` (the only call, line 12-17),
`writer/murmur128.rs:48-153`. `length as i32` is the length itself (shorter than 2^31). -/
def innerHash (key : Bytes) (seed : W64) : Option W64 := do
  let length := key.length
  let nblocks := length / 16
  let (h1, h2) ← body key nblocks 0 seed seed
  let s ← tail key (nblocks * 16) (length % 16) { k1 := 0, k2 := 0, h1 := h1, h2 := h2 }
  let h1 := s.h1 ^^^ BitVec.ofNat 64 length
  let h2 := s.h2 ^^^ BitVec.ofNat 64 length
  let h1 := h1 + h2
  let h2 := h2 + h1
  let h1 := fmix h1
  let h2 := fmix h2
  let h1 := h1 + h2
  let h2 := h2 + h1
  return h1 + h2

/-- `Murmur128::hash`, `writer/murmur128.rs:11-18`: `seed as i64`, result `as i32`. -/
def hash (value : Bytes) (seed : W32) : Option W32 :=
  (innerHash value (seed.signExtend 64)).map (fun h => h.setWidth 32)

end Murmur128

/-- `i32::abs` of a release build (`i32::MIN.abs()` is `i32::MIN`; a debug build panics). -/
def absI32 (h : W32) : W32 := if h.slt 0 then -h else h

/-- `HashFunction::hash`, `writer/mod.rs:670-673`: `(murmur(value, seed).abs() % cap) as usize`. -/
def hashFunction (cap : W32) (seed : W32) (value : Bytes) : Option Nat :=
  (Murmur128.hash value seed).map (fun h => (((absI32 h).srem cap).signExtend 64).toNat)

/-- `BloomFilter`, `writer/mod.rs:676-681`; `func` is determined by `size` and the seeds. -/
structure BloomFilter where
  size : Nat
  hashFunctionSize : Nat
  func : List W32
  bitSet : List Bool
  deriving DecidableEq, Repr

namespace BloomFilter

/-- `self.bit_set[bit_id] = true`; `none` is the index panic. -/
def setBit (bits : List Bool) (i : Nat) : Option (List Bool) :=
  if i < bits.length then some (bits.set i true) else none

/-- The loop of `add`, `writer/mod.rs:684-690`. -/
def addLoop (size : Nat) (path : Bytes) : List W32 → List Bool → Option (List Bool)
  | [], bits => some bits
  | seed :: seeds, bits => do
    let i ← hashFunction (u32 size) seed path
    let bits ← setBit bits i
    addLoop size path seeds bits

/-- `add`, `writer/mod.rs:684-690`. -/
def add (f : BloomFilter) (path : Bytes) : Option BloomFilter :=
  (addLoop f.size path f.func f.bitSet).map (fun b => { f with bitSet := b })

/-- `new`, `writer/mod.rs:692-707`. -/
def new (size hashFunctionSize : Nat) : BloomFilter :=
  { size, hashFunctionSize, func := bloomSeeds.take hashFunctionSize,
    bitSet := List.replicate size false }

/-- `empty_filter`, `writer/mod.rs:720-735`. The error rate is the default 0.05, so the floating point
formulas depend on the number of strings only; they are `env.bloomSize` and `env.bloomHashes`. -/
def emptyFilter (env : Env) (numOfString : Nat) : BloomFilter :=
  new (max (env.bloomSize numOfString) bloomMinimalSize) (min env.bloomHashes bloomMaxHashes)

/-- The loop of `build`, `writer/mod.rs:713-715`. -/
def addAll : List Bytes → BloomFilter → Option BloomFilter
  | [], f => some f
  | p :: ps, f => do
    let f ← f.add p
    addAll ps f

/-- `build`, `writer/mod.rs:709-718`. -/
def build (env : Env) (paths : List Bytes) : Option BloomFilter :=
  addAll paths (emptyFilter env paths.length)

/-- `number_of_bytes` of `serialize_bits`, `writer/mod.rs:738-742`. -/
def numberOfBytes (len : Nat) : Nat :=
  if len % 8 = 0 then len / 8 else (len + len % 8) / 8

/-- The bit loop of `serialize_bits`, `writer/mod.rs:746-763`; `none` is the `unwrap` panic. -/
def bitsLoop : Nat → List Bool → Bytes → Option Bytes
  | _, [], result => some result
  | i, b :: bits, result =>
    let byteIndex := (i - i % 8) / 8
    let bitIndex := i % 8
    match result[byteIndex]? with
    | none => none
    | some value =>
      let bit : UInt8 := if b then 1 else 0
      bitsLoop (i + 1) bits (result.set byteIndex (value ||| (bit <<< UInt8.ofNat bitIndex)))

/-- Removing the trailing zero bytes, `writer/mod.rs:766-768`. -/
def trimZeros (bs : Bytes) : Bytes := (bs.reverse.dropWhile (· == 0)).reverse

/-- `serialize_bits`, `writer/mod.rs:737-771`. -/
def serializeBits (f : BloomFilter) : Option Bytes :=
  (bitsLoop 0 f.bitSet (List.replicate (numberOfBytes f.bitSet.length) 0)).map trimZeros

/-- `Serializable for BloomFilter`, `writer/mod.rs:774-786`. -/
def serialize (f : BloomFilter) : Option Bytes :=
  f.serializeBits.map (fun bytes =>
    writeVarU32 (u32 bytes.length) ++ bytes ++ writeVarU32 (u32 f.size)
      ++ writeVarU32 (u32 f.hashFunctionSize))

end BloomFilter

end TsFile
