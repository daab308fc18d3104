import Verif.Model.Prim
/-! # MurmurHash3 x64 128, as published

Written from the public reference (`MurmurHash3_x64_128`, Austin Appleby), with a 64 bit seed as in the
Java port used by Apache IoTDB. Bytes are unsigned. It consumes the key front to back in blocks of sixteen
bytes and shares no definition with the model of the crate's function. -/

namespace TsFile.Spec.Murmur3

/-- The 64 bit word with the given bytes, least significant first. -/
def le64 (bs : Bytes) : BitVec 64 :=
  bs.foldr (fun b acc => (acc <<< 8) ||| BitVec.ofNat 64 b.toNat) 0

/-- `c1` and `c2` of the reference. -/
def c1 : BitVec 64 := 0x87c37b91114253d5#64
def c2 : BitVec 64 := 0x4cf5ad432745937f#64

/-- Scrambling of the first and second word of a block. -/
def mixK1 (k : BitVec 64) : BitVec 64 := (k * c1).rotateLeft 31 * c2
def mixK2 (k : BitVec 64) : BitVec 64 := (k * c2).rotateLeft 33 * c1

/-- One block. -/
def block (h : BitVec 64 × BitVec 64) (bs : Bytes) : BitVec 64 × BitVec 64 :=
  let h1 := ((h.1 ^^^ mixK1 (le64 (bs.take 8))).rotateLeft 27 + h.2) * 5 + 0x52dce729#64
  let h2 := ((h.2 ^^^ mixK2 (le64 ((bs.drop 8).take 8))).rotateLeft 31 + h1) * 5 + 0x38495ab5#64
  (h1, h2)

/-- All blocks of sixteen bytes; what is left over is the tail. -/
def blocks (h : BitVec 64 × BitVec 64) (bs : Bytes) : (BitVec 64 × BitVec 64) × Bytes :=
  if _h : 16 ≤ bs.length then blocks (block h (bs.take 16)) (bs.drop 16) else (h, bs)
termination_by bs.length
decreasing_by simp; omega

/-- The final mix of the reference. -/
def fmix64 (k : BitVec 64) : BitVec 64 :=
  let k := (k ^^^ (k >>> 33)) * 0xff51afd7ed558ccd#64
  let k := (k ^^^ (k >>> 33)) * 0xc4ceb9fe1a85ec53#64
  k ^^^ (k >>> 33)

/-- The 128 bit hash, as two words. -/
def hash128 (key : Bytes) (seed : BitVec 64) : BitVec 64 × BitVec 64 :=
  let (h, tail) := blocks (seed, seed) key
  let h1 := h.1 ^^^ mixK1 (le64 (tail.take 8)) ^^^ BitVec.ofNat 64 key.length
  let h2 := h.2 ^^^ mixK2 (le64 (tail.drop 8)) ^^^ BitVec.ofNat 64 key.length
  let h1 := h1 + h2
  let h2 := h2 + h1
  let h1 := fmix64 h1
  let h2 := fmix64 h2
  let h1 := h1 + h2
  let h2 := h2 + h1
  (h1, h2)

end TsFile.Spec.Murmur3
