import Verif.Spec.Reader
import Verif.Spec.Murmur
/-! # How a reader uses the Bloom filter of a file

As in Apache IoTDB: hash function number `j` uses the `j`th seed, takes the low 32 bits of the sum of the
two halves of the Murmur hash of the path as a signed number, and its absolute value modulo the number of
bits is the position of a bit. Bits are stored least significant first; missing bytes are zero. -/

namespace TsFile.Spec

/-- Bit `i` of a bit set stored as bytes. -/
def storedBit (bytes : Bytes) (i : Nat) : Bool := ((bytes[i / 8]?).getD 0).toNat.testBit (i % 8)

/-- The seeds of the hash functions. -/
def bloomSeedsSpec : List (BitVec 64) := [5#64, 7#64, 11#64, 19#64, 31#64, 37#64, 43#64, 59#64]

/-- The 32 bit hash of a path, a signed number. -/
def pathHash (path : Bytes) (seed : BitVec 64) : Int :=
  (((Murmur3.hash128 path seed).1 + (Murmur3.hash128 path seed).2).setWidth 32).toInt

/-- May the file contain a series with this path? -/
def Bloom.mayContain (b : Bloom) (path : Bytes) : Bool :=
  (bloomSeedsSpec.take b.hashes).all (fun seed => storedBit b.bits ((pathHash path seed).natAbs % b.size))

end TsFile.Spec
