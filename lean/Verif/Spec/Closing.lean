import Verif.Spec.Machine
import Verif.Spec.Bloom
import Mathlib.Data.List.Dedup
/-! # When closing completes -/

namespace TsFile.Spec

/-- The devices with points, each once. -/
def devicesOf (l : List Rec) : List Bytes := (l.map Rec.device).dedup

/-- The paths of the points, `device.measurement`, each once. -/
def pathsOf (l : List Rec) : List Bytes := (l.map (fun r => r.device ++ [0x2e] ++ r.measurement)).dedup

/-- The part of a path before its last dot. -/
def beforeLastDot (path : Bytes) : Bytes := ((path.reverse.dropWhile (fun b => b != 0x2e)).drop 1).reverse

/-- The names before the last dots of the paths, each once. If no measurement name has a dot, these are the devices with
points. -/
def indexDevicesOf (l : List Rec) : List Bytes := ((pathsOf l).map beforeLastDot).dedup

/-- The number of bits of the Bloom filter of a file with `n` paths. -/
def bloomBits (env : Env) (n : Nat) : Nat := max (env.bloomSize n) 256

/-- The number of bits of the filter does not leave remainder 1, 2 or 3 when divided by eight. -/
def SizeOk (bits : Nat) : Prop := bits % 8 = 0 ∨ 4 ≤ bits % 8

/-- No path has the hash -2^31 (whose absolute value is not an `i32`), unless the number of bits divides 2^31. -/
def HashesOk (env : Env) (bits : Nat) (l : List Bytes) : Prop :=
  ∀ p ∈ l, ∀ seed ∈ bloomSeedsSpec.take (min env.bloomHashes 8), pathHash p seed = -2 ^ 31 → 2 ^ 31 % bits = 0

/-- What `close` needs of the stored points in order not to panic. -/
structure Closable (env : Env) (l : List Rec) : Prop where
  devices : (indexDevicesOf l).length ≤ 256
  bits : SizeOk (bloomBits env (pathsOf l).length)
  hashes : HashesOk env (bloomBits env (pathsOf l).length) (pathsOf l)

end TsFile.Spec
