import Verif.Model.EnvStd
import Verif.Spec.Format
/-! # The Snappy format

The raw format of Snappy (https://github.com/google/snappy/blob/main/format_description.txt), which the crate `snap` writes: a decoder,
and the elements that a compressor may put together. With it the assumption `SnappyOk` can be met by a real compressor and the real
decoder: see `Proofs/Snappy.lean`. No definition of the model depends on this file. -/

namespace TsFile.Snappy

/-- Little endian number. -/
def leNat : Bytes → Nat
  | [] => 0
  | x :: r => x.toNat + 256 * leNat r

/-- The same, with `k` bytes. -/
def le : Nat → Nat → Bytes
  | 0, _ => []
  | k + 1, n => UInt8.ofNat (n % 256) :: le k (n / 256)

/-- Copy `n` bytes, one after the other, from `offset` bytes before the end. -/
def copyOut (offset : Nat) : Nat → Bytes → Option Bytes
  | 0, out => some out
  | n + 1, out =>
    if 1 ≤ offset ∧ offset ≤ out.length then
      match out[out.length - offset]? with
      | some x => copyOut offset n (out ++ [x])
      | none => none
    else none

/-- The next `n` bytes as they are. -/
def literal (n : Nat) (r out : Bytes) : Option (Bytes × Bytes) :=
  if n ≤ r.length then some (r.drop n, out ++ r.take n) else none

/-- A copy whose offset has `k` bytes. -/
def copyFrom (k n : Nat) (r out : Bytes) : Option (Bytes × Bytes) :=
  if k ≤ r.length then (copyOut (leNat (r.take k)) n out).map (fun o => (r.drop k, o)) else none

/-- One element: what is left and what has been put out. -/
def step (b out : Bytes) : Option (Bytes × Bytes) :=
  match b with
  | [] => none
  | t :: r =>
    let n := t.toNat
    if n % 4 = 0 then
      if n / 4 < 60 then literal (n / 4 + 1) r out
      else if n / 4 - 59 ≤ r.length then literal (leNat (r.take (n / 4 - 59)) + 1) (r.drop (n / 4 - 59)) out
      else none
    else if n % 4 = 1 then
      match r with
      | [] => none
      | x :: r => (copyOut (256 * (n / 32) + x.toNat) (n / 4 % 8 + 4) out).map (fun o => (r, o))
    else if n % 4 = 2 then copyFrom 2 (n / 4 + 1) r out
    else copyFrom 4 (n / 4 + 1) r out

/-- All elements; the first argument bounds their number. -/
def elements : Nat → Bytes → Bytes → Option Bytes
  | _, [], out => some out
  | 0, _ :: _, _ => none
  | k + 1, b, out =>
    match step b out with
    | some (r, out) => elements k r out
    | none => none

/-- The decoder: the length in front, then the elements. -/
def decode (b : Bytes) : Option Bytes :=
  match Spec.pVarU b with
  | some (n, r) =>
    match elements r.length r [] with
    | some out => if out.length = n then some out else none
    | none => none
  | none => none

/-- What a compressor puts together. -/
inductive Element
  | lit (b : Bytes)
  | longLit (k : Nat) (b : Bytes)
  | copy1 (offset n : Nat)
  | copy2 (offset n : Nat)
  | copy4 (offset n : Nat)
  deriving DecidableEq, Repr

/-- Its bytes. -/
def Element.bytes : Element → Bytes
  | .lit b => UInt8.ofNat (4 * (b.length - 1)) :: b
  | .longLit k b => UInt8.ofNat (4 * (59 + k)) :: le k (b.length - 1) ++ b
  | .copy1 offset n => [UInt8.ofNat (1 + 4 * (n - 4) + 32 * (offset / 256)), UInt8.ofNat (offset % 256)]
  | .copy2 offset n => UInt8.ofNat (2 + 4 * (n - 1)) :: le 2 offset
  | .copy4 offset n => UInt8.ofNat (3 + 4 * (n - 1)) :: le 4 offset

/-- The limits of the format. -/
def Element.Fits : Element → Prop
  | .lit b => 1 ≤ b.length ∧ b.length ≤ 60
  | .longLit k b => 1 ≤ k ∧ k ≤ 4 ∧ 1 ≤ b.length ∧ b.length ≤ 256 ^ k
  | .copy1 offset n => 4 ≤ n ∧ n ≤ 11 ∧ offset < 2048
  | .copy2 offset n => 1 ≤ n ∧ n ≤ 64 ∧ offset < 65536
  | .copy4 offset n => 1 ≤ n ∧ n ≤ 64 ∧ offset < 2 ^ 32

/-- What it adds to the output. -/
def Element.adds (out : Bytes) : Element → Option Bytes
  | .lit b => some (out ++ b)
  | .longLit _ b => some (out ++ b)
  | .copy1 offset n => copyOut offset n out
  | .copy2 offset n => copyOut offset n out
  | .copy4 offset n => copyOut offset n out

/-- What a list of them adds. -/
def adds : Bytes → List Element → Option Bytes
  | out, [] => some out
  | out, e :: es =>
    match e.adds out with
    | some out => adds out es
    | none => none

/-- A small compressor, by blocks of 60 bytes: one that repeats the 60 bytes before it is a copy of them, one of equal bytes is a
byte and a copy, any other one is a literal. The first argument is the block before. -/
def blocks : Nat → Bytes → Bytes → List Element
  | 0, _, _ => []
  | k + 1, last, b =>
    if b = [] then []
    else
      let h := b.take 60
      (if h = last ∧ h.length = 60 then [.copy2 60 60]
       else if 5 ≤ h.length ∧ h = List.replicate h.length (h.headD 0) then [.lit (h.take 1), .copy2 1 (h.length - 1)]
       else [.lit h]) ++ blocks k h (b.drop 60)

/-- The compressor. -/
def compress (b : Bytes) : Bytes := writeVarU32 (u32 b.length) ++ (blocks b.length [] b).flatMap Element.bytes

end TsFile.Snappy
