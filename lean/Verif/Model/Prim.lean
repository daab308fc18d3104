/-! # Bytes, machine words and the primitive writers of `utils.rs` and `mod.rs`

Paths in the comments are relative to `/repo/tsfile-writer/src`. -/

namespace TsFile

/-- A byte string: `Vec<u8>`, `&[u8]`, and also `&str`/`String` (UTF-8 bytes; Rust's `str` ordering is
the lexicographic order of the bytes). -/
abbrev Bytes := List UInt8

/-- `u32` and `i32` bit patterns. Arithmetic wraps (release build). -/
abbrev W32 := BitVec 32
/-- `u64` and `i64` bit patterns. Arithmetic wraps (release build). -/
abbrev W64 := BitVec 64

/-- `x as u32` for a `usize`/`u64`. -/
def u32 (n : Nat) : W32 := BitVec.ofNat 32 n

/-- `x as u8` for an unsigned word. -/
def byte {w : Nat} (x : BitVec w) : UInt8 := UInt8.ofNat x.toNat

/-- The `n` big-endian bytes of a number (`to_be_bytes`). -/
def beBytes : Nat → Nat → Bytes
  | 0, _ => []
  | n + 1, x => beBytes n (x / 256) ++ [UInt8.ofNat x]

/-- `u32::to_be_bytes` / `i32::to_be_bytes` / `f32::to_be_bytes` on the bit pattern. -/
def be32 (x : W32) : Bytes := beBytes 4 x.toNat

/-- `u64::to_be_bytes` / `i64::to_be_bytes` / `f64::to_be_bytes` / `usize::to_be_bytes` (64-bit
platform) on the bit pattern. -/
def be64 (x : W64) : Bytes := beBytes 8 x.toNat

/-- The loop of `write_var_u32`, `writer/utils.rs:10-16`. The loop runs at most four times for a `u32`,
so fuel 5 is never exhausted (`Proofs.Prim.readVarU_writeVarU32`). -/
def writeVarU32Loop : Nat → W32 → Bytes
  | 0, number => [byte (number &&& 0x7F#32)]
  | fuel + 1, number =>
    if number &&& 0xFFFFFF80#32 ≠ 0#32 then
      byte ((number &&& 0x7F#32) ||| 0x80#32) :: writeVarU32Loop fuel (number >>> 7)
    else [byte (number &&& 0x7F#32)]

/-- `write_var_u32`, `writer/utils.rs:4-19`: the bytes appended to the buffer. The returned `position`
is incremented once per emitted byte, hence is the length of this list. -/
def writeVarU32 (num : W32) : Bytes := writeVarU32Loop 5 num

/-- The zigzag step shared by `size_var_i32` and `write_var_i32`, `writer/utils.rs:22-25,40-43`. -/
def zigzag (num : W32) : W32 :=
  let uValue := num <<< 1
  if num.slt 0#32 then ~~~ uValue else uValue

/-- The loop of `size_var_u32`, `writer/utils.rs:29-37` (fuel as in `writeVarU32Loop`). -/
def sizeVarU32Loop : Nat → Nat → W32 → Nat
  | 0, position, _ => position
  | fuel + 1, position, value =>
    if value &&& 0xFFFFFF80#32 ≠ 0#32 then sizeVarU32Loop fuel (position + 1) (value >>> 7)
    else position

/-- `size_var_u32`, `writer/utils.rs:29-37`. -/
def sizeVarU32 (num : W32) : Nat := sizeVarU32Loop 5 1 num

/-- `size_var_i32`, `writer/utils.rs:21-27`. -/
def sizeVarI32 (num : W32) : Nat := sizeVarU32 (zigzag num)

/-- `write_var_i32`, `writer/utils.rs:39-45`. -/
def writeVarI32 (num : W32) : Bytes := writeVarU32 (zigzag num)

/-- The loop of `read_var_u32`, `writer/utils.rs:59-64`. `value` is the accumulator, `i` the shift.
`none` is the error of `read_exact` at the end of the input. A shift by 32 or more (only for inputs no
writer produces) is reduced modulo 32 as in a release build. -/
def readVarU32Loop (value : W32) (i : Nat) : Bytes → Option (W32 × Bytes)
  | [] => none
  | b :: rest =>
    if b ≠ 0xFF ∧ b &&& 0x80 ≠ 0 then
      readVarU32Loop (value ||| (BitVec.ofNat 32 (b &&& 0x7F).toNat <<< (i % 32))) (i + 7) rest
    else some (value ||| (BitVec.ofNat 32 b.toNat <<< (i % 32)), rest)

/-- `read_var_u32`, `writer/utils.rs:55-65` (with `read_byte`, lines 47-52). Returns the value and the
unread bytes. -/
def readVarU32 (bs : Bytes) : Option (W32 × Bytes) := readVarU32Loop 0#32 0 bs

/-- `write_str`, `writer/mod.rs:852-858`. -/
def writeStr (s : Bytes) : Bytes := writeVarI32 (u32 s.length) ++ s

/-- Lexicographic `<` on byte strings: Rust's `Ord for str`, used by every `BTreeMap` in the crate and
by `Ord for Path`, `writer/mod.rs:234-244`. -/
def bytesLt : Bytes → Bytes → Bool
  | _, [] => false
  | [], _ :: _ => true
  | a :: as, b :: bs => if a < b then true else if b < a then false else bytesLt as bs

/-- `BTreeMap<&str, α>` / `BTreeMap<String, α>` / `BTreeMap<Path, α>`: its ascending entry list. -/
abbrev BMap (α : Type) := List (Bytes × α)

namespace BMap
variable {α : Type}

/-- `BTreeMap::get`. -/
def get? (k : Bytes) : BMap α → Option α
  | [] => none
  | (k', v) :: m => if k' = k then some v else get? k m

/-- `BTreeMap::insert`: replaces the value of an existing key, otherwise keeps the list ascending. -/
def insert (k : Bytes) (v : α) : BMap α → BMap α
  | [] => [(k, v)]
  | (k', v') :: m =>
    if k' = k then (k, v) :: m
    else if bytesLt k k' then (k, v) :: (k', v') :: m
    else (k', v') :: insert k v m

/-- Add an element to the list stored for a key: `get_mut` with a `push`, or `insert` of a one-element
vector (`writer/tsfile_io_writer.rs:150-160,252-260`). -/
def push {α : Type} (k : Bytes) (x : α) (m : BMap (List α)) : BMap (List α) :=
  match m.get? k with
  | none => m.insert k [x]
  | some l => m.insert k (l ++ [x])

/-- `FromIterator for BTreeMap` (`collect`). -/
def ofList (l : List (Bytes × α)) : BMap α := l.foldl (fun m kv => insert kv.1 kv.2 m) []

end BMap

end TsFile
