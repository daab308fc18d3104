import Verif.Model.Session
import Verif.Model.SchemaBuilder
import Verif.Model.Python
/-! # The programs that come with the crate

The measurements of time and the output to the terminal are not modelled. The calls end with `expect`, which aborts the program
if a call failed; the theorems show that no call fails. A program opens its file, makes the calls and closes the writer: this is
a session. -/

namespace TsFile.Programs
open Spec

/-- `"d1"` -/
def d1 : Bytes := [0x64, 0x31]
/-- `"d2"` -/
def d2 : Bytes := [0x64, 0x32]
/-- `"s"` -/
def s : Bytes := [0x73]
/-- `"s1"` -/
def s1 : Bytes := [0x73, 0x31]
/-- `"s2"` -/
def s2 : Bytes := [0x73, 0x32]

/-- The schema of `examples/src/bin/benchmark.rs:11-17`. -/
def benchmarkSchema : Schema := Schema.simple d1 s .INT64 .PLAIN .UNCOMPRESSED

/-- The calls of one run of `examples/src/bin/benchmark.rs:22-26`; there `n` is 100000001. -/
def benchmark (n : Nat) : List Op := (List.range n).map (fun i => .write d1 s (BitVec.ofNat 64 i) (.LONG (BitVec.ofNat 64 i)))

/-- The schema of `examples/src/bin/benchmark2.rs:13-48` (with `SNAPPY`) and of the quickstart, `tsfile-writer/src/lib.rs:28-63`
(with `UNCOMPRESSED`). The arguments `o1`, `o2` and `o` are the iteration orders of the hash maps in the builders; `none`: a
builder aborts. -/
def twoDevices (o1 o2 : IterOrder MeasurementSchema) (o : IterOrder (List (Bytes × MeasurementSchema))) (c : CompressionType) :
    Option Schema := do
  let g1 ← ((DeviceBuilder.new.add s1 .INT64 .PLAIN c).add s2 .FLOAT .PLAIN c).build o1
  let g2 ← ((DeviceBuilder.new.add s1 .INT64 .PLAIN c).add s2 .FLOAT .PLAIN c).build o2
  some (((SchemaBuilder.new.add d1 g1.2).add d2 g2.2).build o).2

/-- The calls of one round of the loop of `examples/src/bin/benchmark2.rs:60-86`. `f` is `i as f32`. -/
def benchmark2Round (f : Nat → W32) (i : Nat) : List Op :=
  [.writeMany d1 (BitVec.ofNat 64 i) [(s1, .LONG (BitVec.ofNat 64 i)), (s2, .FLOAT (f i))],
   .writeMany d2 (BitVec.ofNat 64 i) [(s1, .LONG (BitVec.ofNat 64 i)), (s2, .FLOAT (f i))]]

/-- The calls of one run of `examples/src/bin/benchmark2.rs:60-86`; there `n` is 10000001. -/
def benchmark2 (f : Nat → W32) (n : Nat) : List Op := (List.range n).flatMap (benchmark2Round f)

/-- The calls of the quickstart, `tsfile-writer/src/lib.rs:73-81`; the `f32` values 13 and 14 as bit patterns. There is no call of
`close`. -/
def quickstart : List Op :=
  [.writeMany d1 1 [(s1, .LONG 13), (s2, .FLOAT 0x41500000)], .write d2 s1 1 (.LONG 14), .write d2 s2 1 (.FLOAT 0x41600000)]

/-- A Python program with the two `with` statements of `tsfile-writer-c/rust.py:107-110`, for any names, types and points: schema
object, writer object, the points, `close`, `free`. The type is `TSDataType.INT32`, as in line 107. -/
def pyProgram (f d m : Bytes) (encoding compression : Int) (pts : List (Int × Int)) : List Py.PyOp :=
  [.newSchema d m 1 encoding compression, .newWriter f 0] ++ pts.map (fun p => .writeInt 0 d m p.1 p.2) ++ [.close 0, .freeSchema 0]

/-- The program of `tsfile-writer-c/rust.py:105-110`; there `n` is 10000001. The file name is `"test.tsfile"`. -/
def pyMain (n : Nat) : List Py.PyOp :=
  pyProgram [0x74, 0x65, 0x73, 0x74, 0x2e, 0x74, 0x73, 0x66, 0x69, 0x6c, 0x65] d1 s1 0 0 ((List.range n).map (fun i => (Int.ofNat i, Int.ofNat i)))

end TsFile.Programs
