import Verif.Model.Writer
import Verif.Model.EnvStd
import Verif.Tests.GoldenData
/-! # The unit tests of the repository, evaluated on the model

These are tests, not proofs: they check that the model produces the bytes that the repository's own
tests expect from the code. -/

namespace TsFile.Golden

/-- Create a writer on an unlimited buffer, write the points, close; the bytes of the file. -/
def run (env : Env) (schema : Schema) (pts : List (Bytes × Bytes × Int × IoTDBValue)) : Option Bytes :=
  match Writer.new env schema ⟨[], none⟩ with
  | .error _ => none
  | .ok w =>
    let w := pts.foldl (fun w p => (w.write env p.1 p.2.1 (BitVec.ofInt 64 p.2.2.1) p.2.2.2).1) w
    (w.close env).map (fun w => w.io.out.bytes)

/-- A one-device schema. -/
def dev (d : String) (ms : List (String × TSDataType × TSEncoding × CompressionType)) :
    Bytes × List (Bytes × MeasurementSchema) :=
  (str d, ms.map (fun m => (str m.1, ⟨m.2.1, m.2.2.1, m.2.2.2⟩)))

example : run Env.std [dev "d1" [("s1", .INT32, .PLAIN, .UNCOMPRESSED)]]
    [(str "d1", str "s1", 1, .INT 13), (str "d1", str "s1", 10, .INT 14), (str "d1", str "s1", 100, .INT 15)]
    = some write_file_test_4 := by decide +kernel

-- The expected bytes of this test are not compared by the repository (only the length is, because the
-- comparison is commented out); the model reproduces them.
example : run Env.std [dev "d1" [("s1", .INT32, .PLAIN, .UNCOMPRESSED), ("s2", .INT64, .PLAIN, .UNCOMPRESSED),
      ("s3", .FLOAT, .PLAIN, .UNCOMPRESSED)]]
    [(str "d1", str "s1", 1, .INT 13), (str "d1", str "s2", 1, .LONG 14),
     (str "d1", str "s3", 1, .FLOAT 0x41700000)]
    = some write_multiple_types := by decide +kernel

example : run Env.std [dev "d1" [("s", .INT32, .PLAIN, .UNCOMPRESSED)]] [(str "d1", str "s", 1, .INT 13)]
    = some write_datapoint_int32 := by decide +kernel

example : run Env.std [dev "d1" [("s", .INT64, .PLAIN, .UNCOMPRESSED)]] [(str "d1", str "s", 1, .LONG 13)]
    = some write_datapoint_int64 := by decide +kernel

example : run Env.std [dev "d1" [("s", .FLOAT, .PLAIN, .UNCOMPRESSED)]]
    [(str "d1", str "s", 1, .FLOAT 0x41500000)] = some write_datapoint_float := by decide +kernel

-- too deep for kernel evaluation: run by the interpreter
#guard run Env.std [dev "d1" [("s", .INT32, .PLAIN, .UNCOMPRESSED)]]
    ((List.range 1001).map (fun (i : Nat) => (str "d1", str "s", Int.ofNat i, IoTDBValue.INT (BitVec.ofNat 32 i))))
    = some write_datapoint_int32_1000

example : run Env.std [dev "d1" [("s1", .INT64, .TS2DIFF, .UNCOMPRESSED)]]
    ((List.range 10).map (fun (i : Nat) => (str "d1", str "s1", Int.ofNat i, IoTDBValue.LONG (BitVec.ofNat 64 i))))
    = some write_i64_ts2diff := by decide +kernel

example : run Env.std [dev "d1" [("s1", .INT32, .TS2DIFF, .UNCOMPRESSED)]]
    ((List.range 10).map (fun (i : Nat) => (str "d1", str "s1", Int.ofNat i, IoTDBValue.INT (BitVec.ofNat 32 i))))
    = some write_i32_ts2diff := by decide +kernel

/-- What `snap` answers on the pages of the two SNAPPY tests (read off the expected bytes). -/
def snapTable (b : Bytes) : Option Bytes :=
  if b.length = 0x21 then some ((write_i64_snappy.drop 21).take 0x17)
  else if b.length = 0x1D then some ((write_snappy_complex.drop 54).take 0x18)
  else if b.length = 0x1A then some ((write_snappy_complex.drop 92).take 0x18)
  else none

example : run (Env.std snapTable) [dev "d1" [("s1", .INT64, .PLAIN, .SNAPPY)]]
    [(str "d1", str "s1", 1, .LONG 13)] = some write_i64_snappy := by decide +kernel

example : run (Env.std snapTable) [dev "d1" [("s1", .INT64, .PLAIN, .SNAPPY), ("s2", .FLOAT, .PLAIN, .SNAPPY)],
      dev "d2" [("s1", .INT32, .PLAIN, .SNAPPY)]]
    [(str "d1", str "s1", 1, .LONG 13), (str "d1", str "s2", 1, .FLOAT 0x41600000),
     (str "d2", str "s1", 1, .INT 15)] = some write_snappy_complex := by decide +kernel

-- the examples of `write_var_int` in `writer/mod.rs`
example : writeVarU32 123456789 = [0b10010101, 0b10011010, 0b11101111, 0b00111010] := by decide +kernel
example : writeVarU32 128 = [128, 1] := by decide +kernel
example : [1, 12, 123, 1234, 12345, 123456, 1234567, 12345678, 123456789].all
    (fun n => readVarU32 (writeVarU32 n) == some (n, [])) = true := by decide +kernel

-- checks of the concrete floating point functions
example : SoftFloat.bloomSize 44 = 275 ∧ SoftFloat.bloomSize 1000 = 6236 ∧ SoftFloat.bloomSize 1 = 7 := by
  decide +kernel
example : SoftFloat.add64 0x3fb999999999999a 0x3fc999999999999a = 0x3fd3333333333334 := by decide +kernel

end TsFile.Golden
