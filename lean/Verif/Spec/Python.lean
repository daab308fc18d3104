import Verif.Model.Python
import Verif.Spec.Machine
import Verif.Spec.CAbort
/-! # What a Python program did, told from its steps and how they ended -/

namespace TsFile.Spec
open Py (PyOp PyOutcome)

/-- The part of a string before the first zero byte. -/
def beforeNul : Bytes → Bytes
  | [] => []
  | c :: s => if c = 0 then [] else c :: beforeNul s

/-- The points written by the program through the writer with number `k`. -/
def pyWrites (k : Nat) : List (PyOp × PyOutcome) → List Op
  | [] => []
  | (.writeInt w d m t v, .ok _) :: H =>
    if w = k then .write (beforeNul d) (beforeNul m) (BitVec.ofInt 64 t) (.INT (BitVec.ofInt 32 v)) :: pyWrites k H
    else pyWrites k H
  | _ :: H => pyWrites k H

/-- The schema object with number `i` was made for device `d`, measurement `m` and the given types (their numbers modulo 256). -/
def MadeSchema (H : List (PyOp × PyOutcome)) (i : Nat) (d m : Bytes) (ms : MeasurementSchema) : Prop :=
  ∃ x y z : Int, (.newSchema d m x y z, .ok i) ∈ H
    ∧ TSDataType.tryFrom (UInt8.ofNat (x % 256).toNat) = some ms.dataType
    ∧ TSEncoding.tryFrom (UInt8.ofNat (y % 256).toNat) = some ms.encoding
    ∧ CompressionType.tryFrom (UInt8.ofNat (z % 256).toNat) = some ms.compression

/-- Numbers that fit into a C `int`. -/
def isCInt (x : Int) : Prop := -2147483648 ≤ x ∧ x < 2147483648

/-- Why a step raises an exception, given the steps before and how they ended: an object is used that was not made, that the program
no longer refers to, or that was already freed or closed, or a number does not fit into 32 bits. -/
def RaiseReason (H : List (PyOp × PyOutcome)) : PyOp → Prop
  | .newSchema _ _ x y z => ¬ (isCInt x ∧ isCInt y ∧ isCInt z)
  | .freeSchema i => (∀ d m x y z, (.newSchema d m x y z, .ok i) ∉ H) ∨ (.delSchema i, .ok 0) ∈ H ∨ (.freeSchema i, .ok 0) ∈ H
  | .newWriter _ i => (∀ d m x y z, (.newSchema d m x y z, .ok i) ∉ H) ∨ (.delSchema i, .ok 0) ∈ H ∨ (.freeSchema i, .ok 0) ∈ H
  | .writeInt w _ _ t v =>
    (∀ f i, (.newWriter f i, .ok w) ∉ H) ∨ (.delWriter w, .ok 0) ∈ H ∨ (.close w, .ok 0) ∈ H ∨ ¬ (isCInt t ∧ isCInt v)
  | .close w => (∀ f i, (.newWriter f i, .ok w) ∉ H) ∨ (.delWriter w, .ok 0) ∈ H ∨ (.close w, .ok 0) ∈ H
  | .delSchema i => (∀ d m x y z, (.newSchema d m x y z, .ok i) ∉ H) ∨ (.delSchema i, .ok 0) ∈ H
  | .delWriter w => (∀ f i, (.newWriter f i, .ok w) ∉ H) ∨ (.delWriter w, .ok 0) ∈ H

/-- Why a step ends the process, given the steps before and how they ended: a string is not UTF-8, a number of a type is unknown
(modulo 256), the file cannot be created; or the same call of the Rust interface, with the same schema and after the same points, does
not return `Ok`. -/
def PyAbortReason (ce : CApi.CEnv) (H : List (PyOp × PyOutcome)) : PyOp → Prop
  | .newSchema d m x y z => isCInt x ∧ isCInt y ∧ isCInt z
    ∧ (ce.utf8 (beforeNul d) = false ∨ ce.utf8 (beforeNul m) = false ∨ TSDataType.tryFrom (UInt8.ofNat (x % 256).toNat) = none
      ∨ TSEncoding.tryFrom (UInt8.ofNat (y % 256).toNat) = none ∨ CompressionType.tryFrom (UInt8.ofNat (z % 256).toNat) = none)
  | .newWriter f i => ¬ RaiseReason H (.newWriter f i)
    ∧ (ce.utf8 (beforeNul f) = false ∨ ce.canCreate (beforeNul f) = false
      ∨ ∃ d m ms e, MadeSchema H i d m ms
        ∧ Writer.new ce.env [(beforeNul d, [(beforeNul m, ms)])] { bytes := [], cap := none } = .error e)
  | .writeInt k d m t v => ¬ RaiseReason H (.writeInt k d m t v)
    ∧ (ce.utf8 (beforeNul d) = false ∨ ce.utf8 (beforeNul m) = false
      ∨ ∃ f i d0 m0 ms writer, (.newWriter f i, .ok k) ∈ H ∧ MadeSchema H i d0 m0 ms
        ∧ RustWriter ce.env [(beforeNul d0, [(beforeNul m0, ms)])] (pyWrites k H) writer
        ∧ (writer.write ce.env (beforeNul d) (beforeNul m) (BitVec.ofInt 64 t) (.INT (BitVec.ofInt 32 v))).2 ≠ .ok ())
  | .close k => ¬ RaiseReason H (.close k)
    ∧ ∃ f i d m ms, (.newWriter f i, .ok k) ∈ H ∧ MadeSchema H i d m ms
      ∧ session ce.env [(beforeNul d, [(beforeNul m, ms)])] (pyWrites k H) = none
  | .freeSchema _ | .delSchema _ | .delWriter _ => False

end TsFile.Spec
