import Verif.Spec.Python
import Verif.Spec.Isolated
/-! # Python programs that hand over their points in order -/

namespace TsFile.Spec
open Py (PyOp PyOutcome)

/-- A step in order, given the steps made before and how they ended. A schema object is made with the constants of `rust.py:89-102`,
INT32 for the type, and a measurement without dots. A writer object is made for a file that can be created. A point goes to the series
of the schema object of its writer object, with a timestamp that is not negative and larger than those written through the same
object before; there are at most a hundred million. Nothing is said about how the step ends, nor about which objects are used: a step may
raise an exception. -/
def StepInOrder (ce : CApi.CEnv) (H : List (PyOp × PyOutcome)) : PyOp → Prop
  | .newSchema d m x y z =>
    (ce.utf8 (beforeNul d) = true ∧ ce.utf8 (beforeNul m) = true)
    ∧ ((beforeNul d).length + 1 + (beforeNul m).length ≤ 100 ∧ NoDot (beforeNul m))
    ∧ x = 1 ∧ (y = 0 ∨ y = 4) ∧ (z = 0 ∨ z = 1)
  | .newWriter f _ => ce.utf8 (beforeNul f) = true ∧ ce.canCreate (beforeNul f) = true
  | .writeInt k d m t _ =>
    (∀ f i d0 m0 ms, (.newWriter f i, .ok k) ∈ H → MadeSchema H i d0 m0 ms → beforeNul d = beforeNul d0 ∧ beforeNul m = beforeNul m0)
    ∧ 0 ≤ t ∧ (∀ d' m' t' v' r, (.writeInt k d' m' t' v', .ok r) ∈ H → t' < t)
    ∧ (pyWrites k H).length < 100000000
  | .freeSchema _ | .close _ | .delSchema _ | .delWriter _ => True

end TsFile.Spec
