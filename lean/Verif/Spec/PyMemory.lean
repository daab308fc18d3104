import Verif.Spec.Python
/-! # What a Python program made and gave back, told from its steps and how they ended -/

namespace TsFile.Spec
open Py (PyOp PyOutcome)

/-- The number of schema objects that were made. -/
def schemasMade : List (PyOp × PyOutcome) → Nat
  | [] => 0
  | (.newSchema .., .ok _) :: H => schemasMade H + 1
  | _ :: H => schemasMade H

/-- The number of schema objects that were freed. -/
def schemasFreed : List (PyOp × PyOutcome) → Nat
  | [] => 0
  | (.freeSchema _, .ok _) :: H => schemasFreed H + 1
  | _ :: H => schemasFreed H

/-- The number of writer objects that were made. -/
def writersMade : List (PyOp × PyOutcome) → Nat
  | [] => 0
  | (.newWriter .., .ok _) :: H => writersMade H + 1
  | _ :: H => writersMade H

/-- The number of writer objects that were closed. -/
def writersClosed : List (PyOp × PyOutcome) → Nat
  | [] => 0
  | (.close _, .ok _) :: H => writersClosed H + 1
  | _ :: H => writersClosed H

/-- The program no longer refers to any of the objects it made. -/
def AllDropped (H : List (PyOp × PyOutcome)) : Prop :=
  (∀ d m x y z i, (.newSchema d m x y z, .ok i) ∈ H → (.delSchema i, .ok 0) ∈ H)
  ∧ ∀ f i k, (.newWriter f i, .ok k) ∈ H → (.delWriter k, .ok 0) ∈ H

end TsFile.Spec
