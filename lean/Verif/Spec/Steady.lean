import Mathlib.Data.Int.Notation
/-! # Numbers that change steadily -/

namespace TsFile.Spec

/-- Neighbours differ by numbers from a range of `2 ^ k` numbers. The differences are numbers with `w` bits. -/
def steady (w k : Nat) (xs : List Int) : Prop :=
  ∃ a : Int, ∀ i, (h : i + 1 < xs.length) →
    a ≤ xs[i + 1] - xs[i] ∧ xs[i + 1] - xs[i] < a + 2 ^ k ∧ - 2 ^ (w - 1) ≤ xs[i + 1] - xs[i] ∧ xs[i + 1] - xs[i] < 2 ^ (w - 1)

end TsFile.Spec
