import Verif.Model.Power
/-! # What a loss of power can leave of a file -/

namespace TsFile.Spec
open Power

/-- After a loss of power, `left` may be found in the place of the file: the part that is safe is there; behind it, each block is there or
is read as zeros, and the file may be shorter. -/
def LeftOver (block : Nat) (f : File) (left : Bytes) : Prop :=
  ∃ length keep, f.safe ≤ length ∧ length ≤ f.content.length ∧ left = torn block f length keep

end TsFile.Spec
