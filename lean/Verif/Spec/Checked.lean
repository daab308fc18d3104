import Verif.Spec.Machine
/-! # When the differences of a delta encoding stay in range -/

namespace TsFile.Spec

/-- The number fits a signed integer of `w` bits. -/
def InRange (w : Nat) (x : Int) : Prop := -2 ^ (w - 1) ≤ x ∧ x < 2 ^ (w - 1)

instance (w : Nat) (x : Int) : Decidable (InRange w x) := inferInstanceAs (Decidable (_ ∧ _))

/-- The differences of neighbours. -/
def diffs : List Int → List Int
  | a :: b :: l => (b - a) :: diffs (b :: l)
  | _ => []

/-- The differences of neighbours fit, and so do the differences of these differences. -/
structure BlockFits (w : Nat) (b : List (BitVec w)) : Prop where
  diff : ∀ x ∈ diffs (b.map BitVec.toInt), InRange w x
  spread : ∀ x ∈ diffs (b.map BitVec.toInt), ∀ y ∈ diffs (b.map BitVec.toInt), InRange w (x - y)

/-- The values are encoded in blocks of 129; all blocks fit. -/
def BlocksFit (w : Nat) (vs : List (BitVec w)) : Prop := ∀ i, BlockFits w ((vs.drop (129 * i)).take 129)

/-- Every run of at most 129 neighbours fits, wherever the blocks begin. -/
def RunsFit (w : Nat) (vs : List (BitVec w)) : Prop := ∀ b, b <:+: vs → b.length ≤ 129 → BlockFits w b

/-- Two integer values differ by less than a quarter of the range of their type. -/
def near : IoTDBValue → IoTDBValue → Prop
  | .INT a, .INT b => InRange 31 (a.toInt - b.toInt)
  | .LONG a, .LONG b => InRange 63 (a.toInt - b.toInt)
  | _, _ => True

instance (a b : IoTDBValue) : Decidable (near a b) := by
  cases a <;> cases b <;> unfold near <;> infer_instance

/-- Any two values handed over for the same series with delta encoding are near each other. -/
def Near (schema : Schema) (l : List Rec) : Prop :=
  ∀ r ∈ l, ∀ r' ∈ l, r.device = r'.device → r.measurement = r'.measurement →
    (∃ ms s, look r.device schema = some ms ∧ look r.measurement ms = some s ∧ s.encoding = .TS2DIFF) → near r.value r'.value

end TsFile.Spec
