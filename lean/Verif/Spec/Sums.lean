import Verif.Spec.Stats
/-! # Floating point sums -/

namespace TsFile.Spec

/-- `r` is obtained from the numbers `xs` (in this order, each used once) and zeros by additions, in some bracketing. -/
inductive AddedUp (add : W64 → W64 → W64) (zero : W64) : List W64 → W64 → Prop
  | nothing : AddedUp add zero [] zero
  | one (x : W64) : AddedUp add zero [x] x
  | both {xs ys : List W64} {a b : W64} (ha : AddedUp add zero xs a) (hb : AddedUp add zero ys b) :
      AddedUp add zero (xs ++ ys) (add a b)

/-- The number in a double (an IEEE double: sign, 11 bit exponent, 52 bit fraction), in units of 2^-1074. `none` for infinity and
NaN. -/
def f64Val (x : W64) : Option Int :=
  let e := x.toNat / 2 ^ 52 % 2 ^ 11
  let f := x.toNat % 2 ^ 52
  let a : Nat := if e = 0 then f else (2 ^ 52 + f) * 2 ^ (e - 1)
  if e = 2047 then none
  else some (if x.toNat / 2 ^ 63 = 1 then -(a : Int) else a)

/-- What IEEE 754 says about results that are doubles: they are exact. -/
structure IeeeOk (env : Env) : Prop where
  add : ∀ a b c x y, f64Val a = some x → f64Val b = some y → f64Val c = some (x + y) →
    f64Val (env.f64Add a b) = some (x + y)
  ofInt : ∀ (v c : W64), f64Val c = some (v.toInt * 2 ^ 1074) → f64Val (env.i64ToF64 v) = some (v.toInt * 2 ^ 1074)
  ofFloat : ∀ (v : W32) (x : Int), f32Val v = some x → -f32Inf < x → x < f32Inf →
    f64Val (env.f32ToF64 v) = some (x * 2 ^ 925)

/-- The largest double, in units of 2^-1074. -/
def f64Max : Nat := (2 ^ 53 - 1) * 2 ^ 2045

/-- What IEEE 754 says about results that are not doubles: they are rounded to a double, with a relative error of at most
2^-53 (if they are not larger than the largest double). -/
structure IeeeRounds (env : Env) : Prop extends IeeeOk env where
  addNear : ∀ a b x y, f64Val a = some x → f64Val b = some y → (x + y).natAbs ≤ f64Max →
    ∃ z, f64Val (env.f64Add a b) = some z ∧ 2 ^ 53 * (z - (x + y)).natAbs ≤ (x + y).natAbs
  ofIntNear : ∀ v : W64, ∃ z, f64Val (env.i64ToF64 v) = some z
    ∧ 2 ^ 53 * (z - v.toInt * 2 ^ 1074).natAbs ≤ (v.toInt * 2 ^ 1074).natAbs

/-- The double that the code makes of a value of type INT64 or FLOAT. -/
def asDouble (env : Env) : IoTDBValue → Option W64
  | .LONG v => some (env.i64ToF64 v)
  | .FLOAT v => some (env.f32ToF64 v)
  | _ => none

end TsFile.Spec
